import Verif.Lemmas.Trails
import Mathlib.Logic.Relation
import Mathlib.Data.List.Perm.Subperm

/-! # Consequences of the search invariant: validity, success, idempotence -/

set_option linter.unusedSectionVars false
set_option linter.unusedSimpArgs false

namespace CEM
namespace Diagram
open Spec
variable {R : Type}

theorem Dict.mem_set_imp {K V : Type} [DecidableEq K] {d : Dict K V} {k k' : K} {v v' : V}
    (h : (k', v') ∈ d.set k v) : (k', v') ∈ d ∨ (k' = k ∧ v' = v) := by
  induction d with
  | nil => simp [Dict.set] at h; exact Or.inr h
  | cons p d ih =>
    obtain ⟨a, b⟩ := p
    simp only [Dict.set] at h
    split at h
    · rename_i e
      rcases List.mem_cons.1 h with h | h
      · simp at h; simp_all
      · exact Or.inl (List.mem_cons_of_mem _ h)
    · rcases List.mem_cons.1 h with h | h
      · exact Or.inl (by simp [h])
      · rcases ih h with h | h
        · exact Or.inl (List.mem_cons_of_mem _ h)
        · exact Or.inr h

/-! ## Without the degree condition -/

structure GenInv (D : Diagram R) (s : BuildState R) : Prop where
  base : SameBase D s.D
  typ : ∀ n, typeOf s.D n = typeOf D n ∨ typeOf s.D n = some .origin
  good : ∀ key tr, (key, tr) ∈ s.trails → (∃ rest, tr = key :: rest) ∧
    typeOf s.D key = some .origin ∧ tr.IsChain (TrailAdj D) ∧
    ∃ S, tr.getLast? = some S ∧ typeOf D S = some .support
  nodup : s.trails.keys.Nodup
  reach : ∀ n ∈ s.inTrails, ∃ S, typeOf D S = some .support ∧
    Relation.ReflTransGen (TrailAdj D) S n

theorem chain_reach {D : Diagram R} {l : List Int} (h : l.IsChain (TrailAdj D)) {S x : Int}
    (hS : S ∈ l) (hx : x ∈ l) : Relation.ReflTransGen (TrailAdj D) S x :=
  closed_of_chain (C := fun y => Relation.ReflTransGen (TrailAdj D) S y) (r := TrailAdj D)
    (fun _ _ h => h.symm) (fun _ _ h1 h2 => h1.tail h2) h ⟨S, hS, .refl⟩ x hx

theorem GenInv.init (D : Diagram R) : GenInv D ⟨D, [], []⟩ := by
  constructor <;> simp
  exact SameBase.refl D

theorem GenInv.step {D : Diagram R} (w : WF D) {fuel : Nat} {s s' : BuildState R}
    (I : GenInv D s) {n : Int} (ht : typeOf s.D n = some .support)
    (h : buildStep fuel s n = some s') : GenInv D s' := by
  have hb := sameBase_buildStep h
  unfold buildStep at h
  rw [walk_congr I.base.edges] at h
  have hD : typeOf D n = some .support := by
    rcases I.typ n with e | e
    · rw [← e]; exact ht
    · rw [e] at ht; simp at ht
  split at h
  · simp at h
  · simp at h
  · rename_i origin rest hw
    simp only [Option.some.injEq] at h
    obtain ⟨hch, ⟨pre, hpre⟩, _⟩ :=
      walk_shape_general fuel [] n _ hw (by simp) (List.isChain_singleton n)
    have hsub := walk_subset w hw (by simpa using typeOf_isSome_mem hD)
    have hnm : n ∈ origin :: rest := by rw [hpre]; simp
    have horig : ∀ m, typeOf s'.D m = if m = origin then some .origin else typeOf s.D m := by
      intro m
      subst h
      simp only [typeOf_assignSequences, typeOf_setOrigin]
      split_ifs
      · obtain ⟨t, ht⟩ := typeOf_some_of_mem (D := s.D) (n := origin)
          (by rw [I.base.keys]; exact hsub origin (by simp))
        simp [ht]
      · rfl
    refine ⟨I.base.trans hb, ?_, ?_, ?_, ?_⟩
    · intro m
      rw [horig]
      split_ifs
      · exact Or.inr rfl
      · exact I.typ m
    · intro key tr hm
      rw [← h] at hm
      rcases Dict.mem_set_imp hm with hm | ⟨rfl, rfl⟩
      · obtain ⟨h1, h2, h3, h4⟩ := I.good _ _ hm
        refine ⟨h1, ?_, h3, h4⟩
        rw [horig]; split_ifs
        · rfl
        · exact h2
      · refine ⟨⟨rest, rfl⟩, by rw [horig, if_pos rfl], hch, n, ?_, hD⟩
        rw [hpre]; simp
    · rw [← h]; exact Dict.nodup_keys_set I.nodup
    · intro m hm
      rw [← h] at hm
      rcases List.mem_append.1 hm with hm | hm
      · exact ⟨n, hD, chain_reach hch hnm hm⟩
      · exact I.reach m hm

theorem GenInv.loop {D : Diagram R} (w : WF D) {fuel : Nat} {l : List Int} {s s' : BuildState R}
    (I : GenInv D s) (h : buildLoop fuel l s = some s') : GenInv D s' := by
  induction l generalizing s with
  | nil => simp [buildLoop] at h; subst h; exact I
  | cons n l ih =>
    rw [buildLoop_cons] at h
    split_ifs at h with ht
    · cases hs : buildStep fuel s n with
      | none => simp [hs] at h
      | some s1 =>
        simp only [hs, Option.bind_some] at h
        exact ih (I.step w ht hs) h
    · exact ih I h

theorem GenInv.search {D : Diagram R} (w : WF D) {s : BuildState R}
    (h : D.searchTrails = some s) : GenInv D s := (GenInv.init D).loop w h

/-! ## Validity -/

theorem GoodTrail.subset {D : Diagram R} (w : WF D) {key : Int} {tr : List Int}
    (G : GoodTrail D key tr) : ∀ n ∈ tr, n ∈ D.nodes.keys := by
  intro n hn
  obtain ⟨m, S, h, hS⟩ := G.shape
  have h3 := chain_reach G.chain (S := S) (by rw [h]; simp) hn
  rcases h3.cases_tail with rfl | ⟨y, _, hy⟩
  · exact typeOf_isSome_mem hS
  · exact hy.mem_right w

theorem SearchInv.valid {D : Diagram R} (g : Regular D) (w : WF D) {s : BuildState R}
    (I : SearchInv D D.nodes.keys s) (hc : ∀ n ∈ D.nodes.keys, n ∈ s.inTrails) :
    ValidTrails { s.D with trails := s.trails } := by
  have hadj : ∀ a b, TrailAdj { s.D with trails := s.trails } a b ↔ TrailAdj D a b :=
    fun a b => trailAdj_congr I.base.edges a b
  refine ⟨?_, ?_, ?_, ?_, ?_, ?_, ?_⟩
  · intro key tr hm
    obtain ⟨m, S, h, _⟩ := (I.good _ _ hm).shape
    exact ⟨_, h⟩
  · intro key tr hm
    show typeOf s.D key = _
    rw [I.typ, if_pos (Dict.mem_keys_iff.2 ⟨tr, hm⟩)]
  · intro key tr hm
    rw [isChain_iff_consecutive]
    intro a b hab
    rw [hadj]
    exact (isChain_iff_consecutive tr).1 (I.good _ _ hm).chain a b hab
  · show (s.trails.flatMap (·.2)).Perm s.D.nodes.keys
    rw [I.base.keys, List.perm_ext_iff_of_nodup I.disj w.nodesNodup]
    intro n
    constructor
    · intro h
      obtain ⟨⟨key, tr⟩, h1, h2⟩ := List.mem_flatMap.1 h
      exact (I.good _ _ h1).subset w n h2
    · intro h; exact (I.inT n).1 (hc n h)
  · intro a b hab
    rw [hadj] at hab
    have ha := (I.inT a).1 (hc a (hab.mem_left w))
    obtain ⟨⟨key, tr⟩, h1, h2⟩ := List.mem_flatMap.1 ha
    exact ⟨key, tr, h1, (I.good _ _ h1).complete a h2 b hab⟩
  · intro key tr hm n hn
    have G := I.good _ _ hm
    obtain ⟨m, S, hsh, hS⟩ := G.shape
    have hlast : tr.getLast? = some S := by rw [hsh, List.getLast?_cons]; simp
    show typeOf s.D n = _ ↔ _
    have hSk : S ∉ s.trails.keys := by
      intro hk
      obtain ⟨tr', h'⟩ := Dict.mem_keys_iff.1 hk
      have := nodup_flatMap_unique I.disj hm h' (x := S) (by simp [hsh]) (I.good _ _ h').key_mem
      obtain ⟨rfl, rfl⟩ := Prod.mk.inj this
      have := G.nodup
      rw [hsh] at this
      simp at this
    constructor
    · intro ht
      have hnk : n ∉ s.trails.keys := by
        intro hk; rw [I.typ, if_pos hk] at ht; simp at ht
      rw [I.typ, if_neg hnk] at ht
      obtain ⟨x0, hx0, hu⟩ := g.supportDeg n ht
      obtain ⟨p, q, hpq⟩ := List.append_of_mem hn
      rcases List.eq_nil_or_concat p with rfl | ⟨p', x, rfl⟩
      · exfalso
        rw [hsh] at hpq
        simp only [List.nil_append, List.cons.injEq] at hpq
        exact hnk (hpq.1 ▸ Dict.mem_keys_iff.2 ⟨_, hm⟩)
      · cases q with
        | nil => rw [hpq]; simp
        | cons y q =>
          exfalso
          have hcons := (isChain_iff_consecutive tr).1 G.chain
          have hx : TrailAdj D n x := (hcons x n ⟨p', y :: q, by simp [hpq]⟩).symm
          have hy : TrailAdj D n y := hcons n y ⟨p' ++ [x], q, by simp [hpq]⟩
          have : x = y := (hu _ hx).trans (hu _ hy).symm
          subst this
          have := G.nodup
          rw [hpq] at this
          simp [List.nodup_append] at this
    · intro h
      rw [hlast] at h
      obtain rfl := Option.some.inj h
      rw [I.typ, if_neg hSk]
      exact hS
  · intro key tr hm
    exact ⟨0, fun i hi => by have := I.seq _ _ hm i hi; simpa [seqOf] using this⟩

/-! ## Success -/

theorem success_iff {D : Diagram R} (w : WF D) (g : Regular D) :
    D.buildTrails.2 = .ok () ↔ (∃ a b, IsTrail D a b) ∧ ∀ n ∈ D.nodes.keys,
      ∃ S, typeOf D S = some .support ∧ Relation.ReflTransGen (TrailAdj D) S n := by
  obtain ⟨s, hs⟩ := searchTrails_terminates w
  have I := SearchInv.search w g hs
  have J := GenInv.search w hs
  rw [buildTrails_ok_iff hs, trailEdges_length_ne (w.of_sameBase I.base), supportNodes_length_ne,
    unassigned_length_eq, I.base.keys]
  have hE : (∃ a b, IsTrail s.D a b) ↔ ∃ a b, IsTrail D a b := by simp [IsTrail, I.base.edges]
  rw [hE]
  constructor
  · rintro ⟨h1, _, h3⟩
    exact ⟨h1, fun n hn => J.reach n (h3 n hn)⟩
  · rintro ⟨h1, h2⟩
    have hcov : ∀ n ∈ D.nodes.keys, n ∈ s.inTrails := by
      intro n hn
      obtain ⟨S, hS, hr⟩ := h2 n hn
      have hSt := (I.inT S).1 (I.cover S (typeOf_isSome_mem hS) hS)
      obtain ⟨⟨key, tr⟩, h3, h4⟩ := List.mem_flatMap.1 hSt
      rw [I.inT]
      refine List.mem_flatMap.2 ⟨_, h3, ?_⟩
      have G := I.good _ _ h3
      induction hr with
      | refl => exact h4
      | tail _ hbc ih => exact G.closed (ih (TrailAdj.mem_left w hbc)) hbc
    refine ⟨h1, ?_, hcov⟩
    obtain ⟨a, b, hab⟩ := h1
    have ha := (I.inT a).1 (hcov a (TrailAdj.mem_left w (Or.inl hab)))
    obtain ⟨⟨key, tr⟩, h3, h4⟩ := List.mem_flatMap.1 ha
    have V := I.valid g w hcov
    obtain ⟨m, S, h, hS⟩ := (I.good _ _ h3).shape
    refine ⟨S, (V.support key tr h3 S (by simp [h])).2 ?_⟩
    rw [h, List.getLast?_cons]; simp

theorem buildTrails_valid {D : Diagram R} (w : WF D) (g : Regular D)
    (h : D.buildTrails.2 = .ok ()) : ValidTrails D.buildTrails.1 := by
  obtain ⟨s, hs, hD, _, _, hu⟩ := buildTrails_ok h
  have I := SearchInv.search w g hs
  rw [unassigned_length_eq, I.base.keys] at hu
  rw [hD]
  exact I.valid g w hu

/-! ## Uniqueness of paths with a given end -/

theorem path_unique {r : Int → Int → Prop} (hsym : ∀ a b, r a b → r b a) {l₁ l₂ : List Int}
    (n₁ : l₁.Nodup) (n₂ : l₂.Nodup) (c₁ : l₁.IsChain r) (c₂ : l₂.IsChain r)
    (e₁ : ∀ a ∈ l₁, ∀ b, r a b → Consecutive l₁ a b ∨ Consecutive l₁ b a)
    (e₂ : ∀ a ∈ l₂, ∀ b, r a b → Consecutive l₂ a b ∨ Consecutive l₂ b a)
    (q q' t : List Int) (a : Int) (h₁ : l₁ = q ++ a :: t) (h₂ : l₂ = q' ++ a :: t) : l₁ = l₂ := by
  have key : ∀ (l l' : List Int), l.Nodup → l'.Nodup → l.IsChain r →
      (∀ a ∈ l', ∀ b, r a b → Consecutive l' a b ∨ Consecutive l' b a) →
      ∀ q x a t q', l = q ++ [x] ++ a :: t → l' = q' ++ a :: t → ∃ q'', q' = q'' ++ [x] := by
    intro l l' n n' c e q x a t q' h h'
    have hxa : r x a := (isChain_iff_consecutive l).1 c x a ⟨q, t, by simp [h]⟩
    rcases e a (by simp [h']) x (hsym _ _ hxa) with ⟨p, s, hp⟩ | ⟨p, s, hp⟩
    · exfalso
      have := (split_unique n' h' hp).2
      subst this
      rw [h] at n
      simp [List.nodup_append] at n
    · have hp' : l' = (p ++ [x]) ++ a :: s := by simp [hp]
      have := (split_unique n' h' hp').1
      exact ⟨p, this⟩
  induction q using List.reverseRecOn generalizing q' a t with
  | nil =>
    rcases List.eq_nil_or_concat q' with rfl | ⟨q'', x, rfl⟩
    · rw [h₁, h₂]
    · obtain ⟨q3, h3⟩ := key l₂ l₁ n₂ n₁ c₂ e₁ q'' x a t [] (by simp [h₂]) h₁
      simp at h3
  | append_singleton q x ih =>
    obtain ⟨q'', rfl⟩ := key l₁ l₂ n₁ n₂ c₁ e₂ q x a t q' h₁ h₂
    exact ih q'' (a :: t) x (by simp [h₁]) (by simp [h₂])

/-! ## Idempotence -/

theorem setOrigin_eq_self {D : Diagram R} {n : Int} (h : typeOf D n = some .origin) :
    D.setOrigin n = D := by
  unfold typeOf at h
  cases hc : D.nodes.get? n with
  | none => simp [hc] at h
  | some d =>
    simp only [hc, Option.map_some, Option.some.injEq] at h
    have : ({ d with type := .origin } : NodeData R) = d := by cases d; simp_all
    have h2 : D.nodes.modify n (fun d => { d with type := .origin }) = D.nodes := by
      unfold Dict.modify; rw [hc]; simp only [this]; exact Dict.set_eq_self hc
    unfold setOrigin
    rw [h2]

theorem setK_eq_self {D : Diagram R} {n k : Int} (h : seqOf D n = some k) : D.setK n k = D := by
  unfold seqOf at h
  cases hc : D.nodes.get? n with
  | none => simp [hc] at h
  | some d =>
    simp only [hc, Option.bind_some] at h
    have : ({ d with k := some k } : NodeData R) = d := by cases d; simp_all
    have h2 : D.nodes.modify n (fun d => { d with k := some k }) = D.nodes := by
      unfold Dict.modify; rw [hc]; simp only [this]; exact Dict.set_eq_self hc
    unfold setK
    rw [h2]

theorem assignSequences_eq_self {D : Diagram R} {l : List Int} {k : Int}
    (h : ∀ (i : Nat) (hi : i < l.length), seqOf D l[i] = some (k + i)) :
    D.assignSequences l k = D := by
  induction l generalizing k with
  | nil => rfl
  | cons n l ih =>
    rw [assignSequences, setK_eq_self (by have := h 0 (by simp); simp only [List.getElem_cons_zero] at this; simpa using this)]
    apply ih
    intro i hi
    have := h (i + 1) (by simpa using hi)
    simp only [List.getElem_cons_succ] at this
    rw [this]; congr 1; push_cast; ring

/-- The trails only grow. -/
theorem buildStep_trails {fuel : Nat} {s s' : BuildState R} {n : Int}
    (h : buildStep fuel s n = some s') :
    ∃ o tr, s.D.walk fuel [] n = some (o :: tr) ∧ s'.trails = s.trails.set o (o :: tr) ∧
      s'.inTrails = (o :: tr) ++ s.inTrails ∧
      s'.D = (s.D.setOrigin o).assignSequences (o :: tr) 0 := by
  unfold buildStep at h
  split at h
  · simp at h
  · simp at h
  · rename_i o tr hw
    simp only [Option.some.injEq] at h
    exact ⟨o, tr, hw, by rw [← h], by rw [← h], by rw [← h]⟩

theorem keys_mono_loop {fuel : Nat} {l : List Int} {s s' : BuildState R}
    (h : buildLoop fuel l s = some s') : ∀ k ∈ s.trails.keys, k ∈ s'.trails.keys := by
  induction l generalizing s with
  | nil => simp [buildLoop] at h; subst h; exact fun _ h => h
  | cons n l ih =>
    rw [buildLoop_cons] at h
    split_ifs at h with ht
    · cases hs : buildStep fuel s n with
      | none => simp [hs] at h
      | some s1 =>
        simp only [hs, Option.bind_some] at h
        obtain ⟨o, tr, _, h2, _, _⟩ := buildStep_trails hs
        intro k hk
        exact ih h k (by rw [h2, Dict.mem_keys_set]; exact Or.inr hk)
    · exact ih h

theorem mem_mono_loop {D : Diagram R} (w : WF D) (g : Regular D) {fuel : Nat} {l done : List Int}
    {s s' : BuildState R} (I : SearchInv D done s) (hl : (done ++ l).Nodup)
    (h : buildLoop fuel l s = some s') : ∀ p ∈ s.trails, p ∈ s'.trails := by
  induction l generalizing done s with
  | nil => simp [buildLoop] at h; subst h; exact fun _ h => h
  | cons n l ih =>
    have hl' : ((done ++ [n]) ++ l).Nodup := by simpa using hl
    have hn : n ∉ done := by
      intro hd
      exact (List.nodup_append.1 hl).2.2 n hd n (by simp) rfl
    rw [buildLoop_cons] at h
    split_ifs at h with ht
    · cases hs : buildStep fuel s n with
      | none => simp [hs] at h
      | some s1 =>
        simp only [hs, Option.bind_some] at h
        have I1 := I.step w g hn ht hs
        obtain ⟨o, tr, hw, h2, _, _⟩ := buildStep_trails hs
        intro p hp
        refine ih I1 hl' h p ?_
        rw [h2]
        have ho : o ∉ s.trails.keys := by
          intro hk
          obtain ⟨tr', h'⟩ := Dict.mem_keys_iff.1 hk
          rw [walk_congr I.base.edges] at hw
          have hnk : n ∉ s.trails.keys := by
            intro hk; rw [I.typ, if_pos hk] at ht; simp at ht
          have hD : typeOf D n = some .support := by rw [I.typ, if_neg hnk] at ht; exact ht
          obtain ⟨key, G, m, hm⟩ := walk_good g hD hw
          have G' := I.good _ _ h'
          exact I.fresh g hn ht h' (closed_of_chain (C := (· ∈ tr')) (fun a b h => h.symm)
            (fun a b ha hab => G'.closed ha hab) G.chain ⟨o, by simp, G'.key_mem⟩ n (by rw [hm]; simp))
        rw [Dict.set_of_not_mem _ ho]
        exact List.mem_append_left _ hp
    · exact ih (I.skip ht) hl' h

/-- A second search, started on the diagram left by the first, goes through the
same rounds and writes nothing new. -/
theorem lockstep {D Df : Diagram R} (w : WF D) (g : Regular D) {fuel : Nat} {l done : List Int}
    {s sf : BuildState R} (I : SearchInv D done s) (hl : (done ++ l).Nodup)
    (h : buildLoop fuel l s = some sf) (F : SearchInv D (done ++ l) sf)
    (hnodes : Df.nodes = sf.D.nodes) (hedges : Df.edges = D.edges) :
    buildLoop fuel l ⟨Df, s.trails, s.inTrails⟩ = some ⟨Df, sf.trails, sf.inTrails⟩ := by
  induction l generalizing done s with
  | nil => simp [buildLoop] at h; subst h; rfl
  | cons n l ih =>
    have hl' : ((done ++ [n]) ++ l).Nodup := by simpa using hl
    have hn : n ∉ done := by
      intro hd
      exact (List.nodup_append.1 hl).2.2 n hd n (by simp) rfl
    have htf : ∀ x, typeOf Df x = typeOf sf.D x := fun x => by simp [typeOf, hnodes]
    have hsf : ∀ x, seqOf Df x = seqOf sf.D x := fun x => by simp [seqOf, hnodes]
    have hmono := keys_mono_loop h
    have h0 := h
    rw [buildLoop_cons] at h ⊢
    by_cases ht : typeOf s.D n = some .support
    · rw [if_pos ht] at h
      cases hs : buildStep fuel s n with
      | none => simp [hs] at h
      | some s1 =>
        simp only [hs, Option.bind_some] at h
        have I1 := I.step w g hn ht hs
        have hmm := mem_mono_loop w g I1 hl' h
        obtain ⟨o, tr, hw, h2, h3, h4⟩ := buildStep_trails hs
        rw [walk_congr I.base.edges] at hw
        have hnk : n ∉ s.trails.keys := by
          intro hk; rw [I.typ, if_pos hk] at ht; simp at ht
        have hD : typeOf D n = some .support := by rw [I.typ, if_neg hnk] at ht; exact ht
        obtain ⟨key, G, m, hm⟩ := walk_good g hD hw
        obtain ⟨rfl, rfl⟩ := List.cons.inj hm
        have hin : (o, o :: (m ++ [n])) ∈ sf.trails := by
          apply hmm
          rw [h2]
          exact Dict.mem_of_get? (Dict.get?_set_self _ _ _)
        have hnf : n ∉ sf.trails.keys := by
          intro hk
          obtain ⟨tr', h'⟩ := Dict.mem_keys_iff.1 hk
          have := nodup_flatMap_unique F.disj hin h' (x := n) (by simp) (F.good _ _ h').key_mem
          obtain ⟨rfl, _⟩ := Prod.mk.inj this
          have := G.nodup
          simp at this
        have ht2 : typeOf Df n = some .support := by rw [htf, F.typ, if_neg hnf]; exact hD
        rw [if_pos ht2]
        have hstep : buildStep fuel ⟨Df, s.trails, s.inTrails⟩ n = some ⟨Df, s1.trails, s1.inTrails⟩ := by
          unfold buildStep
          simp only [walk_congr hedges, hw]
          rw [setOrigin_eq_self, assignSequences_eq_self, h2, h3]
          · intro i hi
            rw [hsf]
            simpa using F.seq _ _ hin i hi
          · rw [htf, F.typ, if_pos (Dict.mem_keys_iff.2 ⟨_, hin⟩)]
        rw [hstep]
        exact ih I1 hl' h (by simpa using F)
    · rw [if_neg ht] at h
      have ht2 : typeOf Df n ≠ some .support := by
        intro hc
        rw [htf, F.typ] at hc
        by_cases hk : n ∈ sf.trails.keys
        · simp [hk] at hc
        rw [if_neg hk] at hc
        rw [I.typ, if_neg (fun hk' => hk (hmono n hk'))] at ht
        exact ht hc
      rw [if_neg ht2]
      exact ih (I.skip ht) hl' h (by simpa using F)

theorem buildTrails_idem {D : Diagram R} (w : WF D) (g : Regular D)
    (h : D.buildTrails.2 = .ok ()) : D.buildTrails.1.buildTrails = (D.buildTrails.1, .ok ()) := by
  obtain ⟨s, hs, hD, h1, h2, h3⟩ := buildTrails_ok h
  have I := SearchInv.search w g hs
  have hs2 : D.buildTrails.1.searchTrails = some ⟨D.buildTrails.1, s.trails, s.inTrails⟩ := by
    rw [hD]
    have := lockstep (Df := { s.D with trails := s.trails }) w g (fuel := D.walkFuel)
      (l := D.nodes.keys) (done := []) (searchInv_init D) (by simpa using w.nodesNodup) hs
      (by simpa using I) rfl I.base.edges
    have hf : walkFuel { s.D with trails := s.trails } = D.walkFuel := by
      unfold walkFuel
      show s.D.nodes.length + 1 = _
      rw [← Dict.length_keys, I.base.keys, Dict.length_keys]
    unfold searchTrails
    rw [hf]
    show buildLoop _ s.D.nodes.keys _ = _
    rw [I.base.keys]
    exact this
  rw [hD] at hs2 ⊢
  conv_lhs => unfold buildTrails
  rw [hs2]
  simp only
  rw [if_neg (by exact h1), if_neg (by exact h2), if_neg (by simpa [unassigned] using h3)]

end Diagram
end CEM
