import Verif.Lemmas.Walk

/-! # The trail search on regular diagrams -/

set_option linter.unusedSectionVars false
set_option linter.unusedSimpArgs false

namespace CEM
namespace Diagram
open Spec
variable {R : Type}

/-! ## Lists -/

theorem isChain_iff_consecutive {r : Int → Int → Prop} (l : List Int) :
    l.IsChain r ↔ ∀ a b, Consecutive l a b → r a b := by
  constructor
  · rintro h a b ⟨p, s, rfl⟩
    have := (List.isChain_append.1 h).2.1
    exact (List.isChain_cons_cons.1 this).1
  · induction l with
    | nil => intro _; exact List.isChain_nil
    | cons x l ih =>
      intro h
      cases l with
      | nil => exact List.isChain_singleton x
      | cons y l =>
        refine List.isChain_cons_cons.2 ⟨h x y ⟨[], l, rfl⟩, ih ?_⟩
        rintro a b ⟨p, s, hp⟩
        exact h a b ⟨x :: p, s, by simp [hp]⟩

theorem _root_.CEM.Spec.Consecutive.mem_left {l : List Int} {a b : Int} (h : Consecutive l a b) : a ∈ l := by
  obtain ⟨p, s, rfl⟩ := h; simp

theorem _root_.CEM.Spec.Consecutive.mem_right {l : List Int} {a b : Int} (h : Consecutive l a b) : b ∈ l := by
  obtain ⟨p, s, rfl⟩ := h; simp

/-- In a duplicate-free list an element has one position. -/
theorem split_unique {l p s p' s' : List Int} {a : Int} (hn : l.Nodup) (h : l = p ++ a :: s)
    (h' : l = p' ++ a :: s') : p = p' ∧ s = s' := by
  subst h
  induction p generalizing p' with
  | nil =>
    cases p' with
    | nil => simpa using h'
    | cons x p' =>
      exfalso
      simp only [List.nil_append, List.cons_append, List.cons.injEq] at h'
      obtain ⟨rfl, rfl⟩ := h'
      simp at hn
  | cons x p ih =>
    cases p' with
    | nil =>
      exfalso
      simp only [List.nil_append, List.cons_append, List.cons.injEq] at h'
      obtain ⟨rfl, h'⟩ := h'
      simp at hn
    | cons y p' =>
      simp only [List.cons_append, List.cons.injEq] at h'
      obtain ⟨rfl, h'⟩ := h'
      have := ih (List.nodup_cons.1 hn).2 h'
      simpa using this

theorem closed_of_chain {r : Int → Int → Prop} (hs : ∀ a b, r a b → r b a) {C : Int → Prop}
    (hC : ∀ a b, C a → r a b → C b) {l : List Int} (h : l.IsChain r)
    (hx : ∃ x ∈ l, C x) : ∀ y ∈ l, C y := by
  induction l with
  | nil => simp
  | cons a l ih =>
    cases l with
    | nil => simpa using hx
    | cons b l =>
      obtain ⟨hab, h'⟩ := List.isChain_cons_cons.1 h
      obtain ⟨x, hxm, hxC⟩ := hx
      have hall : ∀ y ∈ b :: l, C y := by
        rcases List.mem_cons.1 hxm with rfl | hxm
        · exact ih h' ⟨b, by simp, hC _ _ hxC hab⟩
        · exact ih h' ⟨x, hxm, hxC⟩
      intro y hy
      rcases List.mem_cons.1 hy with rfl | hy
      · exact hC _ _ (hall b (by simp)) (hs _ _ hab)
      · exact hall y hy

/-! ## Good trails -/

/-- A maximal path of trail edges from a free end to a support. -/
structure GoodTrail (D : Diagram R) (key : Int) (tr : List Int) : Prop where
  shape : ∃ m S, tr = key :: (m ++ [S]) ∧ typeOf D S = some .support
  nodup : tr.Nodup
  chain : tr.IsChain (TrailAdj D)
  complete : ∀ a ∈ tr, ∀ b, TrailAdj D a b → Consecutive tr a b ∨ Consecutive tr b a

theorem GoodTrail.closed {D : Diagram R} {key : Int} {tr : List Int} (h : GoodTrail D key tr)
    {a b : Int} (ha : a ∈ tr) (hb : TrailAdj D a b) : b ∈ tr := by
  rcases h.complete a ha b hb with h | h
  · exact h.mem_right
  · exact h.mem_left

theorem GoodTrail.key_mem {D : Diagram R} {key : Int} {tr : List Int} (h : GoodTrail D key tr) :
    key ∈ tr := by
  obtain ⟨m, S, rfl, _⟩ := h.shape; simp

theorem walk_good {D : Diagram R} (g : Regular D) {fuel : Nat} {S : Int} {tr : List Int}
    (hS : typeOf D S = some .support) (h : D.walk fuel [] S = some tr) :
    ∃ key, GoodTrail D key tr ∧ ∃ m, tr = key :: (m ++ [S]) := by
  obtain ⟨hnd, hch, ⟨pre, hpre⟩, hhead⟩ :=
    walk_shape g.toSimpleGraph fuel [] S tr h (by simp) (List.isChain_singleton S)
  obtain ⟨x0, hx0, huniq⟩ := g.supportDeg S hS
  cases pre with
  | nil =>
    exfalso
    simp only [List.nil_append] at hpre
    subst hpre
    have := hhead S rfl x0 hx0
    simp only [List.mem_singleton] at this
    exact hx0.ne g.toSimpleGraph this.symm
  | cons key m =>
    simp only [List.cons_append] at hpre
    refine ⟨key, ⟨⟨m, S, hpre, hS⟩, hnd, hch, ?_⟩, m, hpre⟩
    have hcons := (isChain_iff_consecutive tr).1 hch
    intro a ha b hab
    obtain ⟨p, s, hps⟩ := List.append_of_mem ha
    rcases List.eq_nil_or_concat p with rfl | ⟨p', x, rfl⟩
    · -- `a` is the first node
      have hkey : a = key := by
        rw [hpre] at hps; simpa using (List.cons.inj hps).1.symm
      have hb : b ∈ tr := hhead a (by rw [hps]; rfl) b hab
      have hba : b ≠ a := (hab.ne g.toSimpleGraph).symm
      cases s with
      | nil =>
        exfalso; rw [hps] at hb; simp at hb; exact hba hb
      | cons y s =>
        by_cases hby : b = y
        · subst hby; exact Or.inl ⟨[], s, hps⟩
        · exfalso
          obtain ⟨p2, s2, hp2⟩ := List.append_of_mem hb
          rcases List.eq_nil_or_concat p2 with rfl | ⟨p3, x2, rfl⟩
          · rw [hps] at hp2; simp at hp2; exact hba hp2.1.symm
          · have hx2 : TrailAdj D b x2 := (hcons x2 b ⟨p3, s2, by simp [hp2]⟩).symm
            have hne : x2 ≠ a := by
              rintro rfl
              have h1 : tr = p3 ++ x2 :: (b :: s2) := by simp [hp2]
              have := split_unique hnd hps h1
              simp only [List.cons.injEq] at this
              exact hby this.2.1.symm
            cases s2 with
            | nil =>
              have hbS : b = S := by
                have h1 : tr.getLast? = some b := by rw [hp2]; simp
                have h2 : tr.getLast? = some S := by
                  rw [hpre, List.getLast?_cons]; simp
                rw [h1] at h2; simpa using h2
              subst hbS
              exact hne ((huniq _ hx2).trans (huniq _ hab.symm).symm)
            | cons z s2 =>
              have hz : TrailAdj D b z := hcons b z ⟨p3 ++ [x2], s2, by simp [hp2]⟩
              rcases g.deg b x2 z a hx2 hz hab.symm with e | e | e
              · subst e; rw [hp2] at hnd; simp [List.nodup_append] at hnd
              · subst e
                have h1 : tr = (p3 ++ [x2] ++ [b]) ++ z :: s2 := by simp [hp2]
                have := (split_unique hnd hps h1).1
                simp at this
              · exact hne e
    · have hx : TrailAdj D a x := (hcons x a ⟨p', s, by simp [hps]⟩).symm
      have hxa : Consecutive tr x a := ⟨p', s, by simp [hps]⟩
      cases s with
      | nil =>
        have haS : a = S := by
          have h1 : tr.getLast? = some a := by rw [hps]; simp
          have h2 : tr.getLast? = some S := by rw [hpre, List.getLast?_cons]; simp
          rw [h1] at h2; simpa using h2
        subst haS
        have : b = x := (huniq _ hab).trans (huniq _ hx).symm
        subst this
        exact Or.inr hxa
      | cons y s =>
        have hy : TrailAdj D a y := hcons a y ⟨p' ++ [x], s, by simp [hps]⟩
        have hay : Consecutive tr a y := ⟨p' ++ [x], s, by simp [hps]⟩
        rcases g.deg a x y b hx hy hab with e | e | e
        · subst e; rw [hps] at hnd; simp [List.nodup_append] at hnd
        · subst e; exact Or.inl hay
        · subst e; exact Or.inr hxa

/-! ## Types and sequences written by the search -/

theorem typeOf_setK (D : Diagram R) (n k m : Int) : typeOf (D.setK n k) m = typeOf D m := by
  simp only [typeOf, setK, Dict.get?_modify]
  split
  · rename_i h; subst h; cases D.nodes.get? n <;> simp
  · rfl

theorem typeOf_assignSequences (D : Diagram R) (l : List Int) (k m : Int) :
    typeOf (D.assignSequences l k) m = typeOf D m := by
  induction l generalizing D k with
  | nil => rfl
  | cons n l ih => rw [assignSequences, ih, typeOf_setK]

theorem typeOf_setOrigin (D : Diagram R) (n m : Int) :
    typeOf (D.setOrigin n) m = if m = n then (typeOf D n).map (fun _ => .origin) else typeOf D m := by
  simp only [typeOf, setOrigin, Dict.get?_modify]
  split
  · rename_i h; subst h; cases D.nodes.get? _ <;> simp
  · rename_i h; rw [if_neg (Ne.symm h)]

theorem seqOf_setOrigin (D : Diagram R) (n m : Int) : seqOf (D.setOrigin n) m = seqOf D m := by
  simp only [seqOf, setOrigin, Dict.get?_modify]
  split
  · rename_i h; subst h; cases D.nodes.get? _ <;> simp
  · rfl

theorem seqOf_setK (D : Diagram R) (n k m : Int) :
    seqOf (D.setK n k) m = if m = n then (if n ∈ D.nodes.keys then some k else none) else seqOf D m := by
  simp only [seqOf, setK, Dict.get?_modify]
  split
  · rename_i h
    subst h
    cases hc : D.nodes.get? _ with
    | none => rw [Dict.get?_eq_none_iff] at hc; simp [hc]
    | some d => simp [Dict.mem_keys_of_get? hc]
  · rename_i h; rw [if_neg (Ne.symm h)]

theorem seqOf_assign_not_mem (D : Diagram R) (l : List Int) (k m : Int) (h : m ∉ l) :
    seqOf (D.assignSequences l k) m = seqOf D m := by
  induction l generalizing D k with
  | nil => rfl
  | cons n l ih =>
    simp only [List.mem_cons, not_or] at h
    rw [assignSequences, ih _ _ h.2, seqOf_setK, if_neg h.1]

theorem seqOf_assign (D : Diagram R) (l : List Int) (k : Int) (hn : l.Nodup)
    (hk : ∀ x ∈ l, x ∈ D.nodes.keys) (i : Nat) (hi : i < l.length) :
    seqOf (D.assignSequences l k) l[i] = some (k + i) := by
  induction l generalizing D k i with
  | nil => simp at hi
  | cons n l ih =>
    rw [List.nodup_cons] at hn
    cases i with
    | zero =>
      simp only [List.getElem_cons_zero, assignSequences]
      rw [seqOf_assign_not_mem _ _ _ _ hn.1, seqOf_setK]
      simp [hk n (by simp)]
    | succ i =>
      simp only [List.getElem_cons_succ, assignSequences]
      rw [ih _ _ hn.2 (by intro x hx; simpa [setK] using hk x (by simp [hx])) i (by simpa using hi)]
      simp; ring

/-! ## The invariant of the search loop -/

structure SearchInv (D : Diagram R) (done : List Int) (s : BuildState R) : Prop where
  base : SameBase D s.D
  typ : ∀ n, typeOf s.D n = if n ∈ s.trails.keys then some .origin else typeOf D n
  good : ∀ key tr, (key, tr) ∈ s.trails → GoodTrail D key tr
  disj : (s.trails.flatMap (·.2)).Nodup
  inT : ∀ n, n ∈ s.inTrails ↔ n ∈ s.trails.flatMap (·.2)
  seq : ∀ key tr, (key, tr) ∈ s.trails → ∀ (i : Nat) (h : i < tr.length),
    seqOf s.D tr[i] = some (i : Int)
  last : ∀ key tr, (key, tr) ∈ s.trails → ∃ m S, tr = key :: (m ++ [S]) ∧ S ∈ done ∧
    typeOf D S = some .support
  cover : ∀ S ∈ done, typeOf D S = some .support → S ∈ s.inTrails

theorem nodup_flatMap_unique {t : List (Int × List Int)} (h : (t.flatMap (·.2)).Nodup)
    {a b : Int × List Int} (ha : a ∈ t) (hb : b ∈ t) {x : Int} (hxa : x ∈ a.2) (hxb : x ∈ b.2) :
    a = b := by
  induction t with
  | nil => simp at ha
  | cons c t ih =>
    simp only [List.flatMap_cons, List.nodup_append] at h
    obtain ⟨_, h2, h3⟩ := h
    rcases List.mem_cons.1 ha with rfl | ha' <;> rcases List.mem_cons.1 hb with rfl | hb'
    · rfl
    · exact absurd rfl (h3 x hxa x (List.mem_flatMap.2 ⟨b, hb', hxb⟩))
    · exact absurd rfl (h3 x hxb x (List.mem_flatMap.2 ⟨a, ha', hxa⟩))
    · exact ih h2 ha' hb'

theorem searchInv_init (D : Diagram R) : SearchInv D [] ⟨D, [], []⟩ := by
  constructor <;> try simp
  · exact SameBase.refl D

theorem typeOf_isSome_mem {D : Diagram R} {n : Int} {t : NodeType} (h : typeOf D n = some t) :
    n ∈ D.nodes.keys := by
  unfold typeOf at h
  cases hc : D.nodes.get? n with
  | none => simp [hc] at h
  | some d => exact Dict.mem_keys_of_get? hc

theorem typeOf_eq_none {D : Diagram R} {n : Int} (h : n ∉ D.nodes.keys) : typeOf D n = none := by
  rw [← Dict.get?_eq_none_iff] at h; simp [typeOf, h]

theorem typeOf_some_of_mem {D : Diagram R} {n : Int} (h : n ∈ D.nodes.keys) :
    ∃ t, typeOf D n = some t := by
  obtain ⟨d, hd⟩ := (Dict.exists_get?_iff _ _).2 h
  exact ⟨d.type, by simp [typeOf, hd]⟩

/-- A node whose walk is about to start lies in no earlier trail. -/
theorem SearchInv.fresh {D : Diagram R} (g : Regular D) {done : List Int} {s : BuildState R}
    (I : SearchInv D done s) {n : Int} (hn : n ∉ done) (ht : typeOf s.D n = some .support)
    {key : Int} {tr : List Int} (hm : (key, tr) ∈ s.trails) : n ∉ tr := by
  intro hmem
  have hnk : n ∉ s.trails.keys := by
    intro h; rw [I.typ, if_pos h] at ht; simp at ht
  have hD : typeOf D n = some .support := by rw [I.typ, if_neg hnk] at ht; exact ht
  obtain ⟨x0, hx0, hu⟩ := g.supportDeg n hD
  obtain ⟨m, S, hsh, hSd, hS⟩ := I.last _ _ hm
  have G := I.good _ _ hm
  have hcons := (isChain_iff_consecutive tr).1 G.chain
  obtain ⟨p, q, hpq⟩ := List.append_of_mem hmem
  rcases List.eq_nil_or_concat p with rfl | ⟨p', x, rfl⟩
  · rw [hsh] at hpq
    simp only [List.nil_append, List.cons.injEq] at hpq
    exact hnk (hpq.1 ▸ Dict.mem_keys_iff.2 ⟨_, hm⟩)
  · cases q with
    | nil =>
      have : n = S := by
        have h1 : tr.getLast? = some n := by rw [hpq]; simp
        have h2 : tr.getLast? = some S := by rw [hsh, List.getLast?_cons]; simp
        rw [h1] at h2; simpa using h2
      exact hn (this ▸ hSd)
    | cons y q =>
      have hx : TrailAdj D n x := (hcons x n ⟨p', y :: q, by simp [hpq]⟩).symm
      have hy : TrailAdj D n y := hcons n y ⟨p' ++ [x], q, by simp [hpq]⟩
      have : x = y := (hu _ hx).trans (hu _ hy).symm
      subst this
      have := G.nodup
      rw [hpq] at this
      simp [List.nodup_append] at this

theorem SearchInv.step {D : Diagram R} (w : WF D) (g : Regular D) {fuel : Nat} {done : List Int}
    {s s' : BuildState R} (I : SearchInv D done s) {n : Int} (hn : n ∉ done)
    (ht : typeOf s.D n = some .support) (h : buildStep fuel s n = some s') :
    SearchInv D (done ++ [n]) s' := by
  unfold buildStep at h
  rw [walk_congr I.base.edges] at h
  have hnk : n ∉ s.trails.keys := by
    intro hk; rw [I.typ, if_pos hk] at ht; simp at ht
  have hD : typeOf D n = some .support := by rw [I.typ, if_neg hnk] at ht; exact ht
  split at h
  · simp at h
  · simp at h
  · rename_i origin rest hw
    simp only [Option.some.injEq] at h
    obtain ⟨key, G, m, hm⟩ := walk_good g hD hw
    have hko : origin = key := (List.cons.inj hm).1
    subst hko
    rw [hm] at h G
    have hsubD : ∀ x ∈ origin :: (m ++ [n]), x ∈ D.nodes.keys := by
      rw [← hm]
      exact walk_subset w hw (by simpa using typeOf_isSome_mem hD)
    -- disjointness from earlier trails
    have hdis : ∀ key' tr', (key', tr') ∈ s.trails → ∀ x ∈ tr', x ∉ origin :: (m ++ [n]) := by
      intro key' tr' hm' x hx hx'
      have G' := I.good _ _ hm'
      exact I.fresh g hn ht hm' (closed_of_chain (C := (· ∈ tr')) (fun a b h => h.symm)
        (fun a b ha hab => G'.closed ha hab) G.chain ⟨x, hx', hx⟩ n (by simp))
    have hok : origin ∉ s.trails.keys := by
      intro hk
      obtain ⟨tr', htr'⟩ := Dict.mem_keys_iff.1 hk
      exact hdis _ _ htr' origin (I.good _ _ htr').key_mem (by simp)
    have hmem : ∀ key' tr', (key', tr') ∈ s.trails.set origin (origin :: (m ++ [n])) ↔
        (key', tr') ∈ s.trails ∨ (key' = origin ∧ tr' = origin :: (m ++ [n])) := by
      intro key' tr'
      rw [Dict.set_of_not_mem _ hok]
      simp
    subst h
    refine ⟨I.base.trans ((sameBase_setOrigin _ _).trans (sameBase_assignSequences _ _ _)),
      ?_, ?_, ?_, ?_, ?_, ?_, ?_⟩
    · intro x
      simp only [typeOf_assignSequences, typeOf_setOrigin, Dict.mem_keys_set]
      by_cases hx : x = origin
      · subst hx
        rw [I.typ, if_neg hok]
        obtain ⟨t, htt⟩ := typeOf_some_of_mem (hsubD x (by simp))
        simp [htt]
      · simp [hx, I.typ]
    · intro key' tr' hm'
      rcases (hmem _ _).1 hm' with h | ⟨rfl, rfl⟩
      · exact I.good _ _ h
      · exact G
    · simp only [Dict.set_of_not_mem _ hok, List.flatMap_append, List.flatMap_cons, List.flatMap_nil,
        List.append_nil]
      refine List.nodup_append.2 ⟨I.disj, G.nodup, ?_⟩
      intro a ha b hb hab
      subst hab
      obtain ⟨⟨k', t'⟩, h1, h2⟩ := List.mem_flatMap.1 ha
      exact hdis _ _ h1 a h2 hb
    · intro x
      simp only [Dict.set_of_not_mem _ hok, List.flatMap_append, List.flatMap_cons, List.flatMap_nil,
        List.append_nil]
      rw [List.mem_append, List.mem_append, I.inT]
      tauto
    · intro key' tr' hm' i hi
      rcases (hmem _ _).1 hm' with h | ⟨rfl, rfl⟩
      · simp only
        rw [seqOf_assign_not_mem _ _ _ _ (hdis _ _ h _ (List.getElem_mem hi)), seqOf_setOrigin]
        exact I.seq _ _ h i hi
      · simp only
        rw [seqOf_assign _ _ _ G.nodup ?_ i hi]
        · simp
        · intro x hx
          rw [(sameBase_setOrigin s.D _).keys, I.base.keys]
          exact hsubD x hx
    · intro key' tr' hm'
      rcases (hmem _ _).1 hm' with h | ⟨rfl, rfl⟩
      · obtain ⟨m', S, h1, h2, h3⟩ := I.last _ _ h
        exact ⟨m', S, h1, by simp [h2], h3⟩
      · exact ⟨m, n, rfl, by simp, hD⟩
    · intro S hS hSs
      rcases List.mem_append.1 hS with h | h
      · exact List.mem_append.2 (Or.inr (I.cover S h hSs))
      · simp only [List.mem_singleton] at h
        subst h
        simp

theorem SearchInv.skip {D : Diagram R} {done : List Int}
    {s : BuildState R} (I : SearchInv D done s) {n : Int}
    (ht : typeOf s.D n ≠ some .support) : SearchInv D (done ++ [n]) s := by
  refine ⟨I.base, I.typ, I.good, I.disj, I.inT, I.seq, ?_, ?_⟩
  · intro key tr hm
    obtain ⟨m', S, h1, h2, h3⟩ := I.last _ _ hm
    exact ⟨m', S, h1, by simp [h2], h3⟩
  · intro S hS hSs
    rcases List.mem_append.1 hS with h | h
    · exact I.cover S h hSs
    · simp only [List.mem_singleton] at h
      subst h
      rw [I.inT]
      have : S ∈ s.trails.keys := by
        by_contra hk
        rw [I.typ, if_neg hk] at ht
        exact ht hSs
      obtain ⟨tr, htr⟩ := Dict.mem_keys_iff.1 this
      exact List.mem_flatMap.2 ⟨_, htr, (I.good _ _ htr).key_mem⟩

/-- The loop in terms of node types. -/
theorem buildLoop_cons {fuel : Nat} {n : Int} {l : List Int} {s : BuildState R} :
    buildLoop fuel (n :: l) s = if typeOf s.D n = some .support then
      (buildStep fuel s n).bind (buildLoop fuel l) else buildLoop fuel l s := by
  simp only [buildLoop, typeOf]
  split
  · rename_i d hc
    simp only [hc, Option.map_some, Option.some.injEq]
    split_ifs
    · cases buildStep fuel s n <;> simp
    · rfl
  · rename_i hc
    simp [hc]

theorem SearchInv.loop {D : Diagram R} (w : WF D) (g : Regular D) {fuel : Nat} {l done : List Int}
    {s s' : BuildState R} (I : SearchInv D done s) (hl : (done ++ l).Nodup)
    (h : buildLoop fuel l s = some s') : SearchInv D (done ++ l) s' := by
  induction l generalizing done s with
  | nil => simp [buildLoop] at h; subst h; simpa using I
  | cons n l ih =>
    have hl' : ((done ++ [n]) ++ l).Nodup := by simpa using hl
    have hn : n ∉ done := by
      intro hd
      exact (List.nodup_append.1 hl).2.2 n hd n (by simp) rfl
    rw [buildLoop_cons] at h
    split_ifs at h with ht
    · cases hs : buildStep fuel s n with
      | none => simp [hs] at h
      | some s1 =>
        simp only [hs, Option.bind_some] at h
        simpa using ih (I.step w g hn ht hs) hl' h
    · simpa using ih (I.skip ht) hl' h

theorem SearchInv.search {D : Diagram R} (w : WF D) (g : Regular D) {s : BuildState R}
    (h : D.searchTrails = some s) : SearchInv D D.nodes.keys s := by
  simpa using (searchInv_init D).loop w g (by simpa using w.nodesNodup) h

/-! ## Termination of the whole search -/

theorem buildStep_terminates {D : Diagram R} (w : WF D) {s : BuildState R} (hb : SameBase D s.D)
    {n : Int} (hn : n ∈ D.nodes.keys) {fuel : Nat} (hf : D.nodes.length ≤ fuel) :
    ∃ s', buildStep fuel s n = some s' := by
  have w' := w.of_sameBase hb
  have hlen : s.D.nodes.length = D.nodes.length := by
    rw [← Dict.length_keys, ← Dict.length_keys, hb.keys]
  obtain ⟨tr, htr⟩ := walk_terminates w' fuel [] n (by simp)
    (by intro x hx; simp at hx; subst hx; rw [hb.keys]; exact hn) (by simp; omega)
  unfold buildStep
  rw [htr]
  cases tr with
  | nil => exact absurd rfl (walk_ne_nil htr)
  | cons a t => exact ⟨_, rfl⟩

theorem buildLoop_terminates {D : Diagram R} (w : WF D) {s : BuildState R} (hb : SameBase D s.D)
    {l : List Int} (hl : ∀ n ∈ l, n ∈ D.nodes.keys) {fuel : Nat} (hf : D.nodes.length ≤ fuel) :
    ∃ s', buildLoop fuel l s = some s' := by
  induction l generalizing s with
  | nil => exact ⟨s, rfl⟩
  | cons n l ih =>
    rw [buildLoop_cons]
    split_ifs
    · obtain ⟨s1, h1⟩ := buildStep_terminates w hb (hl n (by simp)) hf
      rw [h1]
      exact ih (hb.trans (sameBase_buildStep h1)) (fun x hx => hl x (by simp [hx]))
    · exact ih hb (fun x hx => hl x (by simp [hx]))

theorem searchTrails_terminates {D : Diagram R} (w : WF D) : ∃ s, D.searchTrails = some s :=
  buildLoop_terminates w (SameBase.refl D) (fun _ h => h) (Nat.le_succ _)

/-! ## Trail edges -/

theorem mem_edgeList {D : Diagram R} (w : WF D) {e : Int × Int} :
    e ∈ D.edgeList ↔ e ∈ D.edges.keys := by
  unfold edgeList
  rw [List.mem_flatMap]
  constructor
  · rintro ⟨u, _, h⟩; exact (List.mem_filter.1 h).1
  · intro h; exact ⟨e.1, w.edge_left e h, List.mem_filter.2 ⟨h, by simp⟩⟩

theorem mem_trailEdges {D : Diagram R} (w : WF D) {a b : Int} :
    (a, b) ∈ D.trailEdges ↔ IsTrail D a b := by
  unfold trailEdges
  rw [List.mem_filter, mem_edgeList w]
  constructor
  · rintro ⟨_, h⟩
    cases hc : D.edges.get? (a, b) with
    | none => simp [hc] at h
    | some d => simp [hc] at h; exact ⟨d, hc, h⟩
  · rintro ⟨d, hd, ht⟩
    exact ⟨Dict.mem_keys_of_get? hd, by simp [hd, ht]⟩

theorem trailEdges_length_ne {D : Diagram R} (w : WF D) :
    D.trailEdges.length ≠ 0 ↔ ∃ a b, IsTrail D a b := by
  constructor
  · intro h
    obtain ⟨⟨a, b⟩, t, ht⟩ := List.exists_cons_of_length_pos (Nat.pos_of_ne_zero h)
    exact ⟨a, b, (mem_trailEdges w).1 (by rw [ht]; simp)⟩
  · rintro ⟨a, b, h⟩ hl
    have := (mem_trailEdges w).2 h
    rw [List.length_eq_zero_iff.1 hl] at this
    simp at this

theorem mem_supportNodes {D : Diagram R} {n : Int} :
    n ∈ D.supportNodes ↔ typeOf D n = some .support := by
  unfold supportNodes
  rw [List.mem_filter]
  constructor
  · rintro ⟨_, h⟩; simpa [typeOf] using h
  · intro h; exact ⟨typeOf_isSome_mem h, by simpa [typeOf] using h⟩

theorem supportNodes_length_ne {D : Diagram R} :
    D.supportNodes.length ≠ 0 ↔ ∃ n, typeOf D n = some .support := by
  constructor
  · intro h
    obtain ⟨n, t, ht⟩ := List.exists_cons_of_length_pos (Nat.pos_of_ne_zero h)
    exact ⟨n, mem_supportNodes.1 (by rw [ht]; simp)⟩
  · rintro ⟨n, h⟩ hl
    have := mem_supportNodes.2 h
    rw [List.length_eq_zero_iff.1 hl] at this
    simp at this

theorem unassigned_length_eq {s : BuildState R} :
    (unassigned s).length = 0 ↔ ∀ n ∈ s.D.nodes.keys, n ∈ s.inTrails := by
  unfold unassigned
  rw [List.length_eq_zero_iff, List.filter_eq_nil_iff]
  simp

theorem buildTrails_ok_iff {D : Diagram R} {s : BuildState R} (h : D.searchTrails = some s) :
    D.buildTrails.2 = .ok () ↔ s.D.trailEdges.length ≠ 0 ∧ s.D.supportNodes.length ≠ 0 ∧
      (unassigned s).length = 0 := by
  unfold buildTrails
  simp only [h]
  split_ifs <;> simp_all

theorem buildTrails_ok {D : Diagram R} (h : D.buildTrails.2 = .ok ()) :
    ∃ s, D.searchTrails = some s ∧ D.buildTrails.1 = { s.D with trails := s.trails } ∧
      s.D.trailEdges.length ≠ 0 ∧ s.D.supportNodes.length ≠ 0 ∧ (unassigned s).length = 0 := by
  cases hs : D.searchTrails with
  | none => simp [buildTrails, hs] at h
  | some s =>
    obtain ⟨h1, h2, h3⟩ := (buildTrails_ok_iff hs).1 h
    refine ⟨s, rfl, ?_, h1, h2, h3⟩
    unfold buildTrails
    simp only [hs]
    rw [if_neg h1, if_neg h2, if_neg (by simpa using h3)]

end Diagram
end CEM
