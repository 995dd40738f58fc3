import Verif.Lemmas.Auxiliary2

/-! # The search after auxiliary trails were added covers all nodes -/

set_option linter.unusedSectionVars false
set_option linter.unusedSimpArgs false

namespace CEM
namespace Diagram
open Spec
variable {R : Type}

/-- What holds for every search on a simple graph whose supports have a trail
neighbour, without any bound on the number of trail neighbours. -/
structure VisitInv (D : Diagram R) (fuel : Nat) (done : List Int) (s : BuildState R) : Prop where
  base : SameBase D s.D
  typ : ∀ n, typeOf s.D n = typeOf D n ∨ (typeOf s.D n = some .origin ∧ n ∈ s.inTrails)
  visit : ∀ n ∈ s.inTrails, ∃ S tr, typeOf D S = some .support ∧ D.walk fuel [] S = some tr ∧
    n ∈ tr ∧ ∀ x ∈ tr, x ∈ s.inTrails
  cover : ∀ n ∈ done, typeOf D n = some .support → n ∈ s.inTrails
  left : s.inTrails ≠ [] → ∃ n, typeOf s.D n = some .support

theorem walk_two {D : Diagram R} (g : SimpleGraph D) {fuel : Nat} {S x : Int} {tr : List Int}
    (hx : TrailAdj D S x) (h : D.walk fuel [] S = some tr) : ∃ o m, tr = o :: (m ++ [S]) ∧ o ≠ S := by
  obtain ⟨hnd, hch, ⟨pre, hpre⟩, hhead⟩ :=
    walk_shape g fuel [] S tr h (by simp) (List.isChain_singleton S)
  cases pre with
  | nil =>
    exfalso
    simp only [List.nil_append] at hpre
    subst hpre
    have := hhead S rfl x hx
    simp only [List.mem_singleton] at this
    exact hx.ne g this.symm
  | cons o m =>
    refine ⟨o, m, by simpa using hpre, ?_⟩
    rintro rfl
    rw [hpre] at hnd
    simp at hnd

theorem VisitInv.init (D : Diagram R) (fuel : Nat) : VisitInv D fuel [] ⟨D, [], []⟩ :=
  ⟨SameBase.refl D, fun _ => Or.inl rfl, by simp, by simp, by simp⟩

theorem VisitInv.step {D : Diagram R} (w : WF D) (g : SimpleGraph D)
    (hs : ∀ n, typeOf D n = some .support → ∃ x, TrailAdj D n x) {fuel : Nat} {done : List Int}
    {s s' : BuildState R} (I : VisitInv D fuel done s) {n : Int}
    (ht : typeOf s.D n = some .support) (h : buildStep fuel s n = some s') :
    VisitInv D fuel (done ++ [n]) s' := by
  obtain ⟨o, tr, hw, h2, h3, h4⟩ := buildStep_trails h
  rw [walk_congr I.base.edges] at hw
  have hD : typeOf D n = some .support := by
    rcases I.typ n with e | e
    · rw [← e]; exact ht
    · rw [e.1] at ht; simp at ht
  obtain ⟨x, hx⟩ := hs n hD
  obtain ⟨o', m, hm, hon⟩ := walk_two g hx hw
  obtain ⟨rfl, rfl⟩ := List.cons.inj hm
  have hsub := walk_subset w hw (by simpa using typeOf_isSome_mem hD)
  have horig : ∀ m', typeOf s'.D m' = if m' = o then some .origin else typeOf s.D m' := by
    intro m'
    rw [h4]
    simp only [typeOf_assignSequences, typeOf_setOrigin]
    split_ifs
    · obtain ⟨t, ht⟩ := typeOf_some_of_mem (D := s.D) (n := o)
        (by rw [I.base.keys]; exact hsub o (by simp))
      simp [ht]
    · rfl
  refine ⟨I.base.trans (sameBase_buildStep h), ?_, ?_, ?_, ?_⟩
  · intro y
    rw [horig, h3]
    split_ifs with e
    · subst e; exact Or.inr ⟨rfl, by simp⟩
    · rcases I.typ y with e' | e'
      · exact Or.inl e'
      · exact Or.inr ⟨e'.1, List.mem_append_right _ e'.2⟩
  · intro y hy
    rw [h3] at hy ⊢
    rcases List.mem_append.1 hy with hy | hy
    · exact ⟨n, _, hD, hw, hy, fun z hz => List.mem_append_left _ hz⟩
    · obtain ⟨S, tr', a, b, c, d⟩ := I.visit y hy
      exact ⟨S, tr', a, b, c, fun z hz => List.mem_append_right _ (d z hz)⟩
  · intro y hy hyS
    rw [h3]
    rcases List.mem_append.1 hy with hy | hy
    · exact List.mem_append_right _ (I.cover y hy hyS)
    · simp only [List.mem_singleton] at hy; subst hy; simp
  · intro _
    exact ⟨n, by rw [horig, if_neg (Ne.symm hon)]; exact ht⟩

theorem VisitInv.loop {D : Diagram R} (w : WF D) (g : SimpleGraph D)
    (hs : ∀ n, typeOf D n = some .support → ∃ x, TrailAdj D n x) {fuel : Nat} {l done : List Int}
    {s s' : BuildState R} (I : VisitInv D fuel done s) (h : buildLoop fuel l s = some s') :
    VisitInv D fuel (done ++ l) s' := by
  induction l generalizing done s with
  | nil => simp [buildLoop] at h; subst h; simpa using I
  | cons n l ih =>
    rw [buildLoop_cons] at h
    split_ifs at h with ht
    · cases hst : buildStep fuel s n with
      | none => simp [hst] at h
      | some s1 =>
        simp only [hst, Option.bind_some] at h
        simpa using ih (I.step w g hs ht hst) h
    · have : VisitInv D fuel (done ++ [n]) s := by
        refine ⟨I.base, I.typ, I.visit, ?_, I.left⟩
        intro y hy hyS
        rcases List.mem_append.1 hy with hy | hy
        · exact I.cover y hy hyS
        · simp only [List.mem_singleton] at hy
          subst hy
          rcases I.typ y with e | e
          · rw [← e] at hyS; exact absurd hyS ht
          · exact e.2
      simpa using ih this h

theorem VisitInv.search {D : Diagram R} (w : WF D) (g : SimpleGraph D)
    (hs : ∀ n, typeOf D n = some .support → ∃ x, TrailAdj D n x) {s : BuildState R}
    (h : D.searchTrails = some s) : VisitInv D D.walkFuel D.nodes.keys s := by
  simpa using (VisitInv.init D D.walkFuel).loop w g hs h

/-- The walk from the end of a path whose nodes have no other trail neighbours is
that path. -/
theorem walk_path {D : Diagram R} (g : SimpleGraph D) {p : List Int} (hnd : p.Nodup)
    (hch : p.IsChain (TrailAdj D))
    (hc : ∀ a ∈ p, ∀ b, TrailAdj D a b → Consecutive p a b ∨ Consecutive p b a)
    {fuel : Nat} {acc : List Int} {n : Int} {rest tr : List Int} (hp : p = rest ++ n :: acc)
    (h : D.walk fuel acc n = some tr) : tr = p := by
  induction fuel generalizing acc n rest with
  | zero => simp [walk] at h
  | succ fuel ih =>
    have hn : n ∈ p := by rw [hp]; simp
    unfold walk at h
    split at h
    · rename_i hnone
      simp only [Option.some.injEq] at h
      subst h
      rcases List.eq_nil_or_concat rest with rfl | ⟨r, x, rfl⟩
      · simpa using hp.symm
      · exfalso
        have hxn : TrailAdj D x n := (isChain_iff_consecutive p).1 hch x n ⟨r, acc, by simp [hp]⟩
        have hx := nextInWalk_none hnone (adj_mem_neighbors hxn.symm) ((isTrailPair_iff g).2 hxn.symm)
        rw [hp] at hnd
        simp only [List.concat_eq_append, List.append_assoc, List.singleton_append] at hnd
        have := (List.nodup_append.1 hnd).2.1
        simp [hx] at this
    · rename_i nb hnb
      obtain ⟨hv, ht⟩ := nextInWalk_some hnb
      have hadj := isTrailPair_adj ht
      split_ifs at h with heq
      · exact absurd heq (hadj.ne g).symm
      · rcases hc n hn nb hadj with ⟨a, b, hab⟩ | ⟨a, b, hab⟩
        · exfalso
          have := (split_unique hnd hp hab).2
          rw [this] at hv
          simp at hv
        · have h1 : p = (a ++ [nb]) ++ n :: b := by simp [hab]
          obtain ⟨e1, e2⟩ := split_unique hnd hp h1
          refine ih (acc := n :: acc) (rest := a) ?_ h
          rw [hp, e1]; simp

section
variable [Field R] [DecidableEq R] [PySqrt R]
variable {D E : Diagram R} {s : BuildState R} {U : List Int}

/-- All nodes are assigned after the auxiliary trails were added, whatever trail
edges the unassigned nodes have among each other. -/
theorem Extended.success_general (w : WF D) (wE : WF E) (g : Regular D)
    (I : SearchInv D D.nodes.keys s) (h : Extended D E s U) (hne : D.nodes.keys ≠ []) :
    E.buildTrails.2 = .ok () := by
  have hfresh : ∀ {a b : Int}, Link U (D.maxNode + 1) a b → b ∉ D.nodes.keys := by
    intro a b hl hk
    have := w.le_max b hk; have := hl.lt; omega
  have hold : ∀ {a b : Int}, Link U (D.maxNode + 1) a b → a ∈ D.nodes.keys :=
    fun hl => ((h.mem _).1 hl.mem).1
  have gE : SimpleGraph E := by
    refine ⟨?_, ?_⟩
    · intro n hn
      rcases h.edge_cases hn with hn | hn
      · exact g.noLoop n hn
      · exact hfresh hn (hold hn)
    · intro a b hab hba
      rcases h.edge_cases hab with h1 | h1 <;> rcases h.edge_cases hba with h2 | h2
      · exact g.noAnti a b h1 h2
      · exact hfresh h2 (w.edge_left _ h1)
      · exact hfresh h1 (w.edge_left _ h2)
      · exact hfresh h1 (hold h2)
  have htold : ∀ {n : Int}, n ∈ D.nodes.keys → typeOf E n = typeOf s.D n := by
    intro n hn; unfold typeOf; rw [h.old I.base hn]
  have hsupD : ∀ {n : Int}, n ∈ D.nodes.keys → typeOf E n = some .support →
      typeOf D n = some .support ∧ n ∉ s.trails.keys := by
    intro n hn ht
    rw [htold hn, I.typ] at ht
    by_cases hk : n ∈ s.trails.keys
    · simp [hk] at ht
    · rw [if_neg hk] at ht; exact ⟨ht, hk⟩
  have haux : ∀ {a n}, Link U (D.maxNode + 1) a n → typeOf E n = some .support := by
    intro a n hl
    unfold typeOf
    rw [h.new w I.base hl]; rfl
  have hsE : ∀ n, typeOf E n = some .support → ∃ x, TrailAdj E n x := by
    intro n ht
    rcases h.keys_cases I.base (typeOf_isSome_mem ht) with hn | ⟨a, hl⟩
    · obtain ⟨x, hx, _⟩ := g.supportDeg n (hsupD hn ht).1
      exact ⟨x, (h.adj w wE _ _).2 (Or.inl hx)⟩
    · exact ⟨a, (h.adj w wE _ _).2 (Or.inr (Or.inr hl))⟩
  obtain ⟨s', hs'⟩ := searchTrails_terminates wE
  have J := VisitInv.search wE gE hsE hs'
  have hin : ∀ n ∈ D.nodes.keys, n ∉ U → ∃ key m S, (key, key :: (m ++ [S])) ∈ s.trails ∧
      n ∈ key :: (m ++ [S]) ∧ typeOf D S = some .support := by
    intro n hn hnU
    have : n ∈ s.inTrails := by
      by_contra hc; exact hnU ((h.mem n).2 ⟨hn, hc⟩)
    obtain ⟨⟨key, tr⟩, h1, h2⟩ := List.mem_flatMap.1 ((I.inT n).1 this)
    obtain ⟨m, S, rfl, hS⟩ := (I.good _ _ h1).shape
    exact ⟨key, m, S, h1, h2, hS⟩
  -- auxiliary nodes and their neighbours are visited
  have hK : ∀ {u a}, Link U (D.maxNode + 1) u a → a ∈ s'.inTrails ∧ u ∈ s'.inTrails := by
    intro u a hl
    have ha := J.cover a (typeOf_isSome_mem (haux hl)) (haux hl)
    refine ⟨ha, ?_⟩
    obtain ⟨S, tr, hS, hw, hmem, hall⟩ := J.visit a ha
    obtain ⟨x, hx⟩ := hsE S hS
    obtain ⟨o, m, hm, hoS⟩ := walk_two gE hx hw
    obtain ⟨hnd, hch, _, _⟩ :=
      walk_shape gE _ [] S tr hw (by simp) (List.isChain_singleton S)
    have hnb : ∀ y, TrailAdj E a y → y = u := by
      intro y hy
      rcases (h.adj w wE _ _).1 hy with hb | hb | hb
      · exact absurd (hb.mem_left w) (hfresh hl)
      · exact absurd (hold hb) (hfresh hl)
      · exact hb.left_unique hl
    have hcons := (isChain_iff_consecutive tr).1 hch
    obtain ⟨p, q, hpq⟩ := List.append_of_mem hmem
    rcases List.eq_nil_or_concat p with rfl | ⟨p', y, rfl⟩
    · cases q with
      | nil => rw [hm] at hpq; simp at hpq
      | cons y q =>
        have := hnb y (hcons a y ⟨[], q, hpq⟩)
        subst this
        exact hall _ (by rw [hpq]; simp)
    · have := hnb y (hcons y a ⟨p', q, by simp [hpq]⟩).symm
      subst this
      exact hall _ (by rw [hpq]; simp)
  have hcov : ∀ n ∈ E.nodes.keys, n ∈ s'.inTrails := by
    intro n hn
    rcases h.keys_cases I.base hn with hn | ⟨a, hl⟩
    · by_cases hnU : n ∈ U
      · obtain ⟨b, hl⟩ := exists_link (k := D.maxNode + 1) hnU
        exact (hK hl).2
      · obtain ⟨key, m, S, h1, h2, hS⟩ := hin n hn hnU
        have G := I.good _ _ h1
        set tr := key :: (m ++ [S]) with htr
        have htrin : ∀ x ∈ tr, x ∈ s.inTrails := fun x hx =>
          (I.inT x).2 (List.mem_flatMap.2 ⟨_, h1, hx⟩)
        have hadj : ∀ a ∈ tr, ∀ b, TrailAdj E a b → TrailAdj D a b := by
          intro a ha b hab
          rcases (h.adj w wE _ _).1 hab with hb | hb | hb
          · exact hb
          · exact absurd (htrin a ha) ((h.mem a).1 hb.mem).2
          · exact absurd (G.subset w a ha) (hfresh hb)
        have hSE : typeOf E S = some .support := by
          rw [htold (typeOf_isSome_mem hS)]; exact I.last_support h1 hS
        have hSin := J.cover S (typeOf_isSome_mem hSE) hSE
        obtain ⟨S', tr', hS', hw', hmem', hall'⟩ := J.visit S hSin
        obtain ⟨hnd', hch', ⟨pre, hpre⟩, _⟩ :=
          walk_shape gE _ [] S' tr' hw' (by simp) (List.isChain_singleton S')
        have hsub' : ∀ y ∈ tr', y ∈ tr :=
          closed_of_chain (C := (· ∈ tr)) (r := TrailAdj E) (fun _ _ h => h.symm)
            (fun a b ha hab => G.closed ha (hadj a ha b hab)) hch' ⟨S, hmem', by simp [htr]⟩
        have hS'tr : S' ∈ tr := hsub' S' (by rw [hpre]; simp)
        -- the only remaining support of this trail is its last node
        have hS'S : S' = S := by
          obtain ⟨hSD, hnk⟩ := hsupD (G.subset w S' hS'tr) hS'
          obtain ⟨x0, _, hu⟩ := g.supportDeg S' hSD
          have hcons := (isChain_iff_consecutive tr).1 G.chain
          obtain ⟨p, q, hpq⟩ := List.append_of_mem hS'tr
          rcases List.eq_nil_or_concat p with rfl | ⟨p', x, rfl⟩
          · exfalso
            rw [htr] at hpq
            simp only [List.nil_append, List.cons.injEq] at hpq
            exact hnk (hpq.1 ▸ Dict.mem_keys_iff.2 ⟨_, h1⟩)
          · cases q with
            | nil =>
              have e1 : tr.getLast? = some S' := by rw [hpq]; simp
              have e2 : tr.getLast? = some S := by rw [htr, List.getLast?_cons]; simp
              rw [e1] at e2; simpa using e2
            | cons y q =>
              exfalso
              have hx : TrailAdj D S' x := (hcons x S' ⟨p', y :: q, by simp [hpq]⟩).symm
              have hy : TrailAdj D S' y := hcons S' y ⟨p' ++ [x], q, by simp [hpq]⟩
              have : x = y := (hu _ hx).trans (hu _ hy).symm
              subst this
              have := G.nodup
              rw [hpq] at this
              simp [List.nodup_append] at this
        subst hS'S
        have : tr' = tr := by
          refine walk_path gE G.nodup ?_ ?_ (rest := key :: m) (by simp [htr]) hw'
          · rw [isChain_iff_consecutive]
            intro a b hab
            exact (h.adj w wE _ _).2 (Or.inl ((isChain_iff_consecutive tr).1 G.chain a b hab))
          · intro a ha b hab
            exact G.complete a ha b (hadj a ha b hab)
        exact hall' n (by rw [this]; exact h2)
    · exact (hK hl).1
  rw [buildTrails_ok_iff hs', trailEdges_length_ne (wE.of_sameBase J.base), supportNodes_length_ne,
    unassigned_length_eq, J.base.keys]
  obtain ⟨n, hn⟩ := List.exists_mem_of_ne_nil _ hne
  have hnE : n ∈ E.nodes.keys := by
    rw [h.nodes, keys_append, I.base.keys]; exact List.mem_append_left _ hn
  refine ⟨?_, J.left (List.ne_nil_of_mem (hcov n hnE)), hcov⟩
  obtain ⟨S, tr, hS, _⟩ := J.visit n (hcov n hnE)
  obtain ⟨x, hx⟩ := hsE S hS
  rcases hx with hx | hx
  · exact ⟨_, _, by simpa [IsTrail, J.base.edges] using hx⟩
  · exact ⟨_, _, by simpa [IsTrail, J.base.edges] using hx⟩

end
end Diagram
end CEM
