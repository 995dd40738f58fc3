import Verif.Lemmas.Unique
import Verif.Lemmas.Statics

/-!
# The form returned by the solver
-/

set_option linter.unusedSectionVars false
set_option linter.unusedSimpArgs false

namespace CEM
open Diagram Spec

section
variable {R : Type} [Field R] [LinearOrder R] [PySqrt R]

/-- A returned form comes from the last of some iterates. -/
theorem returned {D : Diagram R} (I : ValidInput D) {kmax : Option Int}
    (hk : ∀ k, kmax = some k → 0 ≤ k) {tmax : Nat} {eta : R} {verbose : Bool} {F : Diagram R}
    (h : staticEquilibrium D kmax tmax eta verbose = .ok F) :
    ∃ L m, GoodSched D kmax L ∧ F = formOf D (iter D kmax L (m + 1)) ∧ m + 1 ≤ tmax ∧
      (2 ≤ tmax → 1 ≤ m ∧
        residualDistance (iter D kmax L m).xyz (iter D kmax L (m + 1)).xyz ≤ eta) := by
  obtain ⟨L, G, h0, h1, h2⟩ := equilibriumState_cases I hk tmax eta verbose
  unfold staticEquilibrium at h
  rcases Nat.lt_or_ge tmax 2 with hlt | hge
  · rcases Nat.eq_zero_or_pos tmax with hz | hz
    · rw [h0 hz] at h; simp at h
    · have ht : tmax = 1 := by omega
      rw [h1 ht] at h
      cases verbose with
      | true => simp at h
      | false =>
        simp only [Bool.false_eq_true, if_false, Except.ok.injEq] at h
        exact ⟨L, 0, G, h.symm, by omega, by omega⟩
  · obtain ⟨m, hm2, hmle, _, _, hres⟩ := h2 hge
    rw [hres] at h
    split_ifs at h with hc
    · simp only [Except.ok.injEq] at h
      obtain ⟨m, rfl⟩ : ∃ k, m = k + 1 := ⟨m - 1, by omega⟩
      exact ⟨L, m, G, h.symm, hmle, fun _ => ⟨by omega, not_lt.1 hc⟩⟩

theorem returned_final {D : Diagram R} (I : ValidInput D) {kmax : Option Int}
    (hk : ∀ k, kmax = some k → 0 ≤ k) {tmax : Nat} {eta : R} {verbose : Bool} {F : Diagram R}
    (h : staticEquilibrium D kmax tmax eta verbose = .ok F) :
    ∃ ind p s r Q, F = formOf D s ∧ FinalSpec D kmax ind p s r Q ∧
      (2 ≤ tmax → ind = true ∧ residualDistance p.xyz s.xyz ≤ eta) := by
  obtain ⟨L, m, G, hF, _, h2⟩ := returned I hk h
  obtain ⟨r, Q, S⟩ := finalSpec I.wf I.trails G m
  refine ⟨_, _, _, r, Q, hF, S, fun ht => ?_⟩
  obtain ⟨h3, h4⟩ := h2 ht
  exact ⟨by simpa using Nat.ne_of_gt h3, h4⟩

/-- The first node of a trail follows no other node. -/
theorem head_not_next {D : Diagram R} (w : WF D) (V : ValidTrails D) {n : Int} {tr : List Int}
    (h : (n, tr) ∈ D.trails) (a : Int) : trailNext D a ≠ some n := by
  intro ha
  obtain ⟨key, tr', h', p, q, hpq⟩ := (trailNext_iff w V).1 ha
  obtain ⟨rest, rfl⟩ := V.head n tr h
  have he := V.unique w h h' List.mem_cons_self (by rw [hpq]; simp)
  obtain ⟨rfl, rfl⟩ := Prod.mk.inj he
  have hnd := V.trail_nodup w h
  cases p with
  | nil =>
    obtain ⟨rfl, rfl⟩ := List.cons.inj hpq
    simp at hnd
  | cons x p =>
    obtain ⟨rfl, rfl⟩ := List.cons.inj hpq
    simp at hnd

theorem signedLength_type (nodes : Dict Int (NodeData R)) (e : Int × Int) (d : EdgeData R) :
    (signedLength nodes e d).type = d.type ∧ (signedLength nodes e d).plane = d.plane ∧
    (signedLength nodes e d).force = d.force := by
  unfold signedLength
  split <;> exact ⟨rfl, rfl, rfl⟩

end

/-- The bound in terms of neighbours is the bound in terms of the form's edges. -/
theorem nodalBound_eq {D : Diagram ℝ} (I : ValidInput D) {kmax : Option Int} {ind : Bool}
    {p s : EqState ℝ} {r : Int → Vec ℝ} {Q : Int → Int → Vec ℝ}
    (S : FinalSpec D kmax ind p s r Q) (eta : ℝ) (n : Int) :
    nodalBound (formOf D s) eta n = ((indNbrs D n).map fun m => |(edgeData D n m).force| *
        slack eta (Vec.length (s.pos m - s.pos n))).sum := by
  have w := I.wf
  have g := I.simple
  unfold indNbrs
  have hfil : ∀ (l : List Int) (c : Int → Prop) [DecidablePred c] (f : Int → ℝ),
      ((l.filter fun m => decide (c m)).map f).sum = (l.map fun m => if c m then f m else 0).sum := by
    intro l c _ f
    induction l with
    | nil => rfl
    | cons a l ih => by_cases h : c a <;> simp [List.filter_cons, h, ih]
  rw [hfil, sum_neighbors w g]
  have hk : (formOf D s).edges.keys = D.edges.keys := formEdges_keys _ _
  rw [← hk]
  unfold Dict.keys nodalBound
  rw [List.map_map]
  congr 1
  apply List.map_congr_left
  rintro ⟨⟨a, b⟩, d⟩ hm
  have hnd : (formOf D s).edges.keys.Nodup := by rw [hk]; exact w.edgesNodup
  have hget := Dict.get?_of_mem hnd hm
  rw [formOf_edge S] at hget
  cases hd : D.edges.get? (a, b) with
  | none => rw [hd] at hget; simp at hget
  | some d0 =>
    rw [hd] at hget
    have hdd := (Option.some.inj hget).symm
    have hty : d.type = d0.type := by rw [hdd]; exact (signedLength_type _ _ _).1
    have hforce : d.force = (s.trailForces.get? (a, b)).getD d0.force := by
      rw [hdd]; exact (signedLength_type _ _ _).2.2
    have hmem := Dict.mem_keys_of_get? hd
    obtain ⟨k1, k2⟩ := edgeKey_of_mem g hmem
    have e1 : edgeData D a b = d0 := by unfold edgeData; rw [k1, hd]; rfl
    have e2 : edgeData D b a = d0 := by unfold edgeData; rw [k2, hd]; rfl
    have hf : d0.type = .deviation → d.force = d0.force := by
      intro ht
      have := formForce_dev w I.trails g S (n := a) (m := b) (by rw [e1]; exact ht)
      unfold formForce at this
      rw [e1, k1] at this
      rw [hforce, this]
    have hab : a ≠ b := by rintro rfl; exact g.noLoop _ hmem
    simp only [Function.comp, posOf_form w S, (seqOf_form w S _).1, hty]
    by_cases ht : d0.type = .deviation
    · rw [hf ht]
      by_cases h1 : a = n
      · subst h1
        have h2 : b ≠ a := fun h => hab h.symm
        simp [h2, e1, ht]
      · by_cases h2 : b = n
        · subst h2
          simp only [h1, or_true, true_and, if_false, if_true, zero_add, e2, ht, ne_eq]
          rw [Vec.length_sub_comm]
          by_cases hs : seqOf D a = seqOf D b
          · simp [hs]
          · have : ¬ seqOf D b = seqOf D a := fun h => hs h.symm
            simp [hs, this]
        · simp [h1, h2]
    · by_cases h1 : a = n
      · subst h1
        have h2 : b ≠ a := fun h => hab h.symm
        simp [h2, e1, ht]
      · by_cases h2 : b = n
        · subst h2; simp [h1, e2, ht]
        · simp [h1, h2]

/-- Without indirect deviation edges one sweep is enough. -/
theorem iter_direct {R : Type} [Field R] [LinearOrder R] [PySqrt R] {D : Diagram R}
    (I : ValidInput D) (hd : DirectOnly D) {kmax : Option Int}
    {L L' : List Int} (G : GoodSched D kmax L) (G' : GoodSched D kmax L') (m m' : Nat) {n : Int}
    (hn : n ∈ D.nodes.keys) :
    (iter D kmax L (m + 1)).pos n = (iter D kmax L' (m' + 1)).pos n := by
  obtain ⟨r, Q, S⟩ := finalSpec I.wf I.trails G m
  obtain ⟨r', Q', S'⟩ := finalSpec I.wf I.trails G' m'
  have hsame : SameProblem D D :=
    ⟨fun _ => rfl, fun _ _ _ => rfl, fun _ => Iff.rfl, fun _ => Iff.rfl,
      fun _ _ _ h h' => by rw [h] at h'; rw [Option.some.inj h'],
      fun _ _ _ h h' _ => by rw [h] at h'; rw [Option.some.inj h']; exact ⟨rfl, rfl⟩,
      fun _ _ _ h h' _ => by rw [h] at h'; rw [Option.some.inj h']⟩
  refine (solves_unique hsame I.simple I.wf I.trails I.wf I.trails (S.solves hd) (S'.solves hd)
    ?_ n hn).1
  intro a _ ha
  obtain ⟨h1, h2⟩ := S.start a ha
  obtain ⟨h3, h4⟩ := S'.start a ha
  exact ⟨h1.trans h3.symm, h2.trans h4.symm⟩

theorem residual_direct {D : Diagram ℝ} (I : ValidInput D) (hd : DirectOnly D) {kmax : Option Int}
    {L : List Int} (G : GoodSched D kmax L) (m : Nat) :
    residualDistance (iter D kmax L (m + 1)).xyz (iter D kmax L (m + 2)).xyz = 0 := by
  rw [residualDistance_eq]
  apply List.sum_eq_zero
  intro x hx
  obtain ⟨⟨n, v⟩, hm, rfl⟩ := List.mem_map.1 hx
  have g2 := goodState_iter I.wf I.trails kmax L (m + 2)
  have hk : n ∈ (iter D kmax L (m + 2)).xyz.keys := List.mem_map.2 ⟨_, hm, rfl⟩
  have hget := Dict.get?_of_mem (by rw [g2.1]; exact I.wf.nodesNodup) hm
  have := iter_direct I hd G G m (m + 1) (by rw [← g2.1]; exact hk)
  have hp : (iter D kmax L (m + 2)).pos n = v := by unfold EqState.pos; rw [hget]; rfl
  rw [hp] at this
  unfold EqState.pos at this
  simp only
  rw [this]
  unfold Vec.dist
  rw [sub_self, Vec.length_zero]

end CEM
