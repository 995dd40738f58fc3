import Verif.Lemmas.Cast

/-!
# Properties C20 to C25: form finding returns and the form is in equilibrium
-/

set_option linter.unusedSectionVars false

namespace CEM
namespace Props
open Diagram Spec TrailEx

local instance eqSqrt : PySqrt ℚ := ⟨id⟩

/-! ## Examples -/

namespace EqEx

def load (n : Int) (q : Vec ℚ) : Op ℚ := .addLoad (.key n) q

/-- Calls that make the trails `0-1-2` and `4-3` joined by the deviation edge `(0, 4)`,
with loads. -/
def directOps : List (Op ℚ) :=
  nodes 5 ++ [trail 0 1, trail 2 1, sup 2, trail 3 4, sup 3, dev 0 4,
    load 0 ⟨0, 0, -1⟩, load 1 ⟨0, 1, -2⟩, load 4 ⟨1, 1, 1⟩]

/-- The same with the indirect deviation edge `(1, 4)`. -/
def indirectOps : List (Op ℚ) := directOps ++ [dev 1 4]

def directQ : Diagram ℚ := after key (directOps ++ [.buildTrails])
def indirectQ : Diagram ℚ := after key (indirectOps ++ [.buildTrails])

/-- Trails joined by a direct deviation edge. -/
noncomputable def direct : Diagram ℝ := directQ.real
/-- Trails joined by a direct and an indirect deviation edge. -/
noncomputable def indirect : Diagram ℝ := indirectQ.real

theorem valid_directQ : ValidInput directQ :=
  validInput_of_history key directOps
    (RegularCheck.regular (WF.after _ _) (by decide +kernel)) (by decide +kernel)

theorem valid_indirectQ : ValidInput indirectQ :=
  validInput_of_history key indirectOps
    (RegularCheck.regular (WF.after _ _) (by decide +kernel)) (by decide +kernel)

theorem valid_direct : ValidInput direct := validInput_real valid_directQ
theorem valid_indirect : ValidInput indirect := validInput_real valid_indirectQ

theorem directOnly_direct : DirectOnly direct :=
  map_directOnly (DirectCheck.direct (D := directQ) (by decide +kernel))

theorem nonzero_direct : NonzeroTrails direct :=
  NonzeroCheck.nonzero (D := directQ) (by decide +kernel)

theorem nonzero_indirect : NonzeroTrails indirect :=
  NonzeroCheck.nonzero (D := indirectQ) (by decide +kernel)

/-- The indirect example does have an indirect deviation edge. -/
example : ¬ DirectCheck indirectQ ∧ indirectQ.edges.keys = [(0, 1), (2, 1), (3, 4), (0, 4), (1, 4)] ∧
    indirectQ.trails = [(0, [0, 1, 2]), (4, [4, 3])] := by decide +kernel

end EqEx
open EqEx

/-! ## C20 -/

/-- Diagrams made through the API whose trails `build_trails` found are valid input of
form finding, and remain so under shifts to non-negative sequences. -/
theorem C20_valid_of_history {R : Type} [Field R] [DecidableEq R] [PySqrt R]
    (gkey : Vec R → String) (ops : List (Op R)) (g : Regular (after gkey ops))
    (h : (after gkey ops).buildTrails.2 = .ok ()) (ss : List (Int × Int))
    (hs : ∀ p ∈ ss, 0 ≤ p.2) :
    ValidInput (after gkey (ops ++ [.buildTrails] ++ ss.map fun p => .shiftTrail p.1 p.2)) := by
  have hrun : ∀ (ss : List (Int × Int)) (D : Diagram R), (∀ p ∈ ss, 0 ≤ p.2) → ValidInput D →
      ValidInput (run gkey D (ss.map fun p => .shiftTrail p.1 p.2)) := by
    intro ss
    induction ss with
    | nil => intro D _ I; exact I
    | cons p ss ih =>
      intro D hp I
      exact ih _ (fun q hq => hp q (List.mem_cons_of_mem _ hq))
        (I.shift p.1 p.2 (hp p List.mem_cons_self))
  have := hrun ss _ hs (validInput_of_history gkey ops g h)
  unfold after run at this ⊢
  rw [List.foldl_append]
  exact this

example : Regular (after key indirectOps) ∧ (after key indirectOps).buildTrails.2 = .ok () :=
  ⟨RegularCheck.regular (WF.after _ _) (by decide +kernel), by decide +kernel⟩

/-- C20. On a valid diagram form finding returns a form or raises the `ValueError` for
missing convergence, nothing else; over any ordered field with any square root. -/
theorem C20_only_residual_error {R : Type} [Field R] [LinearOrder R] [PySqrt R] {D : Diagram R}
    (I : ValidInput D) {tmax : Nat} (ht : 1 ≤ tmax) (eta : R) :
    (∃ F, staticEquilibrium D none tmax eta false = .ok F) ∨
    (2 ≤ tmax ∧ staticEquilibrium D none tmax eta false = .error .valueError) := by
  obtain ⟨L, _, _, h1, h2⟩ := equilibriumState_cases I (kmax := none) (by simp) tmax eta false
  unfold staticEquilibrium
  rcases Nat.lt_or_ge tmax 2 with hlt | hge
  · rw [h1 (by omega)]
    exact Or.inl ⟨_, rfl⟩
  · obtain ⟨m, _, _, _, _, hr⟩ := h2 hge
    rw [hr]
    split_ifs
    · exact Or.inr ⟨hge, rfl⟩
    · exact Or.inl ⟨_, rfl⟩

example : ValidInput indirect ∧ ValidInput (indirectQ) := ⟨valid_indirect, valid_indirectQ⟩

/-- C20. Without indirect deviation edges it always returns. -/
theorem C20_returns_without_indirect {D : Diagram ℝ} (I : ValidInput D) (hd : DirectOnly D)
    {tmax : Nat} (ht : 1 ≤ tmax) {eta : ℝ} (he : 0 ≤ eta) :
    ∃ F, staticEquilibrium D none tmax eta false = .ok F := by
  obtain ⟨L, G, _, h1, h2⟩ := equilibriumState_cases I (kmax := none) (by simp) tmax eta false
  unfold staticEquilibrium
  rcases Nat.lt_or_ge tmax 2 with hlt | hge
  · rw [h1 (by omega)]; exact ⟨_, rfl⟩
  · obtain ⟨m, hm, _, _, _, hr⟩ := h2 hge
    obtain ⟨m, rfl⟩ : ∃ k, m = k + 2 := ⟨m - 2, by omega⟩
    have := residual_direct I hd G m
    rw [hr, if_neg]
    · exact ⟨_, rfl⟩
    · rw [show m + 2 - 1 = m + 1 by omega, this]; exact not_lt.2 he

example : ∃ F, staticEquilibrium direct none 100 0 false = .ok F :=
  C20_returns_without_indirect valid_direct directOnly_direct (by norm_num) le_rfl

/-! ## C21 -/

/-- C21. Nodal equilibrium up to the convergence threshold. -/
theorem C21_nodal_equilibrium {D : Diagram ℝ} (I : ValidInput D) (hl : NonzeroTrails D)
    {tmax : Nat} (ht : 2 ≤ tmax) {eta : ℝ} {verbose : Bool} {F : Diagram ℝ}
    (h : staticEquilibrium D none tmax eta verbose = .ok F) :
    ∀ n ∈ F.nodes.keys, Vec.length (imbalance F n) ≤ nodalBound F eta n := by
  obtain ⟨ind, p, s, r, Q, rfl, S, h2⟩ := returned_final I (by simp) h
  obtain ⟨rfl, hres⟩ := h2 ht
  intro n hn
  rw [nodalBound_eq I S]
  refine length_imbalance_le I hl S hres ?_
  rwa [show (formOf D s).nodes.keys = D.nodes.keys from formNodes_keys _ _] at hn

example : ∃ eta F, staticEquilibrium indirect none 100 eta false = .ok F ∧
    ∀ n ∈ F.nodes.keys, Vec.length (imbalance F n) ≤ nodalBound F eta n := by
  obtain ⟨eta, F, h⟩ := exists_returned valid_indirect 100 (by norm_num)
  exact ⟨eta, F, h, C21_nodal_equilibrium valid_indirect nonzero_indirect (by norm_num) h⟩

/-! ## C22 -/

/-- C22. Exact nodal equilibrium without indirect deviation edges. -/
theorem C22_exact_equilibrium {D : Diagram ℝ} (I : ValidInput D) (hl : NonzeroTrails D)
    (hd : DirectOnly D) {tmax : Nat} {eta : ℝ} {verbose : Bool} {F : Diagram ℝ}
    (h : staticEquilibrium D none tmax eta verbose = .ok F) :
    ∀ n ∈ F.nodes.keys, imbalance F n = 0 := by
  obtain ⟨ind, p, s, r, Q, rfl, S, _⟩ := returned_final I (by simp) h
  intro n hn
  rw [show (formOf D s).nodes.keys = D.nodes.keys from formNodes_keys _ _] at hn
  rw [imbalance_eq I hl S hn, indNbrs_direct hd]
  simp [devSum]

example : ∃ F, staticEquilibrium direct none 1 0 false = .ok F ∧
    ∀ n ∈ F.nodes.keys, imbalance F n = 0 := by
  obtain ⟨F, h⟩ := C20_returns_without_indirect valid_direct directOnly_direct le_rfl le_rfl
  exact ⟨F, h, C22_exact_equilibrium valid_direct nonzero_direct directOnly_direct h⟩

/-! ## C23 -/

/-- C23. Without indirect deviation edges loads and reactions balance (also with trail
edges of length zero). -/
theorem C23_global_force {D : Diagram ℝ} (I : ValidInput D)
    (hd : DirectOnly D) {tmax : Nat} {eta : ℝ} {verbose : Bool} {F : Diagram ℝ}
    (h : staticEquilibrium D none tmax eta verbose = .ok F) : totalForce F = 0 := by
  obtain ⟨ind, p, s, r, Q, rfl, S, _⟩ := returned_final I (by simp) h
  rw [← sum_imbalance_eq_total _ (WF.formUpdate (WF.form I.wf) s),
    show (formOf D s).nodes.keys = D.nodes.keys from formNodes_keys _ _,
    sum_imbalance_form I S (fun _ v => v) (fun _ _ _ => rfl)]
  apply List.sum_eq_zero
  intro x hx
  obtain ⟨n, hn, rfl⟩ := List.mem_map.1 hx
  simp [indNbrs_direct hd, devSum]

/-- C23. In general their sum is bounded by the sum of the nodal bounds. -/
theorem C23_global_force_bound {D : Diagram ℝ} (I : ValidInput D)
    {tmax : Nat} (ht : 2 ≤ tmax) {eta : ℝ} {verbose : Bool} {F : Diagram ℝ}
    (h : staticEquilibrium D none tmax eta verbose = .ok F) :
    Vec.length (totalForce F) ≤ (F.nodes.keys.map (nodalBound F eta)).sum := by
  obtain ⟨ind, p, s, r, Q, rfl, S, h2⟩ := returned_final I (by simp) h
  obtain ⟨rfl, hres⟩ := h2 ht
  rw [← sum_imbalance_eq_total _ (WF.formUpdate (WF.form I.wf) s),
    show (formOf D s).nodes.keys = D.nodes.keys from formNodes_keys _ _,
    sum_imbalance_form I S (fun _ v => v) (fun _ _ _ => rfl)]
  refine (Vec.length_list_sum_le _).trans ?_
  rw [List.map_map]
  refine List.sum_le_sum fun n hn => ?_
  rw [nodalBound_eq I S]
  exact length_indDiff_le I S hres hn

example : ∃ F, staticEquilibrium direct none 1 0 false = .ok F ∧ totalForce F = 0 := by
  obtain ⟨F, h⟩ := C20_returns_without_indirect valid_direct directOnly_direct le_rfl le_rfl
  exact ⟨F, h, C23_global_force valid_direct directOnly_direct h⟩

example : ∃ eta F, staticEquilibrium indirect none 5 eta false = .ok F ∧
    Vec.length (totalForce F) ≤ (F.nodes.keys.map (nodalBound F eta)).sum := by
  obtain ⟨eta, F, h⟩ := exists_returned valid_indirect 5 (by norm_num)
  exact ⟨eta, F, h, C23_global_force_bound valid_indirect (by norm_num) h⟩

/-! ## C24 -/

/-- C24. Without indirect deviation edges the moments of loads and reactions balance
(also with trail edges of length zero). -/
theorem C24_global_moment {D : Diagram ℝ} (I : ValidInput D)
    (hd : DirectOnly D) {tmax : Nat} {eta : ℝ} {verbose : Bool} {F : Diagram ℝ}
    (h : staticEquilibrium D none tmax eta verbose = .ok F) (c : Vec ℝ) :
    totalMoment F c = 0 := by
  obtain ⟨ind, p, s, r, Q, rfl, S, _⟩ := returned_final I (by simp) h
  rw [← sum_moment_eq_total _ (WF.formUpdate (WF.form I.wf) s),
    show (formOf D s).nodes.keys = D.nodes.keys from formNodes_keys _ _]
  simp only [posOf_form I.wf S]
  rw [sum_imbalance_form I S (fun a v => Vec.cross (a - c) v)
    (fun _ _ _ => by ext <;> simp [Vec.cross] <;> ring)]
  apply List.sum_eq_zero
  intro x hx
  obtain ⟨n, hn, rfl⟩ := List.mem_map.1 hx
  simp only [indNbrs_direct hd, devSum, List.map_nil, List.sum_nil, ite_self, sub_self]
  ext <;> simp [Vec.cross]

example : ∃ F, staticEquilibrium direct none 3 0 false = .ok F ∧ totalMoment F ⟨1, 2, 3⟩ = 0 := by
  obtain ⟨F, h⟩ := C20_returns_without_indirect valid_direct directOnly_direct
    (show 1 ≤ 3 by norm_num) le_rfl
  exact ⟨F, h, C24_global_moment valid_direct directOnly_direct h _⟩

/-! ## C25 -/

/-- A form computed from a final state. -/
def Computed {R : Type} [Field R] [LinearOrder R] [PySqrt R] (D F : Diagram R) : Prop :=
  ∃ ind p s r Q, F = formOf D s ∧ FinalSpec D none ind p s r Q

theorem computed_of_returned {R : Type} [Field R] [LinearOrder R] [PySqrt R] {D : Diagram R}
    (I : ValidInput D) {tmax : Nat} {eta : R} {verbose : Bool} {F : Diagram R}
    (h : staticEquilibrium D none tmax eta verbose = .ok F) : Computed D F := by
  obtain ⟨ind, p, s, r, Q, hF, S, _⟩ := returned_final I (by simp) h
  exact ⟨ind, p, s, r, Q, hF, S⟩

theorem computed_keeps_data {R : Type} [Field R] [LinearOrder R] [PySqrt R] {D : Diagram R}
    (I : ValidInput D) {F : Diagram R} (h : Computed D F) :
    F.nodes.keys = D.nodes.keys ∧ F.edges.keys = D.edges.keys ∧
    (∀ n d, D.nodes.get? n = some d → ∃ d', F.nodes.get? n = some d' ∧
      d'.load = d.load ∧ d'.type = d.type ∧ d'.k = d.k ∧
      ((∃ tr, (n, tr) ∈ D.trails) → d'.pos = d.pos) ∧ (d.type ≠ .support → d'.reaction = 0)) ∧
    (∀ e d, D.edges.get? e = some d → ∃ d', F.edges.get? e = some d' ∧
      d'.type = d.type ∧ d'.plane = d.plane ∧ (d.type = .deviation → d'.force = d.force)) := by
  obtain ⟨ind, p, s, r, Q, rfl, S⟩ := h
  have w := I.wf
  have V := I.trails
  refine ⟨formNodes_keys _ _, formEdges_keys _ _, ?_, ?_⟩
  · intro n d hd
    have hn := Dict.mem_keys_of_get? hd
    have hget := formOf_get? w S n
    rw [hd] at hget
    refine ⟨_, hget, rfl, rfl, rfl, ?_, ?_⟩
    · rintro ⟨tr, htr⟩
      have hstart := (S.start n ?_).1
      · rw [hstart]
        unfold EqState.pos initState
        rw [get?_map_val D.nodes (fun d => d.pos), hd]; rfl
      · intro a _ ha
        exact head_not_next w V htr a (nxtK_trail ha)
    · intro ht
      have hnx : nxtK D none n ≠ none := by
        rw [nxtK_none w V]
        intro hx
        obtain ⟨m, hm⟩ := trailNext_isSome w V hn (by unfold typeOf; rw [hd]; simp [ht])
        rw [hx] at hm
        simp at hm
      simp only [S.react n]
      rw [if_neg (fun hc => hnx hc.2)]
      exact I.reaction n d hd
  · intro e d hd
    have hget := formOf_edge S e
    rw [hd] at hget
    refine ⟨_, hget, (signedLength_type _ _ _).1,
      (signedLength_type _ _ _).2.1, ?_⟩
    intro ht
    rw [(signedLength_type _ _ _).2.2]
    obtain ⟨a, b⟩ := e
    obtain ⟨k1, _⟩ := edgeKey_of_mem I.simple (Dict.mem_keys_of_get? hd)
    have e1 : edgeData D a b = d := by unfold edgeData; rw [k1, hd]; rfl
    have := formForce_dev w V I.simple S (n := a) (m := b) (by rw [e1]; exact ht)
    unfold formForce at this
    rwa [e1, k1] at this

/-- C25. Form finding keeps the data it was given; over any ordered field. -/
theorem C25_keeps_data {R : Type} [Field R] [LinearOrder R] [PySqrt R] {D : Diagram R}
    (I : ValidInput D) {tmax : Nat} {eta : R} {verbose : Bool} {F : Diagram R}
    (h : staticEquilibrium D none tmax eta verbose = .ok F) :
    F.nodes.keys = D.nodes.keys ∧ F.edges.keys = D.edges.keys ∧
    (∀ n d, D.nodes.get? n = some d → ∃ d', F.nodes.get? n = some d' ∧
      d'.load = d.load ∧ d'.type = d.type ∧ d'.k = d.k ∧
      ((∃ tr, (n, tr) ∈ D.trails) → d'.pos = d.pos) ∧ (d.type ≠ .support → d'.reaction = 0)) ∧
    (∀ e d, D.edges.get? e = some d → ∃ d', F.edges.get? e = some d' ∧
      d'.type = d.type ∧ d'.plane = d.plane ∧ (d.type = .deviation → d'.force = d.force)) :=
  computed_keeps_data I (computed_of_returned I h)

example : ∃ F, staticEquilibrium direct none 3 0 false = .ok F ∧
    F.nodes.keys = [0, 1, 2, 3, 4] := by
  obtain ⟨F, h⟩ := C20_returns_without_indirect valid_direct directOnly_direct
    (show 1 ≤ 3 by norm_num) le_rfl
  refine ⟨F, h, (C25_keeps_data valid_direct h).1.trans (map_nodes_keys.trans ?_)⟩
  decide +kernel

end Props
end CEM
