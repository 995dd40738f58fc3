import Verif.Props.Returned

/-!
# Property C59: the load path of a form

Maxwell's theorem: in equilibrium the load path in tension minus the load path in compression is
the work of loads and reactions.  Also a bound for the total moment in general (C24).
-/

set_option linter.unusedSectionVars false
set_option linter.unusedSimpArgs false

namespace CEM
namespace Spec

/-- Sum of force times length of all edges: the load path in tension minus the one in compression. -/
noncomputable def signedLoadPath (F : Diagram ℝ) : ℝ :=
  (F.edges.map fun p => p.2.force * Vec.dist (posOf F p.1.1) (posOf F p.1.2)).sum

/-- Sum of the scalar products of loads and reactions with the positions of their nodes seen from
the point `c`. -/
noncomputable def virial (F : Diagram ℝ) (c : Vec ℝ) : ℝ :=
  (F.nodes.keys.map fun n => Vec.dot (posOf F n - c) (loadAt F n + reactionAt F n)).sum

end Spec
namespace Props
open Diagram Spec EqEx

private theorem dot_add_right (a b c : Vec ℝ) : Vec.dot a (b + c) = Vec.dot a b + Vec.dot a c := by
  simp only [Vec.dot, Vec.add_x, Vec.add_y, Vec.add_z]; ring

private theorem list_sum_x (l : List (Vec ℝ)) : l.sum.x = (l.map (·.x)).sum := by
  induction l with
  | nil => rfl
  | cons a l ih => simp [ih]

private theorem dot_edge (a b c : Vec ℝ) (f : ℝ) :
    Vec.dot (a - c) (f • unit (b - a)) + Vec.dot (b - c) (f • unit (a - b)) =
      -(f * Vec.dist a b) := by
  have h1 : unit (a - b) = - unit (b - a) := by rw [← unit_neg, neg_sub]
  have h2 : Vec.dot (b - a) (unit (b - a)) = Vec.dist a b := by
    rw [Vec.dist, Vec.length_sub_comm]
    by_cases h : b - a = 0
    · rw [h]; simp [Vec.dot]
    · unfold unit
      have hp := Vec.length_pos h
      have : Vec.dot (b - a) ((Vec.length (b - a))⁻¹ • (b - a)) =
          (Vec.length (b - a))⁻¹ * Vec.dot (b - a) (b - a) := by
        simp only [Vec.dot, Vec.smul_x, Vec.smul_y, Vec.smul_z]; ring
      rw [this, ← Vec.length_sq]
      field_simp
  have h3 : Vec.dot (a - c) (f • unit (b - a)) + Vec.dot (b - c) (f • unit (a - b)) =
      -(f * Vec.dot (b - a) (unit (b - a))) := by
    rw [h1]
    simp only [Vec.dot, Vec.smul_x, Vec.smul_y, Vec.smul_z, Vec.sub_x, Vec.sub_y, Vec.sub_z,
      Vec.neg_x, Vec.neg_y, Vec.neg_z]
    ring
  rw [h3, h2]

/-- For every diagram: the work of the imbalances. -/
theorem virial_imbalance (F : Diagram ℝ) (w : WF F) (c : Vec ℝ) :
    (F.nodes.keys.map fun n => Vec.dot (posOf F n - c) (imbalance F n)).sum =
      virial F c - signedLoadPath F := by
  have h := sum_imbalance F w (fun n v => ⟨Vec.dot (posOf F n - c) v, 0, 0⟩)
    (fun n => by ext <;> simp [Vec.dot])
    (fun n a b => by ext <;> simp [dot_add_right])
  have hx := congrArg Vec.x h
  rw [Vec.add_x, list_sum_x, list_sum_x, list_sum_x, List.map_map, List.map_map, List.map_map] at hx
  have h1 : (F.edges.map (Vec.x ∘ fun p : (Int × Int) × EdgeData ℝ =>
      (⟨Vec.dot (posOf F p.1.1 - c) (p.2.force • unit (posOf F p.1.2 - posOf F p.1.1)), 0, 0⟩ : Vec ℝ) +
        ⟨Vec.dot (posOf F p.1.2 - c) (p.2.force • unit (posOf F p.1.1 - posOf F p.1.2)), 0, 0⟩)).sum =
      -signedLoadPath F := by
    unfold signedLoadPath
    generalize F.edges = l
    induction l with
    | nil => simp
    | cons q l ih =>
      rw [List.map_cons, List.sum_cons, ih, List.map_cons, List.sum_cons]
      have := dot_edge (posOf F q.1.1) (posOf F q.1.2) c q.2.force
      simp only [Function.comp, Vec.add_x]
      rw [this]; ring
  rw [h1] at hx
  unfold virial
  exact hx.trans (sub_eq_add_neg _ _).symm

theorem abs_dot_le (a b : Vec ℝ) : |Vec.dot a b| ≤ Vec.length a * Vec.length b := by
  rw [abs_le]
  have h1 := Vec.dot_le a b
  have h2 := Vec.dot_le (-a) b
  have h3 : Vec.dot (-a) b = -Vec.dot a b := by
    simp only [Vec.dot, Vec.neg_x, Vec.neg_y, Vec.neg_z]; ring
  rw [h3, Vec.length_neg] at h2
  exact ⟨by linarith, h1⟩

theorem length_cross_le (a b : Vec ℝ) : Vec.length (Vec.cross a b) ≤ Vec.length a * Vec.length b := by
  have h : Vec.length (Vec.cross a b) ^ 2 ≤ (Vec.length a * Vec.length b) ^ 2 := by
    have e : (Vec.length a * Vec.length b) ^ 2 = Vec.dot a a * Vec.dot b b := by
      rw [← Vec.length_sq a, ← Vec.length_sq b]; ring
    rw [sq, Vec.length_sq, e]
    have : Vec.dot a a * Vec.dot b b - Vec.dot (Vec.cross a b) (Vec.cross a b) = Vec.dot a b ^ 2 := by
      simp only [Vec.dot, Vec.cross]; ring
    nlinarith [sq_nonneg (Vec.dot a b)]
  exact le_of_sq_le_sq h (mul_nonneg (Vec.length_nonneg a) (Vec.length_nonneg b))

/-- C59. Without indirect deviation edges the load path in tension minus the one in compression is
the sum of the scalar products of loads and reactions with their positions, seen from any point
(also with trail edges of length zero). -/
theorem C59_load_path {D : Diagram ℝ} (I : ValidInput D) (hd : DirectOnly D) {tmax : Nat} {eta : ℝ}
    {verbose : Bool} {F : Diagram ℝ} (h : staticEquilibrium D none tmax eta verbose = .ok F)
    (c : Vec ℝ) : signedLoadPath F = virial F c := by
  obtain ⟨ind, p, s, r, Q, rfl, S, _⟩ := returned_final I (by simp) h
  have hv := virial_imbalance _ (WF.formUpdate (WF.form I.wf) s) c
  have hs := sum_imbalance_form I S (fun a v => ⟨Vec.dot (a - c) v, 0, 0⟩)
    (fun _ _ _ => by ext <;> simp [dot_add_right])
  have hx := congrArg Vec.x hs
  rw [list_sum_x, list_sum_x, List.map_map, List.map_map] at hx
  have h0 : (D.nodes.keys.map (Vec.x ∘ fun n => (⟨Vec.dot (s.pos n - c) (devSum D s.pos n (indNbrs D n) -
      (if ind then devSum D (Q n) n (indNbrs D n) else 0)), 0, 0⟩ : Vec ℝ))).sum = 0 := by
    apply List.sum_eq_zero
    intro x hx
    obtain ⟨n, hn, rfl⟩ := List.mem_map.1 hx
    simp only [Function.comp, indNbrs_direct hd, devSum, List.map_nil, List.sum_nil, ite_self, sub_self]
    simp [Vec.dot]
  rw [h0] at hx
  rw [show (formUpdate (formFromTopology D) s).nodes.keys = D.nodes.keys from formNodes_keys _ _] at hv
  have : (D.nodes.keys.map fun n => Vec.dot (posOf (formOf D s) n - c) (imbalance (formOf D s) n)).sum = 0 := by
    simp only [posOf_form I.wf S]
    exact hx
  have hv' := hv.symm.trans this
  exact (sub_eq_zero.1 hv').symm

/-- Absolute value of a sum. -/
private theorem abs_sum_le (l : List ℝ) : |l.sum| ≤ (l.map fun x => |x|).sum := by
  induction l with
  | nil => simp
  | cons a l ih =>
    simp only [List.map_cons, List.sum_cons]
    exact (abs_add_le _ _).trans (by linarith)

/-- C59. In general the difference is bounded by the nodal bounds times the distances from the
point. -/
theorem C59_load_path_bound {D : Diagram ℝ} (I : ValidInput D) {tmax : Nat} (ht : 2 ≤ tmax)
    {eta : ℝ} {verbose : Bool} {F : Diagram ℝ}
    (h : staticEquilibrium D none tmax eta verbose = .ok F) (c : Vec ℝ) :
    |signedLoadPath F - virial F c| ≤
      (F.nodes.keys.map fun n => Vec.dist (posOf F n) c * nodalBound F eta n).sum := by
  obtain ⟨ind, p, s, r, Q, rfl, S, h2⟩ := returned_final I (by simp) h
  obtain ⟨rfl, hres⟩ := h2 ht
  have hv := virial_imbalance _ (WF.formUpdate (WF.form I.wf) s) c
  have hs := sum_imbalance_form I S (fun a v => ⟨Vec.dot (a - c) v, 0, 0⟩)
    (fun _ _ _ => by ext <;> simp [dot_add_right])
  have hx := congrArg Vec.x hs
  rw [list_sum_x, list_sum_x, List.map_map, List.map_map] at hx
  rw [show (formUpdate (formFromTopology D) s).nodes.keys = D.nodes.keys from formNodes_keys _ _] at hv
  have hv' : virial (formOf D s) c - signedLoadPath (formOf D s) =
      (D.nodes.keys.map fun n => Vec.dot (s.pos n - c)
        (devSum D s.pos n (indNbrs D n) - devSum D (Q n) n (indNbrs D n))).sum := by
    refine hv.symm.trans (Eq.trans ?_ hx)
    congr 1
    apply List.map_congr_left
    intro n _
    have := posOf_form I.wf S n
    change Vec.dot (posOf (formOf D s) n - c) _ = Vec.dot (s.pos n - c) _
    rw [this]
  rw [abs_sub_comm, hv', show (formOf D s).nodes.keys = D.nodes.keys from formNodes_keys _ _]
  refine (abs_sum_le _).trans ?_
  rw [List.map_map]
  refine List.sum_le_sum fun n hn => ?_
  rw [nodalBound_eq I S, posOf_form I.wf S]
  exact (abs_dot_le _ _).trans
    (mul_le_mul_of_nonneg_left (length_indDiff_le I S hres hn) (Vec.length_nonneg _))

/-- C59. The load path from the attributes of the edges: the product of force and distance is the
absolute force times the signed length. -/
theorem C59_attributes {D : Diagram ℝ} (w : WF D) {kmax : Option Int} {tmax : Nat} {eta : ℝ}
    {verbose : Bool} {F : Diagram ℝ} (h : staticEquilibrium D kmax tmax eta verbose = .ok F) :
    signedLoadPath F = (F.edges.map fun p => |p.2.force| * p.2.length).sum := by
  have wF : F.edges.keys.Nodup := by
    have h' := h
    unfold staticEquilibrium at h'
    split at h'
    · simp at h'
    · simp only [Except.ok.injEq] at h'
      subst h'
      exact (WF.formUpdate (WF.form w) _).edgesNodup
  unfold signedLoadPath
  congr 1
  apply List.map_congr_left
  rintro ⟨e, d⟩ hp
  have hd : F.edges.get? e = some d := Dict.get?_of_mem wF hp
  obtain ⟨h1, h2⟩ := C29_signed_lengths w h hd
  have h0 : 0 ≤ Vec.dist (posOf F e.1) (posOf F e.2) := Vec.length_nonneg _
  rw [abs_of_nonneg h0] at h1 h2
  rcases lt_or_ge d.force 0 with hf | hf
  · simp only [h2 hf, abs_of_neg hf]; ring
  · simp only [h1 hf, abs_of_nonneg hf]

/-- C24. In general the total moment is bounded by the nodal bounds times the distances from the
point. -/
theorem C24_global_moment_bound {D : Diagram ℝ} (I : ValidInput D)
    {tmax : Nat} (ht : 2 ≤ tmax) {eta : ℝ} {verbose : Bool} {F : Diagram ℝ}
    (h : staticEquilibrium D none tmax eta verbose = .ok F) (c : Vec ℝ) :
    Vec.length (totalMoment F c) ≤
      (F.nodes.keys.map fun n => Vec.dist (posOf F n) c * nodalBound F eta n).sum := by
  obtain ⟨ind, p, s, r, Q, rfl, S, h2⟩ := returned_final I (by simp) h
  obtain ⟨rfl, hres⟩ := h2 ht
  rw [← sum_moment_eq_total _ (WF.formUpdate (WF.form I.wf) s),
    show (formOf D s).nodes.keys = D.nodes.keys from formNodes_keys _ _]
  simp only [posOf_form I.wf S]
  rw [sum_imbalance_form I S (fun a v => Vec.cross (a - c) v)
    (fun _ _ _ => by ext <;> simp [Vec.cross] <;> ring)]
  refine (Vec.length_list_sum_le _).trans ?_
  rw [List.map_map]
  refine List.sum_le_sum fun n hn => ?_
  rw [nodalBound_eq I S]
  exact (length_cross_le _ _).trans
    (mul_le_mul_of_nonneg_left (length_indDiff_le I S hres hn) (Vec.length_nonneg _))

example : ∃ F, staticEquilibrium direct none 1 0 false = .ok F ∧
    signedLoadPath F = virial F ⟨1, 2, 3⟩ ∧ signedLoadPath F = virial F 0 := by
  obtain ⟨F, h⟩ := C20_returns_without_indirect valid_direct directOnly_direct le_rfl le_rfl
  exact ⟨F, h, C59_load_path valid_direct directOnly_direct h _,
    C59_load_path valid_direct directOnly_direct h _⟩

example : ∃ eta F, staticEquilibrium indirect none 5 eta false = .ok F ∧
    |signedLoadPath F - virial F 0| ≤
      (F.nodes.keys.map fun n => Vec.dist (posOf F n) 0 * nodalBound F eta n).sum ∧
    Vec.length (totalMoment F ⟨1, 0, 0⟩) ≤
      (F.nodes.keys.map fun n => Vec.dist (posOf F n) ⟨1, 0, 0⟩ * nodalBound F eta n).sum ∧
    signedLoadPath F = (F.edges.map fun p => |p.2.force| * p.2.length).sum := by
  obtain ⟨eta, F, h⟩ := exists_returned valid_indirect 5 (by norm_num)
  exact ⟨eta, F, h, C59_load_path_bound valid_indirect (by norm_num) h _,
    C24_global_moment_bound valid_indirect (by norm_num) h _,
    C59_attributes valid_indirect.wf h⟩

end Props
end CEM
