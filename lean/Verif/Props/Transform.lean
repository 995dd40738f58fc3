import Verif.Lemmas.Simulation
import Verif.Props.Returned

/-!
# Properties C34, C35, C47 and C48: form finding and transformations

The theorems are equations between results, errors included, for every well-formed
diagram: no valid trails, no convergence needed.  The dictionary of geometric keys plays
no part in form finding and is carried along unchanged.
-/

set_option linter.unusedSectionVars false
set_option linter.unusedSimpArgs false

namespace CEM
namespace Props
open Diagram Spec TrailEx EqEx

local instance trSqrt : PySqrt ℚ := ⟨id⟩

section
variable {R : Type} [Field R] [LinearOrder R] [IsStrictOrderedRing R] [PySqrt R]

/-! ## C34 -/

/-- Translation by `v`. -/
def shiftBy (v : Vec R) : Trans R := ⟨(· + v), id, id, id, id, fun q => (q.1 + v, q.2)⟩

theorem shiftBy_good (v : Vec R) : (shiftBy v).Good where
  r_zero := rfl
  r_add _ _ := rfl
  r_neg _ := rfl
  dev f a b := by simp [shiftBy]
  norm _ := rfl
  move a l d := by simp only [shiftBy, id]; abel
  force _ _ := rfl
  eff d a r := by
    have h : ∀ o N : Vec R, planeLength (a + v) r (o + v, N) = planeLength a r (o, N) := by
      intro o N; simp [planeLength]
    unfold effectiveLength Trans.edge shiftBy
    rcases hp : d.plane with _ | ⟨o, N⟩
    · rfl
    · simp only [Option.map_some, id, h]
  dist a b := by simp [shiftBy, Vec.dist]
  l_zero := rfl
  l_add _ _ := rfl
  l_lt _ _ := Iff.rfl
  sign _ _ := rfl

/-- C34. Translating a diagram translates the form; forces, reactions and lengths stay,
and form finding fails on both or on none. -/
theorem C34_translation {D : Diagram R} (w : WF D) (v : Vec R) (kmax : Option Int) (tmax : Nat)
    (eta : R) (verbose : Bool) :
    staticEquilibrium (translate v D) kmax tmax eta verbose =
      (staticEquilibrium D kmax tmax eta verbose).map (translate v) :=
  (shiftBy_good v).staticEquilibrium w kmax tmax eta verbose

/-! ## C47 -/

omit [IsStrictOrderedRing R] in
theorem orth_length {A : Vec R → Vec R} (h : Orthogonal A) (a : Vec R) :
    Vec.length (A a) = Vec.length a := by unfold Vec.length; rw [h.dot]

omit [IsStrictOrderedRing R] in
theorem normalize_smul (a : Vec R) :
    Vec.normalize a = if Vec.length a = 0 then a else (Vec.length a)⁻¹ • a := by
  unfold Vec.normalize
  split_ifs
  · rfl
  · ext <;> simp [div_eq_inv_mul]

omit [IsStrictOrderedRing R] in
theorem orth_normalize {A : Vec R → Vec R} (h : Orthogonal A) (a : Vec R) :
    Vec.normalize (A a) = A (Vec.normalize a) := by
  rw [normalize_smul, normalize_smul, orth_length h]
  split_ifs
  · rfl
  · rw [h.smul]

omit [IsStrictOrderedRing R] in
theorem orth_sub {A : Vec R → Vec R} (h : Orthogonal A) (a b : Vec R) : A (a - b) = A a - A b := by
  have : a - b = a + (-1 : R) • b := by ext <;> simp [sub_eq_add_neg]
  rw [this, h.add, h.smul]
  ext <;> simp [sub_eq_add_neg]

/-- Rotation or reflection by `A`. -/
def turnBy (A : Vec R → Vec R) : Trans R := ⟨A, A, A, id, id, fun q => (A q.1, A q.2)⟩

theorem turnBy_good {A : Vec R → Vec R} (h : Orthogonal A) : (turnBy A).Good where
  r_zero := by
    have := h.smul 0 0
    rw [zero_smul, zero_smul] at this
    exact this
  r_add := h.add
  r_neg a := by
    have : -a = (-1 : R) • a := by ext <;> simp
    change A (-a) = -A a
    rw [this, h.smul]
    ext <;> simp
  dev f a b := by
    simp only [turnBy, id]
    rw [← orth_sub h, orth_normalize h, ← h.smul]
  norm := orth_normalize h
  move a l d := by simp only [turnBy, id]; rw [h.add, h.smul]
  force a l := by simp only [turnBy, id]; rw [orth_length h]
  eff d a r := by
    have hp : ∀ o N : Vec R, planeLength (A a) (A r) (A o, A N) = planeLength a r (o, N) := by
      intro o N
      unfold planeLength
      simp only
      rw [orth_normalize h, ← orth_sub h, h.dot, h.dot]
    unfold effectiveLength Trans.edge turnBy
    rcases hq : d.plane with _ | ⟨o, N⟩
    · rfl
    · simp only [Option.map_some, id, hp]
  dist a b := by simp only [turnBy, id, Vec.dist]; rw [← orth_sub h, orth_length h]
  l_zero := rfl
  l_add _ _ := rfl
  l_lt _ _ := Iff.rfl
  sign _ _ := rfl

/-- C47. Turning or reflecting a diagram with its loads and planes turns or reflects the
form with its reactions; forces and lengths stay. -/
theorem C47_rotation {D : Diagram R} (w : WF D) {A : Vec R → Vec R} (h : Orthogonal A)
    (kmax : Option Int) (tmax : Nat) (eta : R) (verbose : Bool) :
    staticEquilibrium (turn A D) kmax tmax eta verbose =
      (staticEquilibrium D kmax tmax eta verbose).map (turn A) :=
  (turnBy_good h).staticEquilibrium w kmax tmax eta verbose

end

/-! ## C35 -/

theorem copysign_mul {c : ℝ} (hc : 0 < c) (a b : ℝ) : copysign (c * a) b = c * copysign a b := by
  unfold copysign
  rw [abs_mul, abs_of_pos hc]
  split_ifs <;> ring

theorem copysign_mul_right {c : ℝ} (hc : 0 < c) (a b : ℝ) : copysign a (c * b) = copysign a b := by
  unfold copysign
  simp only [mul_neg_iff, hc, hc.not_gt, true_and, false_and, or_false]

/-- Multiplication of the forces by `c`. -/
noncomputable def forcesBy (c : ℝ) : Trans ℝ := ⟨id, (c • ·), id, (c * ·), id, id⟩

theorem forcesBy_good {c : ℝ} (hc : 0 < c) : (forcesBy c).Good where
  r_zero := smul_zero c
  r_add := smul_add c
  r_neg := smul_neg c
  dev f a b := by simp only [forcesBy, id, mul_smul]
  norm a := by
    simp only [forcesBy, id]
    rw [normalize_eq_unit, normalize_eq_unit, unit_smul_pos hc]
  move _ _ _ := rfl
  force a l := by
    simp only [forcesBy, id]
    rw [Vec.length_smul, abs_of_pos hc, copysign_mul hc]
  eff d a r := by
    have hp : ∀ q : Vec ℝ × Vec ℝ, planeLength a (c • r) q = planeLength a r q := by
      intro q
      unfold planeLength
      rw [normalize_eq_unit, normalize_eq_unit, unit_smul_pos hc]
    unfold effectiveLength Trans.edge forcesBy
    rcases hq : d.plane with _ | q
    · rfl
    · simp only [Option.map_some, id, hp]
  dist _ _ := rfl
  l_zero := rfl
  l_add _ _ := rfl
  l_lt _ _ := Iff.rfl
  sign a f := by simp only [forcesBy, id]; rw [copysign_mul_right hc]

/-- C35. Multiplying all loads and forces of a diagram by a positive factor multiplies the
forces and reactions of the form and leaves its geometry unchanged. -/
theorem C35_load_scaling {D : Diagram ℝ} (w : WF D) {c : ℝ} (hc : 0 < c) (kmax : Option Int)
    (tmax : Nat) (eta : ℝ) (verbose : Bool) :
    staticEquilibrium (scaleForces c D) kmax tmax eta verbose =
      (staticEquilibrium D kmax tmax eta verbose).map (scaleForces c) := by
  have h := (forcesBy_good hc).staticEquilibrium w kmax tmax eta verbose
  have hd : ∀ D : Diagram ℝ, (forcesBy c).diagram D = scaleForces c D := by
    intro D
    unfold Trans.diagram scaleForces mapVal Trans.node Trans.edge forcesBy
    simp only [Option.map_id, id_eq]
  rw [funext hd] at h
  exact h

/-! ## C48 -/

/-- Enlargement by `c`. -/
noncomputable def enlargeBy (c : ℝ) : Trans ℝ := ⟨(c • ·), id, id, id, (c * ·), fun q => (c • q.1, q.2)⟩

theorem enlargeBy_good {c : ℝ} (hc : 0 < c) : (enlargeBy c).Good where
  r_zero := rfl
  r_add _ _ := rfl
  r_neg _ := rfl
  dev f a b := by
    simp only [enlargeBy, id]
    rw [← smul_sub, normalize_eq_unit, normalize_eq_unit, unit_smul_pos hc]
  norm _ := rfl
  move a l d := by simp only [enlargeBy, id, smul_add, mul_smul]
  force a l := by simp only [enlargeBy, id]; rw [copysign_mul_right hc]
  eff d a r := by
    have hp : ∀ o N : Vec ℝ, planeLength (c • a) r (c • o, N) =
        (planeLength a r (o, N)).map (c * ·) := by
      intro o N
      unfold planeLength
      simp only
      rw [← smul_sub]
      split_ifs
      · rfl
      · simp only [Option.map_some, Option.some.injEq, Vec.dot, Vec.smul_x, Vec.smul_y, Vec.smul_z]
        ring
    unfold effectiveLength Trans.edge enlargeBy
    rcases hq : d.plane with _ | ⟨o, N⟩
    · rfl
    · simp only [Option.map_some, id, hp]
      cases planeLength a r (o, N) with
      | none => rfl
      | some l =>
        simp only [Option.map_some, mul_eq_zero, hc.ne', false_or]
        split_ifs <;> rfl
  dist a b := by
    simp only [enlargeBy, id, Vec.dist]
    rw [← smul_sub, Vec.length_smul, abs_of_pos hc]
  l_zero := mul_zero c
  l_add := mul_add c
  l_lt a b := mul_lt_mul_iff_right₀ hc
  sign a f := by simp only [enlargeBy, id]; rw [copysign_mul hc]

/-- C48. Enlarging the geometry of a diagram (with the threshold) by a positive factor
enlarges the form and leaves forces and reactions unchanged. -/
theorem C48_enlargement {D : Diagram ℝ} (w : WF D) {c : ℝ} (hc : 0 < c) (kmax : Option Int)
    (tmax : Nat) (eta : ℝ) (verbose : Bool) :
    staticEquilibrium (enlarge c D) kmax tmax (c * eta) verbose =
      (staticEquilibrium D kmax tmax eta verbose).map (enlarge c) :=
  (enlargeBy_good hc).staticEquilibrium w kmax tmax eta verbose

/-! ## Examples -/

/-- The quarter turn about the z axis. -/
noncomputable def quarter (a : Vec ℝ) : Vec ℝ := ⟨-a.y, a.x, a.z⟩

theorem quarter_orthogonal : Orthogonal quarter where
  add a b := by ext <;> simp [quarter]; ring
  smul c a := by ext <;> simp [quarter]
  dot a b := by simp [quarter, Vec.dot]; ring

/-- A diagram with an indirect deviation edge for which form finding returns; so does it
on all the transformed ones. -/
example : ∃ eta F, staticEquilibrium indirect none 7 eta false = .ok F ∧
    staticEquilibrium (translate ⟨1, 2, 3⟩ indirect) none 7 eta false =
      .ok (translate ⟨1, 2, 3⟩ F) ∧
    staticEquilibrium (scaleForces 2 indirect) none 7 eta false = .ok (scaleForces 2 F) ∧
    staticEquilibrium (turn quarter indirect) none 7 eta false = .ok (turn quarter F) ∧
    staticEquilibrium (enlarge 3 indirect) none 7 (3 * eta) false = .ok (enlarge 3 F) := by
  obtain ⟨eta, F, h⟩ := exists_returned valid_indirect 7 (by norm_num)
  have w := valid_indirect.wf
  refine ⟨eta, F, h, ?_, ?_, ?_, ?_⟩
  · rw [C34_translation w, h]; rfl
  · rw [C35_load_scaling w (by norm_num), h]; rfl
  · rw [C47_rotation w quarter_orthogonal, h]; rfl
  · rw [C48_enlargement w (by norm_num), h]; rfl

end Props
end CEM
