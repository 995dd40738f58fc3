import Verif.Lemmas.CoordinatesPenalty
import Verif.Props.Transform
import Verif.Props.EndToEnd
import Verif.Props.Small

/-!
# Property C84: optimization does not depend on coordinates and units

The problem is described in another coordinate system (moved, turned or reflected) or in other
units (of force, of length).  The numpy solver, the objective and `solve` then give what they gave
before, in the new coordinates; errors and NaN included.
-/

set_option linter.unusedSectionVars false
set_option linter.unusedSimpArgs false

namespace CEM
namespace Props
open Diagram Spec

section
variable {R : Type} [Field R] [LinearOrder R] [IsStrictOrderedRing R] [PySqrt R]

/-! ## Motions -/

omit [IsStrictOrderedRing R] in
theorem normalizeNumpy_smul (a : Vec R) : normalizeNumpy (some a) =
    if Vec.length a = 0 then none else some ((Vec.length a)⁻¹ • a) := by
  unfold normalizeNumpy
  simp only
  split_ifs
  · rfl
  · congr 1
    ext <;> simp [div_eq_inv_mul]

omit [IsStrictOrderedRing R] in
theorem shiftBy_ngood (v : Vec R) : (shiftBy v).NGood id where
  r_zero := rfl
  r_add _ _ := rfl
  r_neg _ := rfl
  dev f a b := by simp [shiftBy]
  dir a := by simp [shiftBy]
  move a l d := by simp only [shiftBy, id]; abel
  force a l := by simp [shiftBy]
  eff l q a r := by
    have h : ∀ a r o N, npPlaneLength (Option.map (· + v) a) r (o + v, N) = npPlaneLength a r (o, N) := by
      intro a r o N
      unfold npPlaneLength
      cases a <;> simp
    unfold npEffectiveLength shiftBy
    rcases q with _ | ⟨o, N⟩
    · rfl
    · simp [h]
  dist a b := by simp [shiftBy]
  g_zero := rfl
  g_add _ _ := rfl
  g_sqrt _ := rfl
  l_lt _ _ := Iff.rfl

omit [IsStrictOrderedRing R] in
theorem orth_normalizeNumpy {A : Vec R → Vec R} (h : Orthogonal A) (a : Vec R) :
    normalizeNumpy (some (A a)) = (normalizeNumpy (some a)).map A := by
  rw [normalizeNumpy_smul, normalizeNumpy_smul, orth_length h]
  split_ifs
  · rfl
  · rw [Option.map_some, h.smul]

theorem turnBy_ngood {A : Vec R → Vec R} (h : Orthogonal A) : (turnBy A).NGood id where
  r_zero := (turnBy_good h).r_zero
  r_add := (turnBy_good h).r_add
  r_neg := (turnBy_good h).r_neg
  dev f a b := by
    simp only [turnBy, id]
    rw [← orth_sub h, orth_normalizeNumpy h, Option.map_map]
    congr 1
    funext v
    exact (h.smul f v).symm
  dir a := by
    unfold npDirection
    simp only [turnBy]
    rw [orth_normalizeNumpy h]
    cases normalizeNumpy (some a) <;> rfl
  move := (turnBy_good h).move
  force a l := by
    unfold npTrailForce
    simp [turnBy, orth_length h]
  eff l q a r := by
    have hp : ∀ a r o N, npPlaneLength (Option.map A a) (Option.map A r) (A o, A N) = npPlaneLength a r (o, N) := by
      intro a r o N
      unfold npPlaneLength
      cases r with
      | none => rfl
      | some r =>
        rw [Option.map_some, orth_normalizeNumpy h]
        cases normalizeNumpy (some r) with
        | none => rfl
        | some u =>
          simp only [Option.map_some, h.dot]
          cases a with
          | none => rfl
          | some a => simp only [Option.map_some, ← orth_sub h, h.dot]
    unfold npEffectiveLength turnBy
    rcases q with _ | ⟨o, N⟩
    · rfl
    · simp [hp]
  dist a b := by simp only [turnBy, id]; rw [← orth_sub h, h.dot]
  g_zero := rfl
  g_add _ _ := rfl
  g_sqrt _ := rfl
  l_lt _ _ := Iff.rfl

theorem shiftBy_keeps (v : Vec R) : (shiftBy v).Keeps 1 1 where
  kp_ne := one_ne_zero
  kf_ne := one_ne_zero
  kp_lt a b := by rw [one_mul, one_mul]
  p_sq a b := by simp [shiftBy, distSq]
  r_sq a b := by simp [shiftBy]
  f_sq a b := by simp [shiftBy]
  l_sq a b := by simp [shiftBy]
  u_sq a b := rfl
  line p a b := by simp only [shiftBy, closestOnLine, add_sub_add_right_eq_sub]; abel
  plane p a n := by
    have hd : ∀ m : Vec R, Vec.dot m (p + v) - Vec.dot m (a + v) = Vec.dot m p - Vec.dot m a := by
      intro m; simp [Vec.dot]; ring
    simp only [shiftBy, id, closestOnPlane, hd]
    split_ifs
    · rfl
    · rw [Option.map_some]
      congr 1
      abel
  dist a b := by simp [shiftBy, Vec.dist]
  l_lt _ _ := Iff.rfl
  direction a b := by simp [shiftBy]
  align t r := by simp [shiftBy]

theorem turnBy_keeps {A : Vec R → Vec R} (h : Orthogonal A) : (turnBy A).Keeps 1 1 where
  kp_ne := one_ne_zero
  kf_ne := one_ne_zero
  kp_lt a b := by rw [one_mul, one_mul]
  p_sq a b := by simp only [turnBy, distSq, one_mul]; rw [← orth_sub h, h.dot]
  r_sq a b := by simp only [turnBy, distSq, one_mul]; rw [← orth_sub h, h.dot]
  f_sq a b := by simp [turnBy]
  l_sq a b := by simp [turnBy]
  u_sq a b := by simp only [turnBy, distSq]; rw [← orth_sub h, h.dot]
  line p a b := by
    change closestOnLine (A p) (A a) (A b) = A (closestOnLine p a b)
    unfold closestOnLine vectorComponent
    rw [← orth_sub h, ← orth_sub h, h.dot, h.dot, h.add]
    split_ifs
    · have : A 0 = 0 := (turnBy_good h).r_zero
      rw [this]
    · rw [h.smul]
  plane p a n := by
    change closestOnPlane (A p) (A a) (A n) = (closestOnPlane p a n).map A
    unfold closestOnPlane
    simp only
    rw [orth_normalize h, h.dot, h.dot, h.dot]
    split_ifs
    · rfl
    · rw [Option.map_some, orth_sub h, h.smul]
  dist a b := (turnBy_good h).dist a b
  l_lt _ _ := Iff.rfl
  direction a b := by
    change (if PySqrt.sqrt (Vec.dot (A a - A b) (A a - A b)) = 0 then none
      else some ((1 / PySqrt.sqrt (Vec.dot (A a - A b) (A a - A b))) • (A a - A b)) : NVec R) =
      (if PySqrt.sqrt (Vec.dot (a - b) (a - b)) = 0 then none
      else some ((1 / PySqrt.sqrt (Vec.dot (a - b) (a - b))) • (a - b)) : NVec R).map A
    rw [← orth_sub h, h.dot]
    split_ifs
    · rfl
    · rw [Option.map_some, h.smul]
  align t r := by
    change alignedTarget (A t) (r.map A) = A (alignedTarget t r)
    unfold alignedTarget
    rw [orth_normalize h]
    cases r with
    | none => rfl
    | some r =>
      simp only [Option.map_some]
      rw [h.dot]
      split_ifs
      · rw [h.smul]
      · rfl

omit [LinearOrder R] [IsStrictOrderedRing R] [PySqrt R] in
theorem move_constraint (v : Vec R) (con : Constraint R) :
    (shiftBy v).constraint 1 1 con = moveConstraint v con := by
  cases con <;> simp [Trans.constraint, shiftBy, moveConstraint]

omit [LinearOrder R] [IsStrictOrderedRing R] [PySqrt R] in
theorem turn_constraint (A : Vec R → Vec R) (con : Constraint R) :
    (turnBy A).constraint 1 1 con = turnConstraint A con := by
  cases con <;> simp [Trans.constraint, turnBy, turnConstraint]

end

/-! ## Units -/

theorem normalizeNumpy_scale {c : ℝ} (hc : 0 < c) (a : Vec ℝ) :
    normalizeNumpy (some (c • a)) = normalizeNumpy (some a) := by
  rw [normalizeNumpy_smul, normalizeNumpy_smul, Vec.length_smul, abs_of_pos hc]
  simp only [mul_eq_zero, hc.ne', false_or]
  split_ifs
  · rfl
  · rw [smul_smul, mul_inv, mul_right_comm, inv_mul_cancel₀ hc.ne', one_mul]

theorem dot_scale (c : ℝ) (a : Vec ℝ) : Vec.dot (c • a) (c • a) = c * c * Vec.dot a a := by
  simp [Vec.dot]; ring

theorem sqrt_scale {c : ℝ} (hc : 0 < c) (a : ℝ) : (PySqrt.sqrt (c * c * a) : ℝ) = c * PySqrt.sqrt a := by
  change Real.sqrt _ = c * Real.sqrt a
  rw [Real.sqrt_mul (mul_self_nonneg c), Real.sqrt_mul_self hc.le]

theorem scale_neg {c : ℝ} (hc : 0 < c) (a : ℝ) : c * a < 0 ↔ a < 0 := by
  have := mul_lt_mul_iff_right₀ hc (b := a) (c := 0)
  rwa [mul_zero] at this

theorem forcesBy_ngood {c : ℝ} (hc : 0 < c) : (forcesBy c).NGood id where
  r_zero := smul_zero c
  r_add := smul_add c
  r_neg := smul_neg c
  dev f a b := by simp only [forcesBy, id, mul_smul]
  dir a := by
    unfold npDirection
    simp only [forcesBy, Option.map_id, id]
    rw [normalizeNumpy_scale hc]
    cases h : normalizeNumpy (some a) with
    | some u => rfl
    | none =>
      simp only
      rw [normalizeNumpy_smul] at h
      split_ifs at h with h0
      have : a = 0 := Vec.length_eq_zero.1 h0
      rw [this, smul_zero]
  move _ _ _ := rfl
  force a l := by
    unfold npTrailForce
    simp only [forcesBy, Option.map_id, id, Option.map_some, Vec.length_smul, abs_of_pos hc]
    cases l with
    | none => rfl
    | some l =>
      simp only [mul_assoc, scale_neg hc]
      split_ifs <;> rfl
  eff l q a r := by
    have hp : ∀ q, npPlaneLength a (Option.map (c • ·) r) q = npPlaneLength a r q := by
      intro q
      unfold npPlaneLength
      cases r with
      | none => rfl
      | some r => rw [Option.map_some, normalizeNumpy_scale hc]
    unfold npEffectiveLength forcesBy
    rcases q with _ | q
    · rfl
    · simp [hp]
  dist _ _ := rfl
  g_zero := rfl
  g_add _ _ := rfl
  g_sqrt _ := rfl
  l_lt _ _ := Iff.rfl

theorem enlargeBy_ngood {c : ℝ} (hc : 0 < c) : (enlargeBy c).NGood (c * c * ·) where
  r_zero := rfl
  r_add _ _ := rfl
  r_neg _ := rfl
  dev f a b := by
    simp only [enlargeBy, id]
    rw [← smul_sub, normalizeNumpy_scale hc]
  dir a := by simp [enlargeBy]
  move a l d := by simp only [enlargeBy, id, smul_add, mul_smul]
  force a l := by
    unfold npTrailForce
    simp only [enlargeBy, Option.map_id, id, Option.map_some]
    cases l with
    | none => rfl
    | some l =>
      simp only [Option.map_some, mul_left_comm (Vec.length a) c l]
      simp only [scale_neg hc]
  eff l q a r := by
    have hp : ∀ a r o N, npPlaneLength (Option.map (c • ·) a) r (c • o, N) =
        (npPlaneLength a r (o, N)).map (Option.map (c * ·)) := by
      intro a r o N
      unfold npPlaneLength
      cases normalizeNumpy r with
      | none => rfl
      | some u =>
        simp only
        split_ifs
        · rfl
        · cases a with
          | none => rfl
          | some a =>
            simp only [Option.map_some]
            rw [← smul_sub]
            congr 2
            simp [Vec.dot]; ring
    unfold npEffectiveLength enlargeBy
    rcases q with _ | ⟨o, N⟩
    · rfl
    · simp only [Option.map_some, Option.map_id, id, hp]
      cases npPlaneLength a r (o, N) with
      | none => rfl
      | some l' => cases l' with
        | none => rfl
        | some l' =>
          simp only [Option.map_some, mul_eq_zero, hc.ne', false_or]
          split_ifs <;> rfl
  dist a b := by simp only [enlargeBy]; rw [← smul_sub, dot_scale]
  g_zero := mul_zero _
  g_add := mul_add _
  g_sqrt := sqrt_scale hc
  l_lt a b := mul_lt_mul_iff_right₀ hc

theorem forcesBy_keeps {c : ℝ} (hc : 0 < c) : (forcesBy c).Keeps 1 (c * c) where
  kp_ne := one_ne_zero
  kf_ne := (mul_pos hc hc).ne'
  kp_lt a b := by rw [one_mul, one_mul]
  p_sq a b := by simp [forcesBy]
  r_sq a b := by simp only [forcesBy, distSq]; rw [← smul_sub, dot_scale]
  f_sq a b := by simp only [forcesBy]; ring
  l_sq a b := by simp [forcesBy]
  u_sq _ _ := rfl
  line _ _ _ := rfl
  plane p a n := by simp [forcesBy]
  dist _ _ := rfl
  l_lt _ _ := Iff.rfl
  direction a b := by simp [forcesBy]
  align t r := by simp [forcesBy]

theorem enlargeBy_keeps {c : ℝ} (hc : 0 < c) : (enlargeBy c).Keeps (c * c) 1 where
  kp_ne := (mul_pos hc hc).ne'
  kf_ne := one_ne_zero
  kp_lt a b := mul_lt_mul_iff_right₀ (mul_pos hc hc)
  p_sq a b := by simp only [enlargeBy, distSq]; rw [← smul_sub, dot_scale]
  r_sq a b := by simp [enlargeBy]
  f_sq a b := by simp [enlargeBy]
  l_sq a b := by simp only [enlargeBy]; ring
  u_sq _ _ := rfl
  line p a b := by
    change closestOnLine (c • p) (c • a) (c • b) = c • closestOnLine p a b
    unfold closestOnLine vectorComponent
    rw [← smul_sub, ← smul_sub, dot_scale]
    have hd : Vec.dot (c • (p - a)) (c • (b - a)) = c * c * Vec.dot (p - a) (b - a) := by
      simp [Vec.dot]; ring
    simp only [mul_eq_zero, hc.ne', false_or]
    split_ifs
    · rw [add_zero, add_zero]
    · rw [hd, mul_div_mul_left _ _ (mul_pos hc hc).ne', smul_add, smul_comm]
  plane p a n := by
    change closestOnPlane (c • p) (c • a) n = (closestOnPlane p a n).map (c • ·)
    unfold closestOnPlane
    simp only
    split_ifs
    · rfl
    · rw [Option.map_some, smul_sub, smul_smul]
      congr 3
      simp [Vec.dot]; ring
  dist a b := (enlargeBy_good hc).dist a b
  l_lt a b := mul_lt_mul_iff_right₀ hc
  direction a b := by
    change (if PySqrt.sqrt (Vec.dot (c • a - c • b) (c • a - c • b)) = 0 then none
      else some ((1 / PySqrt.sqrt (Vec.dot (c • a - c • b) (c • a - c • b))) • (c • a - c • b)) : NVec ℝ) =
      (if PySqrt.sqrt (Vec.dot (a - b) (a - b)) = 0 then none
      else some ((1 / PySqrt.sqrt (Vec.dot (a - b) (a - b))) • (a - b)) : NVec ℝ).map id
    rw [Option.map_id, id, ← smul_sub, dot_scale, sqrt_scale hc]
    simp only [mul_eq_zero, hc.ne', false_or]
    split_ifs
    · rfl
    · rw [smul_smul, one_div, mul_inv, mul_right_comm, inv_mul_cancel₀ hc.ne', one_mul, one_div]
  align t r := by simp [enlargeBy]

theorem force_constraint (c : ℝ) (con : Constraint ℝ) :
    (forcesBy c).constraint 1 (c * c) con = forceConstraint c con := by
  cases con <;> simp [Trans.constraint, forcesBy, forceConstraint]

theorem length_constraint (c : ℝ) (con : Constraint ℝ) :
    (enlargeBy c).constraint (c * c) 1 con = lengthConstraint c con := by
  cases con <;> simp [Trans.constraint, enlargeBy, lengthConstraint]

/-! ## Parameters -/

section
variable {R : Type} [Field R] [LinearOrder R] [IsStrictOrderedRing R] [PySqrt R]

theorem shift_fits (v : Vec R) (s : Slot) : Fits (shiftBy v) (shiftSlot v) s := by
  rcases s with ⟨n, a⟩ | ⟨e, a⟩ <;> cases a <;> intro d w <;>
    refine ⟨?_, rfl⟩ <;> simp only [NodeAttr.set, EdgeAttr.set, Trans.node, Trans.edge, shiftBy, shiftSlot, id] <;> rfl

theorem turn_fits (A : Vec R → Vec R) (e : Int × Int) (a : EdgeAttr) :
    Fits (turnBy A) (fun _ w => w) (.edge e a) := by
  cases a <;> exact fun d w => ⟨rfl, rfl⟩

theorem shift_rewrites {o : Optimizer R} {h : List (RegOp (Param R))} (hh : HasHistory o h) (v : Vec R) :
    Rewrites (shiftBy v) (shiftSlot v) (fun _ w => w) (fun _ w => w) (moveConstraint v) o where
  nodup := hh.nodup
  nonneg := hh.nonneg
  fits q _ := shift_fits v q.2.slot
  low s v w := by
    rcases s with ⟨n, a⟩ | ⟨e, a⟩ <;> cases a <;> simp only [shiftSlot] <;> ring
  up s v w := by
    rcases s with ⟨n, a⟩ | ⟨e, a⟩ <;> cases a <;> simp only [shiftSlot] <;> ring
  solver := ⟨_, shiftBy_ngood v⟩
  penalty con s := by rw [← move_constraint]; exact (shiftBy_keeps v).penalty con s

theorem turn_rewrites {o : Optimizer R} {h : List (RegOp (Param R))} (hh : HasHistory o h)
    (he : ∀ q ∈ o.parameters, ∃ e a, q.2.slot = .edge e a) {A : Vec R → Vec R} (hA : Orthogonal A) :
    Rewrites (turnBy A) (fun _ w => w) (fun _ w => w) (fun _ w => w) (turnConstraint A) o where
  nodup := hh.nodup
  nonneg := hh.nonneg
  fits q hq := by
    obtain ⟨e, a, hs⟩ := he q hq
    rw [hs]
    exact turn_fits A e a
  low _ _ _ := rfl
  up _ _ _ := rfl
  solver := ⟨_, turnBy_ngood hA⟩
  penalty con s := by rw [← turn_constraint]; exact (turnBy_keeps hA).penalty con s

omit [Field R] [LinearOrder R] [IsStrictOrderedRing R] [PySqrt R] in
theorem rewrite_same (c : Constraint R → Constraint R) (o : Optimizer R) :
    rewriteOptimizer (fun _ w => w) c o = reconstrain c o := by
  unfold rewriteOptimizer reconstrain
  simp

omit [Field R] [LinearOrder R] [IsStrictOrderedRing R] [PySqrt R] in
theorem along_same (S : Nat → Option Slot) : along (fun _ (w : R) => w) S = id := by
  funext x
  exact along_id _ (fun _ _ _ _ => rfl) x

omit [Field R] [LinearOrder R] [IsStrictOrderedRing R] [PySqrt R] in
theorem along_same_num (S : Nat → Option Slot) :
    along (fun _ => Option.map fun (w : R) => w) S = (id : List (Num R) → List (Num R)) := by
  funext x
  exact along_id _ (fun _ _ v _ => by cases v <;> rfl) x

omit [Field R] [LinearOrder R] [IsStrictOrderedRing R] [PySqrt R] in
theorem sameChoices_refl (r : Run R) : SameChoices id id r r := by
  induction r with
  | eval x grad next ih => exact .eval x grad next next ih
  | done x v n c => exact .done x v n c
  | roundoff v n c => exact .roundoff v n c
  | raised err => exact .raised err

omit [Field R] [LinearOrder R] [IsStrictOrderedRing R] [PySqrt R] in
theorem rewriteProblem_same (S : Nat → Option Slot) (P : Problem R) : rewriteProblem (fun _ w => w) S P = P := by
  unfold rewriteProblem
  have h : along (fun _ (q : WithBot R × WithTop R) =>
      (q.1.map fun w => w, q.2.map fun w => w)) S P.bounds = P.bounds := by
    refine along_id _ (fun _ _ q _ => ?_) _
    exact Prod.ext (by cases q.1 <;> rfl) (by cases q.2 <;> rfl)
  rw [h, along_same]
  rfl

/-! ## C84 -/

/-- **C84, numpy solver, motions.** -/
theorem C84_state_motions (D : Diagram R) (tmax : Nat) (eta : R) (verbose : Bool) (v : Vec R)
    {A : Vec R → Vec R} (hA : Orthogonal A) :
    npEquilibriumState (translate v D) tmax eta verbose =
      (npEquilibriumState D tmax eta verbose).map (rewriteState (· + v) id id id) ∧
    npEquilibriumState (turn A D) tmax eta verbose =
      (npEquilibriumState D tmax eta verbose).map (rewriteState A A A id) :=
  ⟨(shiftBy_ngood v).equilibrium D tmax eta verbose, (turnBy_ngood hA).equilibrium D tmax eta verbose⟩

/-- **C84, objective, motions.**  The value of the objective does not change when the problem is
moved, nor, if the parameters belong to edges, when it is turned. -/
theorem C84_objective_motions {o : Optimizer R} {h : List (RegOp (Param R))} (hh : HasHistory o h) (tmax : Nat)
    (eta : R) (D : Diagram R) (x : List R) :
    (∀ v, (reconstrain (moveConstraint v) o).optimizeForm tmax eta (translate v D)
        (along (shiftSlot v) (slotsOf o.parameters) x) =
      (translate v (o.optimizeForm tmax eta D x).1, (o.optimizeForm tmax eta D x).2)) ∧
    ∀ A, Orthogonal A → (∀ q ∈ o.parameters, ∃ e a, q.2.slot = .edge e a) →
      (reconstrain (turnConstraint A) o).optimizeForm tmax eta (turn A D) x =
        (turn A (o.optimizeForm tmax eta D x).1, (o.optimizeForm tmax eta D x).2) := by
  refine ⟨fun v => ?_, fun A hA he => ?_⟩
  · have := (shift_rewrites hh v).objective tmax eta D x
    rw [rewrite_same] at this
    exact this
  · have := (turn_rewrites hh he hA).objective tmax eta D x
    rw [rewrite_same, along_same] at this
    exact this

/-- **C84, `solve`, translation.**  A numerical solver that makes the same choices in the moved
problem ends in the same way, with the same values and gradients; the form is moved. -/
theorem C84_solve_translation {o : Optimizer R} {h : List (RegOp (Param R))} (hh : HasHistory o h)
    {D : Diagram R} (w : WF D) (v : Vec R) {nlopt nlopt' : Problem R → Run R} {ad ad' : GradFunc R}
    {a : SolveArgs R}
    (hn : ∀ P, SameChoices (along (shiftSlot v) (slotsOf o.parameters)) id (nlopt P)
      (nlopt' (rewriteProblem (shiftSlot v) (slotsOf o.parameters) P)))
    (had : a.grad = "AD" → ∀ C x, ad' (translate v C) (along (shiftSlot v) (slotsOf o.parameters) x) =
      (translate v (ad C x).1, (ad C x).2))
    (hlen : a.grad = "AD" → ∀ C x g, (ad C x).2 = .ok g → g.length = x.length) (old : Attrs R) (tol : R) :
    (reconstrain (moveConstraint v) o).solve
        (rewriteAttrs (along (shiftSlot v) (slotsOf o.parameters)) id old) nlopt' ad' tol a (translate v D) =
      rewriteSolved (translate v) (along (shiftSlot v) (slotsOf o.parameters)) id
        (o.solve old nlopt ad tol a D) := by
  have H := shift_rewrites hh v
  have hgr := H.gradient (ad := ad) (ad' := ad') (a := a)
    (fun ha C x => by
      rw [along_same_num]
      refine (had ha C x).trans ?_
      congr 1
      cases (ad C x).2 <;> rfl) hlen
    (fun _ i s _ => ⟨fun b k => by
      rcases s with ⟨n, a⟩ | ⟨e, a⟩ <;> cases a <;> simp only [shiftSlot] <;> ring, fun _ => rfl⟩)
  have := H.solve (shiftBy_good v) w hgr (nlopt := nlopt) (nlopt' := nlopt')
    (fun P => by rw [along_same_num]; exact hn P) old tol
  rw [rewrite_same, along_same_num] at this
  exact this

/-- **C84, `solve`, rotation and reflection.**  If the parameters belong to edges, `solve` on the
turned problem evaluates the same points, sees the same values and gradients and reports the same
numbers, with the same numerical solver; the form is turned. -/
theorem C84_solve_rotation {o : Optimizer R} {h : List (RegOp (Param R))} (hh : HasHistory o h)
    (he : ∀ q ∈ o.parameters, ∃ e a, q.2.slot = .edge e a) {D : Diagram R} (w : WF D)
    {A : Vec R → Vec R} (hA : Orthogonal A) (nlopt : Problem R → Run R) {ad ad' : GradFunc R} {a : SolveArgs R}
    (had : a.grad = "AD" → ∀ C x, ad' (turn A C) x = (turn A (ad C x).1, (ad C x).2))
    (hlen : a.grad = "AD" → ∀ C x g, (ad C x).2 = .ok g → g.length = x.length) (old : Attrs R) (tol : R) :
    (reconstrain (turnConstraint A) o).solve old nlopt ad' tol a (turn A D) =
      { o.solve old nlopt ad tol a D with
        topology := turn A (o.solve old nlopt ad tol a D).topology
        form := (o.solve old nlopt ad tol a D).form.map (turn A) } := by
  have H := turn_rewrites hh he hA
  have hgr := H.gradient (ad := ad) (ad' := ad') (a := a)
    (fun ha C x => by
      rw [along_same_num, along_same]
      refine (had ha C x).trans ?_
      congr 1
      cases (ad C x).2 <;> rfl) hlen (fun _ i s _ => ⟨fun _ _ => rfl, fun _ => rfl⟩)
  have := H.solve (turnBy_good hA) w hgr (nlopt := nlopt) (nlopt' := nlopt)
    (fun P => by rw [along_same_num, along_same, rewriteProblem_same]; exact sameChoices_refl _) old tol
  rw [rewrite_same, along_same_num, along_same] at this
  have ho : rewriteAttrs id id old = old := by
    cases old; simp [rewriteAttrs]
  rw [ho] at this
  refine this.trans ?_
  generalize o.solve old nlopt ad tol a D = s
  obtain ⟨t, at', ps, en, f⟩ := s
  have hat : rewriteAttrs id id at' = at' := by cases at'; simp [rewriteAttrs]
  have hen : en.map (rewriteEnded id) = en := by
    cases en with
    | none => rfl
    | some e => cases e <;> rfl
  simp only [rewriteSolved, hat, hen, List.map_id]
  rfl

end

/-! Units. -/

theorem force_fits (c : ℝ) (s : Slot) : Fits (forcesBy c) (forceSlot c) s := by
  rcases s with ⟨n, a⟩ | ⟨e, a⟩ <;> cases a <;> intro d w <;>
    refine ⟨?_, rfl⟩ <;> simp [NodeAttr.set, EdgeAttr.set, Trans.node, Trans.edge, forcesBy, forceSlot, IsForce] <;> rfl

theorem length_fits (c : ℝ) (s : Slot) : Fits (enlargeBy c) (lengthSlot c) s := by
  rcases s with ⟨n, a⟩ | ⟨e, a⟩ <;> cases a <;> intro d w <;>
    refine ⟨?_, rfl⟩ <;> simp [NodeAttr.set, EdgeAttr.set, Trans.node, Trans.edge, enlargeBy, lengthSlot, IsForce] <;> rfl

theorem force_rewrites {o : Optimizer ℝ} {h : List (RegOp (Param ℝ))} (hh : HasHistory o h) {c : ℝ} (hc : 0 < c) :
    Rewrites (forcesBy c) (forceSlot c) (forceSlot c) (forceRate c) (forceConstraint c) o where
  nodup := hh.nodup
  nonneg := hh.nonneg
  fits q _ := force_fits c q.2.slot
  low s v w := by
    unfold forceSlot
    split_ifs
    · rw [abs_mul, abs_of_pos hc]; ring
    · rfl
  up s v w := by
    unfold forceSlot
    split_ifs
    · rw [abs_mul, abs_of_pos hc]; ring
    · rfl
  solver := ⟨_, forcesBy_ngood hc⟩
  penalty con s := by rw [← force_constraint]; exact (forcesBy_keeps hc).penalty con s

theorem length_rewrites {o : Optimizer ℝ} {h : List (RegOp (Param ℝ))} (hh : HasHistory o h) {c : ℝ} (hc : 0 < c) :
    Rewrites (enlargeBy c) (lengthSlot c) (lengthSlot c) (lengthRate c) (lengthConstraint c) o where
  nodup := hh.nodup
  nonneg := hh.nonneg
  fits q _ := length_fits c q.2.slot
  low s v w := by
    unfold lengthSlot
    split_ifs
    · rfl
    · rw [abs_mul, abs_of_pos hc]; ring
  up s v w := by
    unfold lengthSlot
    split_ifs
    · rfl
    · rw [abs_mul, abs_of_pos hc]; ring
  solver := ⟨_, enlargeBy_ngood hc⟩
  penalty con s := by rw [← length_constraint]; exact (enlargeBy_keeps hc).penalty con s

theorem forcesBy_diagram (c : ℝ) : (forcesBy c).diagram = scaleForces c := by
  funext D
  unfold Trans.diagram scaleForces mapVal Trans.node Trans.edge forcesBy
  simp only [Option.map_id, id_eq]

/-- **C84, numpy solver, units.** -/
theorem C84_state_units (D : Diagram ℝ) (tmax : Nat) (eta : ℝ) (verbose : Bool) {c : ℝ} (hc : 0 < c) :
    npEquilibriumState (scaleForces c D) tmax eta verbose =
      (npEquilibriumState D tmax eta verbose).map (rewriteState id (c • ·) id (c * ·)) ∧
    npEquilibriumState (enlarge c D) tmax (c * eta) verbose =
      (npEquilibriumState D tmax eta verbose).map (rewriteState (c • ·) id id id) := by
  refine ⟨?_, (enlargeBy_ngood hc).equilibrium D tmax eta verbose⟩
  rw [← forcesBy_diagram]
  exact (forcesBy_ngood hc).equilibrium D tmax eta verbose

/-- **C84, objective, units.**  The value of the objective does not change with the units of force
and length, if the weights make up for the squares. -/
theorem C84_objective_units {o : Optimizer ℝ} {h : List (RegOp (Param ℝ))} (hh : HasHistory o h) (tmax : Nat)
    (eta : ℝ) (D : Diagram ℝ) (x : List ℝ) {c : ℝ} (hc : 0 < c) :
    (rewriteOptimizer (forceSlot c) (forceConstraint c) o).optimizeForm tmax eta (scaleForces c D)
        (along (forceSlot c) (slotsOf o.parameters) x) =
      (scaleForces c (o.optimizeForm tmax eta D x).1, (o.optimizeForm tmax eta D x).2) ∧
    (rewriteOptimizer (lengthSlot c) (lengthConstraint c) o).optimizeForm tmax (c * eta) (enlarge c D)
        (along (lengthSlot c) (slotsOf o.parameters) x) =
      (enlarge c (o.optimizeForm tmax eta D x).1, (o.optimizeForm tmax eta D x).2) := by
  refine ⟨?_, (length_rewrites hh hc).objective tmax eta D x⟩
  rw [← forcesBy_diagram]
  exact (force_rewrites hh hc).objective tmax eta D x

/-- **C84, `solve`, unit of force.**  With finite differences the step is not converted by the code,
so then the parameters must not be forces. -/
theorem C84_solve_forces {o : Optimizer ℝ} {h : List (RegOp (Param ℝ))} (hh : HasHistory o h)
    {D : Diagram ℝ} (w : WF D) {c : ℝ} (hc : 0 < c) {nlopt nlopt' : Problem ℝ → Run ℝ} {ad ad' : GradFunc ℝ}
    {a : SolveArgs ℝ}
    (hn : ∀ P, SameChoices (along (forceSlot c) (slotsOf o.parameters))
      (along (fun s => Option.map (forceRate c s)) (slotsOf o.parameters)) (nlopt P)
      (nlopt' (rewriteProblem (forceSlot c) (slotsOf o.parameters) P)))
    (had : a.grad = "AD" → ∀ C x, ad' (scaleForces c C) (along (forceSlot c) (slotsOf o.parameters) x) =
      (scaleForces c (ad C x).1, (ad C x).2.map
        (along (fun s => Option.map (forceRate c s)) (slotsOf o.parameters))))
    (hlen : a.grad = "AD" → ∀ C x g, (ad C x).2 = .ok g → g.length = x.length)
    (hfd : a.grad ≠ "AD" → ∀ q ∈ o.parameters, IsForce q.2.slot = false) (old : Attrs ℝ) (tol : ℝ) :
    (rewriteOptimizer (forceSlot c) (forceConstraint c) o).solve
        (rewriteAttrs (along (forceSlot c) (slotsOf o.parameters))
          (along (fun s => Option.map (forceRate c s)) (slotsOf o.parameters)) old) nlopt' ad' tol a
        (scaleForces c D) =
      rewriteSolved (scaleForces c) (along (forceSlot c) (slotsOf o.parameters))
        (along (fun s => Option.map (forceRate c s)) (slotsOf o.parameters)) (o.solve old nlopt ad tol a D) := by
  have H := force_rewrites hh hc
  rw [← forcesBy_diagram] at had ⊢
  have hgr := H.gradient (ad := ad) (ad' := ad') (a := a) had hlen
    (fun ha i s hs => by
      obtain ⟨q, hq, rfl⟩ := slotsOf_some hs
      simp [forceSlot, forceRate, hfd ha q hq])
  exact H.solve (forcesBy_good hc) w hgr hn old tol

/-- **C84, `solve`, unit of length.**  The thresholds are lengths, too: `eta`, and `tol`, the
constant with which the code computes the returned form. -/
theorem C84_solve_lengths {o : Optimizer ℝ} {h : List (RegOp (Param ℝ))} (hh : HasHistory o h)
    {D : Diagram ℝ} (w : WF D) {c : ℝ} (hc : 0 < c) {nlopt nlopt' : Problem ℝ → Run ℝ} {ad ad' : GradFunc ℝ}
    {a : SolveArgs ℝ}
    (hn : ∀ P, SameChoices (along (lengthSlot c) (slotsOf o.parameters))
      (along (fun s => Option.map (lengthRate c s)) (slotsOf o.parameters)) (nlopt P)
      (nlopt' (rewriteProblem (lengthSlot c) (slotsOf o.parameters) P)))
    (had : a.grad = "AD" → ∀ C x, ad' (enlarge c C) (along (lengthSlot c) (slotsOf o.parameters) x) =
      (enlarge c (ad C x).1, (ad C x).2.map
        (along (fun s => Option.map (lengthRate c s)) (slotsOf o.parameters))))
    (hlen : a.grad = "AD" → ∀ C x g, (ad C x).2 = .ok g → g.length = x.length)
    (hfd : a.grad ≠ "AD" → ∀ q ∈ o.parameters, IsForce q.2.slot = true) (old : Attrs ℝ) (tol : ℝ) :
    (rewriteOptimizer (lengthSlot c) (lengthConstraint c) o).solve
        (rewriteAttrs (along (lengthSlot c) (slotsOf o.parameters))
          (along (fun s => Option.map (lengthRate c s)) (slotsOf o.parameters)) old) nlopt' ad' (c * tol)
        { a with eta := c * a.eta } (enlarge c D) =
      rewriteSolved (enlarge c) (along (lengthSlot c) (slotsOf o.parameters))
        (along (fun s => Option.map (lengthRate c s)) (slotsOf o.parameters)) (o.solve old nlopt ad tol a D) := by
  have H := length_rewrites hh hc
  have hgr := H.gradient (ad := ad) (ad' := ad') (a := a) had hlen
    (fun ha i s hs => by
      obtain ⟨q, hq, rfl⟩ := slotsOf_some hs
      simp [lengthSlot, lengthRate, hfd ha q hq])
  exact H.solve (enlargeBy_good hc) w hgr hn old tol

/-- **C84, fixed thresholds.**  The code does not convert its thresholds.  With any of them there
are two descriptions of one problem, in different units of length, of which form finding accepts
one and raises an error for the other. -/
theorem C84_unit_matters : ∃ D : Diagram ℝ, ValidInput D ∧ ∀ tol : ℝ, 0 < tol → ∃ c1 c2 : ℝ, 0 < c1 ∧ 0 < c2 ∧
    (∃ F, staticEquilibrium (enlarge c1 D) none 100 tol false = .ok F) ∧
    staticEquilibrium (enlarge c2 D) none 100 tol false = .error .valueError := by
  obtain ⟨D, _, E, hD, _, _, _, _, hE, h⟩ := C69_large
  have hv := validInput_same hE hD
  refine ⟨E, hv, fun tol ht => ?_⟩
  obtain ⟨eta, F, hF⟩ := exists_returned hv 100 (by norm_num)
  have h4 : 4 ≤ eta := by
    by_contra hlt
    rw [h 100 eta false (by norm_num) (not_le.1 hlt)] at hF
    cases hF
  have h0 : 0 < eta := by linarith
  refine ⟨tol / eta, tol, div_pos ht h0, ht, ⟨enlarge (tol / eta) F, ?_⟩, ?_⟩
  · have := C48_enlargement hv.wf (div_pos ht h0) none 100 eta false
    rw [div_mul_cancel₀ _ h0.ne', hF] at this
    exact this
  · have := C48_enlargement hv.wf ht none 100 1 false
    rw [mul_one, h 100 1 false (by norm_num) (by norm_num)] at this
    exact this

/-! ## Examples -/

section
open SolveEx MeetsEx EqEx

theorem opt_slots (x : ℝ) (g : Slot → ℝ → ℝ) :
    along g (slotsOf opt.parameters) [x] = [g (.node 0 .x) x] := by
  rw [opt_parameters]; rfl

/-- The gradient of the moved objective. -/
noncomputable def movedGradient (v : Vec ℝ) : GradFunc ℝ := fun C x =>
  (C, .ok ((along (shiftSlot (-v)) (slotsOf opt.parameters) x).map fun t => some (2 * (t + 1))))

theorem shift_back (v : Vec ℝ) (S : Nat → Option Slot) (x : List ℝ) :
    along (shiftSlot (-v)) S (along (shiftSlot v) S x) = x := by
  refine List.ext_getElem? fun i => ?_
  rw [along_get?, along_get?]
  cases hs : S i with
  | none => simp
  | some s =>
    rcases s with ⟨n, a⟩ | ⟨e, a⟩ <;> cases a <;> simp [shiftSlot, Function.comp_def]

/-- A run on the diagram with the origin node `0` as parameter, and on the diagram moved by
`(10, 20, 30)`: there the run stops at `12` instead of `2`, with the same penalty. -/
example : ∃ D F dv, (reconstrain (moveConstraint ⟨10, 20, 30⟩) opt).solve noAttrs (fun _ => stopAt (2 + 10))
      (movedGradient ⟨10, 20, 30⟩) 1 args (translate ⟨10, 20, 30⟩ direct) =
    ⟨translate ⟨10, 20, 30⟩ D, ⟨some [2 + 10], some (some 9), some 1, some "NLOPT_SUCCESS", some dv⟩, [[2 + 10]],
      some (.done [2 + 10] (some 9) 1 1), .ok (translate ⟨10, 20, 30⟩ F)⟩ := by
  obtain ⟨D, F, dv, _, _, h⟩ := solved_at 2
  refine ⟨D, F, dv, ?_⟩
  have hs : along (shiftSlot ⟨10, 20, 30⟩) (slotsOf opt.parameters) [(2 : ℝ)] = [2 + 10] := opt_slots 2 _
  have := C84_solve_translation opt_history valid_direct.wf ⟨10, 20, 30⟩ (nlopt := fun _ => stopAt 2)
    (nlopt' := fun _ => stopAt (2 + 10)) (ad := gradient) (ad' := movedGradient ⟨10, 20, 30⟩) (a := args)
    (fun _ => by
      unfold stopAt
      rw [← hs]
      exact .eval _ _ _ _ fun v dv => .done _ _ _ _)
    (fun _ C x => by unfold movedGradient; rw [shift_back]; rfl)
    (fun _ C x g hg => by cases hg; simp) noAttrs 1
  refine this.trans ?_
  rw [h]
  simp only [rewriteSolved, rewriteAttrs, rewriteEnded, Option.map_some, List.map_cons, List.map_nil, hs, id]
  norm_num [Except.map]

/-- The force of the deviation edge as parameter. -/
noncomputable def edgeOpt : Optimizer ℝ :=
  Optimizer.ofLists [.point 0 ⟨-1, 0, 0⟩ 1, .direction (0, 1) ⟨1, 2, 2⟩ 3] [deviationEdgeParameter (0, 4) none none]

theorem edgeOpt_history : HasHistory edgeOpt [.add (deviationEdgeParameter (0, 4) none none)] := rfl

theorem edgeOpt_edges : ∀ q ∈ edgeOpt.parameters, ∃ e a, q.2.slot = .edge e a := by
  intro q hq
  have : edgeOpt.parameters = [(0, deviationEdgeParameter (0, 4) none none)] := rfl
  rw [this, List.mem_singleton] at hq
  exact ⟨(0, 4), .force, by rw [hq]; rfl⟩

/-- Gradients by finite differences: whatever NLopt does, a quarter turn changes nothing but the
diagram and the form. -/
example (nlopt : Problem ℝ → Run ℝ) (ad : GradFunc ℝ) (a : SolveArgs ℝ) (ha : a.grad = "FD") :
    ((reconstrain (turnConstraint quarter) edgeOpt).solve noAttrs nlopt ad 1 a (turn quarter direct)).points =
      (edgeOpt.solve noAttrs nlopt ad 1 a direct).points ∧
    ((reconstrain (turnConstraint quarter) edgeOpt).solve noAttrs nlopt ad 1 a (turn quarter direct)).attrs =
      (edgeOpt.solve noAttrs nlopt ad 1 a direct).attrs := by
  have h := C84_solve_rotation edgeOpt_history edgeOpt_edges valid_direct.wf quarter_orthogonal nlopt (ad := ad)
    (ad' := ad) (a := a) (by rw [ha]; simp) (by rw [ha]; simp) noAttrs 1
  rw [h]
  exact ⟨rfl, rfl⟩

/-- Lengths in another unit: three times the coordinates, a ninth of the weight. -/
example (t : ℝ) : ((rewriteOptimizer (lengthSlot 3) (lengthConstraint 3) opt).optimizeForm 100 3 (enlarge 3 direct)
    [3 * t]).2 = .ok (some ((t + 1) ^ 2)) := by
  have h := (C84_objective_units opt_history 100 1 direct [t] (c := 3) (by norm_num)).2
  rw [opt_slots, mul_one] at h
  have hs : lengthSlot (3 : ℝ) (.node 0 .x) t = 3 * t := by simp [lengthSlot, IsForce]
  rw [hs] at h
  rw [h]
  exact objective direct (SameExcept.refl _ _) t

/-- Forces in another unit. -/
example (t : ℝ) : ((rewriteOptimizer (forceSlot 3) (forceConstraint 3) opt).optimizeForm 100 1 (scaleForces 3 direct)
    [t]).2 = .ok (some ((t + 1) ^ 2)) := by
  have h := (C84_objective_units opt_history 100 1 direct [t] (c := 3) (by norm_num)).1
  rw [opt_slots] at h
  have hs : forceSlot (3 : ℝ) (.node 0 .x) t = t := by simp [forceSlot, IsForce]
  rw [hs] at h
  rw [h]
  exact objective direct (SameExcept.refl _ _) t

/-- `solve` in other units of length and force. -/
noncomputable def unitGradient (c : ℝ) : GradFunc ℝ := fun C x =>
  (C, .ok (along (fun s => Option.map (lengthRate c s)) (slotsOf opt.parameters)
    ((along (lengthSlot c⁻¹) (slotsOf opt.parameters) x).map fun t => some (2 * (t + 1)))))

theorem unit_back {c : ℝ} (hc : 0 < c) (S : Nat → Option Slot) (x : List ℝ) :
    along (lengthSlot c⁻¹) S (along (lengthSlot c) S x) = x := by
  refine List.ext_getElem? fun i => ?_
  rw [along_get?, along_get?]
  cases hs : S i with
  | none => simp
  | some s =>
    cases hf : IsForce s <;> simp [lengthSlot, hf, Function.comp_def, hc.ne']

example : ∃ D F dv, (rewriteOptimizer (lengthSlot 3) (lengthConstraint 3) opt).solve noAttrs (fun _ => stopAt (3 * 2))
      (unitGradient 3) (3 * 1) { args with eta := 3 * args.eta } (enlarge 3 direct) =
    ⟨enlarge 3 D, ⟨some [3 * 2], some (some 9), some 1, some "NLOPT_SUCCESS", some dv⟩, [[3 * 2]],
      some (.done [3 * 2] (some 9) 1 1), .ok (enlarge 3 F)⟩ := by
  obtain ⟨D, F, dv, _, _, h⟩ := solved_at 2
  have hs : along (lengthSlot 3) (slotsOf opt.parameters) [(2 : ℝ)] = [3 * 2] := by
    rw [opt_slots]; simp [lengthSlot, IsForce]
  refine ⟨D, F, along (fun s => Option.map (lengthRate 3 s)) (slotsOf opt.parameters) dv, ?_⟩
  have := C84_solve_lengths opt_history valid_direct.wf (c := 3) (by norm_num) (nlopt := fun _ => stopAt 2)
    (nlopt' := fun _ => stopAt (3 * 2)) (ad := gradient) (ad' := unitGradient 3) (a := args)
    (fun _ => by
      unfold stopAt
      rw [← hs]
      exact .eval _ _ _ _ fun v dv => .done _ _ _ _)
    (fun _ C x => by unfold unitGradient; rw [unit_back (by norm_num)]; rfl)
    (fun _ C x g hg => by cases hg; simp) (fun ha => absurd rfl ha) noAttrs 1
  refine this.trans ?_
  rw [h]
  simp only [rewriteSolved, rewriteAttrs, rewriteEnded, Option.map_some, List.map_cons, List.map_nil, hs]
  norm_num [Except.map]

example : ∃ D F dv, (rewriteOptimizer (forceSlot 3) (forceConstraint 3) opt).solve noAttrs (fun _ => stopAt 2)
      gradient 1 args (scaleForces 3 direct) =
    ⟨scaleForces 3 D, ⟨some [2], some (some 9), some 1, some "NLOPT_SUCCESS", some dv⟩, [[2]],
      some (.done [2] (some 9) 1 1), .ok (scaleForces 3 F)⟩ := by
  obtain ⟨D, F, dv, _, _, h⟩ := solved_at 2
  have hi : ∀ i s, slotsOf opt.parameters i = some s → IsForce s = false := by
    intro i s hs
    obtain ⟨q, hq, rfl⟩ := slotsOf_some hs
    rw [opt_parameters, List.mem_singleton] at hq
    rw [hq]; rfl
  have hm : along (forceSlot 3) (slotsOf opt.parameters) = (id : List ℝ → List ℝ) := by
    funext x
    exact along_id _ (fun i s v hs => by simp [forceSlot, hi i s hs]) x
  have hmd : along (fun s => Option.map (forceRate 3 s)) (slotsOf opt.parameters) =
      (id : List (Num ℝ) → List (Num ℝ)) := by
    funext x
    exact along_id _ (fun i s v hs => by cases v <;> simp [forceRate, hi i s hs]) x
  refine ⟨D, F, dv, ?_⟩
  have := C84_solve_forces opt_history valid_direct.wf (c := 3) (by norm_num) (nlopt := fun _ => stopAt 2)
    (nlopt' := fun _ => stopAt 2) (ad := gradient) (ad' := gradient) (a := args)
    (fun _ => by rw [hm, hmd]; exact sameChoices_refl _)
    (fun _ C x => by rw [hm, hmd]; rfl)
    (fun _ C x g hg => by cases hg; simp) (fun ha => absurd rfl ha) noAttrs 1
  refine this.trans ?_
  rw [h, hm, hmd]
  simp only [rewriteSolved, rewriteAttrs, rewriteEnded, Option.map_some, List.map_cons, List.map_nil, id]
  norm_num [Except.map]

/-- The state of the numpy solver. -/
example : ∃ s, npEquilibriumState direct 100 1 false = .ok s ∧
    npEquilibriumState (turn quarter direct) 100 1 false = .ok (rewriteState quarter quarter quarter id s) ∧
    npEquilibriumState (scaleForces 2 direct) 100 1 false = .ok (rewriteState id ((2 : ℝ) • ·) id (2 * ·) s) := by
  obtain ⟨d, hd, _⟩ := direct_node
  obtain ⟨s, hs, _⟩ := numpy_origin valid_direct directOnly_direct (show 1 ≤ 100 by norm_num) (zero_le_one (α := ℝ))
    (n := 0) (tr := [0, 1, 2]) direct_trail hd
  refine ⟨s, hs, ?_, ?_⟩
  · rw [(C84_state_motions direct 100 1 false 0 quarter_orthogonal).2, hs]; rfl
  · rw [(C84_state_units direct 100 1 false (c := 2) (by norm_num)).1, hs]; rfl

end

end Props
end CEM
