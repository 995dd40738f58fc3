import Verif.Lemmas.Coordinates

/-!
# Penalties on transformed states
-/

set_option linter.unusedSectionVars false
set_option linter.unusedSimpArgs false

namespace CEM
open Diagram Spec

variable {R : Type} [Field R] [LinearOrder R] [PySqrt R]

/-- The constraint transformed by `τ`, with weights divided by `kp` (targets that are positions or
lengths) or `kf` (targets that are forces). -/
def Trans.constraint (τ : Trans R) (kp kf : R) : Constraint R → Constraint R
  | .point n t w => .point n (τ.p t) (w / kp)
  | .plane n t w => .plane n (τ.p t.1, τ.u t.2) (w / kp)
  | .line n t w => .line n (τ.p t.1, τ.p t.2) (w / kp)
  | .polyline n t w => .polyline n (t.map τ.p) (w / kp)
  | .trailForce e t w => .trailForce e (τ.f t) (w / kf)
  | .reaction n t w => .reaction n (τ.r t) (w / kf)
  | .length e t w => .length e (τ.l t) (w / kp)
  | .direction e t w => .direction e (τ.u t) w

/-- What the penalties need: squares of distances and forces are multiplied by `kp` and `kf`. -/
structure Trans.Keeps (τ : Trans R) (kp kf : R) : Prop where
  kp_ne : kp ≠ 0
  kf_ne : kf ≠ 0
  kp_lt : ∀ a b, kp * a < kp * b ↔ a < b
  p_sq : ∀ a b, distSq (τ.p a) (τ.p b) = kp * distSq a b
  r_sq : ∀ a b, distSq (τ.r a) (τ.r b) = kf * distSq a b
  f_sq : ∀ a b, (τ.f a - τ.f b) * (τ.f a - τ.f b) = kf * ((a - b) * (a - b))
  l_sq : ∀ a b, (τ.l a - τ.l b) * (τ.l a - τ.l b) = kp * ((a - b) * (a - b))
  u_sq : ∀ a b, distSq (τ.u a) (τ.u b) = distSq a b
  line : ∀ p a b, closestOnLine (τ.p p) (τ.p a) (τ.p b) = τ.p (closestOnLine p a b)
  plane : ∀ p a n, closestOnPlane (τ.p p) (τ.p a) (τ.u n) = (closestOnPlane p a n).map τ.p
  dist : ∀ a b, Vec.dist (τ.p a) (τ.p b) = τ.l (Vec.dist a b)
  l_lt : ∀ a b, τ.l a < τ.l b ↔ a < b
  direction : ∀ a b, (if PySqrt.sqrt (Vec.dot (τ.p a - τ.p b) (τ.p a - τ.p b)) = 0 then none
      else some ((1 / PySqrt.sqrt (Vec.dot (τ.p a - τ.p b) (τ.p a - τ.p b))) • (τ.p a - τ.p b)) : NVec R) =
    (if PySqrt.sqrt (Vec.dot (a - b) (a - b)) = 0 then none
      else some ((1 / PySqrt.sqrt (Vec.dot (a - b) (a - b))) • (a - b)) : NVec R).map τ.u
  align : ∀ t r, alignedTarget (τ.u t) (r.map τ.u) = τ.u (alignedTarget t r)

namespace Trans.Keeps
variable {τ : Trans R} {kp kf : R} (K : τ.Keeps kp kf)
include K

theorem position (r t : NVec R) (w : R) : vectorPenalty (r.map τ.p) (t.map τ.p) (w / kp) = vectorPenalty r t w := by
  unfold vectorPenalty
  have := K.kp_ne
  cases r with
  | none => rfl
  | some r => cases t with
    | none => rfl
    | some t =>
      simp only [Option.map_some, lift2, K.p_sq]
      congr 1
      field_simp

theorem force (r t : NVec R) (w : R) : vectorPenalty (r.map τ.r) (t.map τ.r) (w / kf) = vectorPenalty r t w := by
  unfold vectorPenalty
  have := K.kf_ne
  cases r with
  | none => rfl
  | some r => cases t with
    | none => rfl
    | some t =>
      simp only [Option.map_some, lift2, K.r_sq]
      congr 1
      field_simp

theorem unit (r : NVec R) (t : Vec R) (w : R) :
    vectorPenalty (r.map τ.u) (some (τ.u t)) w = vectorPenalty r (some t) w := by
  unfold vectorPenalty
  cases r with
  | none => rfl
  | some r => simp only [Option.map_some, lift2, K.u_sq]

theorem number (r : Num R) (t w : R) : floatPenalty (r.map τ.f) (τ.f t) (w / kf) = floatPenalty r t w := by
  unfold floatPenalty
  have := K.kf_ne
  cases r with
  | none => rfl
  | some r =>
    simp only [Option.map_some, K.f_sq]
    congr 1
    field_simp

theorem length (r : Num R) (t w : R) : floatPenalty (r.map τ.l) (τ.l t) (w / kp) = floatPenalty r t w := by
  unfold floatPenalty
  have := K.kp_ne
  cases r with
  | none => rfl
  | some r =>
    simp only [Option.map_some, K.l_sq]
    congr 1
    field_simp

theorem segment (p a b : Vec R) : closestOnSegment (τ.p p) (τ.p a) (τ.p b) = τ.p (closestOnSegment p a b) := by
  unfold closestOnSegment
  simp only [K.line, K.p_sq, gt_iff_lt, K.kp_lt]
  split_ifs <;> rfl

theorem first (p best : Vec R) (qs : List (Vec R)) :
    firstClosest (τ.p p) (τ.p best) (qs.map τ.p) = τ.p (firstClosest p best qs) := by
  induction qs generalizing best with
  | nil => rfl
  | cons q qs ih =>
    simp only [List.map_cons, firstClosest, K.dist, K.l_lt]
    split_ifs <;> exact ih _

theorem polyline (p : Vec R) (pts : List (Vec R)) :
    closestOnPolyline (τ.p p) (pts.map τ.p) = (closestOnPolyline p pts).map τ.p := by
  unfold closestOnPolyline
  have : (((pts.map τ.p).zip (pts.map τ.p).tail).map fun s => closestOnSegment (τ.p p) s.1 s.2) =
      ((pts.zip pts.tail).map fun s => closestOnSegment p s.1 s.2).map τ.p := by
    rw [← List.map_tail, List.zip_map, List.map_map, List.map_map]
    refine List.map_congr_left fun s _ => ?_
    exact K.segment p s.1 s.2
  rw [this]
  cases (pts.zip pts.tail).map fun s => closestOnSegment p s.1 s.2 with
  | nil => rfl
  | cons q qs => exact congrArg Except.ok (K.first p q qs)

theorem edgeDirection (xyz : Dict Int (NVec R)) (e : Int × Int) :
    edgeDirection (mapVal (Option.map τ.p) xyz) e = (edgeDirection xyz e).map (Option.map τ.u) := by
  unfold CEM.edgeDirection
  rw [mapVal_getE, mapVal_getE]
  cases xyz.getE e.2 with
  | error err => rfl
  | ok pv =>
    simp only [Except.map]
    cases xyz.getE e.1 with
    | error err => rfl
    | ok pu =>
      simp only
      cases pv with
      | none => rfl
      | some pv => cases pu with
        | none => rfl
        | some pu => exact congrArg Except.ok (K.direction pv pu)

theorem edgeLength (xyz : Dict Int (NVec R)) (e : Int × Int) :
    edgeLengthRef (mapVal (Option.map τ.p) xyz) e = (edgeLengthRef xyz e).map (Option.map τ.l) := by
  unfold edgeLengthRef
  rw [mapVal_getE, mapVal_getE]
  cases xyz.getE e.1 with
  | error err => rfl
  | ok a =>
    simp only [Except.map]
    cases xyz.getE e.2 with
    | error err => rfl
    | ok b =>
      simp only
      exact congrArg Except.ok (lift2_map K.dist a b)

/-- Transformed constraints have the same penalties on transformed states. -/
theorem penalty (con : Constraint R) (s : NState R) :
    (τ.constraint kp kf con).penalty (τ.nstate s) = con.penalty s := by
  have hx : ∀ n, (τ.nstate s).xyz.getE n = (s.xyz.getE n).map (Option.map τ.p) := fun n => mapVal_getE _ _ _
  have hf : ∀ n, (τ.nstate s).trailForces.getE n = (s.trailForces.getE n).map (Option.map τ.f) :=
    fun n => mapVal_getE _ _ _
  have hr : ∀ n, (τ.nstate s).reactions.getE n = (s.reactions.getE n).map (Option.map τ.r) :=
    fun n => mapVal_getE _ _ _
  cases con with
  | point n t w =>
    simp only [Trans.constraint, Constraint.penalty, hx]
    cases s.xyz.getE n with
    | error err => rfl
    | ok r => exact congrArg Except.ok (K.position r (some t) w)
  | plane n t w =>
    simp only [Trans.constraint, Constraint.penalty, hx]
    cases s.xyz.getE n with
    | error err => rfl
    | ok r =>
      refine congrArg Except.ok (Eq.trans ?_ (K.position r _ w))
      congr 1
      cases r with
      | none => rfl
      | some p => exact K.plane p t.1 t.2
  | line n t w =>
    simp only [Trans.constraint, Constraint.penalty, hx]
    cases s.xyz.getE n with
    | error err => rfl
    | ok r =>
      refine congrArg Except.ok (Eq.trans ?_ (K.position r _ w))
      congr 1
      cases r with
      | none => rfl
      | some p => exact congrArg some (K.line p t.1 t.2)
  | polyline n t w =>
    simp only [Trans.constraint, Constraint.penalty, hx]
    cases s.xyz.getE n with
    | error err => rfl
    | ok r =>
      cases r with
      | none => simp only [Except.map, Option.map_none, List.length_map]
      | some p =>
        simp only [Except.map, Option.map_some]
        rw [K.polyline]
        cases closestOnPolyline p t with
        | error err => rfl
        | ok q => exact congrArg Except.ok (K.position (some p) (some q) w)
  | trailForce e t w =>
    simp only [Trans.constraint, Constraint.penalty, hf]
    cases s.trailForces.getE e with
    | error err => rfl
    | ok r => exact congrArg Except.ok (K.number r t w)
  | reaction n t w =>
    simp only [Trans.constraint, Constraint.penalty, hr]
    cases s.reactions.getE n with
    | error err => rfl
    | ok r => exact congrArg Except.ok (K.force r (some t) w)
  | length e t w =>
    simp only [Trans.constraint, Constraint.penalty]
    have : edgeLengthRef (τ.nstate s).xyz e = _ := K.edgeLength s.xyz e
    rw [this]
    cases edgeLengthRef s.xyz e with
    | error err => rfl
    | ok r => exact congrArg Except.ok (K.length r t w)
  | direction e t w =>
    simp only [Trans.constraint, Constraint.penalty]
    have : CEM.edgeDirection (τ.nstate s).xyz e = _ := K.edgeDirection s.xyz e
    rw [this]
    cases CEM.edgeDirection s.xyz e with
    | error err => rfl
    | ok r =>
      simp only [Except.map]
      rw [K.align, K.unit]

end Trans.Keeps
end CEM
