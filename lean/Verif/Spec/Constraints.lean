import Verif.Model.Constraints

/-!
# Specification of constraints: geometry and satisfaction

Lines, planes, segments and polylines as sets of points, and when a state satisfies a
constraint.  No closest points and no penalties occur here.
-/

namespace CEM.Spec
open CEM

/-- The squared distance of two points. -/
def sqDist (p q : Vec ℝ) : ℝ := (p.x - q.x) ^ 2 + (p.y - q.y) ^ 2 + (p.z - q.z) ^ 2

/-- The point lies on the line through `a` and `b` (on `a` if they coincide). -/
def OnLine (a b q : Vec ℝ) : Prop := ∃ t : ℝ, q = a + t • (b - a)

/-- The point lies on the plane through `base` perpendicular to `normal`. -/
def OnPlane (base normal q : Vec ℝ) : Prop := Vec.dot normal (q - base) = 0

/-- The point lies between `a` and `b`. -/
def OnSegment (a b q : Vec ℝ) : Prop := ∃ t : ℝ, 0 ≤ t ∧ t ≤ 1 ∧ q = a + t • (b - a)

/-- The point lies between two consecutive points of the polyline. -/
def OnPolyline (pts : List (Vec ℝ)) (q : Vec ℝ) : Prop :=
  ∃ (i : Nat) (a b : Vec ℝ), pts[i]? = some a ∧ pts[i + 1]? = some b ∧ OnSegment a b q

/-- `m` is the least squared distance from `p` to a point of the set. -/
def IsSqDistTo (p : Vec ℝ) (S : Vec ℝ → Prop) (m : ℝ) : Prop :=
  (∃ q, S q ∧ sqDist p q = m) ∧ ∀ q, S q → m ≤ sqDist p q

/-- The node has this position, which is not NaN. -/
def At (s : NState ℝ) (n : Int) (p : Vec ℝ) : Prop := s.xyz.get? n = some (some p)

/-- The state satisfies the constraint. -/
def Satisfied (s : NState ℝ) : Constraint ℝ → Prop
  | .point n t _ => At s n t
  | .plane n t _ => t.2 ≠ 0 ∧ ∃ p, At s n p ∧ OnPlane t.1 t.2 p
  | .line n t _ => ∃ p, At s n p ∧ OnLine t.1 t.2 p
  | .polyline n t _ => ∃ p, At s n p ∧ OnPolyline t p
  | .trailForce e t _ => s.trailForces.get? e = some (some t)
  | .reaction n t _ => s.reactions.get? n = some (some t)
  | .length e t _ => ∃ a b, At s e.1 a ∧ At s e.2 b ∧ Real.sqrt (sqDist a b) = t
  | .direction e t _ => ∃ a b, At s e.1 a ∧ At s e.2 b ∧ a ≠ b ∧ ∃ c : ℝ, b - a = c • t

end CEM.Spec
