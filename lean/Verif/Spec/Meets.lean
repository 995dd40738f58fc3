import Verif.Spec.Constraints

/-!
# Specification of constraints on a form

When a form meets a constraint, and by how much it misses it, read off the attributes of its nodes and edges.
No state of a solver and no penalties occur here.
-/

namespace CEM.Spec
open CEM

/-- The node of the form has this position. -/
def Lies (F : Diagram ℝ) (n : Int) (p : Vec ℝ) : Prop := ∃ d, F.nodes.get? n = some d ∧ d.pos = p

/-- The trail edge of the form carries this force. -/
def CarriesForce (F : Diagram ℝ) (e : Int × Int) (f : ℝ) : Prop :=
  ∃ d, F.edges.get? e = some d ∧ d.type = .trail ∧ d.force = f

/-- The support node of the form has this reaction. -/
def Reacts (F : Diagram ℝ) (n : Int) (r : Vec ℝ) : Prop :=
  ∃ d, F.nodes.get? n = some d ∧ d.type = .support ∧ d.reaction = r

/-- The form meets the constraint. -/
def Meets (F : Diagram ℝ) : Constraint ℝ → Prop
  | .point n t _ => Lies F n t
  | .plane n t _ => t.2 ≠ 0 ∧ ∃ p, Lies F n p ∧ OnPlane t.1 t.2 p
  | .line n t _ => ∃ p, Lies F n p ∧ OnLine t.1 t.2 p
  | .polyline n t _ => ∃ p, Lies F n p ∧ OnPolyline t p
  | .trailForce e t _ => CarriesForce F e t
  | .reaction n t _ => Reacts F n t
  | .length e t _ => ∃ a b, Lies F e.1 a ∧ Lies F e.2 b ∧ Real.sqrt (sqDist a b) = t
  | .direction e t _ => ∃ a b, Lies F e.1 a ∧ Lies F e.2 b ∧ a ≠ b ∧ ∃ c : ℝ, b - a = c • t

/-- The vector of length one in the direction of `v`, zero for `v = 0`. -/
noncomputable def unitOf (v : Vec ℝ) : Vec ℝ := (Real.sqrt (sqDist v 0))⁻¹ • v

/-- The form misses the constraint by `m`, which is the square of a distance: of a node to its target, of a number to
the one that is wanted, or of the directions of an edge and of the target, whichever way they are pointed. -/
def Misses (F : Diagram ℝ) : Constraint ℝ → ℝ → Prop
  | .point n t _, m => ∃ p, Lies F n p ∧ m = sqDist p t
  | .plane n t _, m => t.2 ≠ 0 ∧ ∃ p, Lies F n p ∧ IsSqDistTo p (OnPlane t.1 t.2) m
  | .line n t _, m => ∃ p, Lies F n p ∧ IsSqDistTo p (OnLine t.1 t.2) m
  | .polyline n t _, m => ∃ p, Lies F n p ∧ IsSqDistTo p (OnPolyline t) m
  | .trailForce e t _, m => ∃ f, CarriesForce F e f ∧ m = (f - t) ^ 2
  | .reaction n t _, m => ∃ r, Reacts F n r ∧ m = sqDist r t
  | .length e t _, m => ∃ a b, Lies F e.1 a ∧ Lies F e.2 b ∧ m = (Real.sqrt (sqDist a b) - t) ^ 2
  | .direction e t _, m => ∃ a b, Lies F e.1 a ∧ Lies F e.2 b ∧ a ≠ b ∧
      m = min (sqDist (unitOf (b - a)) (unitOf t)) (sqDist (unitOf (b - a)) (-unitOf t))

end CEM.Spec
