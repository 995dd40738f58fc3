import Verif.Model.Components

/-!
# Grasshopper components for constraints

Models `src/compas_cem/ghpython/components/CompasCem_Constraint*/code.py`.  An input that is not connected is `none`.  Rhino geometry and
edge keys count as true, so `not x` tests whether the input is connected; the conversion of
Rhino geometry to COMPAS keeps the coordinates.
-/

namespace CEM
namespace Component

variable {R : Type}

/-- The inputs of the constraint components other than the weight. -/
inductive Goal (R : Type) where
  /-- CompasCem_ConstraintNodePoint -/
  | point (node : Option Int) (target : Option (Vec R))
  /-- CompasCem_ConstraintNodePlane: base and normal -/
  | plane (node : Option Int) (target : Option (Vec R × Vec R))
  /-- CompasCem_ConstraintNodeLine: two points -/
  | line (node : Option Int) (target : Option (Vec R × Vec R))
  /-- CompasCem_ConstraintNodePolyline -/
  | polyline (node : Option Int) (target : Option (List (Vec R)))
  /-- CompasCem_ConstraintTrailEdgeForce -/
  | trailForce (edge : Option (Int × Int)) (target : Option R)
  /-- CompasCem_ConstraintReactionForce -/
  | reaction (node : Option Int) (target : Option (Vec R))
  /-- CompasCem_ConstraintDeviationEdgeLength -/
  | length (edge : Option (Int × Int)) (target : Option R)
  /-- CompasCem_ConstraintEdgeDirection -/
  | direction (edge : Option (Int × Int)) (target : Option (Vec R))
  deriving DecidableEq, Repr

/-- `if key is None or target is None: return` and the call of the class otherwise. -/
def made {K T C : Type} (make : K → T → C) : Option K → Option T → Option C
  | some k, some t => some (make k t)
  | _, _ => none

/-- CompasCem_ConstraintNodePoint/code.py 11-16, CompasCem_ConstraintNodePlane/code.py 11-16,
CompasCem_ConstraintNodeLine/code.py 11-16, CompasCem_ConstraintNodePolyline/code.py 11-16,
CompasCem_ConstraintTrailEdgeForce/code.py 10-14, CompasCem_ConstraintReactionForce/code.py 11-16,
CompasCem_ConstraintDeviationEdgeLength/code.py 10-14,
CompasCem_ConstraintEdgeDirection/code.py 12-17.  The first line is `weight = weight or 1.0`. -/
def Goal.make [Field R] [DecidableEq R] (weight : Option R) : Goal R → Option (Constraint R)
  | .point n t => made (fun n t => .point n t (orElse weight 1)) n t
  | .plane n t => made (fun n t => .plane n t (orElse weight 1)) n t
  | .line n t => made (fun n t => .line n t (orElse weight 1)) n t
  | .polyline n t => made (fun n t => .polyline n t (orElse weight 1)) n t
  | .trailForce e t => made (fun e t => .trailForce e t (orElse weight 1)) e t
  | .reaction n t => made (fun n t => .reaction n t (orElse weight 1)) n t
  | .length e t => made (fun e t => .length e t (orElse weight 1)) e t
  | .direction e t => made (fun e t => .direction e t (orElse weight 1)) e t

end Component
end CEM
