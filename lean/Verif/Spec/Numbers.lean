import Verif.Model.Constraints
import Verif.Model.Parameters
import Verif.Spec.Locality

/-!
# Constraints that can be measured and parameters that are forces
-/

namespace CEM
namespace Spec

/-- Planes have a normal, and only directions of deviation edges are asked for. -/
def Measured (D : Diagram ℝ) : Constraint ℝ → Prop
  | .plane _ t _ => t.2 ≠ 0
  | .direction e _ _ => ∃ d, EdgeBetween D e.1 e.2 d ∧ d.type = .deviation
  | _ => True

/-- In addition, no forces of trail edges are asked for, and lengths of deviation edges only: the derivative of a length
is not defined where it is zero. -/
def MeasuredSmoothly (D : Diagram ℝ) : Constraint ℝ → Prop
  | .trailForce _ _ _ => False
  | .length e _ _ => ∃ d, EdgeBetween D e.1 e.2 d ∧ d.type = .deviation
  | c => Measured D c

/-- A component of a load, or the force of an edge. -/
def ForceSlot : Slot → Prop
  | .node _ .qx | .node _ .qy | .node _ .qz => True
  | .edge _ .force => True
  | _ => False

end Spec
end CEM
