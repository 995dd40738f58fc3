import Verif.Spec.Optimizer
import Verif.Spec.Trails

/-!
# Numbers of a diagram that form finding does not use
-/

namespace CEM.Spec
open CEM

variable {R : Type}

/-- A number that is overwritten before it is used: the position of a node that is not the first
one of a trail, the force of a trail edge, the length of a deviation edge. -/
def Idle (D : Diagram R) : Slot → Prop
  | .node n .x => n ∉ D.trails.keys
  | .node n .y => n ∉ D.trails.keys
  | .node n .z => n ∉ D.trails.keys
  | .node _ _ => False
  | .edge e .length => ∃ d, D.edges.get? e = some d ∧ d.type = .deviation
  | .edge e .force => ∃ d, D.edges.get? e = some d ∧ d.type = .trail

end CEM.Spec
