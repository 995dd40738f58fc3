import Verif.Spec.WellFormed
import Verif.Spec.Trails

/-!
# Valid input of form finding

What `build_trails` establishes on a simple graph (theorem
`CEM.Props.valid_of_history`): valid trails and no reaction forces yet.
-/

namespace CEM
namespace Spec

variable {R : Type} [Zero (Vec R)]

/-- A topology diagram ready for form finding. -/
structure ValidInput (D : Diagram R) : Prop where
  wf : Diagram.WF D
  simple : SimpleGraph D
  trails : ValidTrails D
  nonempty : D.trails ≠ []
  /-- no reaction force was assigned before form finding -/
  reaction : ∀ n d, D.nodes.get? n = some d → d.reaction = 0
  /-- every edge is a trail edge or a deviation edge -/
  typed : ∀ e d, D.edges.get? e = some d → d.type ≠ .untyped

end Spec
end CEM
