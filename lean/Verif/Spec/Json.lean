import Verif.Model.Json

/-!
# Specification vocabulary for saved diagrams
-/

namespace CEM.Spec

/-- The decimal text of an integer. -/
def decimal (i : Int) : List Char := (toString i).toList

/-- What a topology diagram is after it was written to a file and read: the same nodes, edges,
geometric keys and settings, in the same order, and the same trails, stored under the decimal text
of their keys. -/
structure ReadBack {R : Type} (D : Diagram R) (X : KeyedDiagram R) : Prop where
  base : X.base = { D with trails := [], auxTrails := [] }
  trails : X.trails = D.trails.map fun p => (PyKey.text (decimal p.1), p.2)
  auxTrails : X.auxTrails = D.auxTrails.map fun p => (PyKey.text (decimal p.1), p.2)

end CEM.Spec
