import Verif.Model.Components
import Verif.Spec.History

/-!
# Specification vocabulary for the Grasshopper components
-/

set_option linter.unusedSectionVars false

namespace CEM
namespace Component
open Diagram Spec

variable {R : Type}

section
variable [Field R] [DecidableEq R] [PySqrt R] (gkey : Vec R → String)

/-- The call raises `err` on the diagram. -/
def Fails (D : Diagram R) (err : PyErr) : Op R → Prop
  | .addEdge e => (D.addEdge gkey e).2 = .error err
  | .addSupport r => (D.addSupport gkey r).2 = .error err
  | .addLoad r q => (D.addLoad gkey r q).2 = .error err
  | .buildTrails => D.buildTrails.2 = .error err
  | .buildTrailsAux order => (D.buildTrailsAux gkey order).2 = .error err
  | .shiftTrail key s => (D.shiftTrail key s).2 = .error err
  | .addNode _ _ => False
  | .moveNode _ _ => False

/-- The first of the calls that raises, one after another, raises `err`. -/
def FirstFailure (err : PyErr) : Diagram R → List (Op R) → Prop
  | _, [] => False
  | D, op :: ops =>
    Fails gkey D err op ∨ ((∀ err', ¬ Fails gkey D err' op) ∧ FirstFailure err (step gkey D op) ops)

/-- The calls that the assembled parts amount to, before the trails are built. -/
def calls (P : Parts R) : List (Op R) :=
  ((P.trailEdges.getD []).filterMap id).map .addEdge ++
  (((P.deviationEdges.getD []).filterMap id).map .addEdge ++
  (((P.loads.getD []).filterMap id).map (fun l => .addLoad l.1 l.2) ++
  ((P.supports.getD []).filterMap id).map .addSupport))

/-- The call that builds the trails, if there is one: it is made if there are items, `None` or
not, among the trail edges and the supports, or among the deviation edges if auxiliary trails
are wanted. -/
def buildCall (order : List Int → List Int) (P : Parts R) : List (Op R) :=
  if (!(P.trailEdges.getD []).isEmpty && !(P.supports.getD []).isEmpty) ||
      (!(P.deviationEdges.getD []).isEmpty && P.aux) then
    [if P.aux then .buildTrailsAux order else .buildTrails]
  else []

/-- The edges among the parts, in the order in which they are added. -/
def elems (P : Parts R) : List (EdgeElem R) :=
  (P.trailEdges.getD []).filterMap id ++ (P.deviationEdges.getD []).filterMap id

/-- The loads among the parts. -/
def loadsOf (P : Parts R) : List (NodeRef R × Vec R) := (P.loads.getD []).filterMap id

/-- The supports among the parts. -/
def supportsOf (P : Parts R) : List (NodeRef R) := (P.supports.getD []).filterMap id

/-- All parts are given by points, as the components for edges, loads and supports do. -/
structure OfPoints (P : Parts R) : Prop where
  edge : ∀ e ∈ elems P, ∃ p q, e.u = .point p ∧ e.v = .point q
  load : ∀ l ∈ loadsOf P, ∃ p, l.1 = .point p
  support : ∀ s ∈ supportsOf P, ∃ p, s = .point p

/-- The geometric key is the one of an end of an edge among the parts. -/
def AtEnd (P : Parts R) (g : String) : Prop :=
  ∃ e ∈ elems P, ∃ p, (e.u = .point p ∨ e.v = .point p) ∧ gkey p = g

/-- The last load at a geometric key. -/
def lastLoad (g : String) : List (NodeRef R × Vec R) → Option (Vec R)
  | [] => none
  | (r, q) :: l =>
    (lastLoad g l).or (match r with
      | .point p => if gkey p = g then some q else none
      | .key _ => none)

end
end Component
end CEM
