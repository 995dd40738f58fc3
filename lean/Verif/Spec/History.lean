import Verif.Model.Topology

/-!
# Histories of API calls

`Op` is one call of the public diagram API, `run` performs a sequence of calls,
ignoring their outcome (a call that raises still has whatever effect it had
before raising; the user may catch the exception and go on).
-/

namespace CEM
namespace Spec
open Diagram

/-- A call of the topology diagram API. -/
inductive Op (R : Type) where
  /-- `add_node(Node(key, p))` -/
  | addNode (key : Option Int) (p : Vec R)
  /-- `add_edge(e)` -/
  | addEdge (e : EdgeElem R)
  /-- `add_support(NodeSupport(...))` -/
  | addSupport (r : NodeRef R)
  /-- `add_load(NodeLoad(...))` -/
  | addLoad (r : NodeRef R) (q : Vec R)
  /-- `node_xyz(n, p)` -/
  | moveNode (n : Int) (p : Vec R)
  /-- `build_trails()` -/
  | buildTrails
  /-- `build_trails(auxiliary_trails=True)`, with a set iteration order -/
  | buildTrailsAux (order : List Int → List Int)
  /-- `shift_trail(key, s)` -/
  | shiftTrail (key s : Int)

variable {R : Type} [Field R] [DecidableEq R] [PySqrt R] (gkey : Vec R → String)

/-- Effect of one call on the diagram. -/
def step (D : Diagram R) : Op R → Diagram R
  | .addNode key p => (D.addNode gkey key p).1
  | .addEdge e => (D.addEdge gkey e).1
  | .addSupport r => (D.addSupport gkey r).1
  | .addLoad r q => (D.addLoad gkey r q).1
  | .moveNode n p => D.setNodeXyz gkey n p
  | .buildTrails => D.buildTrails.1
  | .buildTrailsAux order => (D.buildTrailsAux gkey order).1
  | .shiftTrail key s => (D.shiftTrail key s).1

/-- Effect of a history. -/
def run (D : Diagram R) (ops : List (Op R)) : Diagram R := ops.foldl (step gkey) D

/-- The diagram after a history of calls on a new diagram. -/
def after (ops : List (Op R)) : Diagram R := run gkey Diagram.empty ops

/-- Calls that do not create auxiliary trails. -/
def Op.noAux {R : Type} : Op R → Prop
  | .buildTrailsAux _ => False
  | _ => True

end Spec
end CEM
