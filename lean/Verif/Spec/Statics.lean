import Verif.Model.Diagram

/-!
# Statics of a form diagram

The forces acting on the nodes of a diagram with coordinates, loads, reactions and
edge forces (tension positive).  Nothing here refers to the form finding code.
-/

namespace CEM
namespace Spec

variable {R : Type} [Field R] [PySqrt R]

/-- Unit vector; the zero vector has none and gives zero. -/
def unit (v : Vec R) : Vec R := (Vec.length v)⁻¹ • v

def posOf (F : Diagram R) (n : Int) : Vec R := ((F.nodes.get? n).map (·.pos)).getD 0
def loadAt (F : Diagram R) (n : Int) : Vec R := ((F.nodes.get? n).map (·.load)).getD 0
def reactionAt (F : Diagram R) (n : Int) : Vec R := ((F.nodes.get? n).map (·.reaction)).getD 0

/-- Force that the edge `p` exerts on node `n`: an edge in tension pulls its ends
towards each other. -/
def pull (F : Diagram R) (n : Int) (p : (Int × Int) × EdgeData R) : Vec R :=
  (if p.1.1 = n then p.2.force • unit (posOf F p.1.2 - posOf F p.1.1) else 0) +
  (if p.1.2 = n then p.2.force • unit (posOf F p.1.1 - posOf F p.1.2) else 0)

/-- Sum of everything acting on node `n`. -/
def imbalance (F : Diagram R) (n : Int) : Vec R :=
  loadAt F n + reactionAt F n + (F.edges.map (pull F n)).sum

/-- Sum of the loads and reactions of all nodes. -/
def totalForce (F : Diagram R) : Vec R :=
  (F.nodes.keys.map fun n => loadAt F n + reactionAt F n).sum

/-- Sum of the moments of all loads and reactions about the point `c`. -/
def totalMoment (F : Diagram R) (c : Vec R) : Vec R :=
  (F.nodes.keys.map fun n => Vec.cross (posOf F n - c) (loadAt F n + reactionAt F n)).sum

end Spec
end CEM
