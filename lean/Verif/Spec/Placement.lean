import Verif.Spec.History

/-!
# Specification of node placement

A construction history is summarised by the list of its *placements*, most
recent first: which node was put at which point.  What a user observes about
node keys and coordinates is determined by this list.
-/

namespace CEM
namespace Spec

variable {R : Type}

/-- Placements, most recent first. -/
abbrev Log (R : Type) := List (Vec R × Int)

/-- The largest key ever used (`-1` if none). -/
def Log.maxKey : Log R → Int
  | [] => -1
  | (_, n) :: l => max (maxKey l) n

/-- The node placed most recently at a point with geometric key `g`. -/
def Log.lastAt (gkey : Vec R → String) (l : Log R) (g : String) : Option Int :=
  (l.find? fun e => gkey e.1 = g).map Prod.snd

/-- The point at which node `n` was placed most recently. -/
def Log.lastOf (l : Log R) (n : Int) : Option (Vec R) :=
  (l.find? fun e => e.2 = n).map Prod.fst

/-- An edge end given as a point is placed only if the point is not known yet. -/
def Log.addEnd (gkey : Vec R → String) (l : Log R) : NodeRef R → Log R
  | .key _ => l
  | .point p =>
    match l.lastAt gkey (gkey p) with
    | some _ => l
    | none => (p, l.maxKey + 1) :: l

/-- Placements made by one call. -/
def Log.step (gkey : Vec R → String) (l : Log R) : Op R → Log R
  | .addNode (some n) p => (p, n) :: l
  | .addNode none p => (p, l.maxKey + 1) :: l
  | .moveNode n p => (p, n) :: l
  | .addEdge e => (l.addEnd gkey e.u).addEnd gkey e.v
  | _ => l

/-- Placements made by a history on a new diagram. -/
def placements (gkey : Vec R → String) (ops : List (Op R)) : Log R :=
  ops.foldl (Log.step gkey) []

end Spec
end CEM
