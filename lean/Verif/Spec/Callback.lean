import Verif.Spec.ValidInput
import Verif.Model.Callback

/-!
# Callbacks: specification
-/

namespace CEM
namespace Spec
open Diagram
variable {R W : Type}

/-- What happens when something is done `n` times, or until it raises. -/
def times {A : Type} (f : A → Except PyErr A) : Nat → A → Except PyErr A
  | 0, a => .ok a
  | n + 1, a => (f a).bind (times f n)

/-- A callback that does not change the diagram. -/
def watching (g : W → Except PyErr W) : Callback R W := fun w => (g w.2).map fun x => (w.1, x)

/-- The lower sequence of the ends of an edge. -/
def lowerEnd (D : Diagram R) (e : Int × Int) : Option Int :=
  (seqOf D e.1).bind fun i => (seqOf D e.2).map (min i)

/-- The number of trail edges of a diagram, without those that begin in sequence `kmax`. -/
def trailEdgesBut (D : Diagram R) (kmax : Option Int) : Nat :=
  D.edges.countP fun p => decide (p.2.type = .trail ∧ (kmax = none ∨ kmax ≠ lowerEnd D p.1))

/-- A diagram with the same trails and edges, and the same nodes with the same types and sequences. -/
structure SamePlan (D E : Diagram R) : Prop where
  nodes : (E.nodes.map fun p => (p.1, p.2.type, p.2.k)) = D.nodes.map fun p => (p.1, p.2.type, p.2.k)
  trails : E.trails = D.trails
  edges : E.edges.keys = D.edges.keys

/-- A callback that leaves trails, edges, types and sequences as they are. -/
def KeepsPlan (f : Callback R W) : Prop := ∀ p q, f p = .ok q → SamePlan p.1 q.1

/-- The diagram with the load `q n` at every node `n`. -/
def withLoads (q : Int → Vec R) (D : Diagram R) : Diagram R :=
  { D with nodes := D.nodes.map fun p => (p.1, { p.2 with load := q p.1 }) }

/-- A callback that sets the loads. -/
def loading (q : Int → Vec R) : Callback R W := fun w => .ok (withLoads q w.1, w.2)

/-- The number of sweeps: `tmax` of them, unless the computation stops before. -/
def sweepsOf (tmax : Nat) : Option Nat → Nat
  | none => tmax
  | some m => min tmax m

end Spec
end CEM
