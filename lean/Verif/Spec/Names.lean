import Verif.Spec.Trails
import Verif.Spec.Optimizer
import Verif.Model.Solve

/-!
# Diagrams that differ in the names of nodes

`f` renames the nodes and `g` the edges.  The order of nodes and edges in the containers
and the stored orientation of the edges may differ as well; the order of the trails may not.
-/

namespace CEM
namespace Spec

variable {R : Type}

/-- `E` is `D` with every node `n` called `f n` and every edge `e` stored as `g e`. -/
structure SameUpToNames (f : Int → Int) (g : Int × Int → Int × Int) (D E : Diagram R) : Prop where
  /-- different nodes have different names -/
  inj : ∀ a ∈ D.nodes.keys, ∀ b ∈ D.nodes.keys, f a = f b → a = b
  /-- the attributes of the nodes are the same -/
  node : ∀ n d, D.nodes.get? n = some d → E.nodes.get? (f n) = some d
  /-- there are no further nodes -/
  nodes : ∀ m ∈ E.nodes.keys, ∃ n ∈ D.nodes.keys, f n = m
  /-- an edge joins the renamed nodes, in either orientation -/
  ends : ∀ e ∈ D.edges.keys, g e = (f e.1, f e.2) ∨ g e = (f e.2, f e.1)
  /-- the attributes of the edges are the same -/
  edge : ∀ e d, D.edges.get? e = some d → E.edges.get? (g e) = some d
  /-- there are no further edges -/
  edges : ∀ e' ∈ E.edges.keys, ∃ e ∈ D.edges.keys, g e = e'
  /-- the stored trails are the same, in the same order -/
  trails : E.trails = D.trails.map fun p => (f p.1, p.2.map f)

/-- Two results are both the same exception or both values that are related. -/
inductive SameOutcome {α β : Type} (rel : α → β → Prop) :
    Except PyErr α → Except PyErr β → Prop
  | error (err : PyErr) : SameOutcome rel (.error err) (.error err)
  | ok {a : α} {b : β} (h : rel a b) : SameOutcome rel (.ok a) (.ok b)

/-! ## Optimization -/

/-- The place in the diagram with other names. -/
def renameSlot (f : Int → Int) (g : Int × Int → Int × Int) : Slot → Slot
  | .node n a => .node (f n) a
  | .edge e a => .edge (g e) a

/-- The parameter in the diagram with other names. -/
def renameParam (f : Int → Int) (g : Int × Int → Int × Int) (p : Param R) : Param R :=
  { p with slot := renameSlot f g p.slot }

/-- The constraint in the diagram with other names. -/
def renameConstraint (f : Int → Int) (g : Int × Int → Int × Int) : Constraint R → Constraint R
  | .point n t w => .point (f n) t w
  | .plane n t w => .plane (f n) t w
  | .line n t w => .line (f n) t w
  | .polyline n t w => .polyline (f n) t w
  | .trailForce e t w => .trailForce (g e) t w
  | .reaction n t w => .reaction (f n) t w
  | .length e t w => .length (g e) t w
  | .direction e t w => .direction (g e) t w

/-- The optimizer with the places that it refers to renamed. -/
def renameOptimizer (f : Int → Int) (g : Int × Int → Int × Int) (o : Optimizer R) : Optimizer R :=
  { o with
    parameters := o.parameters.map fun q => (q.1, renameParam f g q.2)
    constraints := o.constraints.map fun q => (q.1, renameConstraint f g q.2) }

/-- The node or the edge that the constraint is about is in the diagram. -/
def ConstrainsIn (D : Diagram R) : Constraint R → Prop
  | .point n _ _ | .plane n _ _ | .line n _ _ | .polyline n _ _ | .reaction n _ _ => n ∈ D.nodes.keys
  | .trailForce e _ _ | .length e _ _ | .direction e _ _ => e ∈ D.edges.keys

/-- Parameters and constraints refer to nodes and edges of the diagram. -/
structure RefersTo (o : Optimizer R) (D : Diagram R) : Prop where
  parameters : ∀ q ∈ o.parameters, HasSlot D q.2.slot
  constraints : ∀ q ∈ o.constraints, ConstrainsIn D q.2

/-- The edge of a direction constraint keeps its orientation. -/
def KeepsDirection (f : Int → Int) (g : Int × Int → Int × Int) : Constraint R → Prop
  | .direction e _ _ => g e = (f e.1, f e.2)
  | _ => True

/-- What two calls of `solve` leave behind is the same up to names; all numbers that they report
are the same. -/
structure SameSolved (f : Int → Int) (g : Int × Int → Int × Int) (s t : Solved R) : Prop where
  topology : SameUpToNames f g s.topology t.topology
  attrs : t.attrs = s.attrs
  points : t.points = s.points
  ended : t.ended = s.ended
  form : SameOutcome (SameUpToNames f g) s.form t.form

end Spec
end CEM
