import Verif.Model.Diagram

/-!
# Transformations of a diagram

Moving, turning, enlarging a diagram, and scaling the forces in it.
-/

namespace CEM
namespace Spec

variable {R : Type} [Field R]

/-- Translate all nodes and planes by `v`. -/
def translate (v : Vec R) (D : Diagram R) : Diagram R :=
  { D with
    nodes := D.nodes.map fun p => (p.1, { p.2 with pos := p.2.pos + v })
    edges := D.edges.map fun p =>
      (p.1, { p.2 with plane := p.2.plane.map fun q => (q.1 + v, q.2) }) }

/-- Multiply all loads, forces and reactions by `c`. -/
def scaleForces (c : R) (D : Diagram R) : Diagram R :=
  { D with
    nodes := D.nodes.map fun p =>
      (p.1, { p.2 with load := c • p.2.load, reaction := c • p.2.reaction })
    edges := D.edges.map fun p => (p.1, { p.2 with force := c * p.2.force }) }

/-- Enlarge the geometry about the origin: positions, lengths and base points of planes
are multiplied by `c`; forces stay. -/
def enlarge (c : R) (D : Diagram R) : Diagram R :=
  { D with
    nodes := D.nodes.map fun p => (p.1, { p.2 with pos := c • p.2.pos })
    edges := D.edges.map fun p =>
      (p.1, { p.2 with length := c * p.2.length,
                       plane := p.2.plane.map fun q => (c • q.1, q.2) }) }

/-- Apply a linear map to all positions, loads, reactions and planes. -/
def turn (A : Vec R → Vec R) (D : Diagram R) : Diagram R :=
  { D with
    nodes := D.nodes.map fun p =>
      (p.1, { p.2 with pos := A p.2.pos, load := A p.2.load, reaction := A p.2.reaction })
    edges := D.edges.map fun p =>
      (p.1, { p.2 with plane := p.2.plane.map fun q => (A q.1, A q.2) }) }

/-- `A` is a rotation or reflection about the origin: linear, and it keeps scalar
products. -/
structure Orthogonal (A : Vec R → Vec R) : Prop where
  add : ∀ a b, A (a + b) = A a + A b
  smul : ∀ (c : R) a, A (c • a) = c • A a
  dot : ∀ a b, Vec.dot (A a) (A b) = Vec.dot a b

end Spec
end CEM
