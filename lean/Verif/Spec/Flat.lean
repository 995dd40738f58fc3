import Verif.Model.EquilibriumNumpy
import Verif.Model.Optimizer

/-!
# Flat structures

A set of directions that is closed under sums and multiples is a line or a plane through the
origin of the coordinates (or everything, or only zero).  A diagram is flat if all its nodes lie
in such a line or plane through a point, and all its reactions point along it.
-/

namespace CEM.Spec

variable {R : Type} [Field R] [LinearOrder R]

/-- A set of vectors closed under sums and multiples. -/
structure Directions (V : Vec R → Prop) : Prop where
  zero : V 0
  add : ∀ a b, V a → V b → V (a + b)
  smul : ∀ (t : R) a, V a → V (t • a)

/-- All nodes lie in `o + V`, all reactions in `V`. -/
def Flat (V : Vec R → Prop) (o : Vec R) (D : Diagram R) : Prop :=
  ∀ n d, D.nodes.get? n = some d → V (d.pos - o) ∧ V d.reaction

/-- The same for a form of floats: it says nothing about nodes whose coordinates are not numbers. -/
def FlatNum (V : Vec R → Prop) (o : Vec R) (F : Diagram (Num R)) : Prop :=
  ∀ n d, F.nodes.get? n = some d →
    (∀ p, d.pos = NVec.coords (some p) → V (p - o)) ∧
    ∀ r, d.reaction = NVec.coords (some r) → V r

/-- All loads lie in `V`. -/
def FlatLoads (V : Vec R → Prop) (D : Diagram R) : Prop :=
  ∀ n d, D.nodes.get? n = some d → V d.load

/-- The first nodes of the trails lie in `o + V`. -/
def FlatOrigins (V : Vec R → Prop) (o : Vec R) (D : Diagram R) : Prop :=
  ∀ n d, D.nodes.get? n = some d → n ∈ D.trails.keys → V (d.pos - o)

/-- One of the three coordinates. -/
inductive Coordinate
  | x | y | z

/-- The coordinate of a vector. -/
def Coordinate.of : Coordinate → Vec R → R
  | .x, v => v.x
  | .y, v => v.y
  | .z, v => v.z

/-- The place of the coordinate of the position of a node. -/
def Coordinate.position : Coordinate → NodeAttr
  | .x => .x
  | .y => .y
  | .z => .z

/-- The place of the coordinate of the load of a node. -/
def Coordinate.load : Coordinate → NodeAttr
  | .x => .qx
  | .y => .qy
  | .z => .qz

end CEM.Spec
