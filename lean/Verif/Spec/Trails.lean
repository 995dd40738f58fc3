import Verif.Model.Diagram
import Mathlib.Logic.Relation

/-!
# Specification of trails

Everything here speaks only about the stored node and edge attributes, not about
the functions of the model.
-/

namespace CEM
namespace Spec

variable {R : Type}

/-- `(a, b)` is stored as a trail edge. -/
def IsTrail (D : Diagram R) (a b : Int) : Prop :=
  ∃ d, D.edges.get? (a, b) = some d ∧ d.type = .trail

/-- `a` and `b` are joined by a trail edge, in either orientation. -/
def TrailAdj (D : Diagram R) (a b : Int) : Prop := IsTrail D a b ∨ IsTrail D b a

/-- The node's type attribute. -/
def typeOf (D : Diagram R) (n : Int) : Option NodeType := (D.nodes.get? n).map (·.type)

/-- The node's sequence attribute (`none`: no such node or no sequence). -/
def seqOf (D : Diagram R) (n : Int) : Option Int := (D.nodes.get? n).bind (·.k)

/-- `b` directly follows `a` in the list. -/
def Consecutive (l : List Int) (a b : Int) : Prop := ∃ p s, l = p ++ a :: b :: s

/-- A simple graph: no edge from a node to itself and at most one edge between two
nodes. -/
structure SimpleGraph (D : Diagram R) : Prop where
  noLoop : ∀ n, (n, n) ∉ D.edges.keys
  noAnti : ∀ a b, (a, b) ∈ D.edges.keys → (b, a) ∉ D.edges.keys

/-- The trail edges can be split into supported trails: no node has more than two
trail neighbours, supports have exactly one. -/
structure Regular (D : Diagram R) : Prop extends SimpleGraph D where
  deg : ∀ n a b c, TrailAdj D n a → TrailAdj D n b → TrailAdj D n c → a = b ∨ b = c ∨ a = c
  supportDeg : ∀ n, typeOf D n = some .support →
    ∃ a, TrailAdj D n a ∧ ∀ b, TrailAdj D n b → b = a

/-- The stored trails are valid: they partition the nodes, follow and exhaust the
trail edges, and end in the supports. -/
structure ValidTrails (D : Diagram R) : Prop where
  /-- a trail is keyed by its first node -/
  head : ∀ key tr, (key, tr) ∈ D.trails → ∃ rest, tr = key :: rest
  /-- its first node is an origin -/
  origin : ∀ key tr, (key, tr) ∈ D.trails → typeOf D key = some .origin
  /-- consecutive nodes are joined by trail edges -/
  chain : ∀ key tr, (key, tr) ∈ D.trails → tr.IsChain (TrailAdj D)
  /-- every node is in exactly one trail at exactly one position -/
  partition : (D.trails.flatMap (·.2)).Perm D.nodes.keys
  /-- every trail edge joins consecutive nodes of a trail -/
  complete : ∀ a b, TrailAdj D a b → ∃ key tr, (key, tr) ∈ D.trails ∧
    (Consecutive tr a b ∨ Consecutive tr b a)
  /-- the last node of a trail, and no other node of it, is a support -/
  support : ∀ key tr, (key, tr) ∈ D.trails → ∀ n ∈ tr,
    typeOf D n = some .support ↔ tr.getLast? = some n
  /-- sequences increase by one along a trail, from a non-negative start -/
  seq : ∀ key tr, (key, tr) ∈ D.trails → ∃ s : Nat, ∀ (i : Nat) (h : i < tr.length),
    seqOf D tr[i] = some ((s : Int) + i)

/-- `n` is connected to a support through trail edges. -/
def Reached (D : Diagram R) (n : Int) : Prop :=
  ∃ S, typeOf D S = some .support ∧ Relation.ReflTransGen (TrailAdj D) S n

/-- The trail edges of `D` form the disjoint paths `P`, which cover all nodes; each
has at least two nodes, a support at its end and no other support. -/
structure PathSystem (D : Diagram R) (P : List (List Int)) : Prop extends SimpleGraph D where
  nonempty : P ≠ []
  two : ∀ p ∈ P, 2 ≤ p.length
  cover : P.flatten.Perm D.nodes.keys
  adj : ∀ a b, TrailAdj D a b ↔ ∃ p ∈ P, Consecutive p a b ∨ Consecutive p b a
  support : ∀ p ∈ P, ∀ n ∈ p, typeOf D n = some .support ↔ p.getLast? = some n

end Spec
end CEM
