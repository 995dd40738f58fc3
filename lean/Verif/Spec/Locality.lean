import Verif.Spec.Problem

/-!
# Parts of diagrams that agree

Which data of a diagram a part of the form depends on.
-/

namespace CEM
namespace Spec

variable {R : Type}

/-- `b` comes right after `a` in a trail. -/
def Follows (D : Diagram R) (a b : Int) : Prop :=
  ∃ key tr, (key, tr) ∈ D.trails ∧ Consecutive tr a b

/-- The edge between `a` and `b`, in either direction, has the data `d`. -/
def EdgeBetween (D : Diagram R) (a b : Int) (d : EdgeData R) : Prop :=
  D.edges.get? (a, b) = some d ∨ D.edges.get? (b, a) = some d

/-- Two diagrams agree on the data that the positions of the nodes in `A` and the balance of the
nodes in `B` depend on: with a node of `A` the node before it in its trail is in `B` and the trail
edge between them is the same in both diagrams; a node of `A` without such a node has the same
position in both; the nodes in `B` have the same load and the same deviation edges with
the same forces, and these end in `A`. -/
structure SharedPart [Field R] (D E : Diagram R) (A B : Int → Prop) : Prop where
  left : ∀ n, A n → n ∈ D.nodes.keys
  right : ∀ n, A n → n ∈ E.nodes.keys
  sub : ∀ n, B n → A n
  before : ∀ a b, A b → Follows D a b → B a
  same_before : ∀ a b, A b → (Follows D a b ↔ Follows E a b)
  trailData : ∀ a b d d', A b → Follows D a b → EdgeBetween D a b d → EdgeBetween E a b d' →
    d.length = d'.length ∧ d.plane = d'.plane
  origins : ∀ n, A n → (∀ a, ¬ Follows D a n) → posOf D n = posOf E n
  loads : ∀ n, B n → loadAt D n = loadAt E n
  deviation : ∀ n m, B n → ((∃ d, EdgeBetween D n m d ∧ d.type = .deviation) ↔
    ∃ d, EdgeBetween E n m d ∧ d.type = .deviation)
  forces : ∀ n m d d', B n → EdgeBetween D n m d → d.type = .deviation →
    EdgeBetween E n m d' → d'.type = .deviation → d.force = d'.force ∧ A m

/-- The sequence of node `n` is at most `k`. -/
def AtMost (D : Diagram R) (k : Int) (n : Int) : Prop := ∃ s, seqOf D n = some s ∧ s ≤ k

/-- Two diagrams with the same graph, node types, sequences and trails that may differ in loads and
deviation forces at nodes of sequence `k` or later, in trail edges that end later than `k`, and in
the positions of all nodes but the first nodes of the trails up to `k`. -/
structure SameUpTo [Field R] (k : Int) (D E : Diagram R) : Prop where
  nodes : ∀ n, (D.nodes.get? n).map (fun d => (d.type, d.k)) =
    (E.nodes.get? n).map (fun d => (d.type, d.k))
  trails : ∀ p, p ∈ D.trails ↔ p ∈ E.trails
  edges : ∀ e, e ∈ D.edges.keys ↔ e ∈ E.edges.keys
  types : ∀ e d d', D.edges.get? e = some d → E.edges.get? e = some d' → d.type = d'.type
  origins : ∀ n tr, (n, tr) ∈ D.trails → AtMost D k n → posOf D n = posOf E n
  loads : ∀ n, AtMost D (k - 1) n → loadAt D n = loadAt E n
  trailData : ∀ a b d d', D.edges.get? (a, b) = some d → E.edges.get? (a, b) = some d' →
    d.type = .trail → AtMost D k a → AtMost D k b → d.length = d'.length ∧ d.plane = d'.plane
  deviationData : ∀ a b d d', D.edges.get? (a, b) = some d → E.edges.get? (a, b) = some d' →
    d.type = .deviation → AtMost D (k - 1) a → d.force = d'.force

/-- `D` is a part of `E` that is not connected with the rest: `E` has the nodes, edges and trails of
`D` with the same data, and no other edges at the nodes of `D`. -/
structure PartOf (D E : Diagram R) : Prop where
  nodes : ∀ n d, D.nodes.get? n = some d → E.nodes.get? n = some d
  edges : ∀ e d, D.edges.get? e = some d → E.edges.get? e = some d
  trails : ∀ p ∈ D.trails, p ∈ E.trails
  closed : ∀ a b, (a, b) ∈ E.edges.keys → (a ∈ D.nodes.keys ∨ b ∈ D.nodes.keys) →
    (a, b) ∈ D.edges.keys

end Spec
end CEM
