import Verif.Spec.Uniqueness
import Verif.Spec.Rounded

/-!
# Problems next to a problem

What a form finding problem has to have in common with another one for the two to differ
by rounding errors only.  Nothing here refers to the way in which a form is found.
-/

namespace CEM
namespace Spec

/-- Up to rounding errors, an edge from `a` to `b` is parallel to the plane through `o`
with normal `N` or starts on it. -/
def AlmostUnused (u : ℝ) (o N a b : Vec ℝ) : Prop :=
  |Vec.dot N (unit (b - a))| ≤ 1 / 1000000 + Vec.length N *
      (10 * u + slack (11 * u * (Vec.length a + Vec.length b)) (Vec.length (b - a))) ∨
  |Vec.dot N (a - o)| ≤ 5 * u * Vec.length N * Vec.length (a - o)

/-- The data `d'` of a trail edge from `a` to `b` are next to the data `d`: the prescribed
lengths are close and there is no plane, except for one that is almost unused, or the plane is
moved a little in parallel. -/
def NearEdge (u : ℝ) (d d' : EdgeData ℝ) (a b : Vec ℝ) : Prop :=
  d'.type = d.type ∧ d'.force = d.force ∧
  ((d'.plane = none ∧ |d'.length - d.length| ≤ 11 * u * (Vec.length a + Vec.length b) ∧
      ∀ o N, d.plane = some (o, N) → AlmostUnused u o N a b) ∨
    ∃ o o' N, d.plane = some (o, N) ∧ d'.plane = some (o', N) ∧
      |Vec.dot N (o' - o)| ≤ 30 * u * Vec.length N * (Vec.length o + Vec.length a + Vec.length b))

/-- The problem `E` is next to the problem `D`: the graph, the trails, the deviation edges, the
node types and the positions are the same, the load of a node `n` differs by at most `q n`, and
the data of trail edges are close relative to the positions in `F`. -/
structure NearProblem (u : ℝ) (q : Int → ℝ) (F D E : Diagram ℝ) : Prop where
  nodeKeys : E.nodes.keys = D.nodes.keys
  edgeKeys : E.edges.keys = D.edges.keys
  node : ∀ n d d', D.nodes.get? n = some d → E.nodes.get? n = some d' →
    d'.pos = d.pos ∧ d'.reaction = d.reaction ∧ d'.k = d.k ∧ d'.type = d.type ∧
    Vec.length (d'.load - d.load) ≤ q n
  deviation : ∀ e d, D.edges.get? e = some d → d.type ≠ .trail → E.edges.get? e = some d
  trail : ∀ key tr a b e d d', (key, tr) ∈ D.trails → Consecutive tr a b →
    (e = (a, b) ∨ e = (b, a)) → D.edges.get? e = some d → E.edges.get? e = some d' →
    NearEdge u d d' (posOf F a) (posOf F b)
  rest : E.maxNode = D.maxNode ∧ E.gkeyNode = D.gkeyNode ∧ E.trails = D.trails ∧
    E.auxTrails = D.auxTrails ∧ E.auxLength = D.auxLength ∧ E.auxVector = D.auxVector

/-- The forms have the same positions, reactions and edge forces. -/
structure EqualForms (F G : Diagram ℝ) : Prop where
  nodeKeys : ∀ n, n ∈ F.nodes.keys ↔ n ∈ G.nodes.keys
  edgeKeys : ∀ e, e ∈ F.edges.keys ↔ e ∈ G.edges.keys
  node : ∀ n ∈ F.nodes.keys, posOf F n = posOf G n ∧ reactionAt F n = reactionAt G n
  edge : ∀ e d d', F.edges.get? e = some d → G.edges.get? e = some d' → d.force = d'.force

/-- Every trail edge carries a force and joins two different points. -/
def ProperTrails (F : Diagram ℝ) : Prop :=
  ∀ e d, F.edges.get? e = some d → d.type = .trail → d.force ≠ 0 ∧ posOf F e.1 ≠ posOf F e.2

end Spec
end CEM
