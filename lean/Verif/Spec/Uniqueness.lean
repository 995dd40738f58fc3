import Verif.Spec.Problem

/-!
# The equilibria of a form finding problem

What a form has to satisfy to solve the problem that a diagram poses.  Nothing here refers to
the way in which a form is found.
-/

namespace CEM
namespace Spec

/-- A trail edge from `a` to `b` with force `f` has the prescribed length and force state. -/
def ByLength (l f : ℝ) (a b : Vec ℝ) : Prop := Vec.dist a b = |l| ∧ 0 < f * l

/-- The plane through `o` with normal `N` places the second end of an edge from `a` to `b`: the
edge is not parallel to the plane and does not start on it. -/
def PlaneUsed (o N a b : Vec ℝ) : Prop :=
  1 / 1000000 ≤ |Vec.dot N (unit (b - a))| ∧ Vec.dot N (a - o) ≠ 0

/-- A trail edge from `a` to `b` with force `f` is as prescribed by `d`: its second end is on the
plane if there is one, and it has the prescribed length and force state otherwise. -/
def AsPrescribed (d : EdgeData ℝ) (f : ℝ) (a b : Vec ℝ) : Prop :=
  match d.plane with
  | none => ByLength d.length f a b
  | some (o, N) => (PlaneUsed o N a b → Vec.dot N (b - o) = 0) ∧
      (¬ PlaneUsed o N a b → ByLength d.length f a b)

/-- `G` is an equilibrium of the problem `D`: it has the same nodes, edges and loads, the first
nodes of the trails are where they are in `D`, only supports have reactions, all nodes are balanced,
deviation edges have the prescribed forces, and trail edges carry forces and are as prescribed. -/
structure EquilibriumOf (D G : Diagram ℝ) : Prop where
  nodes : G.nodes.keys.Perm D.nodes.keys
  edges : G.edges.keys.Perm D.edges.keys
  loads : ∀ n, loadAt G n = loadAt D n
  origins : ∀ n tr, (n, tr) ∈ D.trails → posOf G n = posOf D n
  reactions : ∀ n ∈ D.nodes.keys, typeOf D n ≠ some .support → reactionAt G n = 0
  balanced : ∀ n ∈ D.nodes.keys, imbalance G n = 0
  deviation : ∀ e d d', D.edges.get? e = some d → G.edges.get? e = some d' →
    d.type = .deviation → d'.force = d.force
  trail : ∀ key tr a b e d d', (key, tr) ∈ D.trails → Consecutive tr a b →
    (e = (a, b) ∨ e = (b, a)) → D.edges.get? e = some d → G.edges.get? e = some d' →
    d'.force ≠ 0 ∧ AsPrescribed d d'.force (posOf G a) (posOf G b)

end Spec
end CEM
