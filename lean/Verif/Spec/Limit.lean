import Verif.Spec.Uniqueness
import Mathlib.Analysis.Real.Sqrt

/-!
# Forms that approach a form
-/

namespace CEM
namespace Spec
open Filter Topology

/-- The points `u 0, u 1, …` approach the point `v`. -/
def Approaches (u : ℕ → Vec ℝ) (v : Vec ℝ) : Prop :=
  Tendsto (fun j => Vec.dist (u j) v) atTop (𝓝 0)

/-- The force of an edge. -/
noncomputable def forceAt (F : Diagram ℝ) (e : Int × Int) : ℝ := ((F.edges.get? e).map (·.force)).getD 0

/-- The forms `F 0, F 1, …` approach the form `G`, which has the nodes and edges of the diagram `D`:
positions, reactions and forces do, and the loads are the same. -/
structure FormsApproach (D : Diagram ℝ) (F : ℕ → Diagram ℝ) (G : Diagram ℝ) : Prop where
  nodes : G.nodes.keys.Perm D.nodes.keys
  edges : G.edges.keys.Perm D.edges.keys
  loads : ∀ n, loadAt G n = loadAt D n
  positions : ∀ n ∈ D.nodes.keys, Approaches (fun j => posOf (F j) n) (posOf G n)
  reactions : ∀ n ∈ D.nodes.keys, Approaches (fun j => reactionAt (F j) n) (reactionAt G n)
  forces : ∀ e ∈ D.edges.keys, Tendsto (fun j => forceAt (F j) e) atTop (𝓝 (forceAt G e))

end Spec
end CEM
