import Verif.Spec.Limit

/-!
# Forms that differ by a given amount at most
-/

namespace CEM
namespace Spec

/-- The forms `F` and `G` of the diagram `D` differ by at most `eps` in the positions and reactions of all
nodes and in the forces of all edges. -/
structure WithinForm (D F G : Diagram ℝ) (eps : ℝ) : Prop where
  positions : ∀ n ∈ D.nodes.keys, Vec.dist (posOf F n) (posOf G n) ≤ eps
  reactions : ∀ n ∈ D.nodes.keys, Vec.dist (reactionAt F n) (reactionAt G n) ≤ eps
  forces : ∀ e ∈ D.edges.keys, |forceAt F e - forceAt G e| ≤ eps

end Spec
end CEM
