import Verif.Spec.Reach

/-!
# Deviation edges whose ends cannot meet
-/

namespace CEM
namespace Spec

/-- The trails on which the ends of a deviation edge lie start so far from one another that the prescribed lengths do
not allow the ends to meet. -/
def KeptApart (D : Diagram ℝ) : Prop :=
  ∀ e d, D.edges.get? e = some d → d.type = .deviation → ∀ ka la qa kb lb qb,
    (ka, la ++ e.1 :: qa) ∈ D.trails → (kb, lb ++ e.2 :: qb) ∈ D.trails →
      walked D (la ++ [e.1]) + walked D (lb ++ [e.2]) < Vec.dist (posOf D ka) (posOf D kb)

end Spec
end CEM
