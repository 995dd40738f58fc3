import Verif.Spec.Smooth
import Verif.Spec.Constraints
import Verif.Spec.Grad

/-!
# Constraints whose penalties have derivatives
-/

namespace CEM
namespace Spec

/-- The squared distance to the polyline is smooth near `p`. -/
def SmoothDistance (k : WithTop ℕ∞) (pts : List (Vec ℝ)) (p : Vec ℝ) : Prop :=
  ∃ m : ℝ × ℝ × ℝ → ℝ, ContDiffAt ℝ k m (p.x, p.y, p.z) ∧
    ∀ᶠ q in nhds (p.x, p.y, p.z), IsSqDistTo ⟨q.1, q.2.1, q.2.2⟩ (OnPolyline pts) (m q)

/-- The constraint speaks of nodes, trail edges and supports of the diagram. -/
def Posed (D : Diagram ℝ) : Constraint ℝ → Prop
  | .point n _ _ | .plane n _ _ | .line n _ _ | .polyline n _ _ => n ∈ D.nodes.keys
  | .trailForce e _ _ => IsTrail D e.1 e.2
  | .reaction n _ _ => typeOf D n = some .support
  | .length e _ _ | .direction e _ _ => e.1 ∈ D.nodes.keys ∧ e.2 ∈ D.nodes.keys

/-- The form is not at a place where the penalty of the constraint has a kink or is undefined: the
normal of a plane is not zero, the distance to a polyline is smooth, an edge whose length or direction
is asked for has not shrunk to a point and is not perpendicular to the direction asked for. -/
def Clear (k : WithTop ℕ∞) (F : Diagram ℝ) : Constraint ℝ → Prop
  | .point _ _ _ | .line _ _ _ | .trailForce _ _ _ | .reaction _ _ _ => True
  | .plane _ t _ => t.2 ≠ 0
  | .polyline n t _ => SmoothDistance k t (posOf F n)
  | .length e _ _ => posOf F e.1 ≠ posOf F e.2
  | .direction e t _ => posOf F e.1 ≠ posOf F e.2 ∧ Vec.dot t (posOf F e.2 - posOf F e.1) ≠ 0

end Spec
end CEM
