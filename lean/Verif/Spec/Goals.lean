import Verif.Model.Goals
import Verif.Spec.Constraints

/-!
# Specification vocabulary for the constraint components

What a goal asks for, without constraints, weights and penalties.
-/

namespace CEM.Spec
open CEM Component

/-- All inputs of the component are connected. -/
def Connected {R : Type} : Goal R → Prop
  | .point n t => n ≠ none ∧ t ≠ none
  | .plane n t => n ≠ none ∧ t ≠ none
  | .line n t => n ≠ none ∧ t ≠ none
  | .polyline n t => n ≠ none ∧ t ≠ none
  | .trailForce e t => e ≠ none ∧ t ≠ none
  | .reaction n t => n ≠ none ∧ t ≠ none
  | .length e t => e ≠ none ∧ t ≠ none
  | .direction e t => e ≠ none ∧ t ≠ none

/-- The state has what the goal asks for. -/
def Met (s : NState ℝ) : Goal ℝ → Prop
  | .point n t => ∃ k p, n = some k ∧ t = some p ∧ At s k p
  | .plane n t => ∃ k b v p, n = some k ∧ t = some (b, v) ∧ v ≠ 0 ∧ At s k p ∧ OnPlane b v p
  | .line n t => ∃ k a b p, n = some k ∧ t = some (a, b) ∧ At s k p ∧ OnLine a b p
  | .polyline n t => ∃ k l p, n = some k ∧ t = some l ∧ At s k p ∧ OnPolyline l p
  | .trailForce e t => ∃ k f, e = some k ∧ t = some f ∧ s.trailForces.get? k = some (some f)
  | .reaction n t => ∃ k r, n = some k ∧ t = some r ∧ s.reactions.get? k = some (some r)
  | .length e t => ∃ u v l a b, e = some (u, v) ∧ t = some l ∧ At s u a ∧ At s v b ∧
      Real.sqrt (sqDist a b) = l
  | .direction e t => ∃ u v d a b, e = some (u, v) ∧ t = some d ∧ At s u a ∧ At s v b ∧ a ≠ b ∧
      ∃ c : ℝ, b - a = c • d

end CEM.Spec
