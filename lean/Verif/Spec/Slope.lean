import Mathlib.Analysis.Calculus.Deriv.Basic
import Mathlib.Analysis.Real.Sqrt

/-!
# Slopes of functions of several numbers
-/

namespace CEM
namespace Spec

/-- The length of a list of numbers. -/
noncomputable def euclid {n : Nat} (v : Fin n → ℝ) : ℝ := Real.sqrt (∑ i, v i * v i)

/-- The slope of `f` at `x` in the direction `v` is `d`. -/
def Slope {n : Nat} (f : (Fin n → ℝ) → ℝ) (x v : Fin n → ℝ) (d : ℝ) : Prop :=
  HasDerivAt (fun t : ℝ => f (x + t • v)) d 0

/-- `N` is the steepest slope of `f` at `x` in a direction of length one. -/
structure Steepest {n : Nat} (f : (Fin n → ℝ) → ℝ) (x : Fin n → ℝ) (N : ℝ) : Prop where
  bound : ∀ v, ∃ d, Slope f x v d ∧ |d| ≤ N * euclid v
  attained : ∃ v, euclid v = 1 ∧ Slope f x v N

end Spec
end CEM
