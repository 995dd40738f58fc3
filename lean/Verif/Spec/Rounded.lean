import Verif.Model.Rounded
import Verif.Spec.Problem
import Mathlib.Data.Int.Log
import Mathlib.Algebra.Order.Round

/-!
# Rounded arithmetic and its error

`Precise A u` is the usual model of floating point arithmetic without overflow and
underflow: every operation returns the exact result up to a relative error of at most
`u`.  `binaryArith p` rounds every result to the nearest binary number of `p` digits;
IEEE double precision is `p = 53` as long as exponents stay in their range.
-/

namespace CEM
namespace Spec
open Diagram

/-- Every operation has a relative error of at most `u`. -/
structure Precise (A : Arith ℝ) (u : ℝ) : Prop where
  nonneg : 0 ≤ u
  add : ∀ a b, |A.add a b - (a + b)| ≤ u * |a + b|
  sub : ∀ a b, |A.sub a b - (a - b)| ≤ u * |a - b|
  mul : ∀ a b, |A.mul a b - a * b| ≤ u * |a * b|
  div : ∀ a b, b ≠ 0 → |A.div a b - a / b| ≤ u * |a / b|
  sqrt : ∀ a, 0 ≤ a → |A.sqrt a - Real.sqrt a| ≤ u * Real.sqrt a

/-- The nearest multiple of the last of `p` binary digits of `x`. -/
noncomputable def binaryRound (p : ℕ) (x : ℝ) : ℝ :=
  round (x / (2 : ℝ) ^ (Int.log 2 |x| + 1 - p)) * (2 : ℝ) ^ (Int.log 2 |x| + 1 - p)

/-- Every result is rounded to `p` binary digits. -/
noncomputable def binaryArith (p : ℕ) : Arith ℝ where
  add a b := binaryRound p (a + b)
  sub a b := binaryRound p (a - b)
  mul a b := binaryRound p (a * b)
  div a b := binaryRound p (a / b)
  sqrt a := binaryRound p (Real.sqrt a)

/-- Number of edges at node `n`. -/
def edgesAt (F : Diagram ℝ) (n : Int) : ℕ :=
  (F.edges.filter fun p => p.1.1 = n ∨ p.1.2 = n).length

/-- Sum of the absolute values of all forces of the edges at node `n`. -/
def forcesAt (F : Diagram ℝ) (n : Int) : ℝ :=
  (F.edges.map fun p => if p.1.1 = n ∨ p.1.2 = n then |p.2.force| else 0).sum

/-- Sum over the trail edges at node `n` of |force| times the change of their
direction by rounding the coordinates of their ends. -/
noncomputable def trailSlack (F : Diagram ℝ) (u : ℝ) (n : Int) : ℝ :=
  (F.edges.map fun p =>
    if (p.1.1 = n ∨ p.1.2 = n) ∧ p.2.type = .trail then
      |p.2.force| * slack (11 * u * (Vec.length (posOf F p.1.1) + Vec.length (posOf F p.1.2)))
        (Vec.length (posOf F p.1.2 - posOf F p.1.1))
    else 0).sum

/-- Bound of what rounding adds to the imbalance of a node.  It only depends on the
node, its edges and their ends. -/
noncomputable def roundingBound (F : Diagram ℝ) (u : ℝ) (n : Int) : ℝ :=
  2 * ((1 + u) ^ (edgesAt F n + 14) - 1) * (Vec.length (loadAt F n) + forcesAt F n) + trailSlack F u n

end Spec
end CEM
