import Verif.Spec.Rounded
import Verif.Spec.Numpy
import Verif.Model.RoundedNumpy

/-!
# Rounded sums and runs of the numpy solver
-/

namespace CEM
namespace Spec
open Diagram

/-- `a` is a sum of the numbers of the list, added by `A` with some way to put brackets. -/
inductive Summed (A : Arith ℝ) : List ℝ → ℝ → Prop
  | nil : Summed A [] 0
  | one (x : ℝ) : Summed A [x] x
  | add {l r : List ℝ} {a b : ℝ} : l ≠ [] → r ≠ [] → Summed A l a → Summed A r b →
      Summed A (l ++ r) (A.add a b)

/-- `total` adds with the operation of `A`, in an order that may depend on the numbers. -/
def Totals (A : Arith ℝ) (total : List ℝ → ℝ) : Prop := ∀ l, Summed A l (total l)

/-- Adding to zero is exact. -/
def ZeroAdds (A : Arith ℝ) : Prop := ∀ x, A.add 0 x = x

/-- Addition to zero made exact. -/
noncomputable def keepZero (A : Arith ℝ) : Arith ℝ :=
  { A with add := fun a b => if a = 0 then b else A.add a b }

/-- The state of the numpy solver after `m` sweeps. -/
def flNumpySweeps {R : Type} [Field R] [LinearOrder R] (A : Arith R) (D : Diagram R) (tab : NTables R)
    (T : Dict Int (Dict Int Int)) (N : Int) : Nat → Except PyErr (NState R)
  | 0 => .ok (npInit D)
  | m + 1 =>
    match flNumpySweeps A D tab T N m with
    | .error e => .error e
    | .ok s => flNpSweep A D tab T (m > 0) N s

/-- The state of the plain solver after `m` sweeps. -/
def flPlainSweeps {R : Type} [Field R] [LinearOrder R] (A : Arith R) (D : Diagram R)
    (T : Dict Int (Dict Int Int)) (N : Int) : Nat → Except PyErr (EqState R)
  | 0 => .ok (initState D)
  | m + 1 =>
    match flPlainSweeps A D T N m with
    | .error e => .error e
    | .ok s => flSweep A D T none (m > 0) N s

end Spec
end CEM
