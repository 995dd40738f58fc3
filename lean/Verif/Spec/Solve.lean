import Verif.Spec.Optimizer
import Verif.Model.Solve

/-!
# Specification of an optimization run
-/

namespace CEM.Spec
open CEM

variable {R : Type}

/-- `E` is the diagram `D` with the entries of `x` at the places of the parameters, and
otherwise unchanged.  If several parameters designate one place, the last one counts. -/
structure Carries (parameters : Dict Int (Param R)) (D : Diagram R) (x : List R) (E : Diagram R) :
    Prop where
  same : SameExcept (fun s => ∃ q ∈ parameters, q.2.slot = s) D E
  holds : ∀ l1 k p l2, parameters = l1 ++ (k, p) :: l2 → (∀ q ∈ l2, q.2.slot ≠ p.slot) →
    ∃ v, x[k.toNat]? = some v ∧ HoldsAt E p.slot v

/-- The form `F` is the equilibrium of the diagram `D` with the parameter values `x`. -/
def Realizes [Field R] [LinearOrder R] [PySqrt R] (parameters : Dict Int (Param R)) (tol : R)
    (D : Diagram R) (x : List R) (F : Diagram R) : Prop :=
  ∃ E, Carries parameters D x E ∧ staticEquilibrium E none 100 tol false = .ok F

/-- The run calls the objective only at points with property `P`, whatever the values and
gradients it sees. -/
inductive Only (P : List R → Prop) : Run R → Prop where
  | eval (x : List R) (grad : Bool) (next : Num R → List (Num R) → Run R) :
    P x → (∀ v dv, Only P (next v dv)) → Only P (.eval x grad next)
  | done (x : List R) (v : Num R) (n : Nat) (c : Int) : Only P (.done x v n c)
  | roundoff (v : Num R) (n : Nat) (c : Int) : Only P (.roundoff v n c)
  | raised (err : PyErr) : Only P (.raised err)

/-- The run ends with a returned point only right after it called the objective there.  `last`
is the point of the call before. -/
inductive EndsAtLast : Option (List R) → Run R → Prop where
  | eval (last : Option (List R)) (x : List R) (grad : Bool)
    (next : Num R → List (Num R) → Run R) :
    (∀ v dv, EndsAtLast (some x) (next v dv)) → EndsAtLast last (.eval x grad next)
  | done (x : List R) (v : Num R) (n : Nat) (c : Int) : EndsAtLast (some x) (.done x v n c)
  | roundoff (last : Option (List R)) (v : Num R) (n : Nat) (c : Int) :
    EndsAtLast last (.roundoff v n c)
  | raised (last : Option (List R)) (err : PyErr) : EndsAtLast last (.raised err)

/-- Every entry of the vector lies between its bounds. -/
def WithinBounds [LE R] (bounds : List (WithBot R × WithTop R)) (x : List R) : Prop :=
  List.Forall₂ (fun (b : WithBot R × WithTop R) (v : R) =>
    b.1 ≤ (v : WithBot R) ∧ (v : WithTop R) ≤ b.2) bounds x

end CEM.Spec
