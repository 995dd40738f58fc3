import Verif.Model.Solve

/-!
# Specification of a call of the numerical solver on fixed functions
-/

namespace CEM.Spec
open CEM

variable {R : Type}

/-- The run of a numerical solver that is given values by the function `f` and gradients by the function `g`, neither of
which has side effects: the points at which it asks for a value, in order, and how it ends. -/
inductive Plays (f : List R → Except PyErr (Num R)) (g : List R → Except PyErr (List (Num R))) :
    Run R → List (List R) → Ended R → Prop where
  | done (x : List R) (v : Num R) (n : Nat) (c : Int) : Plays f g (.done x v n c) [] (.done x v n c)
  | roundoff (v : Num R) (n : Nat) (c : Int) : Plays f g (.roundoff v n c) [] (.roundoff v n c)
  | raised (err : PyErr) : Plays f g (.raised err) [] (.raised err)
  /-- it asks for the value and goes on -/
  | value (x : List R) (next : Num R → List (Num R) → Run R) (v : Num R) (xs : List (List R)) (e : Ended R) :
    f x = .ok v → Plays f g (next v []) xs e → Plays f g (.eval x false next) (x :: xs) e
  /-- it asks for value and gradient and goes on -/
  | gradient (x : List R) (next : Num R → List (Num R) → Run R) (v : Num R) (dv : List (Num R))
    (xs : List (List R)) (e : Ended R) :
    f x = .ok v → g x = .ok dv → Plays f g (next v dv) xs e → Plays f g (.eval x true next) (x :: xs) e
  /-- there is no value -/
  | noValue (x : List R) (wants : Bool) (next : Num R → List (Num R) → Run R) (err : PyErr) :
    f x = .error err → Plays f g (.eval x wants next) [x] (.raised err)
  /-- there is no gradient -/
  | noGradient (x : List R) (next : Num R → List (Num R) → Run R) (v : Num R) (err : PyErr) :
    f x = .ok v → g x = .error err → Plays f g (.eval x true next) [x] (.raised err)

end CEM.Spec
