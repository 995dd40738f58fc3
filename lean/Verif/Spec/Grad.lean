import Verif.Model.Grad

/-!
# Specification of finite differences
-/

namespace CEM.Spec
open CEM

variable {S R : Type}

/-- `x + h * e_i` -/
def bump [Add R] (x : List R) (i : Nat) (h : R) : List R :=
  x.mapIdx fun j v => if j = i then v + h else v

/-- The objective evaluated at the given points in this order, up to the first exception. -/
def evalAll (f : Objective S R) : S → List (List R) → S × Except PyErr (List (Num R))
  | s, [] => (s, .ok [])
  | s, y :: ys =>
    match f s y with
    | (s', .error err) => (s', .error err)
    | (s', .ok v) =>
      match evalAll f s' ys with
      | (s'', .error err) => (s'', .error err)
      | (s'', .ok vs) => (s'', .ok (v :: vs))

/-- An objective without side effects that records the points where it is evaluated. -/
def recording (f : List R → R) : Objective (List (List R)) R := fun s x => (s ++ [x], .ok (some (f x)))

/-- `c + sum a_i x_i` -/
def affine [Semiring R] (c : R) (a : List R) (x : List R) : R := c + (List.zipWith (· * ·) a x).sum

end CEM.Spec
