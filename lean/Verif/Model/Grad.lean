import Verif.Model.Optimizer

/-!
# Finite difference gradients

Models `src/compas_cem/optimization/grad.py` 26-46.  The objective may have side effects: it
maps a state and a point to a new state and a value.  The array `x` of the caller and the
editable copy are two separate lists.
-/

namespace CEM

/-- An objective function with side effects on a state. -/
abbrev Objective (S R : Type) := S → List R → S × Except PyErr (Num R)

/-- The arrays that the function can reach: the caller's `x` and the copy `_x`. -/
structure FDArrays (R : Type) where
  x : List R
  copy : List R

variable {S R : Type} [Field R] [LinearOrder R]

/-- `(fx1 - fx0) / step_size` for numpy floats; NaN (or infinite, not distinguished here) for a
zero step. -/
def fdQuotient (fx0 fx1 : Num R) (h : R) : Num R :=
  (lift2 (fun a b => b - a) fx0 fx1).bind fun d => if h = 0 then none else some (d / h)

/-- grad.py 35-44 -/
def fdLoop (f : Objective S R) (h : R) (fx0 : Num R) :
    List Nat → S → FDArrays R → List (Num R) → (S × FDArrays R) × Except PyErr (List (Num R))
  | [], s, m, grad => ((s, m), .ok grad)
  | i :: is, s, m, grad =>
    match npGet m.copy i with
    | .error err => ((s, m), .error err)
    | .ok xi =>
      match npSet m.copy i (xi + h) with
      | .error err => ((s, m), .error err)
      | .ok c1 =>
        match f s c1 with
        | (s', .error err) => ((s', { m with copy := c1 }), .error err)
        | (s', .ok fx1) =>
          match npSet grad i (fdQuotient fx0 fx1 h) with
          | .error err => ((s', { m with copy := c1 }), .error err)
          | .ok grad' =>
            match npSet c1 i xi with
            | .error err => ((s', { m with copy := c1 }), .error err)
            | .ok c2 => fdLoop f h fx0 is s' { m with copy := c2 } grad'

/-- grad.py 26-46 -/
def gradFiniteDifferences (f : Objective S R) (h : R) (s : S) (x : List R) (grad : List (Num R)) :
    (S × List R) × Except PyErr (List (Num R)) :=
  match f s x with
  | (s', .error err) => ((s', x), .error err)
  | (s', .ok fx0) =>
    match fdLoop f h fx0 (List.range x.length) s' ⟨x, x⟩ grad with
    | ((s'', m), r) => ((s'', m.x), r)

/-- grad.py 12-19: `grad[:] = grad_func(x)`; numpy raises `ValueError` if the lengths differ
(arrays of length one are broadcast). -/
def gradAutograd (g : List R → Except PyErr (List (Num R))) (x : List R) (grad : List (Num R)) :
    Except PyErr (List (Num R)) :=
  match g x with
  | .error err => .error err
  | .ok v =>
    if v.length = grad.length then .ok v
    else match v with
      | [a] => .ok (List.replicate grad.length a)
      | _ => .error .valueError

end CEM
