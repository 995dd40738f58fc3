import Verif.Model.Grad
import Verif.Model.Equilibrium

/-!
# Optimizer.solve

Models `src/compas_cem/optimization/optimizer.py` 130-280 and 365-375, `objective_func.py`,
`nlopt.py` and `proxy.py` 69-96.

NLopt is not part of the repository.  One call of its `optimize` is an arbitrary well-founded
tree `Run`: it evaluates the objective at points of its choice, sees the values and gradients,
and ends in one of the ways the code distinguishes.  Nothing is assumed about which points
these are.  A Python exception raised by the objective leaves `optimize` unchanged.
Automatic differentiation is an arbitrary function that may change the copy of the diagram it
works on.  `topology.copy()` is taken to be an equal diagram that shares nothing with the
original.  Printing and timing are left out; `gradient_norm` is in `Model/GradientNorm`.
-/

namespace CEM

/-- What NLopt does when `optimize` is called. -/
inductive Run (R : Type) where
  /-- evaluate the objective at `x`, with its gradient if `grad`; then go on -/
  | eval (x : List R) (grad : Bool) (next : Num R → List (Num R) → Run R)
  /-- return `x`; optimum value, number of evaluations and result constant -/
  | done (x : List R) (value : Num R) (evals : Nat) (result : Int)
  /-- raise `RoundoffLimited` -/
  | roundoff (value : Num R) (evals : Nat) (result : Int)
  /-- raise another exception -/
  | raised (err : PyErr)

/-- How a call of `optimize` ended. -/
inductive Ended (R : Type) where
  | done (x : List R) (value : Num R) (evals : Nat) (result : Int)
  | roundoff (value : Num R) (evals : Nat) (result : Int)
  | raised (err : PyErr)

/-- optimizer.py 225-232: what the NLopt object is given, and the start vector. -/
structure Problem (R : Type) where
  algorithm : String
  dims : Nat
  bounds : List (WithBot R × WithTop R)
  iters : Int
  eps : R
  ftol : R
  start : List R

/-- The attributes that `solve` sets (optimizer.py 43-48, 261-268). -/
structure Attrs (R : Type) where
  xOpt : Option (List R)
  penalty : Option (Num R)
  evals : Option Nat
  status : Option String
  gradient : Option (List (Num R))

/-- The arguments of `solve` besides the diagram (optimizer.py 130-139). -/
structure SolveArgs (R : Type) where
  algorithm : String
  grad : String
  iters : Int
  eps : R
  kappa : R
  stepSize : R
  tmax : Nat
  eta : R

/-- A gradient: works on its own copy of the diagram. -/
abbrev GradFunc (R : Type) := Diagram R → List R → Diagram R × Except PyErr (List (Num R))

/-- nlopt.py 70-81 -/
def nloptAlgorithms : List String := ["SLSQP", "MMA", "LBFGS", "TNEWTON", "VAR", "AUGLAG"]

/-- nlopt.py 98-114 -/
def nloptResults : Dict Int String :=
  [(1, "NLOPT_SUCCESS"), (2, "NLOPT_EPSVAL_REACHED"), (3, "NLOPT_FTOL_REACHED"),
    (4, "NLOPT_XTOL_REACHED"), (5, "NLOPT_ITERSMAX_REACHED"), (6, "NLOPT_MAXTIME_REACHED"),
    (-1, "NLOPT_GENERIC_FAILURE"), (-2, "NLOPT_INVALID_ARGS"), (-3, "NLOPT_OUT_OF_MEMORY"),
    (-4, "NLOPT_ROUNDOFF_LIMITED"), (-5, "NLOPT_FORCED_STOP")]

/-- nlopt.py 116 -/
def nloptStatus (constant : Int) : Except PyErr String := nloptResults.getE constant

/-- What a call of `solve` leaves behind: the diagram, the attributes, the points at which the
objective was called (last one first), how `optimize` ended (`none` if it was not called), and
the returned form.  The points and the way it ended are not recorded by the code. -/
structure Solved (R : Type) where
  topology : Diagram R
  attrs : Attrs R
  points : List (List R)
  ended : Option (Ended R)
  form : Except PyErr (Diagram R)

namespace Optimizer
variable {R : Type}

/-- optimizer.py 365-375 -/
def checkSanity (o : Optimizer R) : Except PyErr Unit :=
  if o.parameters.length = 0 then .error .valueError
  else if o.constraints.length = 0 then .error .valueError
  else .ok ()

/-- A call of `optimize` with the objective of objective_func.py 7-12: `f` works on the diagram
`D`, the gradient on the copy `C`.  The points at which the objective was called are recorded,
the last one first. -/
def exec (f : Diagram R → List R → Diagram R × Except PyErr (Num R)) (g : GradFunc R) :
    Run R → Diagram R → Diagram R → List (List R) → (Diagram R × Diagram R × List (List R)) × Ended R
  | .done x v n c, D, C, xs => ((D, C, xs), .done x v n c)
  | .roundoff v n c, D, C, xs => ((D, C, xs), .roundoff v n c)
  | .raised err, D, C, xs => ((D, C, xs), .raised err)
  | .eval x wants next, D, C, xs =>
    match f D x with
    | (D', .error err) => ((D', C, x :: xs), .raised err)
    | (D', .ok v) =>
      if wants then
        match g C x with
        | (C', .error err) => ((D', C', x :: xs), .raised err)
        | (C', .ok dv) => exec f g (next v dv) D' C' (x :: xs)
      else exec f g (next v []) D' C (x :: xs)

variable [Field R] [LinearOrder R] [PySqrt R]

/-- optimizer.py 204-213: the gradient of the method's choice. -/
def gradFunc (o : Optimizer R) (ad : GradFunc R) (a : SolveArgs R) : GradFunc R := fun C x =>
  if a.grad = "AD" then
    match ad C x with
    | (C', .error err) => (C', .error err)
    | (C', .ok v) => (C', gradAutograd (fun _ => .ok v) x (List.replicate x.length (some 0)))
  else
    match gradFiniteDifferences (o.optimizeForm a.tmax a.eta) a.stepSize C x
      (List.replicate x.length (some 0)) with
    | ((C', _), r) => (C', r)

/-- optimizer.py 253-280, after `optimize` returned `x`. -/
def finish (g : GradFunc R) (tol : R) (old : Attrs R) (D C : Diagram R) (points : List (List R))
    (ended : Ended R) (x : List R) (value : Num R) (evals : Nat) (result : Int) : Solved R :=
  match nloptStatus result with
  | .error err => ⟨D, old, points, some ended, .error err⟩
  | .ok status =>
    match (g C x).2 with
    | .error err =>
      ⟨D, ⟨some x, some value, some evals, some status, old.gradient⟩, points, some ended,
        .error err⟩
    | .ok dv =>
      ⟨D, ⟨some x, some value, some evals, some status, some dv⟩, points, some ended,
        staticEquilibrium D none 100 tol false⟩

/-- optimizer.py 238-280: calling `optimize` and what follows. -/
def optimize (o : Optimizer R) (old : Attrs R) (g : GradFunc R) (tol : R) (a : SolveArgs R)
    (run : Run R) (D : Diagram R) : Solved R :=
  match exec (o.optimizeForm a.tmax a.eta) g run D D [] with
  | ((D', C, xs), .done y v n c) => finish g tol old D' C xs (.done y v n c) y v n c
  | ((D', C, xs), .roundoff v n c) =>
    match o.optimizationParameters D' with
    | .error err => ⟨D', old, xs, some (.roundoff v n c), .error err⟩
    | .ok y => finish g tol old D' C xs (.roundoff v n c) y v n c
  | ((D', _, xs), .raised err) =>
    if err = .runtimeError then
      ⟨D', old, xs, some (.raised err), staticEquilibrium D' none 100 tol false⟩
    else ⟨D', old, xs, some (.raised err), .error err⟩

/-- optimizer.py 193-280.  `tol` is the default `eta` of `static_equilibrium`, 1e-6. -/
def solve (o : Optimizer R) (old : Attrs R) (nlopt : Problem R → Run R) (ad : GradFunc R) (tol : R)
    (a : SolveArgs R) (D : Diagram R) : Solved R :=
  match o.checkSanity with
  | .error err => ⟨D, old, [], none, .error err⟩
  | .ok _ =>
    if a.grad ≠ "AD" ∧ a.grad ≠ "FD" then ⟨D, old, [], none, .error .valueError⟩
    else
      match o.optimizationParameters D with
      | .error err => ⟨D, old, [], none, .error err⟩
      | .ok x =>
        match o.optimizationBounds D with
        | .error err => ⟨D, old, [], none, .error err⟩
        | .ok bounds =>
          if a.algorithm ∉ nloptAlgorithms then ⟨D, old, [], none, .error .keyError⟩
          else
            o.optimize old (o.gradFunc ad a) tol a
              (nlopt ⟨a.algorithm, o.parameters.length, bounds, a.iters, a.eps, a.kappa, x⟩) D

/-- proxy.py 72-96: diagram, form, and the attributes read from the optimizer.  The proxy uses
the default gradient method. -/
def solveProxy (constraints : List (Constraint R)) (parameters : List (Param R))
    (nlopt : Problem R → Run R) (ad : GradFunc R) (tol step : R) (algorithm : String) (iters : Int)
    (eps kappa : R) (tmax : Nat) (eta : R) (D : Diagram R) : Solved R :=
  (ofLists constraints parameters).solve ⟨none, none, none, none, none⟩ nlopt ad tol
    ⟨algorithm, "AD", iters, eps, kappa, step, tmax, eta⟩ D

end Optimizer
end CEM
