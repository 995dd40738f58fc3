import Verif.Model.Parameters
import Verif.Model.Constraints

/-!
# The optimizer's registries, variables and objective

Models `src/compas_cem/optimization/optimizer.py` except `solve` (see `Model/Solve.lean`),
and the part of `proxy.py` that fills the registries.
-/

namespace CEM

/-- optimizer.py 40-51: parameters, constraints and the two key counters. -/
structure Optimizer (R : Type) where
  parameters : Dict Int (Param R)
  constraints : Dict Int (Constraint R)
  /-- `_ckey` -/
  ckey : Int
  /-- `_pkey` -/
  pkey : Int
  deriving DecidableEq, Repr

/-- `a[i]` of a numpy array: a negative index counts from the end. -/
def npIndex (n : Nat) (i : Int) : Except PyErr Nat :=
  if 0 ≤ i ∧ i < n then .ok i.toNat
  else if -(n : Int) ≤ i ∧ i < 0 then .ok (i + n).toNat
  else .error .indexError

/-- `a[i]` -/
def npGet {α : Type} (a : List α) (i : Int) : Except PyErr α :=
  match npIndex a.length i with
  | .error err => .error err
  | .ok j =>
    match a[j]? with
    | some v => .ok v
    | none => .error .indexError

/-- `a[i] = v` -/
def npSet {α : Type} (a : List α) (i : Int) (v : α) : Except PyErr (List α) :=
  match npIndex a.length i with
  | .error err => .error err
  | .ok j => .ok (a.set j v)

namespace Optimizer
variable {R : Type}

/-- optimizer.py 37-51 -/
def empty : Optimizer R := ⟨[], [], -1, -1⟩

/-- optimizer.py 73-78 -/
def addParameter (o : Optimizer R) (p : Param R) : Optimizer R :=
  { o with pkey := o.pkey + 1, parameters := o.parameters.set (o.pkey + 1) p }

/-- optimizer.py 80-86 -/
def removeParameter (o : Optimizer R) (k : Int) : Except PyErr (Optimizer R) :=
  if o.parameters.has k then .ok { o with parameters := o.parameters.erase k }
  else .error .keyError

/-- optimizer.py 92-97 -/
def addConstraint (o : Optimizer R) (c : Constraint R) : Optimizer R :=
  { o with ckey := o.ckey + 1, constraints := o.constraints.set (o.ckey + 1) c }

/-- optimizer.py 99-105 -/
def removeConstraint (o : Optimizer R) (k : Int) : Except PyErr (Optimizer R) :=
  if o.constraints.has k then .ok { o with constraints := o.constraints.erase k }
  else .error .keyError

/-- The loops of optimizer.py 294-295 and 307-309: the entries of `items` are written into
the array `a` at the index that is their key. -/
def assemble {α : Type} (f : Param R → Except PyErr α) :
    Dict Int (Param R) → List α → Except PyErr (List α)
  | [], a => .ok a
  | (k, p) :: l, a =>
    match f p with
    | .error err => .error err
    | .ok v =>
      match npSet a k v with
      | .error err => .error err
      | .ok a' => assemble f l a'

/-- optimizer.py 286-297 -/
def optimizationParameters [Zero R] (o : Optimizer R) (D : Diagram R) : Except PyErr (List R) :=
  assemble (fun p => p.startValue D) o.parameters (List.replicate o.parameters.length 0)

/-- optimizer.py 299-311.  One array of pairs instead of two arrays; both are written at the
same index, so the first error is the same. -/
def optimizationBounds [Field R] [LinearOrder R] (o : Optimizer R) (D : Diagram R) :
    Except PyErr (List (WithBot R × WithTop R)) :=
  assemble (fun p =>
      match p.boundLow D with
      | .error err => .error err
      | .ok a =>
        match p.boundUp D with
        | .error err => .error err
        | .ok b => .ok (a, b))
    o.parameters (List.replicate o.parameters.length (((0 : R) : WithBot R), ((0 : R) : WithTop R)))

/-- The loop of optimizer.py 321-333, with the diagram as it is left behind. -/
def writeParameters (x : List R) : Dict Int (Param R) → Diagram R → Diagram R × Except PyErr Unit
  | [], D => (D, .ok ())
  | (k, p) :: l, D =>
    match npGet x k with
    | .error err => (D, .error err)
    | .ok v =>
      match D.setAttribute v p.slot with
      | .error err => (D, .error err)
      | .ok D' => writeParameters x l D'

/-- optimizer.py 317-333 -/
def updateParameters (o : Optimizer R) (D : Diagram R) (x : List R) : Diagram R × Except PyErr Unit :=
  writeParameters x o.parameters D

/-- optimizer.py 352-359: the diagram afterwards and the value of the objective. -/
def optimizeForm [Field R] [LinearOrder R] [PySqrt R] (o : Optimizer R) (tmax : Nat) (eta : R)
    (D : Diagram R) (x : List R) : Diagram R × Except PyErr (Num R) :=
  match o.updateParameters D x with
  | (D', .error err) => (D', .error err)
  | (D', .ok _) =>
    match npEquilibriumState D' tmax eta false with
    | .error err => (D', .error err)
    | .ok s => (D', calculatePenalty s o.constraints.vals (some 0))

/-- proxy.py 72-80: the registries that `solve_proxy` fills. -/
def ofLists (constraints : List (Constraint R)) (parameters : List (Param R)) : Optimizer R :=
  parameters.foldl addParameter (constraints.foldl addConstraint empty)

end Optimizer
end CEM
