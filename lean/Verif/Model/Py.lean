import Mathlib.Data.List.Nodup
import Mathlib.Data.List.Basic

/-!
# Python values used by the model

* `PyErr`: exceptions as values.
* `Dict`: Python's insertion ordered `dict`, an association list.
-/

namespace CEM

/-- Exceptions the modelled code can raise.  `unboundLocal` is Python's
`UnboundLocalError`, `overflow` its `OverflowError`;
`outOfFuel` marks a model loop that did not terminate within its fuel (proved
unreachable). -/
inductive PyErr where
  | keyError | valueError | typeError | assertionError | attributeError
  | unboundLocal | indexError | runtimeError | syntaxError | overflow | outOfFuel
  deriving DecidableEq, Repr

/-- A Python `dict`: pairs in insertion order, each key at most once. -/
abbrev Dict (K V : Type) := List (K × V)

namespace Dict
variable {K V : Type} [DecidableEq K]

/-- `d.get(k)`. -/
def get? : Dict K V → K → Option V
  | [], _ => none
  | (a, b) :: d, k => if a = k then some b else get? d k

/-- `d[k] = v`: replaces the value in place, or appends a new key at the end. -/
def set : Dict K V → K → V → Dict K V
  | [], k, v => [(k, v)]
  | (a, b) :: d, k, v => if a = k then (a, v) :: d else (a, b) :: set d k v

/-- `del d[k]` (no effect if absent; callers check membership first). -/
def erase : Dict K V → K → Dict K V
  | [], _ => []
  | (a, b) :: d, k => if a = k then d else (a, b) :: erase d k

/-- `list(d.keys())`. -/
def keys (d : Dict K V) : List K := d.map Prod.fst

/-- `list(d.values())`. -/
def vals (d : Dict K V) : List V := d.map Prod.snd

/-- `k in d`. -/
def has (d : Dict K V) (k : K) : Bool := (get? d k).isSome

/-- `d[k]` with `KeyError`. -/
def getE (d : Dict K V) (k : K) : Except PyErr V :=
  match get? d k with
  | some v => .ok v
  | none => .error .keyError

/-- Apply `f` to the value stored under `k` (in place; used for attribute updates). -/
def modify (d : Dict K V) (k : K) (f : V → V) : Dict K V :=
  match get? d k with
  | some v => set d k (f v)
  | none => d

end Dict
end CEM
