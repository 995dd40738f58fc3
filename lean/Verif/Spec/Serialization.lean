import Verif.Model.Serialization
import Mathlib.Data.Rat.Defs
import Mathlib.Algebra.Order.Ring.Unbundled.Rat

/-!
# Specification vocabulary for serialization
-/

namespace CEM.Spec

/-- The text of a float without a sign: it starts with a digit, has only number characters and
is not the text of an integer. -/
def FloatText (t : List Char) : Prop :=
  (∃ c cs, t = c :: cs ∧ c.isDigit = true) ∧ (∀ c ∈ t, c.isDigit = true ∨ c ∈ ['.', 'e', '+', '-']) ∧
    ∃ c ∈ t, c.isDigit = false

/-- What is assumed of Python's `float`: `repr` of a finite float is the text of a float that
denotes the same float, possibly with a sign; infinities and NaN print as names;
`float(i)` is exact whenever some float has the value `i`. -/
class FloatLaws (F : Type) [PyFloat F] where
  /-- The number denoted by a finite float. -/
  value : F → Option ℚ
  repr_finite : ∀ x q, value x = some q → ∃ t, FloatText t ∧
    ((PyFloat.repr x = t ∧ PyFloat.parse t = some x) ∨
      (PyFloat.repr x = '-' :: t ∧ ∃ y, PyFloat.parse t = some y ∧ PyFloat.neg y = x))
  repr_other : ∀ x : F, value x = none →
    PyFloat.repr x = ['i', 'n', 'f'] ∨ PyFloat.repr x = ['-', 'i', 'n', 'f'] ∨
      PyFloat.repr x = ['n', 'a', 'n']
  ofInt_exact : ∀ (x : F) (i : Int), value x = some (i : ℚ) →
    ∃ y, PyFloat.ofInt (F := F) i = some y ∧ value y = some (i : ℚ)

variable {F : Type} [PyFloat F] [FloatLaws F]

/-- A value that a literal can denote: all floats in it are finite. -/
inductive Literal : PyVal F → Prop
  | none : Literal .none
  | int (i : Int) : Literal (.int i)
  | float (x : F) (q : ℚ) : FloatLaws.value x = some q → Literal (.float x)
  | tuple (vs : List (PyVal F)) : (∀ v ∈ vs, Literal v) → Literal (.tuple vs)
  | list (vs : List (PyVal F)) : (∀ v ∈ vs, Literal v) → Literal (.list vs)

/-- The number a Python value denotes. -/
def number : PyVal F → Option ℚ
  | .int i => some i
  | .float x => FloatLaws.value x
  | _ => none

/-- A number that survives `float(v)`: a float, or an integer some float is equal to. -/
def Floatable : PyVal F → Prop
  | .int i => ∃ x : F, FloatLaws.value x = some (i : ℚ)
  | .float _ => True
  | _ => False

/-- Python's `==` between numbers or `None` of the modelled kinds: identical, or an integer and
a float of the same value. -/
def SameNumber (v w : PyVal F) : Prop :=
  v = w ∨ ∃ q, number v = some q ∧ number w = some q

end CEM.Spec
