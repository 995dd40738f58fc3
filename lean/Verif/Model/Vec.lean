import Mathlib.Algebra.Field.Basic
import Mathlib.Algebra.Module.Basic
import Mathlib.Algebra.Order.Ring.Abs
import Mathlib.Analysis.Real.Sqrt

/-!
# Vectors and scalar helpers

COMPAS (`compas.geometry`, external to the repository) works on lists of three
floats.  Here a vector is a structure of three scalars.
-/

namespace CEM

/-- Scalars with a square root (`math.sqrt`). -/
class PySqrt (R : Type) where
  sqrt : R → R

noncomputable instance : PySqrt ℝ := ⟨Real.sqrt⟩

/-- A point or vector `[x, y, z]`. -/
@[ext] structure Vec (R : Type) where
  x : R
  y : R
  z : R
  deriving DecidableEq, Repr

namespace Vec
variable {R : Type}

section ops
variable [Field R]

/-- `[0.0, 0.0, 0.0]` -/
instance : Zero (Vec R) := ⟨⟨0, 0, 0⟩⟩
/-- `compas.geometry.add_vectors` -/
instance : Add (Vec R) := ⟨fun a b => ⟨a.x + b.x, a.y + b.y, a.z + b.z⟩⟩
/-- `compas.geometry.subtract_vectors` -/
instance : Sub (Vec R) := ⟨fun a b => ⟨a.x - b.x, a.y - b.y, a.z - b.z⟩⟩
/-- `scale_vector(v, -1.0)` -/
instance : Neg (Vec R) := ⟨fun a => ⟨-a.x, -a.y, -a.z⟩⟩
/-- `compas.geometry.scale_vector(v, s)` is `s • v`. -/
instance : SMul R (Vec R) := ⟨fun s a => ⟨s * a.x, s * a.y, s * a.z⟩⟩

@[simp] theorem zero_x : (0 : Vec R).x = 0 := rfl
@[simp] theorem zero_y : (0 : Vec R).y = 0 := rfl
@[simp] theorem zero_z : (0 : Vec R).z = 0 := rfl
@[simp] theorem add_x (a b : Vec R) : (a + b).x = a.x + b.x := rfl
@[simp] theorem add_y (a b : Vec R) : (a + b).y = a.y + b.y := rfl
@[simp] theorem add_z (a b : Vec R) : (a + b).z = a.z + b.z := rfl
@[simp] theorem sub_x (a b : Vec R) : (a - b).x = a.x - b.x := rfl
@[simp] theorem sub_y (a b : Vec R) : (a - b).y = a.y - b.y := rfl
@[simp] theorem sub_z (a b : Vec R) : (a - b).z = a.z - b.z := rfl
@[simp] theorem neg_x (a : Vec R) : (-a).x = -a.x := rfl
@[simp] theorem neg_y (a : Vec R) : (-a).y = -a.y := rfl
@[simp] theorem neg_z (a : Vec R) : (-a).z = -a.z := rfl
@[simp] theorem smul_x (s : R) (a : Vec R) : (s • a).x = s * a.x := rfl
@[simp] theorem smul_y (s : R) (a : Vec R) : (s • a).y = s * a.y := rfl
@[simp] theorem smul_z (s : R) (a : Vec R) : (s • a).z = s * a.z := rfl

instance : AddCommGroup (Vec R) where
  add_assoc a b c := by ext <;> simp [add_assoc]
  zero_add a := by ext <;> simp
  add_zero a := by ext <;> simp
  add_comm a b := by ext <;> simp [add_comm]
  neg_add_cancel a := by ext <;> simp
  sub_eq_add_neg a b := by ext <;> simp [sub_eq_add_neg]
  nsmul := nsmulRec
  zsmul := zsmulRec

instance : Module R (Vec R) where
  one_smul a := by ext <;> simp
  mul_smul s t a := by ext <;> simp [mul_assoc]
  smul_zero s := by ext <;> simp
  smul_add s a b := by ext <;> simp [mul_add]
  add_smul s t a := by ext <;> simp [add_mul]
  zero_smul a := by ext <;> simp

/-- `compas.geometry.dot_vectors` -/
def dot (a b : Vec R) : R := a.x * b.x + a.y * b.y + a.z * b.z

/-- `compas.geometry.cross_vectors` -/
def cross (a b : Vec R) : Vec R :=
  ⟨a.y * b.z - a.z * b.y, a.z * b.x - a.x * b.z, a.x * b.y - a.y * b.x⟩

/-- `compas.geometry.length_vector` -/
def length [PySqrt R] (a : Vec R) : R := PySqrt.sqrt (dot a a)

/-- `compas.geometry.distance_point_point` -/
def dist [PySqrt R] (a b : Vec R) : R := length (a - b)

/-- `compas.geometry.normalize_vector`: returns the vector unchanged if its
length is zero. -/
def normalize [PySqrt R] [DecidableEq R] (a : Vec R) : Vec R :=
  if length a = 0 then a else ⟨a.x / length a, a.y / length a, a.z / length a⟩

end ops
end Vec

/-- `math.copysign(a, b)` (for `b = 0` the sign of `+0.0` is used: signed zeros
are not modelled). -/
def copysign {R : Type} [Field R] [LinearOrder R] (a b : R) : R :=
  if b < 0 then -|a| else |a|

end CEM
