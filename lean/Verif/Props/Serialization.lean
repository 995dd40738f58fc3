import Verif.Lemmas.Serialization
import Mathlib.Tactic.NormNum
import Mathlib.Tactic.Ring

/-!
# Serialization (C45)
-/

namespace CEM
namespace Props
open Spec

set_option linter.unusedSimpArgs false
set_option linter.unusedSectionVars false

/-! ## A concrete float type for the examples: decimals with one digit after the point -/

namespace SerEx

/-- Floats with one decimal, infinities and NaN. -/
inductive Tenth where
  | fin (neg : Bool) (tenths : Nat)
  | inf (neg : Bool)
  | nan
  deriving DecidableEq, Repr

/-- Their text, as Python prints such floats. -/
def Tenth.text : Tenth → List Char
  | .fin false n => reprNat (n / 10) ++ ['.', digitChar (n % 10)]
  | .fin true n => '-' :: (reprNat (n / 10) ++ ['.', digitChar (n % 10)])
  | .inf false => ['i', 'n', 'f']
  | .inf true => ['-', 'i', 'n', 'f']
  | .nan => ['n', 'a', 'n']

/-- The float of a text without sign. -/
def Tenth.ofText (t : List Char) : Option Tenth :=
  match t.reverse with
  | d :: '.' :: ds => some (.fin false (10 * natOfDigits ds.reverse + digitVal d))
  | _ => none

/-- Unary minus. -/
def Tenth.minus : Tenth → Tenth
  | .fin b n => .fin (!b) n
  | .inf b => .inf (!b)
  | .nan => .nan

instance : PyFloat Tenth where
  repr := Tenth.text
  parse := Tenth.ofText
  neg := Tenth.minus
  ofInt i := some (.fin (decide (i < 0)) (10 * i.natAbs))
  toInt
    | .fin b n => .ok (if b then -((n / 10 : Nat) : Int) else ((n / 10 : Nat) : Int))
    | _ => .error .valueError

theorem ofText_text (n : Nat) :
    Tenth.ofText (reprNat (n / 10) ++ ['.', digitChar (n % 10)]) = some (.fin false n) := by
  unfold Tenth.ofText
  rw [show (reprNat (n / 10) ++ ['.', digitChar (n % 10)]).reverse =
    digitChar (n % 10) :: '.' :: (reprNat (n / 10)).reverse by simp]
  simp only [List.reverse_reverse, natOfDigits_repr, digitVal_digitChar _ (Nat.mod_lt n (by decide : 10 > 0))]
  congr 2
  omega

theorem floatText (n : Nat) : FloatText (reprNat (n / 10) ++ ['.', digitChar (n % 10)]) := by
  refine ⟨?_, ?_, '.', by simp, by decide⟩
  · have hne : reprNat (n / 10) ≠ [] := by rw [reprNat]; split <;> simp
    cases hc : reprNat (n / 10) with
    | nil => exact absurd hc hne
    | cons c cs => exact ⟨c, _, rfl, reprNat_digits (n / 10) c (by rw [hc]; simp)⟩
  · intro c hc
    simp only [List.mem_append, List.mem_cons, List.not_mem_nil, or_false] at hc
    rcases hc with hc | rfl | rfl
    · exact Or.inl (reprNat_digits _ c hc)
    · simp
    · exact Or.inl (digitChar_isDigit _ (Nat.mod_lt n (by decide)))

instance : FloatLaws Tenth where
  value
    | .fin b n => some (if b then -((n : ℚ) / 10) else (n : ℚ) / 10)
    | _ => none
  repr_finite := by
    intro x q hx
    rcases x with ⟨_ | _, n⟩ | b | _
    · exact ⟨_, floatText n, Or.inl ⟨rfl, ofText_text n⟩⟩
    · exact ⟨_, floatText n, Or.inr ⟨rfl, .fin false n, ofText_text n, rfl⟩⟩
    · simp at hx
    · simp at hx
  repr_other := by
    intro x hx
    rcases x with ⟨b, n⟩ | _ | _
    · simp at hx
    · rename_i b; cases b
      · exact Or.inl rfl
      · exact Or.inr (Or.inl rfl)
    · exact Or.inr (Or.inr rfl)
  ofInt_exact := by
    intro x i _
    refine ⟨_, rfl, ?_⟩
    by_cases hi : i < 0
    · have e : ((i.natAbs : ℕ) : ℚ) = -(i : ℚ) := by
        rw [Nat.cast_natAbs, abs_of_neg hi]; push_cast; rfl
      simp [hi, e]
      ring
    · have e : ((i.natAbs : ℕ) : ℚ) = (i : ℚ) := by
        rw [Nat.cast_natAbs, abs_of_nonneg (by omega)]
      simp [hi, e]

/-- 1.5 -/
def x15 : Tenth := .fin false 15

end SerEx

section
variable {F : Type} [PyFloat F] [FloatLaws F]

/-! ## Texts -/

/-- C45: the text of every value with finite floats denotes that value: integers, floats,
tuples and lists of any nesting. -/
theorem C45_text (v : PyVal F) (h : Literal v) : literalEval (reprVal v) = .ok v :=
  literalEval_repr h

example : reprVal (.tuple [.int (-12), .list [.float SerEx.x15, .none], .tuple [.int 7]]) =
    "(-12, [1.5, None], (7,))".toList ∧
    literalEval (F := SerEx.Tenth) "(-12, [1.5, None], (7,))".toList =
      .ok (.tuple [.int (-12), .list [.float SerEx.x15, .none], .tuple [.int 7]]) := by
  have h : reprVal (.tuple [.int (-12), .list [.float SerEx.x15, .none], .tuple [.int 7]]) =
    "(-12, [1.5, None], (7,))".toList := by decide +kernel
  refine ⟨h, ?_⟩
  rw [← h]
  exact C45_text _ (.tuple _ (by
    simp only [List.mem_cons, List.not_mem_nil, or_false, forall_eq_or_imp, forall_eq]
    exact ⟨.int _, .list _ (by
      simp only [List.mem_cons, List.not_mem_nil, or_false, forall_eq_or_imp, forall_eq]
      exact ⟨.float _ _ rfl, .none⟩), .tuple _ (by
        simp only [List.mem_cons, List.not_mem_nil, or_false, forall_eq]; exact .int _)⟩))

/-- C45: equal texts come from equal values. -/
theorem C45_text_injective (v w : PyVal F) (hv : Literal v) (hw : Literal w)
    (h : reprVal v = reprVal w) : v = w := by
  have h1 := literalEval_repr hv
  rw [h, literalEval_repr hw] at h1
  injection h1 with h1
  exact h1.symm

example : Literal (F := SerEx.Tenth) (.int 10) ∧ Literal (F := SerEx.Tenth) (.float (.fin false 100)) ∧
    reprVal (F := SerEx.Tenth) (.int 10) ≠ reprVal (F := SerEx.Tenth) (.float (.fin false 100)) :=
  ⟨.int _, .float _ _ rfl, by decide +kernel⟩

/-- C45: the text of an infinite float or NaN cannot be read back. -/
theorem C45_text_infinite (x : F) (h : FloatLaws.value x = none) :
    literalEval (F := F) (reprVal (.float x)) = .error .valueError := by
  rw [reprVal]
  rcases FloatLaws.repr_other x h with e | e | e <;> rw [e] <;> rfl

example : FloatLaws.value (SerEx.Tenth.inf true) = none := rfl

/-! ## Parameters -/

/-- Keys that parameters of a class have: a node key, or a tuple for an edge. -/
def KeyFor (cls : ParamClass) (key : PyVal F) : Prop :=
  if cls.onEdge then ∃ vs, key = .tuple vs ∧ ∀ v ∈ vs, Literal v else ∃ i, key = .int i

/-- A bound: `None` or a number that survives `float`. -/
def BoundFor (b : PyVal F) : Prop := b = .none ∨ Floatable b

theorem loadBound_spec (b : PyVal F) (h : BoundFor b) :
    ∃ b', loadBound b = .ok b' ∧ SameNumber b b' ∧ (b' = .none ∨ ∃ x, b' = .float x) := by
  rcases h with rfl | h
  · exact ⟨.none, rfl, Or.inl rfl, Or.inl rfl⟩
  · cases b with
    | none => exact absurd h id
    | tuple _ => exact absurd h id
    | list _ => exact absurd h id
    | float x => exact ⟨.float x, rfl, Or.inl rfl, Or.inr ⟨x, rfl⟩⟩
    | int i =>
      obtain ⟨x, hx⟩ := h
      obtain ⟨y, hy, hv⟩ := FloatLaws.ofInt_exact x i hx
      refine ⟨.float y, ?_, Or.inr ⟨i, rfl, hv⟩, Or.inr ⟨y, rfl⟩⟩
      simp [loadBound, pyFloat, hy, bind, Except.bind]

/-- The loaded parameter, if all parts load. -/
theorem fromData_data {D : Type} (cls : ParamClass) (key low up low' up' : PyVal F)
    (hk : KeyFor cls key) (hl : loadBound low = .ok low') (hu : loadBound up = .ok up') :
    PyParam.fromData cls ((PyParam.make cls key low up).data (D := D)) =
      .ok (PyParam.make cls key low' up') := by
  unfold KeyFor at hk
  by_cases hc : cls.onEdge
  · rw [if_pos hc] at hk
    obtain ⟨vs, rfl, hvs⟩ := hk
    simp [PyParam.fromData, PyParam.setData, PyParam.make, PyParam.data, hc, Dict.getE, Dict.get?,
      DataVal.asText, DataVal.asStr, DataVal.asVal, literalEval_repr (.tuple vs hvs), pyTuple,
      hl, hu, bind, Except.bind]
  · rw [if_neg hc] at hk
    obtain ⟨i, rfl⟩ := hk
    simp [PyParam.fromData, PyParam.setData, PyParam.make, PyParam.data, hc, Dict.getE, Dict.get?,
      DataVal.asText, DataVal.asStr, DataVal.asVal, pyInt, hl, hu, bind, Except.bind]

/-- C45: a parameter of any class comes back from its data with the same class, key and
attribute, and with equal bounds (integers have become floats). -/
theorem C45_parameter {D : Type} (cls : ParamClass) (key low up : PyVal F) (hk : KeyFor cls key)
    (hl : BoundFor low) (hu : BoundFor up) :
    ∃ p : PyParam F,
      PyParam.fromData cls ((PyParam.make cls key low up).data (D := D)) = .ok p ∧
      p.cls = cls ∧ p.key = key ∧ p.attrName = cls.attrName ∧
      SameNumber low p.boundLow ∧ SameNumber up p.boundUp := by
  obtain ⟨low', h1, s1, _⟩ := loadBound_spec low hl
  obtain ⟨up', h2, s2, _⟩ := loadBound_spec up hu
  exact ⟨_, fromData_data cls key low up low' up' hk h1 h2, rfl, rfl, rfl, s1, s2⟩

/-- C45: with bounds that are `None` or floats the parameter comes back identical; so loading
a loaded parameter again changes nothing. -/
theorem C45_parameter_identical {D : Type} (cls : ParamClass) (key low up : PyVal F)
    (hk : KeyFor cls key) (hl : low = .none ∨ ∃ x, low = .float x)
    (hu : up = .none ∨ ∃ x, up = .float x) :
    PyParam.fromData cls ((PyParam.make cls key low up).data (D := D)) =
      .ok (PyParam.make cls key low up) := by
  refine fromData_data cls key low up low up hk ?_ ?_
  · rcases hl with rfl | ⟨x, rfl⟩ <;> rfl
  · rcases hu with rfl | ⟨x, rfl⟩ <;> rfl

example : KeyFor (F := SerEx.Tenth) .trail (.tuple [.int 3, .int (-14)]) ∧
    BoundFor (F := SerEx.Tenth) (.int 2) ∧ BoundFor (.float SerEx.x15) ∧
    BoundFor (F := SerEx.Tenth) .none ∧ KeyFor (F := SerEx.Tenth) .loadZ (.int 5) := by
  refine ⟨?_, ?_, Or.inr trivial, Or.inl rfl, ?_⟩
  · rw [KeyFor, if_pos (by decide)]
    refine ⟨_, rfl, ?_⟩
    simp only [List.mem_cons, List.not_mem_nil, or_false, forall_eq_or_imp, forall_eq]
    exact ⟨.int _, .int _⟩
  · exact Or.inr ⟨.fin false 20, by simp [FloatLaws.value]; norm_num⟩
  · rw [KeyFor, if_neg (by decide)]
    exact ⟨5, rfl⟩

/-- What a parameter object means to the optimizer: the slot it designates and its bounds. -/
def meaning (p : PyParam F) : Option (Param ℚ) :=
  let bound : PyVal F → Option (Option ℚ) := fun b =>
    match b with
    | .none => some none
    | v => (number v).map some
  let node : PyVal F → NodeAttr → Option Slot := fun k a =>
    match k with
    | .int i => some (.node i a)
    | _ => none
  let edge : PyVal F → EdgeAttr → Option Slot := fun k a =>
    match k with
    | .tuple [.int u, .int v] => some (.edge (u, v) a)
    | _ => none
  let slot : Option Slot :=
    match p.attrName with
    | "x" => node p.key .x
    | "y" => node p.key .y
    | "z" => node p.key .z
    | "qx" => node p.key .qx
    | "qy" => node p.key .qy
    | "qz" => node p.key .qz
    | "length" => edge p.key .length
    | "force" => edge p.key .force
    | _ => none
  match slot, bound p.boundLow, bound p.boundUp with
  | some s, some l, some u => some ⟨s, l, u⟩
  | _, _, _ => none

/-- C45: a loaded parameter means the same to the optimizer: for every node or edge key and
bounds that are `None`, finite floats or integers equal to some float. -/
theorem C45_parameter_meaning {D : Type} (cls : ParamClass) (key low up : PyVal F)
    (hk : KeyFor cls key) (hl : BoundFor low) (hu : BoundFor up) :
    ∃ p : PyParam F,
      PyParam.fromData cls ((PyParam.make cls key low up).data (D := D)) = .ok p ∧
      meaning p = meaning (PyParam.make cls key low up) := by
  obtain ⟨low', h1, s1, n1⟩ := loadBound_spec low hl
  obtain ⟨up', h2, s2, n2⟩ := loadBound_spec up hu
  refine ⟨_, fromData_data cls key low up low' up' hk h1 h2, ?_⟩
  have same : ∀ b b' : PyVal F, SameNumber b b' →
      (match b' with | .none => some none | v => (number v).map some : Option (Option ℚ)) =
      (match b with | .none => some none | v => (number v).map some) := by
    intro b b' h
    rcases h with rfl | ⟨q, hb, hb'⟩
    · rfl
    · cases b <;> cases b' <;> simp_all [number]
  simp only [meaning, PyParam.make]
  rw [same low low' s1, same up up' s2]

example : meaning (PyParam.make .trail (.tuple [.int 3, .int 4]) (.int 2) (.float SerEx.x15)) =
    some ⟨.edge (3, 4) .length, some 2, some (15 / 10)⟩ := by
  simp [meaning, PyParam.make, ParamClass.attrName, number, FloatLaws.value, SerEx.x15]

/-- The optimizer's parameter that a class makes of a node key, from the names of the classes. -/
def nodeClass : ParamClass → Option (Int → Option ℚ → Option ℚ → Param ℚ)
  | .originX => some originNodeXParameter
  | .originY => some originNodeYParameter
  | .originZ => some originNodeZParameter
  | .loadX => some nodeLoadXParameter
  | .loadY => some nodeLoadYParameter
  | .loadZ => some nodeLoadZParameter
  | .trail | .deviation => none

/-- The optimizer's parameter that a class makes of an edge key. -/
def edgeClass : ParamClass → Option (Int × Int → Option ℚ → Option ℚ → Param ℚ)
  | .trail => some trailEdgeParameter
  | .deviation => some deviationEdgeParameter
  | _ => none

/-- The number a bound stands for. -/
def BoundIs (b : PyVal F) (q : Option ℚ) : Prop :=
  (b = .none ∧ q = none) ∨ ∃ r, number b = some r ∧ q = some r

/-- C45: what was stored by a class and loaded by it is to the optimizer the parameter of this
class with the same key and bounds. -/
theorem C45_classes {D : Type} (cls : ParamClass) (low up : PyVal F) (hl : BoundFor low)
    (hu : BoundFor up) {l u : Option ℚ} (hl' : BoundIs low l) (hu' : BoundIs up u) :
    (∀ mk, nodeClass cls = some mk → ∀ i : Int, ∃ p : PyParam F,
      PyParam.fromData cls ((PyParam.make cls (.int i) low up).data (D := D)) = .ok p ∧
      meaning p = some (mk i l u)) ∧
    (∀ mk, edgeClass cls = some mk → ∀ i j : Int, ∃ p : PyParam F,
      PyParam.fromData cls ((PyParam.make cls (.tuple [.int i, .int j]) low up).data (D := D)) = .ok p ∧
      meaning p = some (mk (i, j) l u)) := by
  have bnd : ∀ (b : PyVal F) (q : Option ℚ), BoundIs b q →
      (match b with | .none => some none | v => (number v).map some : Option (Option ℚ)) = some q := by
    rintro b q (⟨rfl, rfl⟩ | ⟨r, hb, rfl⟩)
    · rfl
    · cases b <;> simp_all [number]
  have e1 := bnd low l hl'
  have e2 := bnd up u hu'
  constructor
  · intro mk hmk i
    have hk : KeyFor cls (.int i : PyVal F) := by
      cases cls <;> simp [nodeClass, KeyFor, ParamClass.onEdge] at hmk ⊢
    obtain ⟨p, hp, hm⟩ := C45_parameter_meaning (D := D) cls (.int i) low up hk hl hu
    refine ⟨p, hp, hm.trans ?_⟩
    cases cls <;> simp only [nodeClass, Option.some.injEq, reduceCtorEq] at hmk <;> subst hmk <;>
      simp only [meaning, PyParam.make, ParamClass.attrName, e1, e2] <;> rfl
  · intro mk hmk i j
    have hk : KeyFor cls (.tuple [.int i, .int j] : PyVal F) := by
      have hc : cls.onEdge = true := by
        cases cls <;> simp [edgeClass, ParamClass.onEdge] at hmk ⊢
      rw [KeyFor, if_pos hc]
      refine ⟨_, rfl, ?_⟩
      simp only [List.mem_cons, List.not_mem_nil, or_false, forall_eq_or_imp, forall_eq]
      exact ⟨.int _, .int _⟩
    obtain ⟨p, hp, hm⟩ := C45_parameter_meaning (D := D) cls _ low up hk hl hu
    refine ⟨p, hp, hm.trans ?_⟩
    cases cls <;> simp only [edgeClass, Option.some.injEq, reduceCtorEq] at hmk <;> subst hmk <;>
      simp only [meaning, PyParam.make, ParamClass.attrName, e1, e2] <;> rfl

example : (∃ mk, nodeClass .loadZ = some mk) ∧ (∃ mk, edgeClass .trail = some mk) ∧
    BoundFor (F := SerEx.Tenth) .none ∧ BoundIs (F := SerEx.Tenth) .none none ∧
    BoundFor (.float SerEx.x15) ∧ BoundIs (.float SerEx.x15) (some (15 / 10)) :=
  ⟨⟨_, rfl⟩, ⟨_, rfl⟩, Or.inl rfl, Or.inl ⟨rfl, rfl⟩, Or.inr trivial,
    Or.inr ⟨15 / 10, by simp [number, FloatLaws.value, SerEx.x15], rfl⟩⟩

/-- C45: an edge key given as a list comes back as a tuple, which is not equal to it. -/
theorem C45_list_key {D : Type} (cls : ParamClass) (hc : cls.onEdge = true) (vs : List (PyVal F))
    (hvs : ∀ v ∈ vs, Literal v) (low up : PyVal F) (hl : BoundFor low) (hu : BoundFor up) :
    ∃ p : PyParam F,
      PyParam.fromData cls ((PyParam.make cls (.list vs) low up).data (D := D)) = .ok p ∧
      p.key = .tuple vs := by
  obtain ⟨low', h1, _⟩ := loadBound_spec low hl
  obtain ⟨up', h2, _⟩ := loadBound_spec up hu
  refine ⟨PyParam.make cls (.tuple vs) low' up', ?_, rfl⟩
  simp [PyParam.fromData, PyParam.setData, PyParam.make, PyParam.data, hc, Dict.getE, Dict.get?,
    DataVal.asText, DataVal.asStr, DataVal.asVal, literalEval_repr (.list vs hvs), pyTuple,
    h1, h2, bind, Except.bind]

/-- C45: a parameter made without a key has data, but they cannot be loaded. -/
theorem C45_no_key {D : Type} (cls : ParamClass) (low up : PyVal F) :
    PyParam.fromData cls ((PyParam.make cls .none low up).data (D := D)) = .error .typeError := by
  have h : literalEval (F := F) (reprVal .none) = .ok .none := literalEval_repr .none
  by_cases hc : cls.onEdge <;>
  simp [PyParam.fromData, PyParam.setData, PyParam.make, PyParam.data, hc, Dict.getE, Dict.get?,
    DataVal.asText, DataVal.asStr, DataVal.asVal, pyTuple, pyInt, h, bind, Except.bind]

/-! ## Constraints -/

variable {G D : Type} [GeoData G D]

/-- C45: a float constraint comes back from its data with the same key and target, and with
an equal weight, for every key and target without infinities and NaN. -/
theorem C45_float_constraint_partial (cls : ConClass) (hc : cls.onFloat = true)
    (key target weight : PyVal F) (hk : Literal key) (ht : Literal target) (hw : Floatable weight) :
    ∃ (d : Dict String (DataVal F D)) (c : PyCon F G),
      PyCon.data (G := G) ⟨cls, key, .plain target, weight⟩ = .ok d ∧ PyCon.fromData cls d = .ok c ∧
      c.cls = cls ∧ c.key = key ∧ c.target = .plain target ∧ SameNumber weight c.weight := by
  obtain ⟨w, hw1, hw2, _⟩ := loadBound_spec weight (Or.inr hw)
  have hw3 : ∃ x, pyFloat weight = .ok x ∧ w = .float x := by
    cases weight with
    | none => exact absurd hw id
    | tuple _ => exact absurd hw id
    | list _ => exact absurd hw id
    | float x => exact ⟨x, rfl, by injection hw1 with e; exact e.symm⟩
    | int i =>
      simp only [loadBound, bind, Except.bind] at hw1
      cases hf : pyFloat (.int i : PyVal F) with
      | error e => rw [hf] at hw1; simp at hw1
      | ok x => rw [hf] at hw1; simp at hw1; exact ⟨x, rfl, hw1.symm⟩
  obtain ⟨x, hx, rfl⟩ := hw3
  refine ⟨_, ⟨cls, key, .plain target, .float x⟩, by rw [PyCon.data, if_pos hc], ?_, rfl, rfl, rfl, hw2⟩
  simp [PyCon.fromData, PyCon.setData, hc, Dict.getE, Dict.get?, DataVal.asText, DataVal.asVal,
    PyCon.reprTarget, literalEval_repr hk, literalEval_repr ht, hx, bind, Except.bind]

/-- C45: an integer weight that is too large for a float makes loading raise, as `float` does. -/
theorem C45_large_weight (cls : ConClass) (hc : cls.onFloat = true) (key target : PyVal F) (i : Int)
    (hk : Literal key) (ht : Literal target) (hi : PyFloat.ofInt (F := F) i = Option.none) :
    ∃ d : Dict String (DataVal F D), PyCon.data (G := G) ⟨cls, key, .plain target, .int i⟩ = .ok d ∧
      PyCon.fromData (G := G) cls d = .error .overflow := by
  refine ⟨_, by rw [PyCon.data, if_pos hc], ?_⟩
  simp [PyCon.fromData, PyCon.setData, hc, Dict.getE, Dict.get?, DataVal.asText, DataVal.asVal,
    PyCon.reprTarget, literalEval_repr hk, literalEval_repr ht, pyFloat, hi, bind, Except.bind]

/-- C45: a vector constraint with a COMPAS object as target comes back from its data, if COMPAS
gives back the object. -/
theorem C45_vector_constraint (cls : ConClass) (hc : cls.onFloat = false)
    (key weight : PyVal F) (g : G) (hk : Literal key) (hw : Floatable weight)
    (hg : GeoData.fromData (D := D) (GeoData.dtype D g) (GeoData.toData g) = .ok g) :
    ∃ (d : Dict String (DataVal F D)) (c : PyCon F G),
      PyCon.data ⟨cls, key, .obj g, weight⟩ = .ok d ∧ PyCon.fromData cls d = .ok c ∧
      c.cls = cls ∧ c.key = key ∧ c.target = .obj g ∧ SameNumber weight c.weight := by
  have hw3 : ∃ x, pyFloat weight = .ok x ∧ SameNumber weight (.float x) := by
    cases weight with
    | none => exact absurd hw id
    | tuple _ => exact absurd hw id
    | list _ => exact absurd hw id
    | float x => exact ⟨x, rfl, Or.inl rfl⟩
    | int i =>
      obtain ⟨x, hx⟩ := hw
      obtain ⟨y, hy, hv⟩ := FloatLaws.ofInt_exact x i hx
      exact ⟨y, by simp [pyFloat, hy], Or.inr ⟨i, rfl, hv⟩⟩
  obtain ⟨x, hx, hs⟩ := hw3
  refine ⟨_, ⟨cls, key, .obj g, .float x⟩,
    by rw [PyCon.data, if_neg (by rw [hc]; decide)], ?_, rfl, rfl, rfl, hs⟩
  simp [PyCon.fromData, PyCon.setData, hc, Dict.getE, Dict.get?, DataVal.asText, DataVal.asVal,
    DataVal.asStr, literalEval_repr hk, hx, hg, bind, Except.bind]

/-- C45: a vector constraint whose target is a plain list, tuple or `None` has no data. -/
theorem C45_plain_target (cls : ConClass) (hc : cls.onFloat = false) (key v weight : PyVal F) :
    PyCon.data (G := G) (D := D) ⟨cls, key, .plain v, weight⟩ = .error .attributeError := by
  rw [PyCon.data, if_neg (by rw [hc]; decide)]

/-- C45: data of a float constraint with an infinite target or NaN cannot be loaded. -/
theorem C45_infinite_target (cls : ConClass) (hc : cls.onFloat = true) (key weight : PyVal F)
    (x : F) (hk : Literal key) (hx : FloatLaws.value x = none) :
    ∃ d : Dict String (DataVal F D), PyCon.data (G := G) ⟨cls, key, .plain (.float x), weight⟩ = .ok d ∧
      PyCon.fromData (G := G) cls d = .error .valueError := by
  refine ⟨_, by rw [PyCon.data, if_pos hc], ?_⟩
  simp [PyCon.fromData, PyCon.setData, hc, Dict.getE, Dict.get?, DataVal.asText, DataVal.asVal,
    PyCon.reprTarget, literalEval_repr hk, C45_text_infinite x hx, bind, Except.bind]

end

namespace SerEx

/-- Points as COMPAS objects, with the list of coordinates as data. -/
instance pointData : GeoData (Int × Int × Int) (List Int) where
  toData g := [g.1, g.2.1, g.2.2]
  dtype _ := "compas.geometry/Point"
  fromData
    | "compas.geometry/Point", [a, b, c] => .ok (a, b, c)
    | _, _ => .error .typeError

/-- The hypotheses of the constraint theorems hold for a point constraint and an edge force
constraint. -/
example : Literal (F := Tenth) (.int 3) ∧ Floatable (F := Tenth) (.float x15) ∧
    GeoData.fromData (D := List Int) (GeoData.dtype (List Int) ((1, 2, 3) : Int × Int × Int))
      (GeoData.toData ((1, 2, 3) : Int × Int × Int)) = .ok ((1, 2, 3) : Int × Int × Int) ∧
    Literal (F := Tenth) (.tuple [.int 3, .int 4]) ∧ ConClass.onFloat .trailForce = true ∧
    ConClass.onFloat .point = false := by
  refine ⟨.int _, trivial, rfl, .tuple _ ?_, rfl, rfl⟩
  simp only [List.mem_cons, List.not_mem_nil, or_false, forall_eq_or_imp, forall_eq]
  exact ⟨.int _, .int _⟩

/-- Two floats: zero, and NaN.  Every integer but zero is too large. -/
inductive Tiny where
  | zero
  | nan
  deriving DecidableEq

instance tinyFloat : PyFloat Tiny where
  repr
    | .zero => ['0', '.', '0']
    | .nan => ['n', 'a', 'n']
  parse t := if t = ['0', '.', '0'] then some .zero else none
  neg x := x
  ofInt i := if i = 0 then some .zero else none
  toInt
    | .zero => .ok 0
    | .nan => .error .valueError

instance tinyLaws : FloatLaws Tiny where
  value
    | .zero => some 0
    | .nan => none
  repr_finite := by
    rintro (_ | _) q h
    · exact ⟨['0', '.', '0'], ⟨⟨'0', _, rfl, by decide⟩, by decide, '.', by decide, by decide⟩, Or.inl ⟨rfl, rfl⟩⟩
    · cases h
  repr_other := by
    rintro (_ | _) h
    · cases h
    · exact Or.inr (Or.inr rfl)
  ofInt_exact := by
    rintro (_ | _) i h
    · have : i = 0 := by
        have := Option.some.inj h
        exact_mod_cast this.symm
      exact ⟨.zero, by simp [PyFloat.ofInt, this], h⟩
    · cases h

/-- The weight 5 is too large. -/
example := C45_large_weight (F := Tiny) (G := Int × Int × Int) (D := List Int) .trailForce rfl (.int 3) (.float .zero) 5
  (.int _) (.float _ 0 rfl) rfl

end SerEx

/-- C45 as stated, for float constraints: every key, target and weight that are numbers or
tuples of integers survive. -/
def C45_claim : Prop :=
  ∀ (cls : ConClass), cls.onFloat = true → ∀ (i j : Int) (x w : SerEx.Tenth),
    ∃ (d : Dict String (DataVal SerEx.Tenth (List Int))) (c : PyCon SerEx.Tenth (Int × Int × Int)),
      PyCon.data (G := Int × Int × Int) ⟨cls, .tuple [.int i, .int j], .plain (.float x), .float w⟩ = .ok d ∧
      PyCon.fromData cls d = .ok c ∧ c = ⟨cls, .tuple [.int i, .int j], .plain (.float x), .float w⟩

/-- C45: the claim fails for an infinite target. -/
theorem C45_claim_false : ¬ C45_claim := by
  intro h
  obtain ⟨d, c, h1, h2, _⟩ := h .length rfl 0 1 (.inf false) SerEx.x15
  obtain ⟨d', h1', h2'⟩ := C45_infinite_target (G := Int × Int × Int) (D := List Int) .length rfl
    (.tuple [.int 0, .int 1]) (.float SerEx.x15) (SerEx.Tenth.inf false)
    (.tuple _ (by
      simp only [List.mem_cons, List.not_mem_nil, or_false, forall_eq_or_imp, forall_eq]
      exact ⟨.int _, .int _⟩)) rfl
  rw [h1] at h1'
  injection h1' with e
  subst e
  rw [h2] at h2'
  cases h2'

end Props
end CEM
