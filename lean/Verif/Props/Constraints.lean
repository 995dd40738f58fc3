import Verif.Lemmas.Constraints

/-!
# Constraints and the objective (C39, C40, C41)
-/

set_option linter.unusedSectionVars false
set_option linter.unusedSimpArgs false

namespace CEM
namespace Props
open Spec Vec

/-! ## C40: closest points -/

/-- **C40, line.**  Also for a line given by two equal points, which is that point. -/
theorem C40_line (s : NState ℝ) (n : Int) (a b p : Vec ℝ) (w : ℝ) (hp : At s n p) :
    ∃ m, IsSqDistTo p (OnLine a b) m ∧
      (Constraint.line n (a, b) w).penalty s = .ok (some (m * w)) := by
  refine ⟨_, closestOnLine_least p a b, ?_⟩
  simp only [Constraint.penalty, dict_getE_ok hp, Option.map_some, vectorPenalty, lift2, distSq_eq]

/-- **C40, plane.**  For every non-zero normal, unit or not. -/
theorem C40_plane (s : NState ℝ) (n : Int) (base normal p : Vec ℝ) (w : ℝ) (hp : At s n p)
    (hn : normal ≠ 0) :
    ∃ m, IsSqDistTo p (OnPlane base normal) m ∧
      (Constraint.plane n (base, normal) w).penalty s = .ok (some (m * w)) := by
  obtain ⟨q, e, h1, h2⟩ := closestOnPlane_least p base hn
  refine ⟨sqDist p q, ⟨⟨q, h1, rfl⟩, h2⟩, ?_⟩
  simp only [Constraint.penalty, dict_getE_ok hp, Option.bind_some, e, vectorPenalty, lift2,
    distSq_eq, Option.map_some]

/-- With the zero normal the penalty is NaN. -/
theorem C40_plane_zero_normal (s : NState ℝ) (n : Int) (base p : Vec ℝ) (w : ℝ) (hp : At s n p) :
    (Constraint.plane n (base, 0) w).penalty s = .ok none := by
  have : closestOnPlane p base (0 : Vec ℝ) = none := by
    simp [closestOnPlane, normalize_eq_unit, dot]
  simp only [Constraint.penalty, dict_getE_ok hp, Option.bind_some, this, vectorPenalty, lift2,
    Option.map_none]

/-- **C40, polyline.** -/
theorem C40_polyline (s : NState ℝ) (n : Int) (pts : List (Vec ℝ)) (p : Vec ℝ) (w : ℝ)
    (hp : At s n p) (hl : 2 ≤ pts.length) :
    ∃ m, IsSqDistTo p (OnPolyline pts) m ∧
      (Constraint.polyline n pts w).penalty s = .ok (some (m * w)) := by
  obtain ⟨q, e, h1, h2⟩ := closestOnPolyline_least p hl
  refine ⟨sqDist p q, ⟨⟨q, h1, rfl⟩, h2⟩, ?_⟩
  simp only [Constraint.penalty, dict_getE_ok hp, e, vectorPenalty, lift2, distSq_eq,
    Option.map_some]

/-- A polyline of fewer than two points raises `ValueError`. -/
theorem C40_polyline_short (s : NState ℝ) (n : Int) (pts : List (Vec ℝ)) (p : Vec ℝ) (w : ℝ)
    (hp : At s n p) (hl : pts.length < 2) :
    (Constraint.polyline n pts w).penalty s = .error .valueError := by
  simp only [Constraint.penalty, dict_getE_ok hp, closestOnPolyline_short p hl]

/-! ## C41: edge directions -/

section Direction
variable {s : NState ℝ} {e : Int × Int} {a b t : Vec ℝ} {w : ℝ}

/-- The penalty is `weight * (2 - 2 * |cos|)` with the angle between edge and target. -/
theorem C41_value (ha : At s e.1 a) (hb : At s e.2 b) (hab : a ≠ b) (ht : t ≠ 0) :
    (Constraint.direction e t w).penalty s =
      .ok (some ((2 - 2 * (|dot (b - a) t| / (length (b - a) * length t))) * w)) := by
  rw [direction_penalty w ha hb hab ht]
  congr 5
  have hu : dot (unit (b - a)) (unit t) = dot (b - a) t / (length (b - a) * length t) := by
    simp only [unit, dot, smul_x, smul_y, smul_z]
    rw [div_eq_mul_inv, mul_inv]
    ring
  rw [hu, abs_div, abs_of_nonneg (mul_nonneg (length_nonneg _) (length_nonneg _))]

/-- **C41, range.** -/
theorem C41_range (ha : At s e.1 a) (hb : At s e.2 b) (hab : a ≠ b) (ht : t ≠ 0) (hw : 0 ≤ w) :
    ∃ v, (Constraint.direction e t w).penalty s = .ok (some v) ∧ 0 ≤ v ∧ v ≤ 2 * w := by
  refine ⟨_, direction_penalty w ha hb hab ht, ?_, ?_⟩
  · have hne : b - a ≠ 0 := fun h => hab (sub_eq_zero.1 h).symm
    have := abs_dot_le (unit (b - a)) (unit t)
    rw [length_unit hne, length_unit ht] at this
    nlinarith
  · nlinarith [abs_nonneg (dot (unit (b - a)) (unit t))]

/-- **C41, target.**  Scaling the target by any non-zero factor, also a negative one, changes
nothing; the edge may have length zero. -/
theorem C41_target (c : ℝ) (hc : c ≠ 0) :
    (Constraint.direction e (c • t) w).penalty s = (Constraint.direction e t w).penalty s := by
  by_cases ht : t = 0
  · subst ht; simp
  have hct : c • t ≠ 0 := fun h => by
    have := congrArg (fun v => c⁻¹ • v) h
    simp only [smul_smul, inv_mul_cancel₀ hc, one_smul, smul_zero] at this
    exact ht this
  simp only [Constraint.penalty]
  cases hd : edgeDirection s.xyz e with
  | error err => rfl
  | ok r =>
    cases r with
    | none => simp [vectorPenalty, lift2]
    | some r =>
      have key : alignedTarget (c • t) (some r) = alignedTarget t (some r) ∨
          (dot (unit t) r = 0 ∧ alignedTarget (c • t) (some r) = -unit t ∧
            alignedTarget t (some r) = unit t) := by
        simp only [alignedTarget, normalize_eq_unit]
        rcases lt_or_gt_of_ne hc with h | h
        · rw [unit_smul_neg h]
          have hneg : dot (-unit t) r = -dot (unit t) r := by
            simp only [dot, neg_x, neg_y, neg_z]; ring
          rw [hneg]
          rcases lt_trichotomy (dot (unit t) r) 0 with h1 | h1 | h1
          · left
            rw [if_neg (by linarith), if_pos h1]
            simp
          · right
            refine ⟨h1, ?_, ?_⟩
            · rw [if_neg (by linarith)]
            · rw [if_neg (by linarith)]
          · left
            rw [if_pos (by linarith), if_neg (by linarith)]
            simp
        · rw [unit_smul_pos h]
          exact .inl rfl
      simp only [vectorPenalty, lift2, Option.map_some]
      rcases key with k | ⟨k0, k1, k2⟩
      · rw [k]
      · rw [k1, k2]
        congr 3
        simp only [distSq, dot, sub_x, sub_y, sub_z, neg_x, neg_y, neg_z] at k0 ⊢
        linear_combination 4 * k0

/-- **C41, edge.**  Reversing the edge changes nothing. -/
theorem C41_edge (ha : At s e.1 a) (hb : At s e.2 b) (hab : a ≠ b) (ht : t ≠ 0) :
    (Constraint.direction (e.2, e.1) t w).penalty s = (Constraint.direction e t w).penalty s := by
  rw [C41_value ha hb hab ht, C41_value (e := (e.2, e.1)) hb ha hab.symm ht]
  have h1 : dot (a - b) t = -dot (b - a) t := by simp only [dot, sub_x, sub_y, sub_z]; ring
  rw [h1, abs_neg, length_sub_comm a b]

/-- **C41, zero.**  The penalty is zero exactly if edge and target are parallel. -/
theorem C41_zero (ha : At s e.1 a) (hb : At s e.2 b) (hab : a ≠ b) (ht : t ≠ 0) (hw : 0 < w) :
    (Constraint.direction e t w).penalty s = .ok (some 0) ↔ ∃ c : ℝ, b - a = c • t := by
  have hne : b - a ≠ 0 := fun h => hab (sub_eq_zero.1 h).symm
  rw [direction_penalty w ha hb hab ht, ← parallel_of_abs_dot hne ht]
  simp only [Except.ok.injEq, Option.some.injEq, mul_eq_zero, hw.ne', or_false]
  constructor <;> intro h <;> linarith

/-- The penalty is largest exactly if edge and target are perpendicular. -/
theorem C41_largest (ha : At s e.1 a) (hb : At s e.2 b) (hab : a ≠ b) (ht : t ≠ 0) (hw : 0 < w) :
    (Constraint.direction e t w).penalty s = .ok (some (2 * w)) ↔ dot (b - a) t = 0 := by
  have hne : b - a ≠ 0 := fun h => hab (sub_eq_zero.1 h).symm
  rw [C41_value ha hb hab ht]
  have hp := mul_pos (length_pos hne) (length_pos ht)
  simp only [Except.ok.injEq, Option.some.injEq]
  constructor
  · intro h
    have h2 : |dot (b - a) t| / (length (b - a) * length t) = 0 := by
      have := mul_right_cancel₀ hw.ne' h
      linarith
    rw [div_eq_zero_iff] at h2
    exact abs_eq_zero.1 (h2.resolve_right hp.ne')
  · intro h
    simp [h]

/-- An edge of length zero has the penalty NaN. -/
theorem C41_zero_length (ha : At s e.1 a) (hb : At s e.2 a) :
    (Constraint.direction e t w).penalty s = .ok none := by
  have h0 : PySqrt.sqrt (dot (a - a) (a - a)) = 0 := by
    rw [sub_self]; exact (length_zero : length (0 : Vec ℝ) = 0)
  simp only [Constraint.penalty, edgeDirection, dict_getE_ok ha, dict_getE_ok hb, lift2,
    Option.bind_some, if_pos h0, vectorPenalty, Option.map_none]

end Direction

/-! ## C39: the objective -/

/-- A penalty that is a number has the sign of the weight. -/
theorem penalty_nonneg {s : NState ℝ} {c : Constraint ℝ} {v : ℝ}
    (h : c.penalty s = .ok (some v)) : ∃ d : ℝ, 0 ≤ d ∧ v = d * c.weight := by
  have hv : ∀ (r t : NVec ℝ) (w : ℝ), vectorPenalty r t w = some v → ∃ d : ℝ, 0 ≤ d ∧ v = d * w := by
    intro r t w h
    cases r <;> cases t <;> simp [vectorPenalty, lift2] at h
    exact ⟨_, by rw [distSq_eq]; exact sqDist_nonneg _ _, h.symm⟩
  have hf : ∀ (r : Num ℝ) (t w : ℝ), floatPenalty r t w = some v → ∃ d : ℝ, 0 ≤ d ∧ v = d * w := by
    intro r t w h
    cases r <;> simp [floatPenalty] at h
    exact ⟨_, mul_self_nonneg _, h.symm⟩
  cases c with
  | point n t w =>
    simp only [Constraint.penalty] at h
    cases hg : s.xyz.getE n <;> simp only [hg, reduceCtorEq, Except.ok.injEq] at h
    exact hv _ _ _ h
  | plane n t w =>
    simp only [Constraint.penalty] at h
    cases hg : s.xyz.getE n <;> simp only [hg, reduceCtorEq, Except.ok.injEq] at h
    exact hv _ _ _ h
  | line n t w =>
    simp only [Constraint.penalty] at h
    cases hg : s.xyz.getE n <;> simp only [hg, reduceCtorEq, Except.ok.injEq] at h
    exact hv _ _ _ h
  | polyline n t w =>
    simp only [Constraint.penalty] at h
    cases hg : s.xyz.getE n with
    | error err => simp [hg] at h
    | ok p =>
      cases p with
      | none =>
        simp only [hg] at h
        split_ifs at h
        simp at h
      | some p =>
        simp only [hg] at h
        cases hq : closestOnPolyline p t <;> simp only [hq, reduceCtorEq, Except.ok.injEq] at h
        exact hv _ _ _ h
  | trailForce e t w =>
    simp only [Constraint.penalty] at h
    cases hg : s.trailForces.getE e <;> simp only [hg, reduceCtorEq, Except.ok.injEq] at h
    exact hf _ _ _ h
  | reaction n t w =>
    simp only [Constraint.penalty] at h
    cases hg : s.reactions.getE n <;> simp only [hg, reduceCtorEq, Except.ok.injEq] at h
    exact hv _ _ _ h
  | length e t w =>
    simp only [Constraint.penalty] at h
    cases hg : edgeLengthRef s.xyz e <;> simp only [hg, reduceCtorEq, Except.ok.injEq] at h
    exact hf _ _ _ h
  | direction e t w =>
    simp only [Constraint.penalty] at h
    cases hg : edgeDirection s.xyz e <;> simp only [hg, reduceCtorEq, Except.ok.injEq] at h
    exact hv _ _ _ h

theorem vectorPenalty_zero {r t : NVec ℝ} {w : ℝ} (hw : 0 < w) :
    vectorPenalty r t w = some 0 ↔ ∃ p, r = some p ∧ t = some p := by
  cases r <;> cases t <;> simp [vectorPenalty, lift2]
  rw [distSq_eq]
  simp only [hw.ne', or_false, sqDist_eq_zero]
  exact eq_comm

theorem floatPenalty_zero {r : Num ℝ} {t w : ℝ} (hw : 0 < w) :
    floatPenalty r t w = some 0 ↔ r = some t := by
  cases r <;> simp [floatPenalty, hw.ne', sub_eq_zero]

/-- One constraint with positive weight has penalty zero exactly if it is satisfied. -/
theorem C39_constraint (s : NState ℝ) (c : Constraint ℝ) (hw : 0 < c.weight) :
    c.penalty s = .ok (some 0) ↔ Satisfied s c := by
  have isq : ∀ {p : Vec ℝ} {S : Vec ℝ → Prop} {m : ℝ}, IsSqDistTo p S m → (m = 0 ↔ S p) := by
    rintro p S m ⟨⟨q, hq, e⟩, hle⟩
    constructor
    · rintro rfl
      rw [sqDist_eq_zero.1 e]
      exact hq
    · intro h
      have h1 := hle p h
      rw [sqDist_eq_zero.2 rfl] at h1
      have h2 := sqDist_nonneg p q
      linarith
  have absent : ∀ {n : Int}, (¬ ∃ p, At s n p) →
      s.xyz.getE n = .error .keyError ∨ s.xyz.getE n = .ok none := by
    intro n h
    unfold Dict.getE
    cases hg : s.xyz.get? n with
    | none => simp
    | some q =>
      cases q with
      | none => simp
      | some p => exact absurd ⟨p, hg⟩ h
  cases c with
  | point n t w =>
    simp only [Constraint.weight] at hw
    simp only [Satisfied, Constraint.penalty, At]
    unfold Dict.getE
    cases hg : s.xyz.get? n with
    | none => simp
    | some r => simp [vectorPenalty_zero hw]
  | plane n t w =>
    simp only [Constraint.weight] at hw
    obtain ⟨base, normal⟩ := t
    simp only [Satisfied]
    by_cases hp : ∃ p, At s n p
    · obtain ⟨p, hp⟩ := hp
      by_cases hn : normal = 0
      · subst hn
        rw [C40_plane_zero_normal s n base p w hp]
        simp
      · obtain ⟨m, hm, e⟩ := C40_plane s n base normal p w hp hn
        rw [e]
        simp only [Except.ok.injEq, Option.some.injEq, mul_eq_zero, hw.ne', or_false, isq hm]
        constructor
        · exact fun h => ⟨hn, p, hp, h⟩
        · rintro ⟨_, p', hp', h⟩
          unfold At at hp hp'
          rw [hp] at hp'
          cases hp'
          exact h
    · constructor
      · intro h
        rcases absent hp with e | e <;> simp [Constraint.penalty, e, vectorPenalty, lift2] at h
      · rintro ⟨_, p, h, _⟩
        exact absurd ⟨p, h⟩ hp
  | line n t w =>
    simp only [Constraint.weight] at hw
    obtain ⟨a, b⟩ := t
    simp only [Satisfied]
    by_cases hp : ∃ p, At s n p
    · obtain ⟨p, hp⟩ := hp
      obtain ⟨m, hm, e⟩ := C40_line s n a b p w hp
      rw [e]
      simp only [Except.ok.injEq, Option.some.injEq, mul_eq_zero, hw.ne', or_false, isq hm]
      constructor
      · exact fun h => ⟨p, hp, h⟩
      · rintro ⟨p', hp', h⟩
        unfold At at hp hp'
        rw [hp] at hp'
        cases hp'
        exact h
    · constructor
      · intro h
        rcases absent hp with e | e <;> simp [Constraint.penalty, e, vectorPenalty, lift2] at h
      · rintro ⟨p, h, _⟩
        exact absurd ⟨p, h⟩ hp
  | polyline n t w =>
    simp only [Constraint.weight] at hw
    simp only [Satisfied]
    by_cases hp : ∃ p, At s n p
    · obtain ⟨p, hp⟩ := hp
      by_cases hl : 2 ≤ t.length
      · obtain ⟨m, hm, e⟩ := C40_polyline s n t p w hp hl
        rw [e]
        simp only [Except.ok.injEq, Option.some.injEq, mul_eq_zero, hw.ne', or_false, isq hm]
        constructor
        · exact fun h => ⟨p, hp, h⟩
        · rintro ⟨p', hp', h⟩
          unfold At at hp hp'
          rw [hp] at hp'
          cases hp'
          exact h
      · rw [C40_polyline_short s n t p w hp (by omega)]
        simp only [reduceCtorEq, false_iff]
        rintro ⟨_, _, i, a, b, _, hb, _⟩
        have := (List.getElem?_eq_some_iff.1 hb).1
        omega
    · constructor
      · intro h
        rcases absent hp with e | e
        · simp [Constraint.penalty, e] at h
        · simp only [Constraint.penalty, e] at h
          split_ifs at h
          simp at h
      · rintro ⟨p, h, _⟩
        exact absurd ⟨p, h⟩ hp
  | trailForce e t w =>
    simp only [Constraint.weight] at hw
    simp only [Satisfied, Constraint.penalty]
    unfold Dict.getE
    cases hg : s.trailForces.get? e with
    | none => simp
    | some r => simp [floatPenalty_zero hw]
  | reaction n t w =>
    simp only [Constraint.weight] at hw
    simp only [Satisfied, Constraint.penalty]
    unfold Dict.getE
    cases hg : s.reactions.get? n with
    | none => simp
    | some r => simp [vectorPenalty_zero hw]
  | length e t w =>
    simp only [Constraint.weight] at hw
    simp only [Satisfied, Constraint.penalty, edgeLengthRef, At]
    unfold Dict.getE
    cases hg : s.xyz.get? e.1 with
    | none => simp
    | some a =>
      cases hg2 : s.xyz.get? e.2 with
      | none => simp
      | some b =>
        simp only [Except.ok.injEq, floatPenalty_zero hw, Option.some.injEq]
        cases a <;> cases b <;> simp [lift2, dist_eq]
  | direction e t w =>
    simp only [Constraint.weight] at hw
    simp only [Satisfied]
    by_cases ha : ∃ p, At s e.1 p
    · by_cases hb : ∃ p, At s e.2 p
      · obtain ⟨a, ha⟩ := ha
        obtain ⟨b, hb⟩ := hb
        have uniq : (∃ a b, At s e.1 a ∧ At s e.2 b ∧ a ≠ b ∧ ∃ c : ℝ, b - a = c • t) ↔
            (a ≠ b ∧ ∃ c : ℝ, b - a = c • t) := by
          constructor
          · rintro ⟨a', b', ha', hb', h⟩
            unfold At at ha hb ha' hb'
            rw [ha] at ha'
            rw [hb] at hb'
            cases ha'
            cases hb'
            exact h
          · exact fun h => ⟨a, b, ha, hb, h⟩
        rw [uniq]
        by_cases hab : a = b
        · subst hab
          rw [C41_zero_length ha hb]
          simp
        · by_cases ht : t = 0
          · subst ht
            rw [direction_zero w ha hb hab]
            simp only [Except.ok.injEq, Option.some.injEq, hw.ne', smul_zero, false_iff, not_and,
              not_exists]
            exact fun _ _ h => hab (sub_eq_zero.1 h).symm
          · rw [C41_zero ha hb hab ht hw]
            simp [hab]
      · constructor
        · intro h
          rcases absent hb with e1 | e1
          · simp [Constraint.penalty, edgeDirection, e1] at h
          · simp only [Constraint.penalty, edgeDirection, e1] at h
            cases hg : s.xyz.getE e.1 <;> simp [hg, lift2, vectorPenalty] at h
        · rintro ⟨_, b, _, h, _⟩
          exact absurd ⟨b, h⟩ hb
    · constructor
      · intro h
        simp only [Constraint.penalty, edgeDirection] at h
        cases hg : s.xyz.getE e.2 with
        | error err => simp [hg] at h
        | ok q =>
          rcases absent ha with e1 | e1
          · simp [hg, e1] at h
          · cases q <;> simp [hg, e1, lift2, vectorPenalty] at h
      · rintro ⟨a, _, h, _⟩
        exact absurd ⟨a, h⟩ ha

/-- **C39, sign.** -/
theorem C39_nonneg (s : NState ℝ) (cs : List (Constraint ℝ)) (v : ℝ)
    (hw : ∀ c ∈ cs, 0 ≤ c.weight) (h : calculatePenalty s cs (some 0) = .ok (some v)) : 0 ≤ v := by
  rw [calculatePenalty_acc] at h
  obtain ⟨ps, h1, rfl⟩ := h
  rw [zero_add]
  induction h1 with
  | nil => simp
  | cons hc _ ih =>
    simp only [List.mem_cons, forall_eq_or_imp] at hw
    obtain ⟨d, hd, rfl⟩ := penalty_nonneg hc
    rw [List.sum_cons]
    exact add_nonneg (mul_nonneg hd hw.1) (ih hw.2)

theorem calculatePenalty_nan (s : NState ℝ) (cs : List (Constraint ℝ)) :
    calculatePenalty s cs none = .ok none ↔ ∀ c ∈ cs, ∃ p, c.penalty s = .ok p := by
  induction cs with
  | nil => simp [calculatePenalty]
  | cons c cs ih =>
    simp only [calculatePenalty, List.mem_cons, forall_eq_or_imp]
    cases c.penalty s with
    | error err => simp
    | ok q => simp [lift2, ih]

theorem calculatePenalty_ok (s : NState ℝ) (cs : List (Constraint ℝ)) (a : Num ℝ) :
    (∃ v, calculatePenalty s cs a = .ok v) ↔ ∀ c ∈ cs, ∃ p, c.penalty s = .ok p := by
  induction cs generalizing a with
  | nil => simp [calculatePenalty]
  | cons c cs ih =>
    simp only [calculatePenalty, List.mem_cons, forall_eq_or_imp]
    cases c.penalty s with
    | error err => simp
    | ok q => simp [ih]

/-- **C39, order.**  The value of the objective, be it a number or NaN, does not depend on the
order of the constraints (nor does whether it raises). -/
theorem C39_order (s : NState ℝ) (cs cs' : List (Constraint ℝ)) (hp : cs.Perm cs') (v : Num ℝ)
    (h : calculatePenalty s cs (some 0) = .ok v) : calculatePenalty s cs' (some 0) = .ok v := by
  have h1 : ∀ c ∈ cs, ∃ p, c.penalty s = .ok p := (calculatePenalty_ok s cs (some 0)).1 ⟨v, h⟩
  obtain ⟨v', h'⟩ := (calculatePenalty_ok s cs' (some 0)).2 fun c hc => h1 c (hp.mem_iff.2 hc)
  have key : ∀ (cs cs' : List (Constraint ℝ)) (x : ℝ), cs.Perm cs' →
      calculatePenalty s cs (some 0) = .ok (some x) →
      calculatePenalty s cs' (some 0) = .ok (some x) := by
    intro cs cs' x hp h
    rw [calculatePenalty_acc] at h ⊢
    obtain ⟨ps, h2, rfl⟩ := h
    obtain ⟨ps', h3, h4⟩ := List.perm_comp_forall₂ hp.symm h2
    exact ⟨ps', h3, by rw [h4.sum_eq]⟩
  cases v with
  | some x => exact key cs cs' x hp h
  | none =>
    cases v' with
    | none => exact h'
    | some x =>
      have := key cs' cs x hp.symm h'
      rw [h] at this
      cases this

/-- **C39.**  With positive weights the objective is zero exactly if every constraint is
satisfied. -/
theorem C39_zero (s : NState ℝ) (cs : List (Constraint ℝ)) (hw : ∀ c ∈ cs, 0 < c.weight) :
    calculatePenalty s cs (some 0) = .ok (some 0) ↔ ∀ c ∈ cs, Satisfied s c := by
  rw [calculatePenalty_acc]
  simp only [zero_add]
  induction cs with
  | nil => simp
  | cons c cs ih =>
    simp only [List.mem_cons, forall_eq_or_imp] at hw ⊢
    rw [← ih hw.2, ← C39_constraint s c hw.1]
    constructor
    · rintro ⟨ps, h1, h2⟩
      obtain ⟨p, ps', hc, h3, rfl⟩ := List.forall₂_cons_left_iff.1 h1
      obtain ⟨d, hd, rfl⟩ := penalty_nonneg hc
      have hs : 0 ≤ ps'.sum :=
        C39_nonneg s cs _ (fun c hc => (hw.2 c hc).le)
          ((calculatePenalty_acc s cs 0 _).2 ⟨ps', h3, (zero_add _).symm⟩)
      rw [List.sum_cons] at h2
      have h4 := mul_nonneg hd hw.1.le
      have h5 : d * c.weight = 0 := by linarith
      exact ⟨by rw [hc, h5], ps', h3, by linarith⟩
    · rintro ⟨hc, ps', h3, h4⟩
      exact ⟨0 :: ps', .cons hc h3, by simp [← h4]⟩

/-! ## Examples -/

namespace ConEx

/-- A state with an edge from the origin to `(3, 4, 0)` and a node at NaN. -/
noncomputable def st : NState ℝ where
  xyz := [(0, some ⟨0, 0, 0⟩), (1, some ⟨3, 4, 0⟩), (2, none)]
  residual := []
  trailForces := [((0, 1), some (-5))]
  trailDirs := []
  reactions := [(1, some ⟨0, 0, 2⟩)]

theorem at0 : At st 0 ⟨0, 0, 0⟩ := rfl
theorem at1 : At st 1 ⟨3, 4, 0⟩ := rfl
theorem ne01 : (⟨0, 0, 0⟩ : Vec ℝ) ≠ ⟨3, 4, 0⟩ := by simp

/-- One constraint of each kind, all satisfied. -/
noncomputable def cs : List (Constraint ℝ) :=
  [.point 1 ⟨3, 4, 0⟩ 1, .plane 1 (⟨7, 7, 0⟩, ⟨0, 0, 5⟩) 2, .line 1 (⟨6, 8, 0⟩, ⟨9, 12, 0⟩) 3,
    .polyline 1 [⟨1, 1, 1⟩, ⟨0, 4, 0⟩, ⟨6, 4, 0⟩] 4, .trailForce (0, 1) (-5) 5,
    .reaction 1 ⟨0, 0, 2⟩ 6, .length (0, 1) 5 7, .direction (0, 1) ⟨-6, -8, 0⟩ 8]

theorem satisfied_cs : ∀ c ∈ cs, Satisfied st c := by
  intro c hc
  simp only [cs, List.mem_cons, List.not_mem_nil, or_false] at hc
  rcases hc with rfl | rfl | rfl | rfl | rfl | rfl | rfl | rfl
  · exact at1
  · refine ⟨fun h => ?_, _, at1, ?_⟩
    · have := congrArg Vec.z h
      norm_num at this
    · norm_num [OnPlane, dot]
  · exact ⟨_, at1, -1, by ext <;> norm_num⟩
  · exact ⟨_, at1, 1, ⟨0, 4, 0⟩, ⟨6, 4, 0⟩, rfl, rfl, 1 / 2, by norm_num, by norm_num,
      by ext <;> norm_num⟩
  · rfl
  · rfl
  · refine ⟨_, _, at0, at1, ?_⟩
    have : sqDist ⟨0, 0, 0⟩ ⟨3, 4, 0⟩ = 5 ^ 2 := by norm_num [sqDist]
    rw [this, Real.sqrt_sq (by norm_num)]
  · exact ⟨_, _, at0, at1, ne01, -1 / 2, by ext <;> norm_num⟩

theorem weights_cs : ∀ c ∈ cs, 0 < c.weight := by
  intro c hc
  simp only [cs, List.mem_cons, List.not_mem_nil, or_false] at hc
  rcases hc with rfl | rfl | rfl | rfl | rfl | rfl | rfl | rfl <;> norm_num [Constraint.weight]

/-- All satisfied: the objective is zero, in every order. -/
example : calculatePenalty st cs.reverse (some 0) = .ok (some 0) :=
  C39_order st cs _ (List.reverse_perm cs).symm _ ((C39_zero st cs weights_cs).2 satisfied_cs)

/-- One more constraint that is not satisfied: the objective is a positive number. -/
example : ∃ v, calculatePenalty st (.point 1 ⟨3, 4, 1⟩ 2 :: cs) (some 0) = .ok (some v) ∧ v = 2 := by
  have h := (calculatePenalty_acc st cs 0 0).1 ((C39_zero st cs weights_cs).2 satisfied_cs)
  obtain ⟨ps, h1, h2⟩ := h
  refine ⟨2, (calculatePenalty_acc st _ 0 2).2 ⟨2 :: ps, .cons ?_ h1, ?_⟩, rfl⟩
  · simp only [Constraint.penalty, dict_getE_ok (d := st.xyz) (k := 1) at1, vectorPenalty, lift2,
      Option.map_some]
    norm_num [distSq, dot]
  · rw [List.sum_cons]
    linarith

/-- A node at NaN makes the objective NaN. -/
example : calculatePenalty st [.point 1 ⟨3, 4, 0⟩ 1, .point 2 0 1] (some 0) = .ok none := by
  simp [calculatePenalty, Constraint.penalty, st, Dict.getE, Dict.get?, vectorPenalty, lift2]

/-- A trail force constraint on an edge without trail force raises. -/
example : calculatePenalty st [.trailForce (1, 0) 1 1] (some 0) = .error .keyError := by
  simp [calculatePenalty, Constraint.penalty, st, Dict.getE, Dict.get?]

/-- The node `(3, 4, 0)` is at distance 4 from the x axis. -/
example : (Constraint.line 1 (⟨0, 0, 0⟩, ⟨2, 0, 0⟩) 3).penalty st = .ok (some 48) := by
  obtain ⟨m, ⟨⟨q, ⟨t, rfl⟩, e⟩, hle⟩, h⟩ := C40_line st 1 ⟨0, 0, 0⟩ ⟨2, 0, 0⟩ ⟨3, 4, 0⟩ 3 at1
  rw [h]
  have h1 := hle ⟨3, 0, 0⟩ ⟨3 / 2, by ext <;> norm_num⟩
  have e' : (3 - 2 * t) ^ 2 + 16 = m := by
    rw [← e]; simp only [sqDist, add_x, add_y, add_z, smul_x, smul_y, smul_z, sub_x, sub_y, sub_z]; ring
  norm_num [sqDist] at h1
  have : m = 16 := by nlinarith [sq_nonneg (3 - 2 * t)]
  rw [this]; norm_num

example : ∃ m, IsSqDistTo ⟨3, 4, 0⟩ (OnPlane ⟨0, 0, 1⟩ ⟨1, 1, 1⟩) m ∧
    (Constraint.plane 1 (⟨0, 0, 1⟩, ⟨1, 1, 1⟩) 2).penalty st = .ok (some (m * 2)) :=
  C40_plane st 1 _ _ _ 2 at1 fun h => by
    have := congrArg Vec.x h
    norm_num at this

example : ∃ m, IsSqDistTo ⟨3, 4, 0⟩ (OnPolyline [⟨1, 0, 0⟩, ⟨1, 0, 0⟩, ⟨5, 5, 5⟩]) m ∧
    (Constraint.polyline 1 [⟨1, 0, 0⟩, ⟨1, 0, 0⟩, ⟨5, 5, 5⟩] 2).penalty st = .ok (some (m * 2)) :=
  C40_polyline st 1 _ _ 2 at1 (by simp)

example : (Constraint.polyline 1 [⟨3, 4, 0⟩] 2).penalty st = .error .valueError :=
  C40_polyline_short st 1 _ _ 2 at1 (by simp)

/-- The edge against the x axis, either way round: `cos = 3 / 5`. -/
example : (Constraint.direction (0, 1) ⟨-2, 0, 0⟩ 10).penalty st = .ok (some 8) ∧
    (Constraint.direction (1, 0) ⟨-2, 0, 0⟩ 10).penalty st = .ok (some 8) := by
  have hl : length ((⟨3, 4, 0⟩ : Vec ℝ) - ⟨0, 0, 0⟩) = 5 := by
    rw [length_def, show dot ((⟨3, 4, 0⟩ : Vec ℝ) - ⟨0, 0, 0⟩) (⟨3, 4, 0⟩ - ⟨0, 0, 0⟩) = 5 ^ 2 by
      norm_num [dot], Real.sqrt_sq (by norm_num)]
  have ht : length (⟨-2, 0, 0⟩ : Vec ℝ) = 2 := by
    rw [length_def, show dot (⟨-2, 0, 0⟩ : Vec ℝ) ⟨-2, 0, 0⟩ = 2 ^ 2 by norm_num [dot],
      Real.sqrt_sq (by norm_num)]
  have hne : (⟨-2, 0, 0⟩ : Vec ℝ) ≠ 0 := fun h => by
    have := congrArg Vec.x h
    norm_num at this
  have h1 : (Constraint.direction (0, 1) ⟨-2, 0, 0⟩ 10).penalty st = .ok (some 8) := by
    rw [C41_value (e := (0, 1)) at0 at1 ne01 hne, hl, ht]
    norm_num [dot]
  exact ⟨h1, (C41_edge (e := (0, 1)) at0 at1 ne01 hne).trans h1⟩

example : (Constraint.direction (0, 1) ⟨-6, -8, 0⟩ 10).penalty st = .ok (some 0) :=
  (C41_zero (e := (0, 1)) at0 at1 ne01 (fun h => by
    have := congrArg Vec.x h
    norm_num at this) (by norm_num)).2 ⟨-1 / 2, by ext <;> norm_num⟩

example : (Constraint.direction (0, 1) ⟨-4, 3, 0⟩ 10).penalty st = .ok (some (2 * 10)) :=
  (C41_largest (e := (0, 1)) at0 at1 ne01 (fun h => by
    have := congrArg Vec.x h
    norm_num at this) (by norm_num)).2 (by norm_num [dot])

end ConEx
end Props
end CEM
