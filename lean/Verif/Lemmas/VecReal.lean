import Verif.Spec.Statics
import Mathlib.Tactic.Linarith
import Mathlib.Tactic.Ring
import Mathlib.Tactic.FieldSimp
import Mathlib.Tactic.Positivity
import Mathlib.Tactic.Module
import Mathlib.Tactic.LinearCombination

/-!
# Lengths and unit vectors over the reals
-/

namespace CEM
namespace Vec

theorem dot_self_nonneg (a : Vec ℝ) : 0 ≤ dot a a := by
  unfold dot; nlinarith [mul_self_nonneg a.x, mul_self_nonneg a.y, mul_self_nonneg a.z]

theorem length_def (a : Vec ℝ) : length a = Real.sqrt (dot a a) := rfl

theorem length_nonneg (a : Vec ℝ) : 0 ≤ length a := Real.sqrt_nonneg _

theorem length_sq (a : Vec ℝ) : length a * length a = dot a a :=
  Real.mul_self_sqrt (dot_self_nonneg a)

theorem dot_self_eq_zero {a : Vec ℝ} : dot a a = 0 ↔ a = 0 := by
  constructor
  · intro h
    unfold dot at h
    have hx := mul_self_nonneg a.x
    have hy := mul_self_nonneg a.y
    have hz := mul_self_nonneg a.z
    ext
    · exact mul_self_eq_zero.1 (by linarith)
    · exact mul_self_eq_zero.1 (by linarith)
    · exact mul_self_eq_zero.1 (by linarith)
  · rintro rfl; simp [dot]

theorem length_eq_zero {a : Vec ℝ} : length a = 0 ↔ a = 0 := by
  rw [← dot_self_eq_zero, ← length_sq]
  exact mul_self_eq_zero.symm

@[simp] theorem length_zero : length (0 : Vec ℝ) = 0 := length_eq_zero.2 rfl

theorem length_pos {a : Vec ℝ} (h : a ≠ 0) : 0 < length a :=
  lt_of_le_of_ne (length_nonneg a) fun e => h (length_eq_zero.1 e.symm)

theorem length_smul (c : ℝ) (a : Vec ℝ) : length (c • a) = |c| * length a := by
  rw [length_def, length_def]
  have : dot (c • a) (c • a) = c ^ 2 * dot a a := by simp only [dot, smul_x, smul_y, smul_z]; ring
  rw [this, Real.sqrt_mul (sq_nonneg c), Real.sqrt_sq_eq_abs]

theorem length_neg (a : Vec ℝ) : length (-a) = length a := by
  rw [length_def, length_def]; congr 1; simp [dot]

theorem length_sub_comm (a b : Vec ℝ) : length (a - b) = length (b - a) := by
  rw [← length_neg, neg_sub]

theorem dot_le (a b : Vec ℝ) : dot a b ≤ length a * length b := by
  have h1 : dot a b ^ 2 ≤ (length a * length b) ^ 2 := by
    have : (length a * length b) ^ 2 = dot a a * dot b b := by
      rw [← length_sq a, ← length_sq b]; ring
    rw [this]
    unfold dot
    nlinarith [sq_nonneg (a.x * b.y - a.y * b.x), sq_nonneg (a.y * b.z - a.z * b.y),
      sq_nonneg (a.z * b.x - a.x * b.z)]
  exact le_of_sq_le_sq h1 (mul_nonneg (length_nonneg a) (length_nonneg b))
where
  le_of_sq_le_sq {x y : ℝ} (h : x ^ 2 ≤ y ^ 2) (hy : 0 ≤ y) : x ≤ y := by
    exact le_trans (le_abs_self x) (by rw [← abs_of_nonneg hy]; exact sq_le_sq.1 h)

theorem length_add_le (a b : Vec ℝ) : length (a + b) ≤ length a + length b := by
  have h : length (a + b) * length (a + b) ≤ (length a + length b) * (length a + length b) := by
    have e : dot (a + b) (a + b) = dot a a + 2 * dot a b + dot b b := by
      simp only [dot, add_x, add_y, add_z]; ring
    rw [length_sq, e, ← length_sq a, ← length_sq b]
    nlinarith [dot_le a b]
  have hs := add_nonneg (length_nonneg a) (length_nonneg b)
  by_contra hc
  push Not at hc
  nlinarith

theorem length_sub_le (a b : Vec ℝ) : length (a - b) ≤ length a + length b := by
  have := length_add_le a (-b)
  rwa [length_neg, ← sub_eq_add_neg] at this

theorem abs_length_sub_le (a b : Vec ℝ) : |length a - length b| ≤ length (a - b) := by
  rw [abs_le]
  constructor
  · have := length_add_le (b - a) a
    rw [sub_add_cancel, length_sub_comm] at this; linarith
  · have := length_add_le (a - b) b
    rw [sub_add_cancel] at this; linarith

theorem length_list_sum_le (l : List (Vec ℝ)) : length l.sum ≤ (l.map length).sum := by
  induction l with
  | nil => simp
  | cons a l ih =>
    simp only [List.sum_cons, List.map_cons]
    exact (length_add_le _ _).trans (by linarith)

end Vec

open Vec

theorem normalize_eq_unit (a : Vec ℝ) : Vec.normalize a = Spec.unit a := by
  unfold Vec.normalize Spec.unit
  split_ifs with h
  · rw [length_eq_zero.1 h]; simp
  · ext <;> simp [div_eq_inv_mul]

namespace Spec

@[simp] theorem unit_zero : unit (0 : Vec ℝ) = 0 := by simp [unit]

theorem length_unit {a : Vec ℝ} (h : a ≠ 0) : length (unit a) = 1 := by
  have := length_pos h
  rw [unit, length_smul, abs_of_pos (inv_pos.2 this), inv_mul_cancel₀ this.ne']

theorem length_unit_le (a : Vec ℝ) : length (unit a) ≤ 1 := by
  by_cases h : a = 0
  · subst h; simp
  · exact (length_unit h).le

theorem length_smul_unit (a : Vec ℝ) : length a • unit a = a := by
  by_cases h : a = 0
  · subst h; simp
  · rw [unit, smul_smul, mul_inv_cancel₀ (length_pos h).ne', one_smul]

theorem unit_neg (a : Vec ℝ) : unit (-a) = -unit a := by
  unfold unit; rw [length_neg]; simp

theorem unit_smul_pos {c : ℝ} (hc : 0 < c) (a : Vec ℝ) : unit (c • a) = unit a := by
  unfold unit
  rw [length_smul, abs_of_pos hc, smul_smul]
  congr 1
  field_simp

theorem unit_smul_neg {c : ℝ} (hc : c < 0) (a : Vec ℝ) : unit (c • a) = -unit a := by
  have : c • a = -((-c) • a) := by simp
  rw [this, unit_neg, unit_smul_pos (by linarith)]

theorem unit_unit (a : Vec ℝ) : unit (unit a) = unit a := by
  by_cases h : a = 0
  · subst h; simp
  · conv_lhs => rw [unit, length_unit h]
    simp

/-- The force vector of a trail edge: signed force times direction is the residual
vector it carries. -/
theorem copysign_smul_unit (r : Vec ℝ) {l : ℝ} (hl : l ≠ 0) :
    copysign (length r) l • unit (l • unit r) = r := by
  unfold copysign
  rw [abs_of_nonneg (length_nonneg r)]
  split_ifs with h
  · rw [unit_smul_neg h, unit_unit, smul_neg, neg_smul, neg_neg, length_smul_unit]
  · rw [unit_smul_pos (lt_of_le_of_ne (not_lt.1 h) hl.symm), unit_unit, length_smul_unit]

theorem length_unit_sub_le_two (u v : Vec ℝ) : length (unit u - unit v) ≤ 2 := by
  have := length_sub_le (unit u) (unit v)
  have := length_unit_le u
  have := length_unit_le v
  linarith

theorem length_unit_sub_le (u : Vec ℝ) {v : Vec ℝ} (hv : v ≠ 0) :
    length (unit u - unit v) ≤ 2 * length (u - v) / length v := by
  have hp := length_pos hv
  rw [le_div_iff₀ hp]
  have h1 : length v • (unit u - unit v) = (length v - length u) • unit u + (u - v) := by
    rw [smul_sub, sub_smul, length_smul_unit, length_smul_unit]; abel
  have h2 : length (length v • (unit u - unit v)) = length v * length (unit u - unit v) := by
    rw [length_smul, abs_of_pos hp]
  have h3 := length_add_le ((length v - length u) • unit u) (u - v)
  rw [← h1, h2, length_smul] at h3
  have h4 := abs_length_sub_le v u
  rw [length_sub_comm] at h4
  have h5 := length_unit_le u
  have h6 : |length v - length u| * length (unit u) ≤ length (u - v) := by
    calc |length v - length u| * length (unit u) ≤ |length v - length u| * 1 :=
          mul_le_mul_of_nonneg_left h5 (abs_nonneg _)
      _ ≤ length (u - v) := by rw [mul_one]; exact h4
  linarith [mul_comm (length v) (length (unit u - unit v))]

end Spec
end CEM
