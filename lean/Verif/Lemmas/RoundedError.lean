import Verif.Spec.Rounded
import Verif.Lemmas.VecReal

/-!
# Errors of rounded vector operations
-/

set_option linter.unusedSectionVars false
set_option linter.unusedSimpArgs false

namespace CEM
open Vec Spec

variable {A : Arith ℝ} {u : ℝ}

theorem length_le_of_abs {a b : Vec ℝ} {c : ℝ} (hc : 0 ≤ c) (hx : |a.x| ≤ c * |b.x|)
    (hy : |a.y| ≤ c * |b.y|) (hz : |a.z| ≤ c * |b.z|) : length a ≤ c * length b := by
  have h : ∀ s t : ℝ, |s| ≤ c * |t| → s * s ≤ c * c * (t * t) := by
    intro s t hst
    have := mul_self_le_mul_self (abs_nonneg s) hst
    rw [abs_mul_abs_self] at this
    calc s * s ≤ c * |t| * (c * |t|) := this
      _ = c * c * (|t| * |t|) := by ring
      _ = c * c * (t * t) := by rw [abs_mul_abs_self]
  have h1 : length a * length a ≤ (c * length b) * (c * length b) := by
    have e : (c * length b) * (c * length b) = c * c * dot b b := by rw [← length_sq b]; ring
    rw [e, length_sq]
    unfold dot
    have := h _ _ hx
    have := h _ _ hy
    have := h _ _ hz
    linarith
  exact abs_le_abs_of_nonneg_sq h1 (length_nonneg a) (mul_nonneg hc (length_nonneg b))
where
  abs_le_abs_of_nonneg_sq {s t : ℝ} (h : s * s ≤ t * t) (hs : 0 ≤ s) (ht : 0 ≤ t) : s ≤ t := by
    by_contra hc
    push Not at hc
    nlinarith

theorem vadd_error (H : Precise A u) (a b : Vec ℝ) :
    length (A.vadd a b - (a + b)) ≤ u * length (a + b) :=
  length_le_of_abs H.nonneg (H.add _ _) (H.add _ _) (H.add _ _)

theorem vsub_error (H : Precise A u) (a b : Vec ℝ) :
    length (A.vsub a b - (a - b)) ≤ u * length (a - b) :=
  length_le_of_abs H.nonneg (H.sub _ _) (H.sub _ _) (H.sub _ _)

theorem vscale_error (H : Precise A u) (s : ℝ) (a : Vec ℝ) :
    length (A.vscale s a - s • a) ≤ u * (|s| * length a) := by
  rw [← length_smul]
  exact length_le_of_abs H.nonneg (H.mul _ _) (H.mul _ _) (H.mul _ _)

/-- Between `(1 - u)` and `(1 + u)` times the exact result. -/
theorem round_between {x y : ℝ} (hy : 0 ≤ y) (h : |x - y| ≤ u * |y|) :
    (1 - u) * y ≤ x ∧ x ≤ (1 + u) * y := by
  rw [abs_of_nonneg hy, abs_le] at h
  constructor <;> linarith [h.1, h.2]

theorem vdot_between (H : Precise A u) (hu : u ≤ 1 / 100) (a : Vec ℝ) :
    (1 - u) ^ 3 * dot a a ≤ A.vdot a a ∧ A.vdot a a ≤ (1 + u) ^ 3 * dot a a := by
  have h0 := H.nonneg
  have hx := mul_self_nonneg a.x
  have hy := mul_self_nonneg a.y
  have hz := mul_self_nonneg a.z
  obtain ⟨x1, x2⟩ := round_between hx (H.mul a.x a.x)
  obtain ⟨y1, y2⟩ := round_between hy (H.mul a.y a.y)
  obtain ⟨z1, z2⟩ := round_between hz (H.mul a.z a.z)
  have l : (0 : ℝ) ≤ 1 - u := by linarith
  have hmx : 0 ≤ A.mul a.x a.x := le_trans (mul_nonneg l hx) x1
  have hmy : 0 ≤ A.mul a.y a.y := le_trans (mul_nonneg l hy) y1
  have hmz : 0 ≤ A.mul a.z a.z := le_trans (mul_nonneg l hz) z1
  obtain ⟨s1, s2⟩ := round_between (add_nonneg hmx hmy) (H.add (A.mul a.x a.x) (A.mul a.y a.y))
  have hs : 0 ≤ A.add (A.mul a.x a.x) (A.mul a.y a.y) := le_trans (mul_nonneg l (add_nonneg hmx hmy)) s1
  obtain ⟨t1, t2⟩ := round_between (add_nonneg hs hmz) (H.add _ (A.mul a.z a.z))
  have c1 : (1 - u) ^ 2 * (a.x * a.x + a.y * a.y) ≤ A.add (A.mul a.x a.x) (A.mul a.y a.y) := by
    calc (1 - u) ^ 2 * (a.x * a.x + a.y * a.y)
        = (1 - u) * ((1 - u) * (a.x * a.x) + (1 - u) * (a.y * a.y)) := by ring
      _ ≤ (1 - u) * (A.mul a.x a.x + A.mul a.y a.y) := mul_le_mul_of_nonneg_left (by linarith) l
      _ ≤ _ := s1
  have c2 : A.add (A.mul a.x a.x) (A.mul a.y a.y) ≤ (1 + u) ^ 2 * (a.x * a.x + a.y * a.y) := by
    calc A.add (A.mul a.x a.x) (A.mul a.y a.y) ≤ (1 + u) * (A.mul a.x a.x + A.mul a.y a.y) := s2
      _ ≤ (1 + u) * ((1 + u) * (a.x * a.x) + (1 + u) * (a.y * a.y)) :=
        mul_le_mul_of_nonneg_left (by linarith) (by linarith)
      _ = _ := by ring
  have d1 : (1 - u) ^ 2 * (a.z * a.z) ≤ A.mul a.z a.z := by
    refine le_trans ?_ z1
    have : (1 - u) ^ 2 ≤ 1 - u := by nlinarith
    exact mul_le_mul_of_nonneg_right this hz
  have d2 : A.mul a.z a.z ≤ (1 + u) ^ 2 * (a.z * a.z) := by
    refine le_trans z2 ?_
    have : 1 + u ≤ (1 + u) ^ 2 := by nlinarith
    exact mul_le_mul_of_nonneg_right this hz
  unfold Arith.vdot dot
  constructor
  · calc (1 - u) ^ 3 * (a.x * a.x + a.y * a.y + a.z * a.z)
        = (1 - u) * ((1 - u) ^ 2 * (a.x * a.x + a.y * a.y) + (1 - u) ^ 2 * (a.z * a.z)) := by ring
      _ ≤ (1 - u) * (A.add (A.mul a.x a.x) (A.mul a.y a.y) + A.mul a.z a.z) :=
        mul_le_mul_of_nonneg_left (by linarith) l
      _ ≤ _ := t1
  · calc _ ≤ (1 + u) * (A.add (A.mul a.x a.x) (A.mul a.y a.y) + A.mul a.z a.z) := t2
      _ ≤ (1 + u) * ((1 + u) ^ 2 * (a.x * a.x + a.y * a.y) + (1 + u) ^ 2 * (a.z * a.z)) :=
        mul_le_mul_of_nonneg_left (by linarith) (by linarith)
      _ = _ := by ring

theorem vlength_between (H : Precise A u) (hu : u ≤ 1 / 100) (a : Vec ℝ) :
    (1 - u) ^ 3 * length a ≤ A.vlength a ∧ A.vlength a ≤ (1 + u) ^ 3 * length a := by
  have h0 := H.nonneg
  have l : (0 : ℝ) ≤ 1 - u := by linarith
  obtain ⟨d1, d2⟩ := vdot_between H hu a
  have hd := dot_self_nonneg a
  have hn : 0 ≤ A.vdot a a := le_trans (mul_nonneg (pow_nonneg l 3) hd) d1
  have hs := H.sqrt _ hn
  have hsq := Real.sqrt_nonneg (A.vdot a a)
  obtain ⟨s1, s2⟩ := round_between hsq (by rwa [abs_of_nonneg hsq])
  have r1 : (1 - u) ^ 2 * length a ≤ Real.sqrt (A.vdot a a) := by
    apply Real.le_sqrt_of_sq_le
    calc ((1 - u) ^ 2 * length a) ^ 2 = (1 - u) ^ 4 * (length a * length a) := by ring
      _ = (1 - u) ^ 4 * dot a a := by rw [length_sq]
      _ ≤ (1 - u) ^ 3 * dot a a := by
        apply mul_le_mul_of_nonneg_right _ hd
        exact pow_le_pow_of_le_one l (by linarith) (by norm_num)
      _ ≤ _ := d1
  have r2 : Real.sqrt (A.vdot a a) ≤ (1 + u) ^ 2 * length a := by
    apply Real.sqrt_le_iff.2
    refine ⟨mul_nonneg (by positivity) (length_nonneg a), d2.trans ?_⟩
    calc (1 + u) ^ 3 * dot a a ≤ (1 + u) ^ 4 * dot a a := by
          apply mul_le_mul_of_nonneg_right _ hd
          exact pow_le_pow_right₀ (by linarith) (by norm_num)
      _ = ((1 + u) ^ 2 * length a) ^ 2 := by rw [← length_sq]; ring
  unfold Arith.vlength
  constructor
  · calc (1 - u) ^ 3 * length a = (1 - u) * ((1 - u) ^ 2 * length a) := by ring
      _ ≤ (1 - u) * Real.sqrt (A.vdot a a) := mul_le_mul_of_nonneg_left r1 l
      _ ≤ _ := s1
  · calc _ ≤ (1 + u) * Real.sqrt (A.vdot a a) := s2
      _ ≤ (1 + u) * ((1 + u) ^ 2 * length a) := mul_le_mul_of_nonneg_left r2 (by linarith)
      _ = _ := by ring

theorem vlength_nonneg (H : Precise A u) (hu : u ≤ 1 / 100) (a : Vec ℝ) : 0 ≤ A.vlength a := by
  have h0 := H.nonneg
  exact le_trans (mul_nonneg (pow_nonneg (by linarith) 3) (length_nonneg a)) (vlength_between H hu a).1

/-- Linear bounds. -/
theorem vlength_linear (H : Precise A u) (hu : u ≤ 1 / 100) (a : Vec ℝ) :
    (1 - 3 * u) * length a ≤ A.vlength a ∧ A.vlength a ≤ (1 + 4 * u) * length a := by
  have h0 := H.nonneg
  obtain ⟨h1, h2⟩ := vlength_between H hu a
  have hl := length_nonneg a
  constructor
  · refine le_trans (mul_le_mul_of_nonneg_right ?_ hl) h1
    nlinarith [mul_nonneg h0 h0, mul_nonneg (mul_nonneg h0 h0) h0]
  · refine h2.trans (mul_le_mul_of_nonneg_right ?_ hl)
    nlinarith [mul_nonneg h0 h0, mul_nonneg (mul_nonneg h0 h0) h0]

theorem vlength_zero (H : Precise A u) (hu : u ≤ 1 / 100) : A.vlength 0 = 0 := by
  obtain ⟨h1, h2⟩ := vlength_between H hu 0
  rw [length_zero, mul_zero] at h1 h2
  linarith

theorem vlength_eq_zero (H : Precise A u) (hu : u ≤ 1 / 100) {a : Vec ℝ} : A.vlength a = 0 ↔ a = 0 := by
  have h0 := H.nonneg
  constructor
  · intro h
    by_contra hc
    have hp := length_pos hc
    have := (vlength_linear H hu a).1
    rw [h] at this
    nlinarith
  · rintro rfl; exact vlength_zero H hu

theorem vnormalize_error (H : Precise A u) (hu : u ≤ 1 / 100) (a : Vec ℝ) :
    length (A.vnormalize a - unit a) ≤ 6 * u := by
  have h0 := H.nonneg
  unfold Arith.vnormalize
  split_ifs with h
  · rw [(vlength_eq_zero H hu).1 h, unit_zero, sub_zero, length_zero]; linarith
  · have hne : a ≠ 0 := fun e => h (by rw [e]; exact vlength_zero H hu)
    have hp := length_pos hne
    obtain ⟨l1, l2⟩ := vlength_linear H hu a
    set l := A.vlength a with hl
    have hlp : 0 < l := lt_of_lt_of_le (mul_pos (by linarith) hp) l1
    have e1 : length ((⟨A.div a.x l, A.div a.y l, A.div a.z l⟩ : Vec ℝ) - l⁻¹ • a) ≤
        u * length (l⁻¹ • a) := by
      apply length_le_of_abs h0
      · have := H.div a.x l h
        rwa [div_eq_inv_mul] at this
      · have := H.div a.y l h
        rwa [div_eq_inv_mul] at this
      · have := H.div a.z l h
        rwa [div_eq_inv_mul] at this
    have e2 : length (l⁻¹ • a) = length a / l := by
      rw [length_smul, abs_of_pos (inv_pos.2 hlp)]; ring
    have hq : length a / l ≤ 1 + 4 * u := by
      rw [div_le_iff₀ hlp]
      nlinarith [mul_pos hp hlp]
    have e3 : length (l⁻¹ • a - unit a) ≤ 4 * u := by
      have : l⁻¹ • a - unit a = (l⁻¹ - (length a)⁻¹) • a := by unfold unit; rw [sub_smul]
      rw [this, length_smul]
      have : |l⁻¹ - (length a)⁻¹| * length a = |length a / l - 1| := by
        rw [← abs_of_pos hp, ← abs_mul, abs_of_pos hp]
        congr 1
        field_simp
      rw [this, abs_le]
      constructor
      · have : 1 - 4 * u ≤ length a / l := by
          rw [le_div_iff₀ hlp]
          nlinarith
        linarith
      · linarith
    have tri := length_add_le ((⟨A.div a.x l, A.div a.y l, A.div a.z l⟩ : Vec ℝ) - l⁻¹ • a)
      (l⁻¹ • a - unit a)
    rw [sub_add_sub_cancel] at tri
    rw [e2] at e1
    have : u * (length a / l) ≤ u * (1 + 4 * u) := mul_le_mul_of_nonneg_left hq h0
    nlinarith

theorem vnormalize_le (H : Precise A u) (hu : u ≤ 1 / 100) (a : Vec ℝ) :
    length (A.vnormalize a) ≤ 1 + 6 * u := by
  have h := vnormalize_error H hu a
  have h1 := length_unit_le a
  have := length_add_le (A.vnormalize a - unit a) (unit a)
  rw [sub_add_cancel] at this
  linarith

/-- The direction of an edge. -/
theorem vdirection_error (H : Precise A u) (hu : u ≤ 1 / 100) (a b : Vec ℝ) :
    length (A.vnormalize (A.vsub a b) - unit (a - b)) ≤ 8 * u := by
  have h0 := H.nonneg
  have h1 := vnormalize_error H hu (A.vsub a b)
  have h2 : length (unit (A.vsub a b) - unit (a - b)) ≤ 2 * u := by
    have hs := vsub_error H a b
    by_cases h : a - b = 0
    · rw [h, length_zero, mul_zero] at hs
      have : A.vsub a b - 0 = 0 := length_eq_zero.1 (le_antisymm hs (length_nonneg _))
      rw [sub_zero] at this
      rw [this, h, sub_self, length_zero]; linarith
    · have hp := length_pos h
      refine (length_unit_sub_le _ h).trans ?_
      rw [div_le_iff₀ hp]
      linarith
  have := length_add_le (A.vnormalize (A.vsub a b) - unit (A.vsub a b)) (unit (A.vsub a b) - unit (a - b))
  rw [sub_add_sub_cancel] at this
  linarith

/-- A force along the direction of an edge. -/
theorem vforce_error (H : Precise A u) (hu : u ≤ 1 / 100) (f : ℝ) (a b : Vec ℝ) :
    length (A.vscale f (A.vnormalize (A.vsub a b)) - f • unit (a - b)) ≤ 10 * u * |f| := by
  have h0 := H.nonneg
  have h1 := vscale_error H f (A.vnormalize (A.vsub a b))
  have h2 := vdirection_error H hu a b
  have h3 := vnormalize_le H hu (A.vsub a b)
  have h4 : length (f • A.vnormalize (A.vsub a b) - f • unit (a - b)) ≤ |f| * (8 * u) := by
    rw [← smul_sub, length_smul]
    exact mul_le_mul_of_nonneg_left h2 (abs_nonneg f)
  have h5 : u * (|f| * length (A.vnormalize (A.vsub a b))) ≤ u * (|f| * (1 + 6 * u)) :=
    mul_le_mul_of_nonneg_left (mul_le_mul_of_nonneg_left h3 (abs_nonneg f)) h0
  have tri := length_add_le (A.vscale f (A.vnormalize (A.vsub a b)) - f • A.vnormalize (A.vsub a b))
    (f • A.vnormalize (A.vsub a b) - f • unit (a - b))
  rw [sub_add_sub_cancel] at tri
  have hf := abs_nonneg f
  nlinarith [mul_nonneg h0 hf, mul_nonneg (mul_nonneg h0 h0) hf]

/-! ## Sums -/

/-- `a'` is the vector `a` of size at most `M` after `k` roundings. -/
def Near (u : ℝ) (k : ℕ) (a' a : Vec ℝ) (M : ℝ) : Prop :=
  length a ≤ M ∧ length (a' - a) ≤ ((1 + u) ^ k - 1) * M

theorem growth_nonneg (h0 : 0 ≤ u) (k : ℕ) : 0 ≤ (1 + u) ^ k - 1 :=
  sub_nonneg.2 (one_le_pow₀ (by linarith))

theorem growth_linear (h0 : 0 ≤ u) (k : ℕ) : k * u ≤ (1 + u) ^ k - 1 := by
  have := one_add_mul_le_pow (a := u) (by linarith) k
  linarith

theorem growth_mono (h0 : 0 ≤ u) {k l : ℕ} (h : k ≤ l) : (1 + u) ^ k - 1 ≤ (1 + u) ^ l - 1 :=
  sub_le_sub_right (pow_le_pow_right₀ (by linarith) h) 1

theorem Near.mono {k l : ℕ} {a' a : Vec ℝ} {M N : ℝ} (h0 : 0 ≤ u) (h : Near u k a' a M)
    (hkl : k ≤ l) (hM : M ≤ N) : Near u l a' a N := by
  have hM0 : 0 ≤ M := (length_nonneg a).trans h.1
  refine ⟨h.1.trans hM, h.2.trans ?_⟩
  exact mul_le_mul (growth_mono h0 hkl) hM hM0 (growth_nonneg h0 l)

theorem Near.refl (h0 : 0 ≤ u) (k : ℕ) (a : Vec ℝ) : Near u k a a (length a) := by
  refine ⟨le_rfl, ?_⟩
  rw [sub_self, length_zero]
  exact mul_nonneg (growth_nonneg h0 k) (length_nonneg a)

theorem Near.neg {k : ℕ} {a' a : Vec ℝ} {M : ℝ} (h : Near u k a' a M) : Near u k (-a') (-a) M := by
  refine ⟨by rw [length_neg]; exact h.1, ?_⟩
  rw [← neg_sub_neg, neg_neg, neg_neg, length_sub_comm]
  exact h.2

theorem Near.add (H : Precise A u) {k : ℕ} {a' a b' b : Vec ℝ} {M N : ℝ} (ha : Near u k a' a M)
    (hb : Near u k b' b N) : Near u (k + 1) (A.vadd a' b') (a + b) (M + N) := by
  have h0 := H.nonneg
  refine ⟨(length_add_le a b).trans (add_le_add ha.1 hb.1), ?_⟩
  have h1 := vadd_error H a' b'
  have h2 : length (a' + b' - (a + b)) ≤ ((1 + u) ^ k - 1) * (M + N) := by
    have := length_add_le (a' - a) (b' - b)
    rw [show a' - a + (b' - b) = a' + b' - (a + b) by abel] at this
    linarith [ha.2, hb.2]
  have h3 : length (a' + b') ≤ (1 + u) ^ k * (M + N) := by
    have := length_add_le (a' + b' - (a + b)) (a + b)
    rw [sub_add_cancel] at this
    have h4 := (length_add_le a b).trans (add_le_add ha.1 hb.1)
    linarith
  have tri := length_add_le (A.vadd a' b' - (a' + b')) (a' + b' - (a + b))
  rw [sub_add_sub_cancel] at tri
  have h5 : u * length (a' + b') ≤ u * ((1 + u) ^ k * (M + N)) := mul_le_mul_of_nonneg_left h3 h0
  calc _ ≤ u * ((1 + u) ^ k * (M + N)) + ((1 + u) ^ k - 1) * (M + N) := by linarith
    _ = ((1 + u) ^ (k + 1) - 1) * (M + N) := by ring

/-- Adding up forces. -/
theorem near_fold (H : Precise A u) {ι : Type} (term' term : ι → Vec ℝ) (size : ι → ℝ) {k : ℕ}
    (hk : ∀ i, Near u k (term' i) (term i) (size i)) (l : List ι) {j : ℕ} (hj : k ≤ j)
    {a' a : Vec ℝ} {M : ℝ} (ha : Near u j a' a M) :
    Near u (j + l.length) (l.foldl (fun acc i => A.vadd acc (term' i)) a') (a + (l.map term).sum)
      (M + (l.map size).sum) := by
  induction l generalizing j a' a M with
  | nil => simpa using ha
  | cons i l ih =>
    have h1 := ha.add H ((hk i).mono H.nonneg hj le_rfl)
    have := ih (by omega) h1
    simp only [List.foldl_cons, List.map_cons, List.sum_cons, List.length_cons]
    rw [show j + (l.length + 1) = j + 1 + l.length by omega, ← add_assoc, ← add_assoc]
    exact this

theorem near_force (H : Precise A u) (hu : u ≤ 1 / 100) (f : ℝ) (a b : Vec ℝ) :
    Near u 10 (A.vscale f (A.vnormalize (A.vsub a b))) (f • unit (a - b)) |f| := by
  refine ⟨?_, (vforce_error H hu f a b).trans ?_⟩
  · rw [length_smul]
    have := mul_le_mul_of_nonneg_left (length_unit_le (a - b)) (abs_nonneg f)
    linarith
  · apply mul_le_mul_of_nonneg_right _ (abs_nonneg f)
    have := growth_linear H.nonneg (u := u) 10
    push_cast at this
    linarith

/-! ## Trail edges -/

/-- A vector that misses a multiple of a unit vector by at most `e`. -/
theorem unit_slack_sign {e l : ℝ} {v r : Vec ℝ} (he : length (v - l • unit r) ≤ e) :
    length (unit v - (if l < 0 then (-1 : ℝ) else 1) • unit r) ≤ slack e (length v) := by
  by_cases hl : l = 0
  · subst hl
    rw [zero_smul, sub_zero] at he
    have h2 : length (unit v - (if (0 : ℝ) < 0 then (-1 : ℝ) else 1) • unit r) ≤ 2 := by
      simp only [lt_irrefl, if_false, one_smul]
      exact length_unit_sub_le_two _ _
    refine h2.trans ?_
    unfold slack
    split_ifs with h0
    · exact le_rfl
    · have hp : 0 < length v := lt_of_le_of_ne (length_nonneg v) (Ne.symm h0)
      refine le_min le_rfl ?_
      rw [le_div_iff₀ hp]
      linarith
  · have hu : unit (l • unit r) = (if l < 0 then (-1 : ℝ) else 1) • unit r := by
      split_ifs with h
      · rw [unit_smul_neg h, unit_unit, neg_one_smul]
      · rw [unit_smul_pos (lt_of_le_of_ne (not_lt.1 h) (Ne.symm hl)), unit_unit, one_smul]
    rw [← hu, length_sub_comm]
    apply unit_slack'
    rw [length_sub_comm]; exact he
where
  unit_slack' {eta : ℝ} {u v : Vec ℝ} (h : Vec.length (u - v) ≤ eta) :
      Vec.length (unit u - unit v) ≤ slack eta (Vec.length v) := by
    unfold slack
    split_ifs with h0
    · exact length_unit_sub_le_two _ _
    · have hv : v ≠ 0 := fun e => h0 (Vec.length_eq_zero.2 e)
      refine le_min (length_unit_sub_le_two _ _) ((length_unit_sub_le u hv).trans ?_)
      have := Vec.length_pos hv
      gcongr

/-- Placing the next node. -/
theorem place_error (H : Precise A u) (hu : u ≤ 1 / 100) (p r : Vec ℝ) (l : ℝ) (hr : r ≠ 0) :
    length (A.vadd p (A.vscale l (A.vnormalize r)) - p - l • unit r) ≤
      11 * u * (length p + length (A.vadd p (A.vscale l (A.vnormalize r)))) := by
  have h0 := H.nonneg
  set w := A.vscale l (A.vnormalize r) with hw
  set q := A.vadd p w with hq
  have h1 : length (w - l • unit r) ≤ 8 * u * |l| := by
    have a1 := vscale_error H l (A.vnormalize r)
    have a2 := vnormalize_le H hu r
    have a3 : length (l • A.vnormalize r - l • unit r) ≤ |l| * (6 * u) := by
      rw [← smul_sub, length_smul]
      exact mul_le_mul_of_nonneg_left (vnormalize_error H hu r) (abs_nonneg l)
    have a4 : u * (|l| * length (A.vnormalize r)) ≤ u * (|l| * (1 + 6 * u)) :=
      mul_le_mul_of_nonneg_left (mul_le_mul_of_nonneg_left a2 (abs_nonneg l)) h0
    have tri := length_add_le (w - l • A.vnormalize r) (l • A.vnormalize r - l • unit r)
    rw [sub_add_sub_cancel] at tri
    have hl := abs_nonneg l
    nlinarith [mul_nonneg h0 hl, mul_nonneg (mul_nonneg h0 h0) hl]
  have h2 : length (q - (p + w)) ≤ u * length (p + w) := vadd_error H p w
  have h3 : length (p + w) ≤ length q + u * length (p + w) := by
    have := length_add_le (p + w - q) q
    rw [sub_add_cancel, length_sub_comm] at this
    linarith
  have h4 : length w ≤ length (p + w) + length p := by
    have := length_sub_le (p + w) p
    rwa [add_sub_cancel_left] at this
  have h5 : |l| ≤ length w + 8 * u * |l| := by
    have e : length (l • unit r) = |l| := by rw [length_smul, length_unit hr, mul_one]
    have := length_add_le (l • unit r - w) w
    rw [sub_add_cancel, e, length_sub_comm] at this
    linarith
  have tri := length_add_le (q - (p + w)) (w - l • unit r)
  rw [show q - (p + w) + (w - l • unit r) = q - p - l • unit r by abel] at tri
  have hl := abs_nonneg l
  have hq0 := length_nonneg q
  have hp0 := length_nonneg p
  have hpw := length_nonneg (p + w)
  have b1 : length (p + w) ≤ 102 / 100 * length q := by nlinarith
  have b2 : |l| ≤ 109 / 100 * length w := by nlinarith
  have b3 : length (q - p - l • unit r) ≤ u * (8 * |l| + length (p + w)) := by linarith
  refine b3.trans ?_
  have b4 : 8 * |l| + length (p + w) ≤ 11 * (length p + length q) := by linarith
  calc u * (8 * |l| + length (p + w)) ≤ u * (11 * (length p + length q)) :=
        mul_le_mul_of_nonneg_left b4 h0
    _ = _ := by ring

/-- The force of a trail edge in the returned geometry and the vector it carries. -/
theorem trail_error (H : Precise A u) (hu : u ≤ 1 / 100) (p r : Vec ℝ) (l : ℝ) :
    length (copysign (A.vlength r) l • unit (A.vadd p (A.vscale l (A.vnormalize r)) - p) - r) ≤
      |copysign (A.vlength r) l| *
        (slack (11 * u * (length p + length (A.vadd p (A.vscale l (A.vnormalize r)))))
          (length (A.vadd p (A.vscale l (A.vnormalize r)) - p)) + 5 * u) := by
  have h0 := H.nonneg
  have hn := vlength_nonneg H hu r
  have hc : copysign (A.vlength r) l = (if l < 0 then (-1 : ℝ) else 1) * A.vlength r := by
    unfold copysign
    rw [abs_of_nonneg hn]
    split_ifs <;> ring
  have hab : |copysign (A.vlength r) l| = A.vlength r := by
    unfold copysign
    split_ifs
    · rw [abs_neg, abs_abs, abs_of_nonneg hn]
    · rw [abs_abs, abs_of_nonneg hn]
  by_cases hr : r = 0
  · subst hr
    rw [hc, vlength_zero H hu]
    simp
  · have hs := unit_slack_sign (place_error H hu p r l hr)
    set v := A.vadd p (A.vscale l (A.vnormalize r)) - p with hv
    set c := A.vlength r with hcdef
    set σ : ℝ := if l < 0 then (-1 : ℝ) else 1 with hσ
    have hσ2 : σ * σ = 1 := by rw [hσ]; split_ifs <;> norm_num
    have hσa : |σ| = 1 := by rw [hσ]; split_ifs <;> norm_num
    have e : (σ * c) • unit v - r = (σ * c) • (unit v - σ • unit r) + (c - length r) • unit r := by
      rw [smul_sub, smul_smul, sub_smul, length_smul_unit, show σ * c * σ = c * (σ * σ) by ring, hσ2, mul_one]
      abel
    rw [hab, hc, e]
    refine (length_add_le _ _).trans ?_
    rw [length_smul, length_smul, abs_mul, hσa, one_mul, abs_of_nonneg hn, length_unit hr, mul_one]
    obtain ⟨l1, l2⟩ := vlength_linear H hu r
    have hp := length_pos hr
    have h5 : |c - length r| ≤ 5 * u * c := by
      rw [abs_le]
      constructor <;> nlinarith [mul_nonneg h0 hp.le, mul_nonneg (mul_nonneg h0 h0) hp.le]
    have h6 := mul_le_mul_of_nonneg_left hs hn
    linarith

/-- The vector a trail edge carries is not much longer than its force. -/
theorem carried_le (H : Precise A u) (hu : u ≤ 1 / 100) (r : Vec ℝ) (l : ℝ) :
    length r ≤ (1 + 1 / 10) * |copysign (A.vlength r) l| := by
  have h0 := H.nonneg
  have hn := vlength_nonneg H hu r
  have hab : |copysign (A.vlength r) l| = A.vlength r := by
    unfold copysign
    split_ifs
    · rw [abs_neg, abs_abs, abs_of_nonneg hn]
    · rw [abs_abs, abs_of_nonneg hn]
  rw [hab]
  have := (vlength_linear H hu r).1
  nlinarith [length_nonneg r]

/-! ## The residual distance -/

theorem flResidual_ge (H : Precise A u) (hu : u ≤ 1 / 100) (last : Dict Int (Vec ℝ)) :
    ∀ (l : Dict Int (Vec ℝ)) (acc : ℝ), 0 ≤ acc →
      (1 - u) ^ l.length * acc ≤ l.foldl (fun acc p => A.add acc (A.vdist ((last.get? p.1).getD 0) p.2)) acc ∧
      ∀ p ∈ l, (1 - u) ^ (l.length + 4) * Vec.dist ((last.get? p.1).getD 0) p.2 ≤
        l.foldl (fun acc p => A.add acc (A.vdist ((last.get? p.1).getD 0) p.2)) acc
  | [], acc, _ => by simp
  | q :: l, acc, hacc => by
    have h0 := H.nonneg
    have l1 : (0 : ℝ) ≤ 1 - u := by linarith
    have l2 : 1 - u ≤ 1 := by linarith
    set d := A.vdist ((last.get? q.1).getD 0) q.2 with hd
    have hd0 : 0 ≤ d := vlength_nonneg H hu _
    obtain ⟨s1, _⟩ := round_between (add_nonneg hacc hd0) (H.add acc d)
    have hs0 : 0 ≤ A.add acc d := le_trans (mul_nonneg l1 (add_nonneg hacc hd0)) s1
    obtain ⟨i1, i2⟩ := flResidual_ge H hu last l (A.add acc d) hs0
    rw [List.foldl_cons, List.length_cons]
    have hp := pow_nonneg l1 l.length
    have hsum : (1 - u) ^ (l.length + 1) * (acc + d) ≤
        l.foldl (fun acc p => A.add acc (A.vdist ((last.get? p.1).getD 0) p.2)) (A.add acc d) := by
      refine le_trans ?_ i1
      calc (1 - u) ^ (l.length + 1) * (acc + d) = (1 - u) ^ l.length * ((1 - u) * (acc + d)) := by ring
        _ ≤ _ := mul_le_mul_of_nonneg_left s1 hp
    refine ⟨?_, ?_⟩
    · refine le_trans ?_ hsum
      exact mul_le_mul_of_nonneg_left (by linarith) (pow_nonneg l1 _)
    · intro p hpm
      have hdn : 0 ≤ Vec.dist ((last.get? p.1).getD 0) p.2 := length_nonneg _
      rcases List.mem_cons.1 hpm with rfl | hpm
      · refine le_trans ?_ hsum
        have hdist : (1 - u) ^ 4 * Vec.dist ((last.get? p.1).getD 0) p.2 ≤ d := by
          have v1 := (vlength_between H hu (A.vsub ((last.get? p.1).getD 0) p.2)).1
          have v2 := vsub_error H ((last.get? p.1).getD 0) p.2
          have v3 : (1 - u) * Vec.dist ((last.get? p.1).getD 0) p.2 ≤
              length (A.vsub ((last.get? p.1).getD 0) p.2) := by
            have := length_add_le ((last.get? p.1).getD 0 - p.2 - A.vsub ((last.get? p.1).getD 0) p.2)
              (A.vsub ((last.get? p.1).getD 0) p.2)
            rw [sub_add_cancel, length_sub_comm ((last.get? p.1).getD 0 - p.2) (A.vsub _ _)] at this
            unfold Vec.dist
            linarith
          calc (1 - u) ^ 4 * Vec.dist ((last.get? p.1).getD 0) p.2
              = (1 - u) ^ 3 * ((1 - u) * Vec.dist ((last.get? p.1).getD 0) p.2) := by ring
            _ ≤ (1 - u) ^ 3 * length (A.vsub ((last.get? p.1).getD 0) p.2) :=
              mul_le_mul_of_nonneg_left v3 (pow_nonneg l1 3)
            _ ≤ d := v1
        calc (1 - u) ^ (l.length + 1 + 4) * Vec.dist ((last.get? p.1).getD 0) p.2
            = (1 - u) ^ (l.length + 1) * ((1 - u) ^ 4 * Vec.dist ((last.get? p.1).getD 0) p.2) := by ring
          _ ≤ (1 - u) ^ (l.length + 1) * (acc + d) :=
            mul_le_mul_of_nonneg_left (by linarith) (pow_nonneg l1 _)
      · refine le_trans ?_ (i2 p hpm)
        apply mul_le_mul_of_nonneg_right _ hdn
        exact pow_le_pow_of_le_one l1 l2 (by omega)

end CEM
