import Verif.Lemmas.RoundedLimit

/-!
# Errors that are at most proportional to the errors of the arithmetic
-/

set_option linter.unusedSectionVars false
set_option linter.unusedSimpArgs false
set_option linter.unusedVariables false

namespace CEM
open Diagram Spec Filter Topology

/-- The numbers `x j` approach `c` at least as fast as a multiple of `w j` approaches zero. -/
def RateTo (w x : ℕ → ℝ) (c : ℝ) : Prop := ∃ C : ℝ, ∀ᶠ j in atTop, |x j - c| ≤ C * w j

/-- The vectors `a j` approach `v` at least as fast as a multiple of `w j` approaches zero. -/
def VRateTo (w : ℕ → ℝ) (a : ℕ → Vec ℝ) (v : Vec ℝ) : Prop :=
  ∃ C : ℝ, ∀ᶠ j in atTop, Vec.length (a j - v) ≤ C * w j

/-- Arithmetics whose errors are at most `w`, which becomes arbitrarily small. -/
structure RefinesBy (A : ℕ → Arith ℝ) (u w : ℕ → ℝ) : Prop where
  refines : Refines A u
  le : ∀ j, u j ≤ w j
  small : Tendsto w atTop (𝓝 0)

namespace RefinesBy
variable {A : ℕ → Arith ℝ} {u w : ℕ → ℝ}

theorem nonneg (H : RefinesBy A u w) (j : ℕ) : 0 ≤ w j := (H.refines.precise j).nonneg.trans (H.le j)

theorem tendsto (H : RefinesBy A u w) {x : ℕ → ℝ} {c : ℝ} (h : RateTo w x c) : Tendsto x atTop (𝓝 c) := by
  obtain ⟨C, hC⟩ := h
  rw [tendsto_iff_dist_tendsto_zero]
  refine squeeze_zero' (Eventually.of_forall fun _ => _root_.dist_nonneg) hC ?_
  simpa using H.small.const_mul C

theorem approaches (H : RefinesBy A u w) {a : ℕ → Vec ℝ} {v : Vec ℝ} (h : VRateTo w a v) :
    Approaches a v := by
  obtain ⟨C, hC⟩ := h
  exact Approach.squeeze (by simpa using H.small.const_mul C) hC

theorem const (H : RefinesBy A u w) (c : ℝ) : RateTo w (fun _ => c) c :=
  ⟨0, Eventually.of_forall fun j => by simp⟩

theorem vconst (H : RefinesBy A u w) (v : Vec ℝ) : VRateTo w (fun _ => v) v :=
  ⟨0, Eventually.of_forall fun j => by simp [Vec.length_zero]⟩

/-- A number that is bounded by a convergent one times `w` away from a number with a rate. -/
theorem close (H : RefinesBy A u w) {x y b : ℕ → ℝ} {c B : ℝ} (hy : RateTo w y c)
    (hb : Tendsto b atTop (𝓝 B)) (h : ∀ᶠ j in atTop, |x j - y j| ≤ b j * w j) : RateTo w x c := by
  obtain ⟨C, hC⟩ := hy
  refine ⟨(B + 1) + C, ?_⟩
  filter_upwards [hC, h, hb.eventually_lt_const (show B < B + 1 by linarith)] with j h1 h2 h3
  have := mul_le_mul_of_nonneg_right h3.le (H.nonneg j)
  have := abs_add_le (x j - y j) (y j - c)
  rw [sub_add_sub_cancel] at this
  linarith

theorem vclose (H : RefinesBy A u w) {a d : ℕ → Vec ℝ} {b : ℕ → ℝ} {v : Vec ℝ} {B : ℝ} (hy : VRateTo w d v)
    (hb : Tendsto b atTop (𝓝 B)) (h : ∀ᶠ j in atTop, Vec.length (a j - d j) ≤ b j * w j) :
    VRateTo w a v := by
  obtain ⟨C, hC⟩ := hy
  refine ⟨(B + 1) + C, ?_⟩
  filter_upwards [hC, h, hb.eventually_lt_const (show B < B + 1 by linarith)] with j h1 h2 h3
  have := mul_le_mul_of_nonneg_right h3.le (H.nonneg j)
  have := Vec.length_add_le (a j - d j) (d j - v)
  rw [sub_add_sub_cancel] at this
  linarith

theorem radd (H : RefinesBy A u w) {x y : ℕ → ℝ} {c d : ℝ} (hx : RateTo w x c) (hy : RateTo w y d) :
    RateTo w (fun j => x j + y j) (c + d) := by
  obtain ⟨C, hC⟩ := hx
  obtain ⟨E, hE⟩ := hy
  refine ⟨C + E, ?_⟩
  filter_upwards [hC, hE] with j h1 h2
  have := abs_add_le (x j - c) (y j - d)
  rw [show x j + y j - (c + d) = (x j - c) + (y j - d) by ring]
  linarith

theorem rmul (H : RefinesBy A u w) {x y : ℕ → ℝ} {c d : ℝ} (hx : RateTo w x c) (hy : RateTo w y d) :
    RateTo w (fun j => x j * y j) (c * d) := by
  have ty := (H.tendsto hy).abs
  obtain ⟨C, hC⟩ := hx
  obtain ⟨E, hE⟩ := hy
  refine ⟨|C| * (|d| + 1) + |c| * E, ?_⟩
  filter_upwards [hC, hE, ty.eventually_lt_const (show |d| < |d| + 1 by linarith)] with j h1 h2 h3
  have e : x j * y j - c * d = (x j - c) * y j + c * (y j - d) := by ring
  rw [e]
  refine (abs_add_le _ _).trans ?_
  rw [abs_mul, abs_mul]
  have k1 : |x j - c| ≤ |C| * w j := h1.trans (mul_le_mul_of_nonneg_right (le_abs_self C) (H.nonneg j))
  have k2 : |x j - c| * |y j| ≤ (|C| * w j) * (|d| + 1) :=
    mul_le_mul k1 h3.le (abs_nonneg _) ((abs_nonneg _).trans k1)
  have k3 := mul_le_mul_of_nonneg_left h2 (abs_nonneg c)
  linarith

theorem rinv (H : RefinesBy A u w) {y : ℕ → ℝ} {d : ℝ} (hy : RateTo w y d) (hd : d ≠ 0) :
    RateTo w (fun j => (y j)⁻¹) d⁻¹ := by
  have ty := H.tendsto hy
  have hb : Tendsto (fun j => (|y j| * |d|)⁻¹) atTop (𝓝 (|d| * |d|)⁻¹) :=
    (ty.abs.mul_const _).inv₀ (by simp [hd])
  obtain ⟨C, hC⟩ := hy
  refine ⟨|C| * ((|d| * |d|)⁻¹ + 1), ?_⟩
  filter_upwards [hC, ty.eventually_ne hd, hb.eventually_lt_const
    (show (|d| * |d|)⁻¹ < (|d| * |d|)⁻¹ + 1 by linarith)] with j h1 h2 h3
  have e : (y j)⁻¹ - d⁻¹ = (d - y j) * (y j * d)⁻¹ := by field_simp
  rw [e, abs_mul, abs_inv, abs_mul, abs_sub_comm]
  have k1 : |y j - d| ≤ |C| * w j := h1.trans (mul_le_mul_of_nonneg_right (le_abs_self C) (H.nonneg j))
  have := mul_le_mul k1 h3.le (inv_nonneg.2 (mul_nonneg (abs_nonneg _) (abs_nonneg _)))
    ((abs_nonneg _).trans k1)
  linarith

theorem rabs (H : RefinesBy A u w) {x : ℕ → ℝ} {c : ℝ} (hx : RateTo w x c) :
    RateTo w (fun j => |x j|) |c| := by
  obtain ⟨C, hC⟩ := hx
  exact ⟨C, hC.mono fun j h => (abs_abs_sub_abs_le_abs_sub _ _).trans h⟩

/-- A number with a small relative error. -/
theorem round (H : RefinesBy A u w) {x y : ℕ → ℝ} {c : ℝ} (hy : RateTo w y c)
    (h : ∀ᶠ j in atTop, |x j - y j| ≤ u j * |y j|) : RateTo w x c :=
  H.close hy (H.tendsto hy).abs (h.mono fun j hj => by
    rw [mul_comm]
    exact hj.trans (mul_le_mul_of_nonneg_right (H.le j) (abs_nonneg _)))

theorem add (H : RefinesBy A u w) {x y : ℕ → ℝ} {c d : ℝ} (hx : RateTo w x c) (hy : RateTo w y d) :
    RateTo w (fun j => (A j).add (x j) (y j)) (c + d) :=
  H.round (H.radd hx hy) (Eventually.of_forall fun j => (H.refines.precise j).add _ _)

theorem mul (H : RefinesBy A u w) {x y : ℕ → ℝ} {c d : ℝ} (hx : RateTo w x c) (hy : RateTo w y d) :
    RateTo w (fun j => (A j).mul (x j) (y j)) (c * d) :=
  H.round (H.rmul hx hy) (Eventually.of_forall fun j => (H.refines.precise j).mul _ _)

theorem div (H : RefinesBy A u w) {x y : ℕ → ℝ} {c d : ℝ} (hx : RateTo w x c) (hy : RateTo w y d)
    (hd : d ≠ 0) : RateTo w (fun j => (A j).div (x j) (y j)) (c / d) := by
  have h := H.rmul hx (H.rinv hy hd)
  simp only [← div_eq_mul_inv] at h
  exact H.round h (((H.tendsto hy).eventually_ne hd).mono fun j hj => (H.refines.precise j).div _ _ hj)

theorem vadd_exact (H : RefinesBy A u w) {a b : ℕ → Vec ℝ} {v v' : Vec ℝ} (ha : VRateTo w a v)
    (hb : VRateTo w b v') : VRateTo w (fun j => a j + b j) (v + v') := by
  obtain ⟨C, hC⟩ := ha
  obtain ⟨E, hE⟩ := hb
  refine ⟨C + E, ?_⟩
  filter_upwards [hC, hE] with j h1 h2
  have := Vec.length_add_le (a j - v) (b j - v')
  rw [show a j + b j - (v + v') = (a j - v) + (b j - v') by abel]
  linarith

theorem vneg (H : RefinesBy A u w) {a : ℕ → Vec ℝ} {v : Vec ℝ} (ha : VRateTo w a v) :
    VRateTo w (fun j => -a j) (-v) := by
  obtain ⟨C, hC⟩ := ha
  refine ⟨C, hC.mono fun j h => ?_⟩
  rw [show -a j - -v = -(a j - v) by abel, Vec.length_neg]
  exact h

theorem vsub_exact (H : RefinesBy A u w) {a b : ℕ → Vec ℝ} {v v' : Vec ℝ} (ha : VRateTo w a v)
    (hb : VRateTo w b v') : VRateTo w (fun j => a j - b j) (v - v') := by
  have := H.vadd_exact ha (H.vneg hb)
  simpa only [← sub_eq_add_neg] using this

theorem length (H : RefinesBy A u w) {a : ℕ → Vec ℝ} {v : Vec ℝ} (ha : VRateTo w a v) :
    RateTo w (fun j => Vec.length (a j)) (Vec.length v) := by
  obtain ⟨C, hC⟩ := ha
  exact ⟨C, hC.mono fun j h => (Vec.abs_length_sub_le _ _).trans h⟩

theorem smul (H : RefinesBy A u w) {c : ℕ → ℝ} {c' : ℝ} {a : ℕ → Vec ℝ} {v : Vec ℝ}
    (hc : RateTo w c c') (ha : VRateTo w a v) : VRateTo w (fun j => c j • a j) (c' • v) := by
  have tc := (H.tendsto hc).abs
  obtain ⟨C, hC⟩ := hc
  obtain ⟨E, hE⟩ := ha
  refine ⟨(|c'| + 1) * |E| + C * Vec.length v, ?_⟩
  filter_upwards [hC, hE, tc.eventually_lt_const (show |c'| < |c'| + 1 by linarith)] with j h1 h2 h3
  have : c j • a j - c' • v = c j • (a j - v) + (c j - c') • v := by
    ext <;> simp <;> ring
  rw [this]
  refine (Vec.length_add_le _ _).trans ?_
  rw [Vec.length_smul, Vec.length_smul]
  have k1 : Vec.length (a j - v) ≤ |E| * w j :=
    h2.trans (mul_le_mul_of_nonneg_right (le_abs_self E) (H.nonneg j))
  have k2 := mul_le_mul h3.le k1 (Vec.length_nonneg _) (by positivity)
  have k3 := mul_le_mul_of_nonneg_right h1 (Vec.length_nonneg v)
  linarith

theorem unit (H : RefinesBy A u w) {a : ℕ → Vec ℝ} {v : Vec ℝ} (ha : VRateTo w a v) (hv : v ≠ 0) :
    VRateTo w (fun j => Spec.unit (a j)) (Spec.unit v) := by
  obtain ⟨C, hC⟩ := ha
  refine ⟨2 * C / Vec.length v, hC.mono fun j h => (length_unit_sub_le _ hv).trans ?_⟩
  have hp := Vec.length_pos hv
  rw [div_mul_eq_mul_div]
  apply div_le_div_of_nonneg_right _ hp.le
  linarith

theorem vadd (H : RefinesBy A u w) {a b : ℕ → Vec ℝ} {v v' : Vec ℝ} (ha : VRateTo w a v)
    (hb : VRateTo w b v') : VRateTo w (fun j => (A j).vadd (a j) (b j)) (v + v') := by
  have hs := H.vadd_exact ha hb
  exact H.vclose hs (Approach.length (H.approaches hs)) (Eventually.of_forall fun j => by
    rw [mul_comm]
    exact (CEM.vadd_error (H.refines.precise j) _ _).trans
      (mul_le_mul_of_nonneg_right (H.le j) (Vec.length_nonneg _)))

theorem vsub (H : RefinesBy A u w) {a b : ℕ → Vec ℝ} {v v' : Vec ℝ} (ha : VRateTo w a v)
    (hb : VRateTo w b v') : VRateTo w (fun j => (A j).vsub (a j) (b j)) (v - v') := by
  have hs := H.vsub_exact ha hb
  exact H.vclose hs (Approach.length (H.approaches hs)) (Eventually.of_forall fun j => by
    rw [mul_comm]
    exact (CEM.vsub_error (H.refines.precise j) _ _).trans
      (mul_le_mul_of_nonneg_right (H.le j) (Vec.length_nonneg _)))

theorem vscale (H : RefinesBy A u w) {c : ℕ → ℝ} {c' : ℝ} {a : ℕ → Vec ℝ} {v : Vec ℝ}
    (hc : RateTo w c c') (ha : VRateTo w a v) :
    VRateTo w (fun j => (A j).vscale (c j) (a j)) (c' • v) := by
  exact H.vclose (H.smul hc ha) ((H.tendsto hc).abs.mul (Approach.length (H.approaches ha)))
    (Eventually.of_forall fun j => by
      rw [mul_comm (|c j| * _)]
      exact (CEM.vscale_error (H.refines.precise j) _ _).trans
        (mul_le_mul_of_nonneg_right (H.le j) (mul_nonneg (abs_nonneg _) (Vec.length_nonneg _))))

theorem vlength (H : RefinesBy A u w) {a : ℕ → Vec ℝ} {v : Vec ℝ} (ha : VRateTo w a v) :
    RateTo w (fun j => (A j).vlength (a j)) (Vec.length v) := by
  have hl := H.length ha
  refine H.close hl ((H.tendsto hl).const_mul 4) (H.refines.eventually_le.mono fun j hj => ?_)
  obtain ⟨h1, h2⟩ := CEM.vlength_linear (H.refines.precise j) hj (a j)
  have k := mul_le_mul_of_nonneg_right (H.le j) (Vec.length_nonneg (a j))
  have k' := mul_nonneg (H.refines.precise j).nonneg (Vec.length_nonneg (a j))
  rw [abs_le]
  constructor <;> nlinarith

theorem vnormalize (H : RefinesBy A u w) {a : ℕ → Vec ℝ} {v : Vec ℝ} (ha : VRateTo w a v) (hv : v ≠ 0) :
    VRateTo w (fun j => (A j).vnormalize (a j)) (Spec.unit v) :=
  H.vclose (H.unit ha hv) (tendsto_const_nhds (x := (6 : ℝ)))
    (H.refines.eventually_le.mono fun j hj => (CEM.vnormalize_error (H.refines.precise j) hj _).trans
      (mul_le_mul_of_nonneg_left (H.le j) (by norm_num)))

theorem coords (H : RefinesBy A u w) {a : ℕ → Vec ℝ} {v : Vec ℝ} (ha : VRateTo w a v) :
    RateTo w (fun j => (a j).x) v.x ∧ RateTo w (fun j => (a j).y) v.y ∧ RateTo w (fun j => (a j).z) v.z := by
  have hb : ∀ b : Vec ℝ, |b.x| ≤ Vec.length b ∧ |b.y| ≤ Vec.length b ∧ |b.z| ≤ Vec.length b := by
    intro b
    have hs := Vec.length_sq b
    have hl := Vec.length_nonneg b
    unfold Vec.dot at hs
    have hx := mul_self_nonneg b.x
    have hy := mul_self_nonneg b.y
    have hz := mul_self_nonneg b.z
    exact ⟨abs_le_of_sq_le_sq (by linarith [sq b.x, sq (Vec.length b)]) hl,
      abs_le_of_sq_le_sq (by linarith [sq b.y, sq (Vec.length b)]) hl,
      abs_le_of_sq_le_sq (by linarith [sq b.z, sq (Vec.length b)]) hl⟩
  obtain ⟨C, hC⟩ := ha
  exact ⟨⟨C, hC.mono fun j h => (hb (a j - v)).1.trans h⟩, ⟨C, hC.mono fun j h => (hb (a j - v)).2.1.trans h⟩,
    ⟨C, hC.mono fun j h => (hb (a j - v)).2.2.trans h⟩⟩

theorem vdot (H : RefinesBy A u w) (N : Vec ℝ) {a : ℕ → Vec ℝ} {v : Vec ℝ} (ha : VRateTo w a v) :
    RateTo w (fun j => (A j).vdot N (a j)) (Vec.dot N v) := by
  obtain ⟨h1, h2, h3⟩ := H.coords ha
  exact H.add (H.add (H.mul (H.const _) h1) (H.mul (H.const _) h2)) (H.mul (H.const _) h3)

theorem congr {x y : ℕ → ℝ} {c : ℝ} (h : RateTo w x c) (e : ∀ᶠ j in atTop, y j = x j) : RateTo w y c := by
  obtain ⟨C, hC⟩ := h
  refine ⟨C, ?_⟩
  filter_upwards [hC, e] with j h1 h2
  rw [h2]
  exact h1

theorem vcongr {x y : ℕ → Vec ℝ} {c : Vec ℝ} (h : VRateTo w x c) (e : ∀ᶠ j in atTop, y j = x j) :
    VRateTo w y c := by
  obtain ⟨C, hC⟩ := h
  refine ⟨C, ?_⟩
  filter_upwards [hC, e] with j h1 h2
  rw [h2]
  exact h1

/-- The length of a trail edge, unless it changes abruptly. -/
theorem effectiveLength (H : RefinesBy A u w) (d : EdgeData ℝ) {P r : ℕ → Vec ℝ} {p v : Vec ℝ}
    (hP : VRateTo w P p) (hr : VRateTo w r v) (hv : v ≠ 0)
    (hc : ∀ o N, d.plane = some (o, N) → |Vec.dot N (Spec.unit v)| < 1 / 1000000 ∨
      (1 / 1000000 < |Vec.dot N (Spec.unit v)| ∧ Vec.dot N (o - p) ≠ 0)) :
    RateTo w (fun j => flEffectiveLength (A j) d (P j) (r j)) (CEM.effectiveLength d p v) := by
  cases hp : d.plane with
  | none =>
    unfold flEffectiveLength CEM.effectiveLength
    simp only [hp]
    exact H.const _
  | some q =>
    obtain ⟨o, N⟩ := q
    have hc1 := H.vdot N (H.vnormalize hr hv)
    have hx1 := H.vdot N (H.vsub (H.vconst o) hP)
    have hl : ∀ j, flEffectiveLength (A j) d (P j) (r j) =
        if |(A j).vdot N ((A j).vnormalize (r j))| < 1 / 1000000 then d.length else
        if (A j).div ((A j).vdot N ((A j).vsub o (P j))) ((A j).vdot N ((A j).vnormalize (r j))) = 0
        then d.length
        else (A j).div ((A j).vdot N ((A j).vsub o (P j))) ((A j).vdot N ((A j).vnormalize (r j))) := by
      intro j
      unfold flEffectiveLength flPlaneLength planeTol
      rw [hp]
      simp only
      by_cases h : |(A j).vdot N ((A j).vnormalize (r j))| < 1 / 1000000
      · rw [if_pos h, if_pos h]
      · rw [if_neg h, if_neg h]
    have hl0 : CEM.effectiveLength d p v =
        if |Vec.dot N (Spec.unit v)| < 1 / 1000000 then d.length else
        if Vec.dot N (o - p) / Vec.dot N (Spec.unit v) = 0 then d.length
        else Vec.dot N (o - p) / Vec.dot N (Spec.unit v) := by
      unfold CEM.effectiveLength planeLength planeTol
      rw [hp]
      simp only [normalize_eq_unit]
      by_cases h : |Vec.dot N (Spec.unit v)| < 1 / 1000000
      · rw [if_pos h, if_pos h]
      · rw [if_neg h, if_neg h]
    rcases hc o N hp with h | ⟨h, h'⟩
    · rw [hl0, if_pos h]
      refine congr (H.const _) (((H.tendsto hc1).abs.eventually_lt_const h).mono fun j hj => ?_)
      rw [hl j, if_pos hj]
    · have hc0 : Vec.dot N (Spec.unit v) ≠ 0 := by
        intro h0; rw [h0, abs_zero] at h; norm_num at h
      have hq := H.div hx1 hc1 hc0
      have hq0 := div_ne_zero h' hc0
      rw [hl0, if_neg (not_lt.2 h.le), if_neg hq0]
      refine congr hq ?_
      filter_upwards [(H.tendsto hc1).abs.eventually_const_lt h, (H.tendsto hq).eventually_ne hq0] with j h1 h2
      rw [hl j, if_neg (not_lt.2 h1.le), if_neg h2]

theorem rneg (H : RefinesBy A u w) {x : ℕ → ℝ} {c : ℝ} (hx : RateTo w x c) :
    RateTo w (fun j => -x j) (-c) := by
  obtain ⟨C, hC⟩ := hx
  refine ⟨C, hC.mono fun j h => ?_⟩
  rw [show -x j - -c = -(x j - c) by ring, abs_neg]
  exact h

/-- A number with the sign of one that is not zero. -/
theorem copysign (H : RefinesBy A u w) {x y : ℕ → ℝ} {c d : ℝ} (hx : RateTo w x c) (hy : RateTo w y d)
    (hd : d ≠ 0) : RateTo w (fun j => CEM.copysign (x j) (y j)) (CEM.copysign c d) := by
  unfold CEM.copysign
  rcases lt_or_gt_of_ne hd with h | h
  · rw [if_pos h]
    refine congr (H.rneg (H.rabs hx)) (((H.tendsto hy).eventually_lt_const h).mono fun j hj => ?_)
    rw [if_pos hj]
  · rw [if_neg (not_lt.2 h.le)]
    refine congr (H.rabs hx) (((H.tendsto hy).eventually_const_lt h).mono fun j hj => ?_)
    rw [if_neg (not_lt.2 hj.le)]

/-- A sum of deviation forces. -/
theorem devSum (H : RefinesBy A u w) {D : Diagram ℝ} {Q : ℕ → Int → Vec ℝ} {P : Int → Vec ℝ} {n : Int}
    (hn : VRateTo w (fun j => Q j n) (P n)) (l : List Int)
    (hl : ∀ m ∈ l, VRateTo w (fun j => Q j m) (P m) ∧ P m ≠ P n) :
    VRateTo w (fun j => flDevSum (A j) D (Q j) n l 0) (CEM.devSum D P n l) := by
  suffices h : ∀ (acc : ℕ → Vec ℝ) (v : Vec ℝ), VRateTo w acc v →
      VRateTo w (fun j => flDevSum (A j) D (Q j) n l (acc j)) (v + CEM.devSum D P n l) by
    have := h _ _ (H.vconst 0)
    rwa [zero_add] at this
  induction l with
  | nil => intro acc v h; simpa [flDevSum, CEM.devSum] using h
  | cons m l ih =>
    intro acc v h
    obtain ⟨h1, h2⟩ := hl m List.mem_cons_self
    have step := H.vadd h (H.vscale (H.const (edgeData D n m).force)
      (H.vnormalize (H.vsub h1 hn) (sub_ne_zero.2 h2)))
    have := ih (fun b hb => hl b (List.mem_cons_of_mem _ hb)) _ _ step
    have e : v + CEM.devSum D P n (m :: l) =
        v + (edgeData D n m).force • Spec.unit (P m - P n) + CEM.devSum D P n l := by
      unfold CEM.devSum
      rw [List.map_cons, List.sum_cons, devTerm_real, add_assoc]
    rw [e]
    exact this

theorem out (H : RefinesBy A u w) {D : Diagram ℝ} {Q : ℕ → Int → Vec ℝ} {P : Int → Vec ℝ} {n : Int}
    {T : ℕ → Vec ℝ} {t : Vec ℝ} (hT : VRateTo w T t) (hn : VRateTo w (fun j => Q j n) (P n))
    (hd : ∀ m ∈ dirNbrs D n, VRateTo w (fun j => Q j m) (P m) ∧ P m ≠ P n)
    (hi : ∀ m ∈ indNbrs D n, VRateTo w (fun j => Q j m) (P m) ∧ P m ≠ P n) :
    VRateTo w (fun j => flOut (A j) D true (Q j) (T j) n) (outVec D true P t n) := by
  have h := H.vneg (H.vadd (H.vadd (H.vadd (H.vadd (H.vconst 0) (H.vneg hT)) (H.vconst (loadOf D n)))
    (H.devSum (D := D) hn _ hd)) (H.devSum (D := D) hn _ hi))
  have e : outVec D true P t n = -(0 + -t + loadOf D n + CEM.devSum D P n (dirNbrs D n) +
      CEM.devSum D P n (indNbrs D n)) := by
    unfold outVec
    rw [if_pos rfl]
    abel
  rw [e]
  exact h

end RefinesBy
end CEM
