import Verif.Lemmas.Smooth
import Mathlib.Analysis.Calculus.ContDiff.RCLike

/-!
# Quantities that stay close to each other on the way to a common limit
-/

set_option linter.unusedSectionVars false
set_option linter.unusedSimpArgs false

namespace CEM
open Diagram Spec Filter Topology

/-- A bound that goes to zero. -/
structure Vanishing {ι : Type} (l : Filter ι) (w : ι → ℝ) : Prop where
  nonneg : ∀ᶠ i in l, 0 ≤ w i
  lim : Tendsto w l (𝓝 0)

/-- Both `a` and `b` go to `v`, and they differ by at most a factor times `w`. -/
structure Close {ι E : Type} [NormedAddCommGroup E] (l : Filter ι) (w : ι → ℝ) (a b : ι → E) (v : E) :
    Prop where
  lim : Tendsto b l (𝓝 v)
  rate : ∃ C : ℝ, ∀ᶠ i in l, ‖a i - b i‖ ≤ C * w i

/-- The coordinates of a vector. -/
def coords3 (v : Vec ℝ) : ℝ × ℝ × ℝ := (v.x, v.y, v.z)

/-- The vector with given coordinates. -/
def ofCoords (q : ℝ × ℝ × ℝ) : Vec ℝ := ⟨q.1, q.2.1, q.2.2⟩

theorem ofCoords_coords3 (v : Vec ℝ) : ofCoords (coords3 v) = v := rfl

section
variable {ι : Type} {l : Filter ι} {w : ι → ℝ}
variable {E G : Type} [NormedAddCommGroup E] [NormedSpace ℝ E] [NormedAddCommGroup G] [NormedSpace ℝ G]

namespace Close

theorem refl (hw : Vanishing l w) {a : ι → E} {v : E} (h : Tendsto a l (𝓝 v)) : Close l w a a v :=
  ⟨h, 0, hw.nonneg.mono fun i _ => by simp⟩

theorem const (hw : Vanishing l w) (v : E) : Close l w (fun _ => v) (fun _ => v) v :=
  refl hw tendsto_const_nhds

theorem left (hw : Vanishing l w) {a b : ι → E} {v : E} (h : Close l w a b v) : Tendsto a l (𝓝 v) := by
  obtain ⟨h1, C, h2⟩ := h
  have h3 : Tendsto (fun i => a i - b i) l (𝓝 0) :=
    squeeze_zero_norm' h2 (by simpa using hw.lim.const_mul C)
  simpa using h3.add h1

theorem congr {a b a' b' : ι → E} {v : E} (h : Close l w a b v) (ha : ∀ᶠ i in l, a' i = a i)
    (hb : ∀ᶠ i in l, b' i = b i) : Close l w a' b' v := by
  obtain ⟨h1, C, h2⟩ := h
  refine ⟨h1.congr' (hb.mono fun i e => e.symm), C, ?_⟩
  filter_upwards [h2, ha, hb] with i h3 h4 h5
  rw [h4, h5]
  exact h3

/-- A point that is near another one of two is as good. -/
theorem near {a b c : ι → E} {v : E} (h : Close l w a b v) {B : ℝ}
    (hc : ∀ᶠ i in l, ‖c i - a i‖ ≤ B * w i) : Close l w c b v := by
  obtain ⟨h1, C, h2⟩ := h
  refine ⟨h1, B + C, ?_⟩
  filter_upwards [h2, hc] with i h3 h4
  have := norm_add_le (c i - a i) (a i - b i)
  rw [sub_add_sub_cancel] at this
  linarith

theorem prodMk {a b : ι → E} {c d : ι → G} {v : E} {u : G} (hw : Vanishing l w) (h : Close l w a b v)
    (k : Close l w c d u) : Close l w (fun i => (a i, c i)) (fun i => (b i, d i)) (v, u) := by
  obtain ⟨h1, C, h2⟩ := h
  obtain ⟨k1, B, k2⟩ := k
  refine ⟨h1.prodMk_nhds k1, max C B, ?_⟩
  filter_upwards [h2, k2, hw.nonneg] with i h3 h4 h5
  rw [Prod.norm_def]
  exact max_le (h3.trans (mul_le_mul_of_nonneg_right (le_max_left _ _) h5))
    (h4.trans (mul_le_mul_of_nonneg_right (le_max_right _ _) h5))

/-- Functions that are differentiable at the limit keep what is close. -/
theorem map {f : E → G} {a b : ι → E} {v : E} (hw : Vanishing l w) (h : Close l w a b v)
    (hf : ContDiffAt ℝ 1 f v) : Close l w (fun i => f (a i)) (fun i => f (b i)) (f v) := by
  have ha := h.left hw
  obtain ⟨h1, C, h2⟩ := h
  obtain ⟨K, t, ht, hL⟩ := hf.exists_lipschitzOnWith
  refine ⟨hf.continuousAt.tendsto.comp h1, K * C, ?_⟩
  filter_upwards [h2, ha ht, h1 ht] with i h3 h4 h5
  have := hL.dist_le_mul (a i) h4 (b i) h5
  rw [dist_eq_norm, dist_eq_norm] at this
  rw [mul_assoc]
  exact this.trans (mul_le_mul_of_nonneg_left h3 K.2)

theorem add {a b c d : ι → E} {v u : E} (h : Close l w a b v) (k : Close l w c d u) :
    Close l w (fun i => a i + c i) (fun i => b i + d i) (v + u) := by
  obtain ⟨h1, C, h2⟩ := h
  obtain ⟨k1, B, k2⟩ := k
  refine ⟨h1.add k1, C + B, ?_⟩
  filter_upwards [h2, k2] with i h3 h4
  have := norm_add_le (a i - b i) (c i - d i)
  rw [show a i - b i + (c i - d i) = a i + c i - (b i + d i) by abel] at this
  linarith

theorem list_sum {α : Type} (hw : Vanishing l w) (s : List α) {a b : α → ι → E} {v : α → E}
    (h : ∀ x ∈ s, Close l w (a x) (b x) (v x)) :
    Close l w (fun i => (s.map fun x => a x i).sum) (fun i => (s.map fun x => b x i).sum) (s.map v).sum := by
  induction s with
  | nil => simpa using const hw 0
  | cons x s ih =>
    simp only [List.map_cons, List.sum_cons]
    exact (h x (by simp)).add (ih fun y hy => h y (by simp [hy]))

end Close

/-- Vectors that stay close on the way to a common limit. -/
def VClose (l : Filter ι) (w : ι → ℝ) (a b : ι → Vec ℝ) (v : Vec ℝ) : Prop :=
  Close l w (fun i => coords3 (a i)) (fun i => coords3 (b i)) (coords3 v)

theorem Spec.SmoothAt.coords {k : WithTop ℕ∞} {f : E → Vec ℝ} {t0 : E} (h : SmoothAt k f t0) :
    ContDiffAt ℝ k (fun t => coords3 (f t)) t0 := h.x.prodMk (h.y.prodMk h.z)

theorem smooth_ofCoords {k : WithTop ℕ∞} {f : E → ℝ × ℝ × ℝ} {t0 : E} (h : ContDiffAt ℝ k f t0) :
    SmoothAt k (fun t => ofCoords (f t)) t0 :=
  ⟨h.fst, h.snd.fst, h.snd.snd⟩

theorem coords3_norm_le (v : Vec ℝ) : ‖coords3 v‖ ≤ Vec.length v := by
  have h := Vec.length_sq v
  have h0 : 0 ≤ Vec.length v := Real.sqrt_nonneg _
  simp only [Vec.dot] at h
  simp only [coords3, Prod.norm_def, Real.norm_eq_abs, max_le_iff]
  refine ⟨?_, ?_, ?_⟩ <;> refine abs_le_of_sq_le_sq ?_ h0 <;> nlinarith [sq_nonneg v.x, sq_nonneg v.y, sq_nonneg v.z]

theorem length_le_coords3 (v : Vec ℝ) : Vec.length v ≤ 2 * ‖coords3 v‖ := by
  have h := Vec.length_sq v
  have h0 : 0 ≤ Vec.length v := Real.sqrt_nonneg _
  have hn := norm_nonneg (coords3 v)
  have hx : |v.x| ≤ ‖coords3 v‖ := by simp [coords3, Prod.norm_def]
  have hy : |v.y| ≤ ‖coords3 v‖ := by simp [coords3, Prod.norm_def]
  have hz : |v.z| ≤ ‖coords3 v‖ := by simp [coords3, Prod.norm_def]
  simp only [Vec.dot] at h
  have := abs_le.1 hx
  have := abs_le.1 hy
  have := abs_le.1 hz
  refine abs_le_of_sq_le_sq' ?_ (by linarith) |>.2
  have hx2 := sq_le_sq' (abs_le.1 hx).1 (abs_le.1 hx).2
  have hy2 := sq_le_sq' (abs_le.1 hy).1 (abs_le.1 hy).2
  have hz2 := sq_le_sq' (abs_le.1 hz).1 (abs_le.1 hz).2
  nlinarith

namespace VClose

theorem refl (hw : Vanishing l w) {a : ι → Vec ℝ} {v : Vec ℝ}
    (h : Tendsto (fun i => coords3 (a i)) l (𝓝 (coords3 v))) : VClose l w a a v := Close.refl hw h

theorem const (hw : Vanishing l w) (v : Vec ℝ) : VClose l w (fun _ => v) (fun _ => v) v := Close.const hw _

theorem congr {a b a' b' : ι → Vec ℝ} {v : Vec ℝ} (h : VClose l w a b v) (ha : ∀ᶠ i in l, a' i = a i)
    (hb : ∀ᶠ i in l, b' i = b i) : VClose l w a' b' v :=
  Close.congr h (ha.mono fun i e => by rw [e]) (hb.mono fun i e => by rw [e])

theorem near {a b c : ι → Vec ℝ} {v : Vec ℝ} (h : VClose l w a b v) {B : ℝ}
    (hc : ∀ᶠ i in l, Vec.dist (c i) (a i) ≤ B * w i) : VClose l w c b v := by
  refine Close.near h (B := B) (hc.mono fun i hi => le_trans ?_ hi)
  exact coords3_norm_le (c i - a i)

/-- How far they are apart. -/
theorem rate {a b : ι → Vec ℝ} {v : Vec ℝ} (h : VClose l w a b v) :
    ∃ C : ℝ, ∀ᶠ i in l, Vec.dist (a i) (b i) ≤ C * w i := by
  obtain ⟨_, C, h2⟩ := h
  refine ⟨2 * C, h2.mono fun i hi => ?_⟩
  have := length_le_coords3 (a i - b i)
  have e : coords3 (a i - b i) = coords3 (a i) - coords3 (b i) := rfl
  rw [e] at this
  unfold Vec.dist
  linarith

/-- Vectors computed smoothly from what is close. -/
theorem map {f : E → Vec ℝ} {a b : ι → E} {v : E} (hw : Vanishing l w) (h : Close l w a b v)
    (hf : SmoothAt 1 f v) : VClose l w (fun i => f (a i)) (fun i => f (b i)) (f v) :=
  Close.map (f := fun t => coords3 (f t)) hw h hf.coords

theorem sub (hw : Vanishing l w) {a b c d : ι → Vec ℝ} {v u : Vec ℝ} (h : VClose l w a b v)
    (k : VClose l w c d u) : VClose l w (fun i => a i - c i) (fun i => b i - d i) (v - u) :=
  map (f := fun q : (ℝ × ℝ × ℝ) × (ℝ × ℝ × ℝ) => ofCoords q.1 - ofCoords q.2) hw (Close.prodMk hw h k)
    ((smooth_ofCoords contDiffAt_fst).sub (smooth_ofCoords contDiffAt_snd))

theorem list_sum {α : Type} (hw : Vanishing l w) (s : List α) {a b : α → ι → Vec ℝ} {v : α → Vec ℝ}
    (h : ∀ x ∈ s, VClose l w (a x) (b x) (v x)) :
    VClose l w (fun i => (s.map fun x => a x i).sum) (fun i => (s.map fun x => b x i).sum) (s.map v).sum := by
  have e : ∀ f : α → Vec ℝ, coords3 (s.map f).sum = (s.map fun x => coords3 (f x)).sum := by
    intro f
    induction s with
    | nil => rfl
    | cons x s ih =>
      simp only [List.map_cons, List.sum_cons, ← ih fun y hy => h y (by simp [hy])]
      rfl
  unfold VClose
  simp only [e]
  exact Close.list_sum hw s h

/-- The force of a deviation edge. -/
theorem dev (hw : Vanishing l w) {f g : ι → ℝ} {f0 : ℝ} (hf : Close l w f g f0) {p q p' q' : ι → Vec ℝ}
    {p0 q0 : Vec ℝ} (hp : VClose l w p p' p0) (hq : VClose l w q q' q0) (h : q0 ≠ p0) :
    VClose l w (fun i => f i • unit (q i - p i)) (fun i => g i • unit (q' i - p' i)) (f0 • unit (q0 - p0)) :=
  map (f := fun z : ℝ × (ℝ × ℝ × ℝ) × (ℝ × ℝ × ℝ) => z.1 • unit (ofCoords z.2.2 - ofCoords z.2.1)) hw
    (Close.prodMk hw hf (Close.prodMk hw hp hq)) (SmoothAt.smul contDiffAt_fst
      (((smooth_ofCoords contDiffAt_snd.snd).sub (smooth_ofCoords contDiffAt_snd.fst)).unit (sub_ne_zero.2 h)))

end VClose

theorem effectiveLength_data {d d' : EdgeData ℝ} (hl : d.length = d'.length) (hp : d.plane = d'.plane)
    (p r : Vec ℝ) : effectiveLength d p r = effectiveLength d' p r := by
  unfold effectiveLength
  rw [hl, hp]

/-- The length of a trail edge. -/
theorem Close.trailLength (hw : Vanishing l w) {d : ι → EdgeData ℝ} {d0 : EdgeData ℝ}
    (hpl : ∀ i, (d i).plane = d0.plane) (hl : Tendsto (fun i => (d i).length) l (𝓝 d0.length))
    {p r p' r' : ι → Vec ℝ} {p0 r0 : Vec ℝ} (hp : VClose l w p p' p0) (hr : VClose l w r r' r0) (h : r0 ≠ 0)
    (hc : ∀ o N, d0.plane = some (o, N) → |Vec.dot N (unit r0)| < 1 / 1000000 ∨
      (1 / 1000000 < |Vec.dot N (unit r0)| ∧ Vec.dot N (o - p0) ≠ 0)) :
    Close l w (fun i => effectiveLength (d i) (p i) (r i)) (fun i => effectiveLength (d i) (p' i) (r' i))
      (effectiveLength d0 p0 r0) := by
  have hs : ContDiffAt ℝ 1 (fun z : ℝ × (ℝ × ℝ × ℝ) × (ℝ × ℝ × ℝ) =>
      effectiveLength { d0 with length := z.1 } (ofCoords z.2.1) (ofCoords z.2.2))
      (d0.length, coords3 p0, coords3 r0) :=
    smooth_length (d := fun z : ℝ × (ℝ × ℝ × ℝ) × (ℝ × ℝ × ℝ) => { d0 with length := z.1 })
      (fun _ => rfl) contDiffAt_fst (smooth_ofCoords contDiffAt_snd.fst) (smooth_ofCoords contDiffAt_snd.snd) h hc
  have hm := Close.map hw (Close.prodMk hw (Close.refl hw hl) (Close.prodMk hw hp hr)) hs
  refine Close.congr (v := effectiveLength d0 p0 r0) hm (Eventually.of_forall fun i => ?_) (Eventually.of_forall fun i => ?_) <;>
  exact effectiveLength_data (d := d i) (d' := { d0 with length := (d i).length }) rfl (hpl i) _ _

/-- The step along a trail edge. -/
theorem VClose.step (hw : Vanishing l w) {x y : ι → ℝ} {x0 : ℝ} (hx : Close l w x y x0)
    {p r p' r' : ι → Vec ℝ} {p0 r0 : Vec ℝ} (hp : VClose l w p p' p0) (hr : VClose l w r r' r0) (h : r0 ≠ 0) :
    VClose l w (fun i => p i + x i • unit (r i)) (fun i => p' i + y i • unit (r' i)) (p0 + x0 • unit r0) :=
  VClose.map (f := fun z : ℝ × (ℝ × ℝ × ℝ) × (ℝ × ℝ × ℝ) => ofCoords z.2.1 + z.1 • unit (ofCoords z.2.2)) hw
    (Close.prodMk hw hx (Close.prodMk hw hp hr)) ((smooth_ofCoords contDiffAt_snd.fst).add
      (SmoothAt.smul contDiffAt_fst ((smooth_ofCoords contDiffAt_snd.snd).unit h)))

/-- The force of a trail edge. -/
theorem Close.trailForce (hw : Vanishing l w) {x y : ι → ℝ} {x0 : ℝ} (hx : Close l w x y x0)
    {r r' : ι → Vec ℝ} {r0 : Vec ℝ} (hr : VClose l w r r' r0) (h : r0 ≠ 0) (h0 : x0 ≠ 0) :
    Close l w (fun i => copysign (Vec.length (r i)) (x i)) (fun i => copysign (Vec.length (r' i)) (y i))
      (copysign (Vec.length r0) x0) :=
  Close.map (f := fun z : ℝ × (ℝ × ℝ × ℝ) => copysign (Vec.length (ofCoords z.2)) z.1) hw
    (Close.prodMk hw hx hr) (smooth_copysign ((smooth_ofCoords contDiffAt_snd).length h) contDiffAt_fst
      (Vec.length_pos h) h0)

end

end CEM
