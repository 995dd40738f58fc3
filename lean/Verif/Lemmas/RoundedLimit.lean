import Verif.Lemmas.RoundedStaged
import Verif.Lemmas.Limit

/-!
# Rounded results with growing precision
-/

set_option linter.unusedSectionVars false
set_option linter.unusedSimpArgs false

namespace CEM
open Diagram Spec Filter Topology

/-- Arithmetics whose errors become arbitrarily small. -/
structure Refines (A : ℕ → Arith ℝ) (u : ℕ → ℝ) : Prop where
  precise : ∀ j, Precise (A j) (u j)
  small : Tendsto u atTop (𝓝 0)

namespace Refines
variable {A : ℕ → Arith ℝ} {u : ℕ → ℝ}

theorem eventually_le (H : Refines A u) : ∀ᶠ j in atTop, u j ≤ 1 / 100 :=
  (H.small.eventually_lt_const (show (0 : ℝ) < 1 / 100 by norm_num)).mono fun _ h => h.le

/-- A number with a small relative error. -/
theorem round (H : Refines A u) {x y : ℕ → ℝ} {c : ℝ} (hy : Tendsto y atTop (𝓝 c))
    (h : ∀ᶠ j in atTop, |x j - y j| ≤ u j * |y j|) : Tendsto x atTop (𝓝 c) := by
  have h1 : Tendsto (fun j => u j * |y j|) atTop (𝓝 0) := by
    have := H.small.mul hy.abs
    simpa using this
  have h2 : Tendsto (fun j => x j - y j) atTop (𝓝 0) := by
    rw [tendsto_zero_iff_abs_tendsto_zero]
    exact squeeze_zero' (Eventually.of_forall fun _ => abs_nonneg _) h h1
  have := h2.add hy
  simpa using this

theorem add (H : Refines A u) {x y : ℕ → ℝ} {c d : ℝ} (hx : Tendsto x atTop (𝓝 c))
    (hy : Tendsto y atTop (𝓝 d)) : Tendsto (fun j => (A j).add (x j) (y j)) atTop (𝓝 (c + d)) :=
  H.round (hx.add hy) (Eventually.of_forall fun j => (H.precise j).add _ _)

theorem mul (H : Refines A u) {x y : ℕ → ℝ} {c d : ℝ} (hx : Tendsto x atTop (𝓝 c))
    (hy : Tendsto y atTop (𝓝 d)) : Tendsto (fun j => (A j).mul (x j) (y j)) atTop (𝓝 (c * d)) :=
  H.round (hx.mul hy) (Eventually.of_forall fun j => (H.precise j).mul _ _)

theorem div (H : Refines A u) {x y : ℕ → ℝ} {c d : ℝ} (hx : Tendsto x atTop (𝓝 c))
    (hy : Tendsto y atTop (𝓝 d)) (hd : d ≠ 0) :
    Tendsto (fun j => (A j).div (x j) (y j)) atTop (𝓝 (c / d)) :=
  H.round (hx.div hy hd) ((hy.eventually_ne hd).mono fun j hj => (H.precise j).div _ _ hj)

/-- A vector close to one that approaches its limit. -/
theorem near {a b : ℕ → Vec ℝ} {v : Vec ℝ} {e : ℕ → ℝ} (hb : Approaches b v)
    (he : Tendsto e atTop (𝓝 0)) (h : ∀ᶠ j in atTop, Vec.length (a j - b j) ≤ e j) :
    Approaches a v := by
  refine Approach.squeeze (b := fun j => e j + Vec.dist (b j) v) (by simpa using he.add hb)
    (h.mono fun j hj => ?_)
  have := Vec.length_add_le (a j - b j) (b j - v)
  rw [sub_add_sub_cancel] at this
  exact this.trans (add_le_add hj le_rfl)

theorem vadd (H : Refines A u) {a b : ℕ → Vec ℝ} {v w : Vec ℝ} (ha : Approaches a v)
    (hb : Approaches b w) : Approaches (fun j => (A j).vadd (a j) (b j)) (v + w) := by
  have hs := Approach.add ha hb
  refine near hs (e := fun j => u j * Vec.length (a j + b j)) ?_
    (Eventually.of_forall fun j => CEM.vadd_error (H.precise j) _ _)
  simpa using H.small.mul (Approach.length hs)

theorem vsub (H : Refines A u) {a b : ℕ → Vec ℝ} {v w : Vec ℝ} (ha : Approaches a v)
    (hb : Approaches b w) : Approaches (fun j => (A j).vsub (a j) (b j)) (v - w) := by
  have hs := Approach.sub ha hb
  refine near hs (e := fun j => u j * Vec.length (a j - b j)) ?_
    (Eventually.of_forall fun j => CEM.vsub_error (H.precise j) _ _)
  simpa using H.small.mul (Approach.length hs)

theorem vscale (H : Refines A u) {c : ℕ → ℝ} {c' : ℝ} {a : ℕ → Vec ℝ} {v : Vec ℝ}
    (hc : Tendsto c atTop (𝓝 c')) (ha : Approaches a v) :
    Approaches (fun j => (A j).vscale (c j) (a j)) (c' • v) := by
  refine near (Approach.smul hc ha) (e := fun j => u j * (|c j| * Vec.length (a j))) ?_
    (Eventually.of_forall fun j => CEM.vscale_error (H.precise j) _ _)
  simpa using H.small.mul (hc.abs.mul (Approach.length ha))

theorem vlength (H : Refines A u) {a : ℕ → Vec ℝ} {v : Vec ℝ} (ha : Approaches a v) :
    Tendsto (fun j => (A j).vlength (a j)) atTop (𝓝 (Vec.length v)) := by
  have hl := Approach.length ha
  have h1 : Tendsto (fun j => (1 - 3 * u j) * Vec.length (a j)) atTop (𝓝 (Vec.length v)) := by
    have := ((H.small.const_mul 3).const_sub 1).mul hl
    simpa using this
  have h2 : Tendsto (fun j => (1 + 4 * u j) * Vec.length (a j)) atTop (𝓝 (Vec.length v)) := by
    have := ((H.small.const_mul 4).const_add 1).mul hl
    simpa using this
  exact tendsto_of_tendsto_of_tendsto_of_le_of_le' h1 h2
    (H.eventually_le.mono fun j hj => (CEM.vlength_linear (H.precise j) hj _).1)
    (H.eventually_le.mono fun j hj => (CEM.vlength_linear (H.precise j) hj _).2)

theorem vnormalize (H : Refines A u) {a : ℕ → Vec ℝ} {v : Vec ℝ} (ha : Approaches a v) (hv : v ≠ 0) :
    Approaches (fun j => (A j).vnormalize (a j)) (Spec.unit v) :=
  near (Approach.unit ha hv) (e := fun j => 6 * u j) (by simpa using H.small.const_mul 6)
    (H.eventually_le.mono fun j hj => CEM.vnormalize_error (H.precise j) hj _)

theorem coords {a : ℕ → Vec ℝ} {v : Vec ℝ} (ha : Approaches a v) :
    Tendsto (fun j => (a j).x) atTop (𝓝 v.x) ∧ Tendsto (fun j => (a j).y) atTop (𝓝 v.y) ∧
      Tendsto (fun j => (a j).z) atTop (𝓝 v.z) := by
  have hb : ∀ b : Vec ℝ, |b.x| ≤ Vec.length b ∧ |b.y| ≤ Vec.length b ∧ |b.z| ≤ Vec.length b := by
    intro b
    have hs := Vec.length_sq b
    have hl := Vec.length_nonneg b
    unfold Vec.dot at hs
    have hx := mul_self_nonneg b.x
    have hy := mul_self_nonneg b.y
    have hz := mul_self_nonneg b.z
    exact ⟨abs_le_of_sq_le_sq (by linarith [sq b.x, sq (Vec.length b)]) hl,
      abs_le_of_sq_le_sq (by linarith [sq b.y, sq (Vec.length b)]) hl,
      abs_le_of_sq_le_sq (by linarith [sq b.z, sq (Vec.length b)]) hl⟩
  have key : ∀ f : Vec ℝ → ℝ, (∀ b c, f (b - c) = f b - f c) → (∀ b, |f b| ≤ Vec.length b) →
      Tendsto (fun j => f (a j)) atTop (𝓝 (f v)) := by
    intro f h1 h2
    rw [tendsto_iff_dist_tendsto_zero]
    refine squeeze_zero (fun _ => _root_.dist_nonneg) (fun j => ?_) ha
    rw [Real.dist_eq, ← h1]
    exact h2 _
  exact ⟨key (·.x) (fun _ _ => rfl) fun b => (hb b).1, key (·.y) (fun _ _ => rfl) fun b => (hb b).2.1,
    key (·.z) (fun _ _ => rfl) fun b => (hb b).2.2⟩

theorem vdot (H : Refines A u) (N : Vec ℝ) {a : ℕ → Vec ℝ} {v : Vec ℝ} (ha : Approaches a v) :
    Tendsto (fun j => (A j).vdot N (a j)) atTop (𝓝 (Vec.dot N v)) := by
  obtain ⟨h1, h2, h3⟩ := coords ha
  exact H.add (H.add (H.mul tendsto_const_nhds h1) (H.mul tendsto_const_nhds h2))
    (H.mul tendsto_const_nhds h3)

/-- The length of a trail edge, unless it changes abruptly. -/
theorem effectiveLength (H : Refines A u) (d : EdgeData ℝ) {P r : ℕ → Vec ℝ} {p v : Vec ℝ}
    (hP : Approaches P p) (hr : Approaches r v) (hv : v ≠ 0)
    (hc : ∀ o N, d.plane = some (o, N) → |Vec.dot N (Spec.unit v)| < 1 / 1000000 ∨
      (1 / 1000000 < |Vec.dot N (Spec.unit v)| ∧ Vec.dot N (o - p) ≠ 0)) :
    Tendsto (fun j => flEffectiveLength (A j) d (P j) (r j)) atTop
      (𝓝 (CEM.effectiveLength d p v)) := by
  cases hp : d.plane with
  | none =>
    unfold flEffectiveLength CEM.effectiveLength
    simp only [hp]
    exact tendsto_const_nhds
  | some q =>
    obtain ⟨o, N⟩ := q
    have hc1 := H.vdot N (H.vnormalize hr hv)
    have hx1 := H.vdot N (H.vsub (Approach.const o) hP)
    have hl : ∀ j, flEffectiveLength (A j) d (P j) (r j) =
        if |(A j).vdot N ((A j).vnormalize (r j))| < 1 / 1000000 then d.length else
        if (A j).div ((A j).vdot N ((A j).vsub o (P j))) ((A j).vdot N ((A j).vnormalize (r j))) = 0
        then d.length
        else (A j).div ((A j).vdot N ((A j).vsub o (P j))) ((A j).vdot N ((A j).vnormalize (r j))) := by
      intro j
      unfold flEffectiveLength flPlaneLength planeTol
      rw [hp]
      simp only
      by_cases h : |(A j).vdot N ((A j).vnormalize (r j))| < 1 / 1000000
      · rw [if_pos h, if_pos h]
      · rw [if_neg h, if_neg h]
    have hl0 : CEM.effectiveLength d p v =
        if |Vec.dot N (Spec.unit v)| < 1 / 1000000 then d.length else
        if Vec.dot N (o - p) / Vec.dot N (Spec.unit v) = 0 then d.length
        else Vec.dot N (o - p) / Vec.dot N (Spec.unit v) := by
      unfold CEM.effectiveLength planeLength planeTol
      rw [hp]
      simp only [normalize_eq_unit]
      by_cases h : |Vec.dot N (Spec.unit v)| < 1 / 1000000
      · rw [if_pos h, if_pos h]
      · rw [if_neg h, if_neg h]
    rcases hc o N hp with h | ⟨h, h'⟩
    · rw [hl0, if_pos h]
      refine tendsto_const_nhds.congr' ((hc1.abs.eventually_lt_const h).mono fun j hj => ?_)
      simp only
      rw [hl j, if_pos hj]
    · have hc0 : Vec.dot N (Spec.unit v) ≠ 0 := by
        intro h0; rw [h0, abs_zero] at h; norm_num at h
      have hq := H.div hx1 hc1 hc0
      have hq0 := div_ne_zero h' hc0
      rw [hl0, if_neg (not_lt.2 h.le), if_neg hq0]
      refine hq.congr' ?_
      filter_upwards [hc1.abs.eventually_const_lt h, hq.eventually_ne hq0] with j h1 h2
      rw [hl j, if_neg (not_lt.2 h1.le), if_neg h2]

/-- A number with the sign of one that is not zero. -/
theorem copysign {x y : ℕ → ℝ} {c d : ℝ} (hx : Tendsto x atTop (𝓝 c)) (hy : Tendsto y atTop (𝓝 d))
    (hd : d ≠ 0) : Tendsto (fun j => CEM.copysign (x j) (y j)) atTop (𝓝 (CEM.copysign c d)) := by
  unfold CEM.copysign
  rcases lt_or_gt_of_ne hd with h | h
  · rw [if_pos h]
    refine hx.abs.neg.congr' ((hy.eventually_lt_const h).mono fun j hj => ?_)
    simp only
    rw [if_pos hj]
  · rw [if_neg (not_lt.2 h.le)]
    refine hx.abs.congr' ((hy.eventually_const_lt h).mono fun j hj => ?_)
    simp only
    rw [if_neg (not_lt.2 hj.le)]

/-- A sum of deviation forces. -/
theorem devSum (H : Refines A u) {D : Diagram ℝ} {Q : ℕ → Int → Vec ℝ} {P : Int → Vec ℝ} {n : Int}
    (hn : Approaches (fun j => Q j n) (P n)) (l : List Int)
    (hl : ∀ m ∈ l, Approaches (fun j => Q j m) (P m) ∧ P m ≠ P n) :
    Approaches (fun j => flDevSum (A j) D (Q j) n l 0) (CEM.devSum D P n l) := by
  suffices h : ∀ (acc : ℕ → Vec ℝ) (v : Vec ℝ), Approaches acc v →
      Approaches (fun j => flDevSum (A j) D (Q j) n l (acc j)) (v + CEM.devSum D P n l) by
    have := h _ _ (Approach.const 0)
    rwa [zero_add] at this
  induction l with
  | nil => intro acc v h; simpa [flDevSum, CEM.devSum] using h
  | cons m l ih =>
    intro acc v h
    obtain ⟨h1, h2⟩ := hl m List.mem_cons_self
    have step := H.vadd h (H.vscale (tendsto_const_nhds (x := (edgeData D n m).force))
      (H.vnormalize (H.vsub h1 hn) (sub_ne_zero.2 h2)))
    have := ih (fun b hb => hl b (List.mem_cons_of_mem _ hb)) _ _ step
    have e : v + CEM.devSum D P n (m :: l) =
        v + (edgeData D n m).force • Spec.unit (P m - P n) + CEM.devSum D P n l := by
      unfold CEM.devSum
      rw [List.map_cons, List.sum_cons, devTerm_real, add_assoc]
    rw [e]
    exact this

theorem out (H : Refines A u) {D : Diagram ℝ} {Q : ℕ → Int → Vec ℝ} {P : Int → Vec ℝ} {n : Int}
    {T : ℕ → Vec ℝ} {t : Vec ℝ} (hT : Approaches T t) (hn : Approaches (fun j => Q j n) (P n))
    (hd : ∀ m ∈ dirNbrs D n, Approaches (fun j => Q j m) (P m) ∧ P m ≠ P n)
    (hi : ∀ m ∈ indNbrs D n, Approaches (fun j => Q j m) (P m) ∧ P m ≠ P n) :
    Approaches (fun j => flOut (A j) D true (Q j) (T j) n) (outVec D true P t n) := by
  have neg : ∀ {a : ℕ → Vec ℝ} {v : Vec ℝ}, Approaches a v → Approaches (fun j => -a j) (-v) := by
    intro a v h
    have := Approach.sub (Approach.const 0) h
    simpa using this
  have h := neg (H.vadd (H.vadd (H.vadd (H.vadd (Approach.const 0) (neg hT)) (Approach.const (loadOf D n)))
    (H.devSum (D := D) hn _ hd)) (H.devSum (D := D) hn _ hi))
  have e : outVec D true P t n = -(0 + -t + loadOf D n + CEM.devSum D P n (dirNbrs D n) +
      CEM.devSum D P n (indNbrs D n)) := by
    unfold outVec
    rw [if_pos rfl]
    abel
  rw [e]
  exact h

end Refines
end CEM
