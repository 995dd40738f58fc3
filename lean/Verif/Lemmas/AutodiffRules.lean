import Mathlib.Analysis.Calculus.Deriv.Inv
import Mathlib.Analysis.Calculus.Deriv.Add
import Mathlib.Analysis.Calculus.Deriv.Mul
import Verif.Model.Autodiff
import Verif.Lemmas.Gradient

/-!
# Numbers with derivatives

A number or vector that carries a value and a derivative follows a function of one variable if the
function has this value and this derivative at zero.
-/

set_option linter.unusedSectionVars false
set_option linter.unusedSimpArgs false

namespace CEM
open Diagram Spec Filter Topology

/-- The coordinates have the derivatives `v` at zero. -/
structure Moves (p : ℝ → Vec ℝ) (v : Vec ℝ) : Prop where
  x : HasDerivAt (fun t => (p t).x) v.x 0
  y : HasDerivAt (fun t => (p t).y) v.y 0
  z : HasDerivAt (fun t => (p t).z) v.z 0

namespace Moves
variable {p q : ℝ → Vec ℝ} {v u : Vec ℝ}

theorem const (a : Vec ℝ) : Moves (fun _ => a) 0 :=
  ⟨hasDerivAt_const _ _, hasDerivAt_const _ _, hasDerivAt_const _ _⟩

theorem congr (h : Moves p v) (e : ∀ᶠ t in 𝓝 0, q t = p t) : Moves q v :=
  ⟨h.x.congr_of_eventuallyEq (e.mono fun t e => by simp only [e]),
    h.y.congr_of_eventuallyEq (e.mono fun t e => by simp only [e]),
    h.z.congr_of_eventuallyEq (e.mono fun t e => by simp only [e])⟩

theorem add (h : Moves p v) (g : Moves q u) : Moves (fun t => p t + q t) (v + u) :=
  ⟨h.x.add g.x, h.y.add g.y, h.z.add g.z⟩

theorem sub (h : Moves p v) (g : Moves q u) : Moves (fun t => p t - q t) (v - u) :=
  ⟨h.x.sub g.x, h.y.sub g.y, h.z.sub g.z⟩

theorem neg (h : Moves p v) : Moves (fun t => -p t) (-v) := ⟨h.x.neg, h.y.neg, h.z.neg⟩

theorem smul {f : ℝ → ℝ} {d : ℝ} (hf : HasDerivAt f d 0) (h : Moves p v) :
    Moves (fun t => f t • p t) (d • p 0 + f 0 • v) :=
  ⟨hf.mul h.x, hf.mul h.y, hf.mul h.z⟩

theorem dot (h : Moves p v) (g : Moves q u) :
    HasDerivAt (fun t => Vec.dot (p t) (q t)) (Vec.dot v (q 0) + Vec.dot (p 0) u) 0 := by
  have := ((h.x.mul g.x).add (h.y.mul g.y)).add (h.z.mul g.z)
  refine this.congr_deriv ?_
  simp only [Vec.dot]
  ring

theorem eventually_ne (h : Moves p v) (h0 : p 0 ≠ 0) : ∀ᶠ t in 𝓝 0, p t ≠ 0 := by
  have hc := (h.dot h).continuousAt
  have hne : Vec.dot (p 0) (p 0) ≠ 0 := fun e => h0 (Vec.dot_self_eq_zero.1 e)
  refine (hc.eventually_ne hne).mono fun t ht e => ht ?_
  rw [e]; simp [Vec.dot]

theorem length (h : Moves p v) (h0 : p 0 ≠ 0) :
    HasDerivAt (fun t => Vec.length (p t)) (Vec.dot (p 0) v / Vec.length (p 0)) 0 := by
  have hne : Vec.dot (p 0) (p 0) ≠ 0 := fun e => h0 (Vec.dot_self_eq_zero.1 e)
  have := (h.dot h).sqrt hne
  refine this.congr_deriv ?_
  have e : Vec.dot v (p 0) = Vec.dot (p 0) v := by simp only [Vec.dot]; ring
  rw [e, ← two_mul]
  exact mul_div_mul_left _ _ two_ne_zero

end Moves

/-- The traced vector has the value and the derivative of `p` at zero. -/
structure Follow (a : Traced (Vec ℝ)) (p : ℝ → Vec ℝ) : Prop where
  val : a.val = p 0
  tan : Moves p a.tan

/-- The traced number has the value and the derivative of `f` at zero. -/
structure FollowN (a : Traced ℝ) (f : ℝ → ℝ) : Prop where
  val : a.val = f 0
  tan : HasDerivAt f a.tan 0

/-- The same without NaN. -/
def Tracks (a : TVec ℝ) (p : ℝ → Vec ℝ) : Prop := ∃ b, a = some b ∧ Follow b p
def TracksN (a : TNum ℝ) (f : ℝ → ℝ) : Prop := ∃ b, a = some b ∧ FollowN b f

theorem Tracks.congr {a : TVec ℝ} {p q : ℝ → Vec ℝ} (h : Tracks a p) (e : ∀ᶠ t in 𝓝 0, q t = p t) :
    Tracks a q := by
  obtain ⟨b, rfl, h⟩ := h
  exact ⟨b, rfl, by rw [h.val, e.self_of_nhds], h.tan.congr e⟩

theorem FollowN.congr {a : Traced ℝ} {p q : ℝ → ℝ} (h : FollowN a p) (e : ∀ᶠ t in 𝓝 0, q t = p t) :
    FollowN a q := ⟨by rw [h.val, e.self_of_nhds], h.tan.congr_of_eventuallyEq e⟩

theorem TracksN.congr {a : TNum ℝ} {p q : ℝ → ℝ} (h : TracksN a p) (e : ∀ᶠ t in 𝓝 0, q t = p t) :
    TracksN a q := by
  obtain ⟨b, rfl, h⟩ := h
  exact ⟨b, rfl, h.congr e⟩

namespace FollowN
variable {a b : Traced ℝ} {f g : ℝ → ℝ}

theorem const (c : ℝ) : FollowN (.const c) fun _ => c := ⟨rfl, hasDerivAt_const _ _⟩

theorem add (h : FollowN a f) (k : FollowN b g) : FollowN (a.add b) fun t => f t + g t :=
  ⟨by simp only [Traced.add, h.val, k.val], h.tan.add k.tan⟩

theorem sub (h : FollowN a f) (k : FollowN b g) : FollowN (a.sub b) fun t => f t - g t :=
  ⟨by simp only [Traced.sub, h.val, k.val], h.tan.sub k.tan⟩

theorem neg (h : FollowN a f) : FollowN a.neg fun t => -f t :=
  ⟨by simp only [Traced.neg, h.val], h.tan.neg⟩

theorem mul (h : FollowN a f) (k : FollowN b g) : FollowN (a.mul b) fun t => f t * g t :=
  ⟨by simp only [Traced.mul, h.val, k.val], by
    have := h.tan.mul k.tan
    simp only [Traced.mul, h.val, k.val]
    exact this⟩

theorem div (h : FollowN a f) (k : FollowN b g) (h0 : g 0 ≠ 0) : FollowN (a.div b) fun t => f t / g t :=
  ⟨by simp only [Traced.div, h.val, k.val], by
    have := h.tan.div k.tan h0
    simp only [Traced.div, h.val, k.val]
    rw [← pow_two]
    exact this⟩

theorem sqrt (h : FollowN a f) (h0 : f 0 ≠ 0) : FollowN a.sqrt fun t => Real.sqrt (f t) :=
  ⟨by simp only [Traced.sqrt, h.val]; rfl, by
    have := h.tan.sqrt h0
    simp only [Traced.sqrt, h.val]
    exact this⟩

end FollowN

namespace Follow
variable {a b : Traced (Vec ℝ)} {p q : ℝ → Vec ℝ}

theorem const (c : Vec ℝ) : Follow (.const c) fun _ => c := ⟨rfl, Moves.const c⟩

theorem add (h : Follow a p) (k : Follow b q) : Follow (a.add b) fun t => p t + q t :=
  ⟨by simp only [Traced.add, h.val, k.val], h.tan.add k.tan⟩

theorem sub (h : Follow a p) (k : Follow b q) : Follow (a.sub b) fun t => p t - q t :=
  ⟨by simp only [Traced.sub, h.val, k.val], h.tan.sub k.tan⟩

theorem neg (h : Follow a p) : Follow a.neg fun t => -p t :=
  ⟨by simp only [Traced.neg, h.val], h.tan.neg⟩

theorem scale {c : Traced ℝ} {f : ℝ → ℝ} (k : FollowN c f) (h : Follow a p) :
    Follow (Traced.scale c a) fun t => f t • p t :=
  ⟨by simp only [Traced.scale, h.val, k.val], by
    have := h.tan.smul k.tan
    simp only [Traced.scale, h.val, k.val]
    exact this⟩

theorem dot (h : Follow a p) (k : Follow b q) : FollowN (Traced.dot a b) fun t => Vec.dot (p t) (q t) :=
  ⟨by simp only [Traced.dot, h.val, k.val], by
    have := h.tan.dot k.tan
    simp only [Traced.dot, h.val, k.val]
    exact this⟩

theorem norm (h : Follow a p) (h0 : p 0 ≠ 0) : TracksN a.norm fun t => Vec.length (p t) := by
  refine ⟨⟨Vec.length a.val, Vec.dot a.val a.tan / Vec.length a.val⟩, ?_, ⟨by rw [h.val], ?_⟩⟩
  · unfold Traced.norm
    rw [h.val, if_neg (Vec.length_pos h0).ne']
  · have := h.tan.length h0
    simp only [h.val]
    exact this

theorem quot {c : Traced ℝ} {f : ℝ → ℝ} (h : Follow a p) (k : FollowN c f) (h0 : f 0 ≠ 0) :
    Follow (a.quot c) fun t => ⟨(p t).x / f t, (p t).y / f t, (p t).z / f t⟩ := by
  refine ⟨by simp only [Traced.quot, h.val, k.val], ⟨?_, ?_, ?_⟩⟩
  · have := h.tan.x.div k.tan h0
    simp only [Traced.quot, h.val, k.val, ← pow_two]
    exact this
  · have := h.tan.y.div k.tan h0
    simp only [Traced.quot, h.val, k.val, ← pow_two]
    exact this
  · have := h.tan.z.div k.tan h0
    simp only [Traced.quot, h.val, k.val, ← pow_two]
    exact this

theorem normalize (h : Follow a p) (h0 : p 0 ≠ 0) :
    Tracks (adNormalize (some a)) fun t => Vec.normalize (p t) := by
  obtain ⟨c, hc, k⟩ := h.norm h0
  refine Tracks.congr (p := fun t => ⟨(p t).x / Vec.length (p t), (p t).y / Vec.length (p t),
    (p t).z / Vec.length (p t)⟩) ⟨a.quot c, ?_, h.quot k (Vec.length_pos h0).ne'⟩ ?_
  · simp only [adNormalize, Option.bind_some, hc, Option.map_some]
  · filter_upwards [h.tan.eventually_ne h0] with t ht
    unfold Vec.normalize
    rw [if_neg (Vec.length_pos ht).ne']

end Follow

namespace Tracks
variable {a b : TVec ℝ} {p q : ℝ → Vec ℝ}

theorem const (c : Vec ℝ) : Tracks (some (.const c)) fun _ => c := ⟨_, rfl, Follow.const c⟩

theorem add (h : Tracks a p) (k : Tracks b q) : Tracks (lift2 Traced.add a b) fun t => p t + q t := by
  obtain ⟨a, rfl, h⟩ := h
  obtain ⟨b, rfl, k⟩ := k
  exact ⟨_, rfl, h.add k⟩

theorem sub (h : Tracks a p) (k : Tracks b q) : Tracks (lift2 Traced.sub a b) fun t => p t - q t := by
  obtain ⟨a, rfl, h⟩ := h
  obtain ⟨b, rfl, k⟩ := k
  exact ⟨_, rfl, h.sub k⟩

theorem neg (h : Tracks a p) : Tracks (a.map Traced.neg) fun t => -p t := by
  obtain ⟨a, rfl, h⟩ := h
  exact ⟨_, rfl, h.neg⟩

theorem scale {c : TNum ℝ} {f : ℝ → ℝ} (k : TracksN c f) (h : Tracks a p) :
    Tracks (lift2 Traced.scale c a) fun t => f t • p t := by
  obtain ⟨a, rfl, h⟩ := h
  obtain ⟨c, rfl, k⟩ := k
  exact ⟨_, rfl, h.scale k⟩

theorem normalize (h : Tracks a p) (h0 : p 0 ≠ 0) : Tracks (adNormalize a) fun t => Vec.normalize (p t) := by
  obtain ⟨a, rfl, h⟩ := h
  exact h.normalize h0

theorem norm (h : Tracks a p) (h0 : p 0 ≠ 0) : TracksN (a.bind Traced.norm) fun t => Vec.length (p t) := by
  obtain ⟨a, rfl, h⟩ := h
  exact h.norm h0

end Tracks

/-! ## Lengths and forces of trail edges -/

theorem tracks_direction {a : TVec ℝ} {r : ℝ → Vec ℝ} (h : Tracks a r) (h0 : r 0 ≠ 0) :
    Tracks (adDirection a) fun t => Vec.normalize (r t) := by
  obtain ⟨b, hb, k⟩ := h.normalize h0
  unfold adDirection
  rw [hb]
  exact ⟨b, rfl, k⟩

/-- The length of a trail edge whose plane is clearly used or clearly not used. -/
theorem tracks_length {d : ℝ → EdgeData ℝ} {P r : ℝ → Vec ℝ} {l : Traced ℝ} {a b : TVec ℝ}
    (hpl : ∀ t, (d t).plane = (d 0).plane) (hl : FollowN l fun t => (d t).length)
    (hP : Tracks a P) (hr : Tracks b r) (hr0 : r 0 ≠ 0)
    (hc : ∀ o N, (d 0).plane = some (o, N) → |Vec.dot N (Spec.unit (r 0))| < 1 / 1000000 ∨
      (1 / 1000000 < |Vec.dot N (Spec.unit (r 0))| ∧ Vec.dot N (o - P 0) ≠ 0)) :
    TracksN (adEffectiveLength l (d 0).plane a b) fun t => effectiveLength (d t) (P t) (r t) := by
  cases hp : (d 0).plane with
  | none =>
    refine TracksN.congr ⟨l, rfl, hl⟩ (.of_forall fun t => ?_)
    unfold effectiveLength; rw [hpl t, hp]
  | some q =>
    obtain ⟨o, N⟩ := q
    obtain ⟨u, hu, ku⟩ := hr.normalize hr0
    obtain ⟨P', rfl, hP⟩ := hP
    simp only [normalize_eq_unit] at ku
    have hc1 := (Follow.const N).dot ku
    have hx1 := (Follow.const N).dot ((Follow.const o).sub hP)
    have hl' : ∀ t, effectiveLength (d t) (P t) (r t) =
        if |Vec.dot N (Spec.unit (r t))| < 1 / 1000000 then (d t).length else
        if Vec.dot N (o - P t) / Vec.dot N (Spec.unit (r t)) = 0 then (d t).length
        else Vec.dot N (o - P t) / Vec.dot N (Spec.unit (r t)) := by
      intro t
      unfold effectiveLength planeLength planeTol
      rw [hpl t, hp]
      simp only [normalize_eq_unit]
      by_cases h : |Vec.dot N (Spec.unit (r t))| < 1 / 1000000
      · rw [if_pos h, if_pos h]
      · rw [if_neg h, if_neg h]
    have habs := hc1.tan.continuousAt.abs
    simp only [adEffectiveLength, adPlaneLength, hu]
    rcases hc o N hp with h | ⟨h, h'⟩
    · rw [if_pos (by rw [hc1.val, planeTol]; exact h)]
      refine TracksN.congr ⟨l, rfl, hl⟩ ((habs.eventually_lt continuousAt_const h).mono fun t ht => ?_)
      rw [hl' t, if_pos ht]
    · have hc0 : Vec.dot N (Spec.unit (r 0)) ≠ 0 := by
        intro h0; rw [h0, abs_zero] at h; norm_num at h
      rw [if_neg (by rw [hc1.val, planeTol]; exact not_lt.2 h.le)]
      simp only [Option.map_some]
      have hq := hx1.div hc1 hc0
      rw [if_neg (by rw [hq.val]; exact div_ne_zero h' hc0)]
      refine TracksN.congr ⟨_, rfl, hq⟩ ?_
      filter_upwards [continuousAt_const.eventually_lt habs h, hx1.tan.continuousAt.eventually_ne h',
        hc1.tan.continuousAt.eventually_ne hc0] with t h1 h2 h3
      rw [hl' t, if_neg (not_lt.2 h1.le), if_neg (div_ne_zero h2 h3)]

/-- The force of a trail edge with a length. -/
theorem tracks_force {a : TVec ℝ} {l : TNum ℝ} {r : ℝ → Vec ℝ} {f : ℝ → ℝ} (hr : Tracks a r) (hf : TracksN l f)
    (hr0 : r 0 ≠ 0) (hf0 : f 0 ≠ 0) :
    TracksN (adTrailForce a l) fun t => copysign (Vec.length (r t)) (f t) := by
  obtain ⟨c, hc, k⟩ := hr.norm hr0
  obtain ⟨l, rfl, hf⟩ := hf
  have hpos := Vec.length_pos hr0
  have hp := continuousAt_const.eventually_lt k.tan.continuousAt hpos
  simp only [adTrailForce, hc, k.val, hf.val]
  rcases lt_or_gt_of_ne hf0 with h | h
  · rw [if_pos (mul_neg_of_pos_of_neg hpos h)]
    refine TracksN.congr ⟨_, rfl, k.neg⟩ ?_
    filter_upwards [hp, hf.tan.continuousAt.eventually_lt continuousAt_const h] with t h1 h2
    unfold copysign
    rw [if_pos h2, abs_of_pos h1]
  · rw [if_neg (not_lt.2 (mul_pos hpos h).le)]
    refine TracksN.congr ⟨_, rfl, k⟩ ?_
    filter_upwards [hp, continuousAt_const.eventually_lt hf.tan.continuousAt h] with t h1 h2
    unfold copysign
    rw [if_neg (not_lt.2 h2.le), abs_of_pos h1]

end CEM
