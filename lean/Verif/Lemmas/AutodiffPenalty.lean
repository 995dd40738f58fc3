import Mathlib.Analysis.Calculus.LocalExtr.Basic
import Verif.Lemmas.AutodiffRules
import Verif.Lemmas.Autodiff

/-!
# Derivatives of penalties
-/

set_option linter.unusedSectionVars false
set_option linter.unusedSimpArgs false

namespace CEM
open Diagram Spec Filter Topology

/-- A state has the numbers of a family of forms at zero and their derivatives. -/
structure FormAlong (D : Diagram ℝ) (F : ℝ → Diagram ℝ) (s : AState ℝ) : Prop where
  pos : ∀ n ∈ D.nodes.keys, ∃ v, s.xyz.get? n = some (some v) ∧ Follow v fun t => posOf (F t) n
  force : ∀ e, IsTrail D e.1 e.2 → ∃ v, s.trailForces.get? e = some (some v) ∧ FollowN v fun t => forceAt (F t) e
  reaction : ∀ n, typeOf D n = some .support →
    ∃ v, s.reactions.get? n = some (some v) ∧ Follow v fun t => reactionAt (F t) n

theorem Follow.congr {a : Traced (Vec ℝ)} {p q : ℝ → Vec ℝ} (h : Follow a p) (e : ∀ᶠ t in 𝓝 0, q t = p t) :
    Follow a q := ⟨by rw [h.val, e.self_of_nhds], h.tan.congr e⟩

theorem follow_distSq {a b : Traced (Vec ℝ)} {p q : ℝ → Vec ℝ} (h : Follow a p) (k : Follow b q) :
    FollowN (adDistSq a b) fun t => distSq (p t) (q t) := (k.sub h).dot (k.sub h)

theorem follow_vector {a b : Traced (Vec ℝ)} {p q : ℝ → Vec ℝ} (h : Follow a p) (k : Follow b q) (w : ℝ) :
    ∃ v, adVectorPenalty (some a) (some b) w = some v ∧ FollowN v fun t => distSq (p t) (q t) * w :=
  ⟨_, rfl, (follow_distSq h k).mul (FollowN.const w)⟩

theorem follow_float {a : Traced ℝ} {f : ℝ → ℝ} (h : FollowN a f) (c w : ℝ) :
    ∃ v, adFloatPenalty (some a) c w = some v ∧ FollowN v fun t => (f t - c) * (f t - c) * w :=
  ⟨_, rfl, ((h.sub (FollowN.const c)).mul (h.sub (FollowN.const c))).mul (FollowN.const w)⟩

theorem follow_line {a : Traced (Vec ℝ)} {p : ℝ → Vec ℝ} (h : Follow a p) (x y : Vec ℝ) :
    Follow (adClosestOnLine a x y) fun t => closestOnLine (p t) x y := by
  unfold adClosestOnLine closestOnLine vectorComponent
  by_cases h0 : Vec.dot (y - x) (y - x) = 0
  · simp only [if_pos h0]
    exact (Follow.const x).add (Follow.const 0)
  · simp only [if_neg h0]
    exact (Follow.const x).add (Follow.scale (((h.sub (Follow.const x)).dot (Follow.const _)).div
      (FollowN.const _) h0) (Follow.const _))

theorem follow_plane {a : Traced (Vec ℝ)} {p : ℝ → Vec ℝ} (h : Follow a p) {x y : Vec ℝ} (hy : y ≠ 0) :
    ∃ v, adClosestOnPlane a x y = some v ∧ Follow v fun t => p t -
      ((Vec.dot (Vec.normalize y) (p t) - Vec.dot (Vec.normalize y) x) /
        Vec.dot (Vec.normalize y) (Vec.normalize y)) • Vec.normalize y := by
  have hu : Vec.normalize y ≠ 0 := by
    rw [normalize_eq_unit]
    intro h0
    have := length_unit hy
    rw [h0, Vec.length_zero] at this
    norm_num at this
  have hd : Vec.dot (Vec.normalize y) (Vec.normalize y) ≠ 0 := fun h0 => hu (Vec.dot_self_eq_zero.1 h0)
  unfold adClosestOnPlane
  simp only [if_neg hd]
  exact ⟨_, rfl, h.sub (Follow.scale ((((Follow.const _).dot h).sub (FollowN.const _)).div (FollowN.const _) hd)
    (Follow.const _))⟩

/-! ## Polylines -/

theorem line_orth (p : Traced (Vec ℝ)) (a b : Vec ℝ) :
    Vec.dot ((adClosestOnLine p a b).val - p.val) (adClosestOnLine p a b).tan = 0 := by
  unfold adClosestOnLine
  by_cases h0 : Vec.dot (b - a) (b - a) = 0
  · rw [if_pos h0]
    simp [Traced.add, Traced.const, Vec.dot]
  · rw [if_neg h0]
    simp only [Traced.add, Traced.const, Traced.scale, Traced.div, Traced.dot, Traced.sub]
    set u := b - a with hu
    set d := Vec.dot u u with hd
    have h1 : ∀ x c : ℝ, Vec.dot (a + x • u - p.val) (0 + (c • u + x • (0 : Vec ℝ))) =
        c * (x * d - Vec.dot (p.val - a) u) := by
      intro x c
      rw [hd]
      simp only [Vec.dot, Vec.add_x, Vec.add_y, Vec.add_z, Vec.sub_x, Vec.sub_y, Vec.sub_z, Vec.smul_x,
        Vec.smul_y, Vec.smul_z, Vec.zero_x, Vec.zero_y, Vec.zero_z]
      ring
    rw [h1, div_mul_cancel₀ _ h0]
    ring

theorem segment_orth (p : Traced (Vec ℝ)) (a b : Vec ℝ) :
    Vec.dot ((adClosestOnSegment p a b).val - p.val) (adClosestOnSegment p a b).tan = 0 := by
  unfold adClosestOnSegment
  simp only
  split_ifs
  · simp [Traced.const, Vec.dot]
  · simp [Traced.const, Vec.dot]
  · exact line_orth p a b

theorem adFirstClosest_mem (p : Vec ℝ) (q : Traced (Vec ℝ)) (qs : List (Traced (Vec ℝ))) :
    adFirstClosest p q qs ∈ q :: qs := by
  induction qs generalizing q with
  | nil => simp [adFirstClosest]
  | cons a qs ih =>
    rw [adFirstClosest]
    split_ifs
    · have := ih a
      simp only [List.mem_cons] at this ⊢
      tauto
    · have := ih q
      simp only [List.mem_cons] at this ⊢
      tauto

theorem polyline_orth {p : Traced (Vec ℝ)} {pts : List (Vec ℝ)} {q : Traced (Vec ℝ)}
    (h : adClosestOnPolyline p pts = .ok q) : Vec.dot (q.val - p.val) q.tan = 0 := by
  unfold adClosestOnPolyline at h
  cases hl : (pts.zip pts.tail).map fun s => adClosestOnSegment p s.1 s.2 with
  | nil => rw [hl] at h; simp at h
  | cons a l =>
    rw [hl] at h
    have hm := adFirstClosest_mem p.val a l
    rw [Except.ok.inj h, ← hl] at hm
    obtain ⟨s, _, rfl⟩ := List.mem_map.1 hm
    exact segment_orth p s.1 s.2

/-- The derivative of the squared distance to a polyline, where it has one. -/
theorem follow_polyline {a : Traced (Vec ℝ)} {p : ℝ → Vec ℝ} (h : Follow a p) {pts : List (Vec ℝ)} (w : ℝ)
    (hc : SmoothDistance 1 pts (p 0)) :
    ∃ q v, adClosestOnPolyline a pts = .ok q ∧ adVectorPenalty (some a) (some q) w = some v ∧
      FollowN v fun t => match closestOnPolyline (p t) pts with
        | .error _ => 0
        | .ok q => distSq (p t) q * w := by
  obtain ⟨m, hm, hd⟩ := hc
  have hp : HasDerivAt (fun t => ((p t).x, (p t).y, (p t).z)) (a.tan.x, a.tan.y, a.tan.z) 0 :=
    h.tan.x.prodMk (h.tan.y.prodMk h.tan.z)
  have hev := hp.continuousAt.eventually hd
  obtain ⟨q0, hq0, hdist⟩ := distance_eq hev.self_of_nhds
  change closestOnPolyline (p 0) pts = .ok q0 at hq0
  change distSq (p 0) q0 = m ((p 0).x, (p 0).y, (p 0).z) at hdist
  have hv := polyline_val a pts
  rw [h.val, hq0] at hv
  cases hq : adClosestOnPolyline a pts with
  | error err => rw [hq] at hv; simp [Except.map] at hv
  | ok q =>
  rw [hq] at hv
  have hqv : q.val = q0 := Except.ok.inj hv
  have horth := polyline_orth hq
  refine ⟨q, _, rfl, rfl, ?_⟩
  obtain ⟨d, hmd⟩ : ∃ d, HasDerivAt (fun t => m ((p t).x, (p t).y, (p t).z)) d 0 :=
    ⟨_, ((hm.differentiableAt one_ne_zero).comp (0 : ℝ) hp.differentiableAt).hasDerivAt⟩
  have hs := (follow_distSq h (Follow.const q0)).tan
  have hmin : IsLocalMin (fun t => distSq (p t) q0 - m ((p t).x, (p t).y, (p t).z)) 0 := by
    filter_upwards [hev] with t ht
    rw [hdist, sub_self]
    have hon : OnPolyline pts q0 := by
      obtain ⟨⟨q1, ⟨i, x, y, hx, hy, _⟩, _⟩, _⟩ := hev.self_of_nhds
      have hl := (List.getElem?_eq_some_iff.1 hy).1
      obtain ⟨q', h1, h2, _⟩ := closestOnPolyline_least (p 0) (pts := pts) (by omega)
      rw [hq0] at h1
      obtain rfl := Except.ok.inj h1
      exact h2
    have := ht.2 q0 hon
    rw [distSq_eq]
    exact sub_nonneg.2 this
  have hzero := hmin.hasDerivAt_eq_zero (hs.sub hmd)
  have hval : distSq (p 0) q0 * w = (adDistSq a q).val * w := by
    simp only [adDistSq, Traced.dot, Traced.sub, h.val, hqv]
    rfl
  have heq : ∀ᶠ t in 𝓝 0, (match closestOnPolyline (p t) pts with
      | .error _ => 0
      | .ok q => distSq (p t) q * w) = m ((p t).x, (p t).y, (p t).z) * w := by
    filter_upwards [hev] with t ht
    obtain ⟨q', h1, h2⟩ := distance_eq ht
    change closestOnPolyline (p t) pts = .ok q' at h1
    rw [h1]
    simp only
    rw [← h2]
  refine FollowN.congr ⟨?_, ?_⟩ heq
  · simp only [Traced.mul, Traced.const]
    rw [← hval, hdist]
  · have := (hmd.mul (hasDerivAt_const (0 : ℝ) w))
    refine this.congr_deriv ?_
    have hd2 : d = (adDistSq a (.const q0)).tan := by linarith
    simp only [Traced.mul, Traced.const, mul_zero, add_zero]
    rw [hd2]
    congr 1
    simp only [adDistSq, Traced.dot, Traced.sub, Traced.const, hqv] at horth ⊢
    simp only [Vec.dot, Vec.sub_x, Vec.sub_y, Vec.sub_z, Vec.zero_x, Vec.zero_y, Vec.zero_z] at horth ⊢
    linear_combination (-2) * horth

/-! ## All constraints -/

theorem follow_penalty {D : Diagram ℝ} {F : ℝ → Diagram ℝ} {s : AState ℝ} (h : FormAlong D F s)
    {c : Constraint ℝ} (hp : Posed D c) (hc : Clear 1 (F 0) c) :
    ∃ v, c.adPenalty s = .ok (some v) ∧ FollowN v fun t => formPenalty (F t) c := by
  cases c with
  | point n x w =>
    obtain ⟨p, e, k⟩ := h.pos n hp
    obtain ⟨v, h1, h2⟩ := follow_vector k (Follow.const x) w
    exact ⟨v, by simp only [Constraint.adPenalty, dict_getE_ok e, h1], h2⟩
  | plane n x w =>
    obtain ⟨p, e, k⟩ := h.pos n hp
    obtain ⟨q, e', k'⟩ := follow_plane k (x := x.1) hc
    obtain ⟨v, h1, h2⟩ := follow_vector k k' w
    exact ⟨v, by simp only [Constraint.adPenalty, dict_getE_ok e, Option.bind_some, e', h1], h2⟩
  | line n x w =>
    obtain ⟨p, e, k⟩ := h.pos n hp
    obtain ⟨v, h1, h2⟩ := follow_vector k (follow_line k x.1 x.2) w
    exact ⟨v, by simp only [Constraint.adPenalty, dict_getE_ok e, Option.map_some, h1], h2⟩
  | polyline n x w =>
    obtain ⟨p, e, k⟩ := h.pos n hp
    obtain ⟨q, v, h1, h2, h3⟩ := follow_polyline k w hc
    exact ⟨v, by simp only [Constraint.adPenalty, dict_getE_ok e, h1, h2], h3⟩
  | trailForce e x w =>
    obtain ⟨p, e', k⟩ := h.force e hp
    obtain ⟨v, h1, h2⟩ := follow_float k x w
    exact ⟨v, by simp only [Constraint.adPenalty, dict_getE_ok e', h1], h2⟩
  | reaction n x w =>
    obtain ⟨p, e, k⟩ := h.reaction n hp
    obtain ⟨v, h1, h2⟩ := follow_vector k (Follow.const x) w
    exact ⟨v, by simp only [Constraint.adPenalty, dict_getE_ok e, h1], h2⟩
  | length e x w =>
    obtain ⟨p, e1, k1⟩ := h.pos _ hp.1
    obtain ⟨q, e2, k2⟩ := h.pos _ hp.2
    obtain ⟨l, e3, k3⟩ := (k1.sub k2).norm (sub_ne_zero.2 hc)
    obtain ⟨v, h1, h2⟩ := follow_float k3 x w
    refine ⟨v, ?_, h2⟩
    simp only [Constraint.adPenalty, adEdgeLengthRef, dict_getE_ok e1, dict_getE_ok e2, lift2, Option.bind_some,
      e3, h1]
  | direction e x w =>
    obtain ⟨p, e1, k1⟩ := h.pos _ hp.1
    obtain ⟨q, e2, k2⟩ := h.pos _ hp.2
    have hx : x ≠ 0 := by
      rintro rfl
      exact hc.2 (by simp [Vec.dot])
    have hne : posOf (F 0) e.2 - posOf (F 0) e.1 ≠ 0 := sub_ne_zero.2 (Ne.symm hc.1)
    have hv := k2.sub k1
    have hdd : Vec.dot (posOf (F 0) e.2 - posOf (F 0) e.1) (posOf (F 0) e.2 - posOf (F 0) e.1) ≠ 0 :=
      fun e => hne (Vec.dot_self_eq_zero.1 e)
    have hs0 : Real.sqrt (Vec.dot (posOf (F 0) e.2 - posOf (F 0) e.1) (posOf (F 0) e.2 - posOf (F 0) e.1)) ≠ 0 :=
      (Vec.length_pos hne).ne'
    have hu := Follow.scale ((FollowN.const 1).div ((hv.dot hv).sqrt hdd) hs0) hv
    have hu' := hu.congr (q := fun t => unit (posOf (F t) e.2 - posOf (F t) e.1)) (.of_forall fun t => by
      simp only [one_div]; rfl)
    have hu0 : Vec.dot (unit x) (unit (posOf (F 0) e.2 - posOf (F 0) e.1)) ≠ 0 := by
      unfold unit
      have e : ∀ (a b : ℝ) (v u : Vec ℝ), Vec.dot (a • v) (b • u) = a * b * Vec.dot v u := by
        intro a b v u
        simp only [Vec.dot, Vec.smul_x, Vec.smul_y, Vec.smul_z]; ring
      rw [e]
      exact mul_ne_zero (mul_ne_zero (inv_ne_zero (Vec.length_pos hx).ne')
        (inv_ne_zero (Vec.length_pos hne).ne')) hc.2
    have hd := (Follow.const (unit x)).dot hu'
    obtain ⟨v, h1, h2⟩ := follow_vector hu' (Follow.const (alignedTarget x
      (some (unit (posOf (F 0) e.2 - posOf (F 0) e.1))))) w
    refine ⟨v, ?_, h2.congr ?_⟩
    · have hz : ¬ PySqrt.sqrt (Vec.dot (q.sub p).val (q.sub p).val) = 0 := by
        rw [hv.val]; exact hs0
      simp only [Constraint.adPenalty, adEdgeDirection, dict_getE_ok e1, dict_getE_ok e2, lift2, Option.bind_some]
      rw [if_neg hz]
      simp only [Option.map_some, hu'.val, h1]
    · have hne' := hv.tan.eventually_ne hne
      have hsign : ∀ᶠ t in 𝓝 0, (Vec.dot (unit x) (unit (posOf (F t) e.2 - posOf (F t) e.1)) < 0 ↔
          Vec.dot (unit x) (unit (posOf (F 0) e.2 - posOf (F 0) e.1)) < 0) := by
        rcases lt_or_gt_of_ne hu0 with g | g
        · filter_upwards [hd.tan.continuousAt.eventually_lt continuousAt_const g] with t ht
          exact iff_of_true ht g
        · filter_upwards [continuousAt_const.eventually_lt hd.tan.continuousAt g] with t ht
          exact iff_of_false (not_lt.2 ht.le) (not_lt.2 g.le)
      filter_upwards [hne', hsign] with t ht hst
      simp only [formPenalty, alignedTarget, normalize_eq_unit]
      set r := unit (posOf (F t) e.2 - posOf (F t) e.1)
      set u := unit x
      have hr : Vec.dot r r = 1 := by rw [← Vec.length_sq, length_unit ht]; norm_num
      have hu : Vec.dot u u = 1 := by rw [← Vec.length_sq, length_unit hx]; norm_num
      have hcomm : Vec.dot r u = Vec.dot u r := by simp only [Vec.dot]; ring
      rw [hcomm]
      congr 1
      by_cases g : Vec.dot u (unit (posOf (F 0) e.2 - posOf (F 0) e.1)) < 0
      · rw [if_pos g, abs_of_neg (hst.2 g)]
        simp only [distSq, Vec.dot, Vec.sub_x, Vec.sub_y, Vec.sub_z, Vec.smul_x, Vec.smul_y, Vec.smul_z] at hr hu ⊢
        linear_combination -hr - hu
      · rw [if_neg g, abs_of_nonneg (not_lt.1 fun g' => g (hst.1 g'))]
        simp only [distSq, Vec.dot, Vec.sub_x, Vec.sub_y, Vec.sub_z] at hr hu ⊢
        linear_combination -hr - hu

theorem follow_penalties {D : Diagram ℝ} {F : ℝ → Diagram ℝ} {s : AState ℝ} (h : FormAlong D F s)
    (cs : List (Constraint ℝ)) (hc : ∀ c ∈ cs, Posed D c ∧ Clear 1 (F 0) c) {a : Traced ℝ} {f : ℝ → ℝ}
    (ha : FollowN a f) :
    ∃ v, adCalculatePenalty s cs (some a) = .ok (some v) ∧
      FollowN v fun t => f t + (cs.map (formPenalty (F t))).sum := by
  induction cs generalizing a f with
  | nil => exact ⟨a, rfl, ha.congr (.of_forall fun t => by simp)⟩
  | cons c cs ih =>
    obtain ⟨v, h1, h2⟩ := follow_penalty h (hc c (by simp)).1 (hc c (by simp)).2
    obtain ⟨u, h3, h4⟩ := ih (fun c h => hc c (by simp [h])) (ha.add h2)
    refine ⟨u, ?_, h4.congr (.of_forall fun t => ?_)⟩
    · simp only [adCalculatePenalty, h1, lift2]
      exact h3
    · simp only [List.map_cons, List.sum_cons, add_assoc]

end CEM
