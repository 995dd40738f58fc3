import Verif.Spec.Gradient
import Verif.Lemmas.Smooth
import Verif.Lemmas.Constraints
import Verif.Lemmas.Solve

/-!
# Penalties and parameters as smooth functions
-/

set_option linter.unusedSectionVars false
set_option linter.unusedSimpArgs false

namespace CEM
open Diagram Spec Filter Topology

/-- A state has the numbers of a form, without NaN. -/
structure StateOf (D F : Diagram ℝ) (s : NState ℝ) : Prop where
  pos : ∀ n ∈ D.nodes.keys, At s n (posOf F n)
  force : ∀ e, IsTrail D e.1 e.2 → s.trailForces.get? e = some (some (forceAt F e))
  reaction : ∀ n, typeOf D n = some .support → s.reactions.get? n = some (some (reactionAt F n))

/-- The penalty of a constraint in terms of a form. -/
noncomputable def formPenalty (F : Diagram ℝ) : Constraint ℝ → ℝ
  | .point n t w => distSq (posOf F n) t * w
  | .plane n t w => distSq (posOf F n) (posOf F n -
      ((Vec.dot (Vec.normalize t.2) (posOf F n) - Vec.dot (Vec.normalize t.2) t.1) /
        Vec.dot (Vec.normalize t.2) (Vec.normalize t.2)) • Vec.normalize t.2) * w
  | .line n t w => distSq (posOf F n) (closestOnLine (posOf F n) t.1 t.2) * w
  | .polyline n t w => match closestOnPolyline (posOf F n) t with
    | .error _ => 0
    | .ok q => distSq (posOf F n) q * w
  | .trailForce e t w => (forceAt F e - t) * (forceAt F e - t) * w
  | .reaction n t w => distSq (reactionAt F n) t * w
  | .length e t w => (Vec.dist (posOf F e.1) (posOf F e.2) - t) *
      (Vec.dist (posOf F e.1) (posOf F e.2) - t) * w
  | .direction e t w => (2 - 2 * |Vec.dot (unit (posOf F e.2 - posOf F e.1)) (unit t)|) * w

theorem penalty_form {k : WithTop ℕ∞} {D F : Diagram ℝ} {s : NState ℝ} (h : StateOf D F s)
    {c : Constraint ℝ} (hp : Posed D c) (hc : Clear k F c) : c.penalty s = .ok (some (formPenalty F c)) := by
  cases c with
  | point n t w =>
    simp only [Constraint.penalty, dict_getE_ok (h.pos n hp)]
    rfl
  | plane n t w =>
    simp only [Constraint.penalty, dict_getE_ok (h.pos n hp), closestOnPlane, Option.bind_some]
    have hu : Vec.normalize t.2 ≠ 0 := by
      rw [normalize_eq_unit]
      intro h0
      have := length_unit hc
      rw [h0, Vec.length_zero] at this
      norm_num at this
    rw [if_neg (fun h0 => hu (Vec.dot_self_eq_zero.1 h0))]
    rfl
  | line n t w =>
    simp only [Constraint.penalty, dict_getE_ok (h.pos n hp)]
    rfl
  | polyline n t w =>
    simp only [Constraint.penalty, dict_getE_ok (h.pos n hp), formPenalty]
    cases hq : closestOnPolyline (posOf F n) t with
    | ok q => rfl
    | error err =>
      exfalso
      obtain ⟨m, _, hm⟩ := hc
      obtain ⟨⟨q, ⟨i, a, b, ha, hb, _⟩, _⟩, _⟩ := hm.self_of_nhds
      have hl := (List.getElem?_eq_some_iff.1 hb).1
      obtain ⟨q', hq', _⟩ := closestOnPolyline_least (posOf F n) (pts := t) (by omega)
      rw [hq] at hq'
      cases hq'
  | trailForce e t w =>
    simp only [Constraint.penalty, dict_getE_ok (h.force e hp)]
    rfl
  | reaction n t w =>
    simp only [Constraint.penalty, dict_getE_ok (h.reaction n hp)]
    rfl
  | length e t w =>
    simp only [Constraint.penalty, edgeLengthRef, dict_getE_ok (h.pos _ hp.1), dict_getE_ok (h.pos _ hp.2)]
    rfl
  | direction e t w =>
    have ht : t ≠ 0 := by
      rintro rfl
      exact hc.2 (by simp [Vec.dot])
    exact direction_penalty w (h.pos _ hp.1) (h.pos _ hp.2) hc.1 ht

theorem penalties_form {k : WithTop ℕ∞} {D F : Diagram ℝ} {s : NState ℝ} (h : StateOf D F s)
    {cs : List (Constraint ℝ)} (hp : ∀ c ∈ cs, Posed D c ∧ Clear k F c) :
    calculatePenalty s cs (some 0) = .ok (some ((cs.map (formPenalty F)).sum)) := by
  rw [calculatePenalty_acc]
  refine ⟨cs.map (formPenalty F), ?_, by simp⟩
  rw [List.forall₂_map_right_iff]
  exact List.forall₂_same.2 fun c hc => penalty_form h (hp c hc).1 (hp c hc).2

section
variable {V : Type} [NormedAddCommGroup V] [NormedSpace ℝ V] {k : WithTop ℕ∞} {t0 : V}

theorem Spec.SmoothAt.distSq {f g : V → Vec ℝ} (hf : SmoothAt k f t0) (hg : SmoothAt k g t0) :
    ContDiffAt ℝ k (fun t => CEM.distSq (f t) (g t)) t0 := (hg.sub hf).dot (hg.sub hf)

/-- The absolute value of a smooth function is smooth where it is not zero. -/
theorem smooth_abs {f : V → ℝ} (hf : ContDiffAt ℝ k f t0) (h0 : f t0 ≠ 0) :
    ContDiffAt ℝ k (fun t => |f t|) t0 := by
  rcases lt_or_gt_of_ne h0 with h | h
  · refine hf.neg.congr_of_eventuallyEq ?_
    filter_upwards [hf.continuousAt.eventually_lt continuousAt_const h] with t ht
    exact abs_of_neg ht
  · refine hf.congr_of_eventuallyEq ?_
    filter_upwards [continuousAt_const.eventually_lt hf.continuousAt h] with t ht
    exact abs_of_pos ht

/-- Where the distance to a polyline is smooth, the closest point is at this distance. -/
theorem distance_eq {pts : List (Vec ℝ)} {p : Vec ℝ} {m : ℝ} (h : IsSqDistTo p (OnPolyline pts) m) :
    ∃ q, closestOnPolyline p pts = .ok q ∧ distSq p q = m := by
  obtain ⟨⟨q, ⟨i, a, b, ha, hb, hs⟩, hq⟩, hm⟩ := h
  have hl := (List.getElem?_eq_some_iff.1 hb).1
  obtain ⟨q', h1, h2, h3⟩ := closestOnPolyline_least p (pts := pts) (by omega)
  refine ⟨q', h1, ?_⟩
  rw [distSq_eq]
  exact le_antisymm (hq ▸ h3 q ⟨i, a, b, ha, hb, hs⟩) (hm q' h2)

/-- The numbers of forms from which penalties are computed depend smoothly on `t`. -/
structure SmoothNumbers (k : WithTop ℕ∞) (D : Diagram ℝ) (F : V → Diagram ℝ) (t0 : V) : Prop where
  positions : ∀ n ∈ D.nodes.keys, SmoothAt k (fun t => posOf (F t) n) t0
  reactions : ∀ n ∈ D.nodes.keys, SmoothAt k (fun t => reactionAt (F t) n) t0
  forces : ∀ e ∈ D.edges.keys, ContDiffAt ℝ k (fun t => forceAt (F t) e) t0

theorem Spec.SmoothForm.numbers {D : Diagram ℝ} {F : V → Diagram ℝ} (S : SmoothForm k D F t0) :
    SmoothNumbers k D F t0 := ⟨S.positions, S.reactions, S.forces⟩

/-- Penalties depend smoothly on what they are computed from. -/
theorem smooth_penalty {D : Diagram ℝ} {F : V → Diagram ℝ} (S : SmoothNumbers k D F t0) {c : Constraint ℝ}
    (hp : Posed D c) (hs : ∀ n, typeOf D n = some .support → n ∈ D.nodes.keys) (hc : Clear k (F t0) c) :
    ContDiffAt ℝ k (fun t => formPenalty (F t) c) t0 ∧ ∀ᶠ t in 𝓝 t0, Clear 0 (F t) c := by
  cases c with
  | point n t w =>
    exact ⟨((S.positions n hp).distSq (SmoothAt.const t)).mul contDiffAt_const, .of_forall fun _ => trivial⟩
  | plane n t w =>
    have h := S.positions n hp
    refine ⟨ContDiffAt.mul (h.distSq (h.sub (SmoothAt.smul ?_ (SmoothAt.const _)))) contDiffAt_const,
      .of_forall fun _ => hc⟩
    exact (((SmoothAt.const _).dot h).sub contDiffAt_const).div_const _
  | line n t w =>
    have h := S.positions n hp
    refine ⟨ContDiffAt.mul (h.distSq ((SmoothAt.const t.1).add ?_)) contDiffAt_const,
      .of_forall fun _ => trivial⟩
    unfold vectorComponent
    split_ifs
    · exact SmoothAt.const 0
    · exact SmoothAt.smul (((h.sub (SmoothAt.const _)).dot (SmoothAt.const _)).div_const _) (SmoothAt.const _)
  | polyline n t w =>
    have h := S.positions n hp
    obtain ⟨m, hm, hd⟩ := hc
    have hq : ContDiffAt ℝ k (fun t => ((posOf (F t) n).x, (posOf (F t) n).y, (posOf (F t) n).z)) t0 :=
      h.x.prodMk (h.y.prodMk h.z)
    refine ⟨((hm.comp t0 hq).mul contDiffAt_const).congr_of_eventuallyEq (f₁ := fun t' =>
      formPenalty (F t') (.polyline n t w)) (f := fun t' => m ((posOf (F t') n).x, (posOf (F t') n).y,
        (posOf (F t') n).z) * w) ?_, ?_⟩
    · filter_upwards [hq.continuousAt.eventually hd] with t' ht
      obtain ⟨q, h1, h2⟩ := distance_eq ht
      simp only [formPenalty]
      rw [h1]
      simp only
      rw [← h2]
    · have h0 : ContDiffAt ℝ 0 m ((posOf (F t0) n).x, (posOf (F t0) n).y, (posOf (F t0) n).z) :=
        hm.of_le (by simp)
      filter_upwards [hq.continuousAt.eventually (h0.eventually (by simp)),
        hq.continuousAt.eventually hd.eventually_nhds] with t' h1 h2
      exact ⟨m, h1, h2⟩
  | trailForce e t w =>
    obtain ⟨d, hd, _⟩ := hp
    have h := (S.forces e (Dict.mem_keys_of_get? hd)).sub (contDiffAt_const (c := t))
    exact ⟨(h.mul h).mul contDiffAt_const, .of_forall fun _ => trivial⟩
  | reaction n t w =>
    exact ⟨((S.reactions n (hs n hp)).distSq (SmoothAt.const t)).mul contDiffAt_const,
      .of_forall fun _ => trivial⟩
  | length e t w =>
    have h1 := S.positions e.1 hp.1
    have h2 := S.positions e.2 hp.2
    have h := ((h1.sub h2).length (sub_ne_zero.2 hc)).sub (contDiffAt_const (c := t))
    refine ⟨?_, ?_⟩
    · exact (h.mul h).mul contDiffAt_const
    · filter_upwards [(h2.sub h1).eventually_ne (sub_ne_zero.2 (Ne.symm hc))] with t' h'
      exact (sub_ne_zero.1 h').symm
  | direction e t w =>
    have h1 := S.positions e.1 hp.1
    have h2 := S.positions e.2 hp.2
    have hv := h2.sub h1
    have hne : posOf (F t0) e.2 - posOf (F t0) e.1 ≠ 0 := sub_ne_zero.2 (Ne.symm hc.1)
    have hdot := (SmoothAt.const (k := k) (t0 := t0) t).dot hv
    have hu := (hv.unit hne).dot (SmoothAt.const (unit t))
    refine ⟨?_, ?_⟩
    · have ht : t ≠ 0 := by
        rintro rfl
        exact hc.2 (by simp [Vec.dot])
      have hu0 : Vec.dot (unit (posOf (F t0) e.2 - posOf (F t0) e.1)) (unit t) ≠ 0 := by
        unfold unit
        have e : ∀ (a b : ℝ) (v u : Vec ℝ), Vec.dot (a • v) (b • u) = a * b * Vec.dot u v := by
          intro a b v u
          simp only [Vec.dot, Vec.smul_x, Vec.smul_y, Vec.smul_z]; ring
        rw [e]
        exact mul_ne_zero (mul_ne_zero (inv_ne_zero (Vec.length_pos hne).ne')
          (inv_ne_zero (Vec.length_pos ht).ne')) hc.2
      exact (contDiffAt_const.sub (contDiffAt_const.mul (smooth_abs hu hu0))).mul
        contDiffAt_const
    · filter_upwards [hv.eventually_ne hne, hdot.continuousAt.eventually_ne hc.2] with t' h1 h2
      exact ⟨(sub_ne_zero.1 h1).symm, h2⟩

end

end CEM
