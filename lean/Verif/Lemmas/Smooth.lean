import Verif.Spec.Smooth
import Verif.Lemmas.Small
import Verif.Lemmas.Idle
import Mathlib.Analysis.SpecialFunctions.Sqrt
import Mathlib.Analysis.Calculus.ContDiff.Operations

/-!
# Vectors and lengths that depend smoothly on parameters
-/

set_option linter.unusedSectionVars false
set_option linter.unusedSimpArgs false

namespace CEM
open Diagram Spec Filter Topology

variable {V : Type} [NormedAddCommGroup V] [NormedSpace ℝ V] {k : WithTop ℕ∞} {t0 : V}

namespace Spec.SmoothAt
variable {f g : V → Vec ℝ} {c : V → ℝ}

theorem const (v : Vec ℝ) : SmoothAt k (fun _ : V => v) t0 :=
  ⟨contDiffAt_const, contDiffAt_const, contDiffAt_const⟩

theorem add (hf : SmoothAt k f t0) (hg : SmoothAt k g t0) : SmoothAt k (fun t => f t + g t) t0 :=
  ⟨hf.x.add hg.x, hf.y.add hg.y, hf.z.add hg.z⟩

theorem sub (hf : SmoothAt k f t0) (hg : SmoothAt k g t0) : SmoothAt k (fun t => f t - g t) t0 :=
  ⟨hf.x.sub hg.x, hf.y.sub hg.y, hf.z.sub hg.z⟩

theorem smul (hc : ContDiffAt ℝ k c t0) (hg : SmoothAt k g t0) : SmoothAt k (fun t => c t • g t) t0 :=
  ⟨hc.mul hg.x, hc.mul hg.y, hc.mul hg.z⟩

theorem dot (hf : SmoothAt k f t0) (hg : SmoothAt k g t0) :
    ContDiffAt ℝ k (fun t => Vec.dot (f t) (g t)) t0 :=
  ((hf.x.mul hg.x).add (hf.y.mul hg.y)).add (hf.z.mul hg.z)

theorem length (hf : SmoothAt k f t0) (h0 : f t0 ≠ 0) : ContDiffAt ℝ k (fun t => Vec.length (f t)) t0 := by
  have h := hf.dot hf
  have hne : Vec.dot (f t0) (f t0) ≠ 0 := by
    rw [← Vec.length_sq]
    exact mul_ne_zero (Vec.length_pos h0).ne' (Vec.length_pos h0).ne'
  exact h.sqrt hne

theorem unit (hf : SmoothAt k f t0) (h0 : f t0 ≠ 0) : SmoothAt k (fun t => Spec.unit (f t)) t0 :=
  smul ((hf.length h0).inv (Vec.length_pos h0).ne') hf

theorem congr (hf : SmoothAt k f t0) (h : ∀ᶠ t in 𝓝 t0, g t = f t) : SmoothAt k g t0 :=
  ⟨hf.x.congr_of_eventuallyEq (h.mono fun t e => by simp only [e]),
    hf.y.congr_of_eventuallyEq (h.mono fun t e => by simp only [e]),
    hf.z.congr_of_eventuallyEq (h.mono fun t e => by simp only [e])⟩

theorem list_sum {α : Type} (l : List α) {f : α → V → Vec ℝ} (h : ∀ a ∈ l, SmoothAt k (f a) t0) :
    SmoothAt k (fun t => (l.map fun a => f a t).sum) t0 := by
  induction l with
  | nil => simpa using const 0
  | cons a l ih =>
    simp only [List.map_cons, List.sum_cons]
    exact (h a (by simp)).add (ih fun b hb => h b (by simp [hb]))

/-- A vector that is not zero stays so nearby. -/
theorem eventually_ne (hf : SmoothAt k f t0) (h0 : f t0 ≠ 0) : ∀ᶠ t in 𝓝 t0, f t ≠ 0 := by
  have h := (hf.dot hf).continuousAt
  have hne : Vec.dot (f t0) (f t0) ≠ 0 := by
    rw [← Vec.length_sq]
    exact mul_ne_zero (Vec.length_pos h0).ne' (Vec.length_pos h0).ne'
  refine (h.eventually_ne hne).mono fun t ht h => ht ?_
  rw [h]; simp [Vec.dot]

end Spec.SmoothAt

/-! ## Data of problems that differ in numbers -/

section
variable {D E : Diagram ℝ} (h : SameExcept (fun _ => True) D E)
include h

theorem edgeData_shape (n m : Int) :
    (edgeData E n m).type = (edgeData D n m).type ∧ (edgeData E n m).plane = (edgeData D n m).plane := by
  unfold edgeData
  rw [edgeKey_same h]
  by_cases hm : edgeKey D n m ∈ D.edges.keys
  · obtain ⟨d, hd⟩ := (Dict.exists_get?_iff _ _).2 hm
    obtain ⟨d1, h1⟩ := (Dict.exists_get?_iff E.edges _).2 (by rw [h.edgeKeys]; exact hm)
    obtain ⟨e1, e2, _⟩ := h.edge _ d d1 hd h1
    simp only [hd, h1, Option.getD_some]
    exact ⟨e1, e2⟩
  · rw [(Dict.get?_eq_none_iff _ _).2 hm,
      (Dict.get?_eq_none_iff _ _).2 (by rw [h.edgeKeys]; exact hm)]
    simp

theorem edgeData_numbers {n m : Int} (hm : m ∈ D.neighbors n) :
    (edgeData E n m).length = lengthAt E (edgeKey D n m) ∧
    (edgeData E n m).force = forceAt E (edgeKey D n m) := by
  rw [← neighbors_same h] at hm
  have := edgeKey_mem hm
  rw [edgeKey_same h] at this
  unfold lengthAt forceAt
  rw [this]
  exact ⟨rfl, rfl⟩

theorem dirNbrs_shape (n : Int) : dirNbrs E n = dirNbrs D n := by
  unfold dirNbrs
  simp only [neighbors_same h, seqOf_same h, (edgeData_shape h n _).1]

theorem indNbrs_shape (n : Int) : indNbrs E n = indNbrs D n := by
  unfold indNbrs
  simp only [neighbors_same h, seqOf_same h, (edgeData_shape h n _).1]

theorem trailNext_shape (n : Int) : trailNext E n = trailNext D n := by
  unfold trailNext
  rw [h.rest.2.2.1]

end

/-! ## Lengths of trail edges -/

/-- The length of a trail edge depends smoothly on its position and its force vector, if the plane is
clearly used or clearly not used. -/
theorem smooth_length {d : V → EdgeData ℝ} {P r : V → Vec ℝ}
    (hpl : ∀ t, (d t).plane = (d t0).plane) (hl : ContDiffAt ℝ k (fun t => (d t).length) t0)
    (hP : SmoothAt k P t0) (hr : SmoothAt k r t0) (hr0 : r t0 ≠ 0)
    (hc : ∀ o N, (d t0).plane = some (o, N) → |Vec.dot N (Spec.unit (r t0))| < 1 / 1000000 ∨
      (1 / 1000000 < |Vec.dot N (Spec.unit (r t0))| ∧ Vec.dot N (o - P t0) ≠ 0)) :
    ContDiffAt ℝ k (fun t => effectiveLength (d t) (P t) (r t)) t0 := by
  cases hp : (d t0).plane with
  | none =>
    have : (fun t => effectiveLength (d t) (P t) (r t)) = fun t => (d t).length := by
      funext t; unfold effectiveLength; rw [hpl t, hp]
    rw [this]
    exact hl
  | some q =>
    obtain ⟨o, N⟩ := q
    have hu := hr.unit hr0
    have hc1 := (SmoothAt.const (k := k) (t0 := t0) N).dot hu
    have hx1 := (SmoothAt.const (k := k) (t0 := t0) N).dot ((SmoothAt.const o).sub hP)
    have hl' : ∀ t, effectiveLength (d t) (P t) (r t) =
        if |Vec.dot N (Spec.unit (r t))| < 1 / 1000000 then (d t).length else
        if Vec.dot N (o - P t) / Vec.dot N (Spec.unit (r t)) = 0 then (d t).length
        else Vec.dot N (o - P t) / Vec.dot N (Spec.unit (r t)) := by
      intro t
      unfold effectiveLength planeLength planeTol
      rw [hpl t, hp]
      simp only [normalize_eq_unit]
      by_cases h : |Vec.dot N (Spec.unit (r t))| < 1 / 1000000
      · rw [if_pos h, if_pos h]
      · rw [if_neg h, if_neg h]
    have habs := hc1.continuousAt.abs
    rcases hc o N hp with h | ⟨h, h'⟩
    · refine hl.congr_of_eventuallyEq ((habs.eventually_lt continuousAt_const h).mono fun t ht => ?_)
      simp only at ht ⊢
      rw [hl' t, if_pos ht]
    · have hc0 : Vec.dot N (Spec.unit (r t0)) ≠ 0 := by
        intro h0; rw [h0, abs_zero] at h; norm_num at h
      refine (hx1.div hc1 hc0).congr_of_eventuallyEq ?_
      filter_upwards [continuousAt_const.eventually_lt habs h, hx1.continuousAt.eventually_ne h',
        hc1.continuousAt.eventually_ne hc0] with t h1 h2 h3
      rw [hl' t, if_neg (not_lt.2 h1.le), if_neg (div_ne_zero h2 h3)]
      rfl

/-- A number with the sign of one that is not zero. -/
theorem smooth_copysign {a b : V → ℝ} (ha : ContDiffAt ℝ k a t0) (hb : ContDiffAt ℝ k b t0)
    (hpos : 0 < a t0) (hb0 : b t0 ≠ 0) : ContDiffAt ℝ k (fun t => copysign (a t) (b t)) t0 := by
  have hp := continuousAt_const.eventually_lt ha.continuousAt hpos
  rcases lt_or_gt_of_ne hb0 with h | h
  · refine ha.neg.congr_of_eventuallyEq ?_
    filter_upwards [hp, hb.continuousAt.eventually_lt continuousAt_const h] with t h1 h2
    unfold copysign
    rw [if_pos h2, abs_of_pos h1]
  · refine ha.congr_of_eventuallyEq ?_
    filter_upwards [hp, continuousAt_const.eventually_lt hb.continuousAt h] with t h1 h2
    unfold copysign
    rw [if_neg (not_lt.2 h2.le), abs_of_pos h1]

end CEM
