import Verif.Model.GradientNorm
import Verif.Spec.Slope
import Verif.Props.CoordinatesAutodiff

/-!
# Property C86: the norm of the gradient

The number `gradient_norm` that `solve` reports is the steepest slope of the objective at the optimum that it reports.
-/

set_option linter.unusedSectionVars false
set_option linter.unusedSimpArgs false

namespace CEM
namespace Props
open Diagram Spec Filter Topology

theorem npSquares_none {R : Type} [Field R] (g : List (Num R)) : npSquares g = none ↔ none ∈ g := by
  induction g with
  | nil => simp [npSquares]
  | cons a l ih =>
    cases a with
    | none => simp [npSquares, lift2]
    | some x =>
      cases hl : npSquares l with
      | none => simp [npSquares, lift2, hl, ih.1 hl]
      | some s =>
        have : none ∉ l := fun h => by rw [ih.2 h] at hl; cases hl
        simp [npSquares, lift2, hl, this]

theorem npSquares_ofFn {R : Type} [Field R] {n : Nat} (g : Fin n → R) :
    npSquares (List.ofFn fun i => some (g i)) = some (∑ i, g i * g i) := by
  induction n with
  | zero => simp [npSquares]
  | succ n ih =>
    rw [List.ofFn_succ, Fin.sum_univ_succ]
    simp only [npSquares, ih fun i => g i.succ, lift2]

theorem npNorm_ofFn {n : Nat} (g : Fin n → ℝ) : npNorm (List.ofFn fun i => some (g i)) = some (euclid g) := by
  rw [npNorm, npSquares_ofFn]; rfl

theorem euclid_nonneg {n : Nat} (v : Fin n → ℝ) : 0 ≤ euclid v := Real.sqrt_nonneg _

theorem euclid_sq {n : Nat} (v : Fin n → ℝ) : euclid v * euclid v = ∑ i, v i * v i :=
  Real.mul_self_sqrt (Finset.sum_nonneg fun _ _ => mul_self_nonneg _)

theorem euclid_zero {n : Nat} {v : Fin n → ℝ} : euclid v = 0 ↔ v = 0 := by
  constructor
  · intro h
    have := euclid_sq v
    rw [h, mul_zero, eq_comm, Finset.sum_eq_zero_iff_of_nonneg fun i _ => mul_self_nonneg _] at this
    funext i
    simpa using this i (Finset.mem_univ i)
  · rintro rfl
    simp [euclid]

theorem euclid_smul {n : Nat} (c : ℝ) (v : Fin n → ℝ) : euclid (c • v) = |c| * euclid v := by
  unfold euclid
  have : ∑ i, (c • v) i * (c • v) i = c ^ 2 * ∑ i, v i * v i := by
    rw [Finset.mul_sum]
    exact Finset.sum_congr rfl fun i _ => by simp; ring
  rw [this, Real.sqrt_mul (sq_nonneg c), Real.sqrt_sq_eq_abs]

theorem euclid_inner {n : Nat} (u v : Fin n → ℝ) : |∑ i, u i * v i| ≤ euclid u * euclid v := by
  have h := Finset.sum_mul_sq_le_sq_mul_sq Finset.univ u v
  apply abs_le_of_sq_le_sq _ (mul_nonneg (euclid_nonneg u) (euclid_nonneg v))
  rw [mul_pow, sq (euclid u), sq (euclid v), euclid_sq, euclid_sq]
  simpa [sq] using h

theorem euclid_near {n : Nat} {u v : Fin n → ℝ} {ε : ℝ} (h : ∀ i, |u i - v i| ≤ ε) :
    |euclid u - euclid v| ≤ n * ε := by
  have tri : ∀ a b : Fin n → ℝ, euclid a ≤ euclid b + ∑ i, |a i - b i| := by
    intro a b
    have hs : 0 ≤ ∑ i, |a i - b i| := Finset.sum_nonneg fun i _ => abs_nonneg _
    apply Real.sqrt_le_iff.2 ⟨add_nonneg (euclid_nonneg b) hs, ?_⟩
    have e1 : ∑ i, a i * a i = ∑ i, b i * b i + 2 * ∑ i, b i * (a i - b i) + ∑ i, (a i - b i) * (a i - b i) := by
      rw [Finset.mul_sum, ← Finset.sum_add_distrib, ← Finset.sum_add_distrib]
      exact Finset.sum_congr rfl fun i _ => by ring
    have e2 : euclid (fun i => a i - b i) ≤ ∑ i, |a i - b i| := by
      apply Real.sqrt_le_iff.2 ⟨hs, ?_⟩
      calc ∑ i, (a i - b i) * (a i - b i) = ∑ i, |a i - b i| * |a i - b i| :=
            Finset.sum_congr rfl fun i _ => (abs_mul_abs_self _).symm
        _ ≤ ∑ i, |a i - b i| * ∑ j, |a j - b j| := Finset.sum_le_sum fun i _ =>
            mul_le_mul_of_nonneg_left (Finset.single_le_sum (f := fun j => |a j - b j|) (fun j _ => abs_nonneg _)
              (Finset.mem_univ i)) (abs_nonneg _)
        _ = (∑ i, |a i - b i|) ^ 2 := by rw [← Finset.sum_mul, sq]
    have e3 := (le_abs_self _).trans (euclid_inner b fun i => a i - b i)
    have e4 := euclid_sq fun i => a i - b i
    have e5 := euclid_sq b
    have e6 := euclid_nonneg b
    have e7 := euclid_nonneg fun i => a i - b i
    nlinarith [mul_le_mul_of_nonneg_left e2 e6, mul_le_mul e2 e2 e7 hs]
  have sum : ∀ a b : Fin n → ℝ, (∀ i, |a i - b i| ≤ ε) → ∑ i, |a i - b i| ≤ n * ε := fun a b hab =>
    (Finset.sum_le_sum fun i _ => hab i).trans (by simp)
  rw [abs_le]
  have h1 := tri u v
  have h2 := tri v u
  have h3 := sum u v h
  have h4 := sum v u fun i => by rw [abs_sub_comm]; exact h i
  constructor <;> linarith

/-! ## Slopes -/

theorem slope_sum {n : Nat} {f : (Fin n → ℝ) → ℝ} {x : Fin n → ℝ} (hf : DifferentiableAt ℝ f x) (v : Fin n → ℝ) :
    Slope f x v (∑ i, partialAt f x i * v i) := by
  have hl : HasDerivAt (fun t : ℝ => x + t • v) v 0 := by
    simpa using ((hasDerivAt_id (0 : ℝ)).smul_const v).const_add x
  have hf' : HasFDerivAt f (fderiv ℝ f x) (x + (0 : ℝ) • v) := by simpa using hf.hasFDerivAt
  have h := hf'.comp_hasDerivAt (0 : ℝ) hl
  have e : fderiv ℝ f x v = ∑ i, partialAt f x i * v i := by
    conv_lhs => rw [← Finset.univ_sum_single v]
    rw [map_sum]
    refine Finset.sum_congr rfl fun i _ => ?_
    unfold partialAt
    rw [show Pi.single i (v i) = v i • (Pi.single i (1 : ℝ) : Fin n → ℝ) by
      rw [← Pi.single_smul]; simp, map_smul, smul_eq_mul, mul_comm]
  rw [e] at h
  exact h

theorem steepest_partials {n : Nat} (hn : 0 < n) {f : (Fin n → ℝ) → ℝ} {x : Fin n → ℝ} (hf : DifferentiableAt ℝ f x) :
    Steepest f x (euclid (partialAt f x)) where
  bound v := ⟨_, slope_sum hf v, euclid_inner _ _⟩
  attained := by
    by_cases h0 : euclid (partialAt f x) = 0
    · refine ⟨Pi.single ⟨0, hn⟩ 1, ?_, ?_⟩
      · unfold euclid
        rw [Finset.sum_eq_single (⟨0, hn⟩ : Fin n)]
        · simp
        · intro b _ hb
          simp [hb]
        · simp
      · have := slope_sum hf (Pi.single ⟨0, hn⟩ 1)
        rw [h0]
        rwa [euclid_zero.1 h0, show ∑ i, (0 : Fin n → ℝ) i * (Pi.single ⟨0, hn⟩ 1 : Fin n → ℝ) i = 0 by simp] at this
    · refine ⟨(euclid (partialAt f x))⁻¹ • partialAt f x, ?_, ?_⟩
      · rw [euclid_smul, abs_of_nonneg (inv_nonneg.2 (euclid_nonneg _)), inv_mul_cancel₀ h0]
      · have := slope_sum hf ((euclid (partialAt f x))⁻¹ • partialAt f x)
        have e : ∑ i, partialAt f x i * ((euclid (partialAt f x))⁻¹ • partialAt f x) i = euclid (partialAt f x) := by
          calc _ = (euclid (partialAt f x))⁻¹ * ∑ i, partialAt f x i * partialAt f x i := by
                rw [Finset.mul_sum]
                exact Finset.sum_congr rfl fun i _ => by simp; ring
            _ = _ := by rw [← euclid_sq, inv_mul_cancel_left₀ h0]
        rwa [e] at this

/-- There is one steepest slope. -/
theorem Steepest.unique {n : Nat} {f : (Fin n → ℝ) → ℝ} {x : Fin n → ℝ} {N M : ℝ} (h : Steepest f x N)
    (k : Steepest f x M) : N = M := by
  have le : ∀ {N M : ℝ}, Steepest f x N → Steepest f x M → N ≤ M := by
    intro N M h k
    obtain ⟨v, hv, hs⟩ := h.attained
    obtain ⟨d, hd, hb⟩ := k.bound v
    rw [hv, mul_one] at hb
    rw [HasDerivAt.unique hs hd]
    exact (le_abs_self d).trans hb
  exact le_antisymm (le h k) (le k h)

theorem slope_neg {n : Nat} {f : (Fin n → ℝ) → ℝ} {x v : Fin n → ℝ} {d : ℝ} (h : Slope f x v d) :
    Slope f x (-v) (-d) := by
  unfold Slope at h ⊢
  have hn : HasDerivAt (fun t : ℝ => -t) (-1) 0 := hasDerivAt_neg 0
  have h' : HasDerivAt (fun t : ℝ => f (x + t • v)) d (-(0 : ℝ)) := by simpa using h
  have := h'.comp (0 : ℝ) hn
  simpa [Function.comp_def] using this

/-- Against a slope `f` falls. -/
theorem slope_falls {n : Nat} {f : (Fin n → ℝ) → ℝ} {x v : Fin n → ℝ} {d : ℝ} (h : Slope f x v d) (hd : d < 0) :
    ∃ δ > 0, ∀ t : ℝ, 0 < t → t < δ → f (x + t • v) < f x + t * (d / 2) := by
  have h1 := (hasDerivAt_iff_tendsto_slope.1 h).eventually_lt_const (show d < d / 2 by linarith)
  rw [eventually_nhdsWithin_iff, Metric.eventually_nhds_iff] at h1
  obtain ⟨δ, hδ, H⟩ := h1
  refine ⟨δ, hδ, fun t t0 t1 => ?_⟩
  have := H (y := t) (by simpa [Real.dist_eq, abs_of_pos t0] using t1) (by simpa using t0.ne')
  simp only [slope_def_field, sub_zero, zero_smul, add_zero] at this
  rw [div_lt_iff₀ t0] at this
  linarith

/-! ## The reported norm -/

section
variable {R : Type} [Field R] [LinearOrder R] [IsStrictOrderedRing R] [PySqrt R]

/-- **C86, NaN.**  With automatic differentiation: if the objective is NaN at the optimum that `solve` reports, so is
the reported norm.  It is NaN only if an entry of the reported gradient is. -/
theorem C86_nan {o : Optimizer R} {h : List (RegOp (Param R))} (hh : HasHistory o h) {D : Diagram R} (w : WF D)
    (old : Attrs R) (nlopt : Problem R → Run R) (tol : R) {a : SolveArgs R} (ha : a.grad = "AD") {F : Diagram R}
    (hF : (o.solve old nlopt (o.autograd a.tmax a.eta) tol a D).form = .ok F)
    (he : ∀ err, (o.solve old nlopt (o.autograd a.tmax a.eta) tol a D).ended ≠ some (.raised err)) :
    ∃ x dv, (o.solve old nlopt (o.autograd a.tmax a.eta) tol a D).attrs.xOpt = some x ∧
      (o.solve old nlopt (o.autograd a.tmax a.eta) tol a D).attrs.gradient = some dv ∧
      ((o.optimizeForm a.tmax a.eta D x).2 = .ok none →
        (o.solve old nlopt (o.autograd a.tmax a.eta) tol a D).attrs.gradientNorm = some none) ∧
      ((o.solve old nlopt (o.autograd a.tmax a.eta) tol a D).attrs.gradientNorm = some none ↔ none ∈ dv) := by
  obtain ⟨x, dv, e1, e2, e3⟩ := C82_reported hh w old nlopt tol a hF he
  have hnan : (o.solve old nlopt (o.autograd a.tmax a.eta) tol a D).attrs.gradientNorm = some none ↔ none ∈ dv := by
    unfold Attrs.gradientNorm npNorm
    rw [e2]
    simp [npSquares_none]
  refine ⟨x, dv, e1, e2, fun hx => ?_, hnan⟩
  rw [hnan]
  obtain ⟨-, -, hr⟩ := C80_raises o a.tmax a.eta D x
  obtain ⟨g, hg, hl, hn⟩ := hr none hx
  have hgf : o.gradFunc (o.autograd a.tmax a.eta) a D x = ((o.autograd a.tmax a.eta D x).1, .ok g) :=
    (C43_automatic_gradient o _ ha (show o.autograd a.tmax a.eta D x = (_, .ok g) from Prod.ext rfl hg)).1 hl
  rw [hgf] at e3
  obtain rfl := Except.ok.inj e3
  have hne : g ≠ [] := by
    rintro rfl
    obtain rfl : x = [] := List.length_eq_zero_iff.1 (by simpa using hl.symm)
    have hp : o.parameters ≠ [] := by
      intro h0
      unfold Optimizer.solve at hF
      rw [show o.checkSanity = .error .valueError by simp [Optimizer.checkSanity, h0]] at hF
      cases hF
    obtain ⟨q, l, hq⟩ := List.exists_cons_of_ne_nil hp
    unfold Optimizer.optimizeForm Optimizer.updateParameters at hx
    have hg : ∃ err, npGet ([] : List R) q.1 = .error err := by
      unfold npGet
      split
      · exact ⟨_, rfl⟩
      · exact ⟨_, rfl⟩
    obtain ⟨err, hg⟩ := hg
    rw [hq] at hx
    simp only [Optimizer.writeParameters, hg] at hx
    cases hx
  obtain ⟨b, l, rfl⟩ := List.exists_cons_of_ne_nil hne
  rw [hn rfl b (by simp)]
  simp

end

section
variable {n : Nat} {k : WithTop ℕ∞} {o : Optimizer ℝ} {h : List (RegOp (Param ℝ))} {D E : Diagram ℝ}
  {F : Nat → Diagram ℝ} {x0 : Fin n → ℝ} {m : Nat}

/-- **C86.**  The norm of the gradient that `solve` reports with automatic differentiation is the steepest slope of
the objective at the optimum that it reports. -/
theorem C86_steepest {a : SolveArgs ℝ} (P : ComputedPoint k o h D E F x0 a.tmax a.eta m) (hk : 1 ≤ k) (hn : 0 < n)
    (ha : a.grad = "AD") :
    ∃ (f : (Fin n → ℝ) → ℝ) (N : ℝ), ContDiffAt ℝ k f x0 ∧
      (∀ᶠ x in 𝓝 x0, (o.optimizeForm a.tmax a.eta D (List.ofFn x)).2 = .ok (some (f x))) ∧ Steepest f x0 N ∧
      ∀ old nlopt tol G, (o.solve old nlopt (o.autograd a.tmax a.eta) tol a D).form = .ok G →
        (∀ err, (o.solve old nlopt (o.autograd a.tmax a.eta) tol a D).ended ≠ some (.raised err)) →
        (o.solve old nlopt (o.autograd a.tmax a.eta) tol a D).attrs.xOpt = some (List.ofFn x0) →
        (o.solve old nlopt (o.autograd a.tmax a.eta) tol a D).attrs.gradientNorm = some (some N) := by
  obtain ⟨f, h1, h2, h3⟩ := C82_derivative P hk ha
  have hd : DifferentiableAt ℝ f x0 := h1.differentiableAt (by
    rintro rfl
    simp at hk)
  refine ⟨f, euclid (partialAt f x0), h1, h2, steepest_partials hn hd, fun old nlopt tol G hG he hx => ?_⟩
  unfold Attrs.gradientNorm
  rw [h3 old nlopt tol G hG he hx, Option.map_some, npNorm_ofFn]

/-- **C86, optimality.**  Let `solve` with automatic differentiation report a positive norm, at an optimum where no
sweep is at a kink and form finding clearly stops.  Then there is a direction in which the objective falls at half
the rate of the norm at least.  So if the reported optimum lies strictly within bounds between which no
point near it has a smaller objective, the reported norm is zero. -/
theorem C86_optimal {a : SolveArgs ℝ} (P : ComputedPoint k o h D E F x0 a.tmax a.eta m) (hk : 1 ≤ k) (hn : 0 < n)
    (ha : a.grad = "AD") (old : Attrs ℝ) (nlopt : Problem ℝ → Run ℝ) (tol : ℝ) {G : Diagram ℝ}
    (hG : (o.solve old nlopt (o.autograd a.tmax a.eta) tol a D).form = .ok G)
    (he : ∀ err, (o.solve old nlopt (o.autograd a.tmax a.eta) tol a D).ended ≠ some (.raised err))
    (hx : (o.solve old nlopt (o.autograd a.tmax a.eta) tol a D).attrs.xOpt = some (List.ofFn x0)) :
    ∃ N J : ℝ, (o.solve old nlopt (o.autograd a.tmax a.eta) tol a D).attrs.gradientNorm = some (some N) ∧
      (o.optimizeForm a.tmax a.eta D (List.ofFn x0)).2 = .ok (some J) ∧ 0 ≤ N ∧
      (0 < N → ∃ v, euclid v = 1 ∧ ∃ δ > 0, ∀ t : ℝ, 0 < t → t < δ → ∃ J',
        (o.optimizeForm a.tmax a.eta D (List.ofFn (x0 + t • v))).2 = .ok (some J') ∧ J' < J - t * (N / 2)) ∧
      ∀ l u : Fin n → ℝ, (∀ i, l i < x0 i ∧ x0 i < u i) →
        (∀ᶠ x in 𝓝 x0, (∀ i, l i ≤ x i ∧ x i ≤ u i) →
          ∀ J', (o.optimizeForm a.tmax a.eta D (List.ofFn x)).2 = .ok (some J') → J ≤ J') → N = 0 := by
  obtain ⟨f, N, h1, h2, hs, h3⟩ := C86_steepest P hk hn ha
  have hN : 0 ≤ N := by
    obtain ⟨v, hv, -⟩ := hs.attained
    obtain ⟨d, -, hd⟩ := hs.bound v
    rw [hv, mul_one] at hd
    exact (abs_nonneg d).trans hd
  have line : ∀ v : Fin n → ℝ, Tendsto (fun t : ℝ => x0 + t • v) (𝓝 0) (𝓝 x0) := fun v => by
    have : Continuous fun t : ℝ => x0 + t • v := by fun_prop
    simpa using this.tendsto 0
  have falls : 0 < N → ∃ v, euclid v = 1 ∧ ∃ δ > 0, ∀ t : ℝ, 0 < t → t < δ → ∃ J',
      (o.optimizeForm a.tmax a.eta D (List.ofFn (x0 + t • v))).2 = .ok (some J') ∧ J' < f x0 - t * (N / 2) := by
    intro h0
    obtain ⟨v, hv, hsl⟩ := hs.attained
    obtain ⟨δ, hδ, H⟩ := slope_falls (slope_neg hsl) (by linarith)
    have h4 := (line (-v)).eventually h2
    rw [Metric.eventually_nhds_iff] at h4
    obtain ⟨δ', hδ', H'⟩ := h4
    refine ⟨-v, ?_, min δ δ', lt_min hδ hδ', fun t t0 t1 => ⟨_, H' ?_, ?_⟩⟩
    · rw [← hv]; unfold euclid; simp
    · simpa [Real.dist_eq, abs_of_pos t0] using t1.trans_le (min_le_right _ _)
    · have := H t t0 (t1.trans_le (min_le_left _ _))
      linarith
  refine ⟨N, f x0, h3 old nlopt tol G hG he hx, h2.self_of_nhds, hN, falls, fun l u hlu hmin => ?_⟩
  by_contra hne
  obtain ⟨v, -, δ, hδ, H⟩ := falls (lt_of_le_of_ne hN (Ne.symm hne))
  have hin : ∀ᶠ x in 𝓝 x0, ∀ i, l i ≤ x i ∧ x i ≤ u i := by
    rw [eventually_all]
    intro i
    have hc : ContinuousAt (fun x : Fin n → ℝ => x i) x0 := (continuous_apply i).continuousAt
    filter_upwards [hc.eventually_const_le (hlu i).1, hc.eventually_le_const (hlu i).2] with x a b using ⟨a, b⟩
  have h5 := (line v).eventually (hin.and hmin)
  rw [Metric.eventually_nhds_iff] at h5
  obtain ⟨ε, hε, H5⟩ := h5
  have hpos : 0 < min δ ε / 2 := half_pos (lt_min hδ hε)
  have hlt : min δ ε / 2 < min δ ε := half_lt_self (lt_min hδ hε)
  obtain ⟨J', e1, e2⟩ := H _ hpos (hlt.trans_le (min_le_left _ _))
  obtain ⟨hb, hm⟩ := H5 (y := min δ ε / 2) (by
    rw [Real.dist_eq, sub_zero, abs_of_pos hpos]
    exact hlt.trans_le (min_le_right _ _))
  have := hm hb J' e1
  have := mul_nonneg hpos.le (half_pos (lt_of_le_of_ne hN (Ne.symm hne))).le
  linarith

/-- **C86, finite differences.**  With finite differences the reported norm differs from the steepest slope by at
most a factor times the step. -/
theorem C86_differences {tmax : Nat} {eta : ℝ} (P : ComputedPoint k o h D E F x0 tmax eta m) (hk : 2 ≤ k) (hn : 0 < n) :
    ∃ (f : (Fin n → ℝ) → ℝ) (N : ℝ), ContDiffAt ℝ k f x0 ∧
      (∀ᶠ x in 𝓝 x0, (o.optimizeForm tmax eta D (List.ofFn x)).2 = .ok (some (f x))) ∧ Steepest f x0 N ∧
      ∃ C, ∃ δ > 0, ∀ a : SolveArgs ℝ, a.tmax = tmax → a.eta = eta → a.grad = "FD" → 0 < |a.stepSize| →
        |a.stepSize| < δ →
        ∀ old nlopt tol G, (o.solve old nlopt (o.autograd a.tmax a.eta) tol a D).form = .ok G →
        (∀ err, (o.solve old nlopt (o.autograd a.tmax a.eta) tol a D).ended ≠ some (.raised err)) →
        (o.solve old nlopt (o.autograd a.tmax a.eta) tol a D).attrs.xOpt = some (List.ofFn x0) →
        ∃ M, (o.solve old nlopt (o.autograd a.tmax a.eta) tol a D).attrs.gradientNorm = some (some M) ∧
          |M - N| ≤ C * |a.stepSize| := by
  obtain ⟨f, h1, h2, h3, -⟩ := C81_gradients P (le_trans (by norm_num) hk)
  obtain ⟨C, δ, hδ, H⟩ := C81_order P hk
  have hd : DifferentiableAt ℝ f x0 := h1.differentiableAt (by
    rintro rfl
    simp at hk)
  refine ⟨f, _, h1, h2, steepest_partials hn hd, n * C, δ, hδ, ?_⟩
  rintro a rfl rfl ha s0 s1 old nlopt tol G hG he hx
  obtain ⟨x, dv, e1, e2, e3⟩ := C82_reported P.history P.valid.wf old nlopt tol a hG he
  rw [hx] at e1
  obtain rfl := Option.some.inj e1
  obtain ⟨E2, g, b, h4, h5, h6⟩ := H a.stepSize s0 s1 D (SameExcept.refl _ _)
    (List.replicate (List.ofFn x0).length (some 0)) (by simp)
  have hb : b = partialAt f x0 := by
    rw [h3 D (SameExcept.refl _ _)] at h5
    have := List.ofFn_injective (Except.ok.inj (Prod.mk.inj h5).2)
    funext i
    exact (Option.some.inj (congrFun this i)).symm
  unfold Optimizer.gradFunc at e3
  rw [if_neg (by rw [ha]; decide), h4] at e3
  obtain rfl := Except.ok.inj e3
  refine ⟨euclid g, ?_, ?_⟩
  · unfold Attrs.gradientNorm
    rw [e2, Option.map_some, npNorm_ofFn]
  · rw [mul_assoc, ← hb]
    exact euclid_near h6

end

/-! ## Where no force acts -/

namespace SlackEx
open MeetsEx SolveEx

theorem rope_value (q p : ℝ) {tmax : Nat} (ht : 2 ≤ tmax) {eta : ℝ} (he : 0 < eta) (t : Traced (Vec ℝ))
    (h : tip q p = some t) (a : ℝ) : loadOpt.optimizeForm tmax eta (rope a p) [q] =
      (rope q p, .ok (some (Vec.dot (⟨1, 0, 0⟩ - t.val) (⟨1, 0, 0⟩ - t.val)))) := by
  obtain ⟨r, tf, re, hc⟩ := computed q p ht he
  have hp : adCalculatePenalty (state (tip q p) r tf re) loadOpt.constraints.vals (some (.const 0)) =
      .ok (some ⟨Vec.dot (⟨1, 0, 0⟩ - t.val) (⟨1, 0, 0⟩ - t.val), -2 * Vec.dot (⟨1, 0, 0⟩ - t.val) t.tan⟩) := by
    rw [loadOpt_constraints, h]
    simp [adCalculatePenalty, Constraint.adPenalty, state, Dict.getE, Dict.get?, adVectorPenalty, lift2, adDistSq,
      Traced.dot, Traced.sub, Traced.const, Traced.mul, Traced.add, Vec.dot]
    ring
  have hb := adEquilibriumState_both (rope q p) rate tmax eta
  unfold Optimizer.optimizeForm
  rw [rope_written]
  simp only
  cases hn : npEquilibriumState (rope q p) tmax eta false with
  | error e => rw [hn, hc] at hb; exact hb.elim
  | ok s =>
    rw [hn, hc] at hb
    have hb := adCalculatePenalty_both hb loadOpt.constraints.vals (x := some (.const 0)) (y := some 0)
      (by rintro f hf; cases hf; rfl)
    rw [hp] at hb
    simp only
    cases hq : calculatePenalty s loadOpt.constraints.vals (some 0) with
    | error e => rw [hq] at hb; exact hb.elim
    | ok v =>
      rw [hq] at hb
      have hb : v = _ := hb _ rfl
      rw [hb]

theorem tip_along {q : ℝ} (hq : q ≠ 0) : ∃ t, tip q 0 = some t ∧ (t.val.x = 3 ∨ t.val.x = -3) := by
  have hl : Vec.length (⟨-q, -0, 0⟩ : Vec ℝ) = |q| := by
    unfold Vec.length
    rw [show Vec.dot (⟨-q, -0, 0⟩ : Vec ℝ) ⟨-q, -0, 0⟩ = q * q by simp [Vec.dot]]
    exact Real.sqrt_mul_self_eq_abs q
  unfold tip adDirection
  rw [pull_eq]
  simp only [adNormalize, Option.bind_some, Traced.norm, hl, abs_ne_zero.2 hq, if_false, Option.map_some, Traced.quot,
    lift2, Traced.scale, Traced.add]
  refine ⟨_, rfl, ?_⟩
  rcases lt_or_gt_of_ne hq with h | h
  · left; simp [abs_of_neg h, hq]
  · right; simp [abs_of_pos h, hq, neg_div]

theorem rope_edges (q p : ℝ) (e : Int × Int) : (rope q p).edges.get? e =
    if e = (0, 1) then some ⟨.trail, 3, 0, none⟩ else none := by
  simp only [rope, Dict.get?, eq_comm (b := e)]

theorem rope_nodes (q p : ℝ) (n : Int) : (rope q p).nodes.get? n =
    if n = 0 then some ⟨⟨0, 0, 0⟩, ⟨q, p, 0⟩, ⟨0, 0, 0⟩, some 0, .origin⟩
    else if n = 1 then some ⟨⟨5, 0, 0⟩, ⟨0, 0, 0⟩, ⟨0, 0, 0⟩, some 1, .support⟩ else none := by
  simp only [rope, Dict.get?, eq_comm (b := n)]

theorem valid_rope' (q p : ℝ) : ValidInput (rope q p) := by
  have hs : SameExcept (fun s => s = .node 0 .qx ∨ s = .node 0 .qy) (rope 0 0) (rope q p) := by
    refine ⟨rfl, rfl, fun n a b ha hb => ?_, fun e a b ha hb => ?_, ⟨rfl, rfl, rfl, rfl, rfl, rfl⟩⟩
    · rw [rope_nodes] at ha hb
      split_ifs at ha hb with h1 h2
      · obtain rfl := Option.some.inj ha
        obtain rfl := Option.some.inj hb
        subst h1
        simp
      · obtain rfl := Option.some.inj ha
        obtain rfl := Option.some.inj hb
        simp
    · rw [rope_edges] at ha hb
      rw [ha] at hb
      obtain rfl := Option.some.inj hb
      simp
  exact validInput_same hs valid_rope

theorem direct_rope (q p : ℝ) : DirectOnly (rope q p) := by
  intro a b d h ht
  rw [rope_edges] at h
  split_ifs at h
  obtain rfl := Option.some.inj h
  simp at ht

theorem rope_good (q p : ℝ) : GoodSeqs (rope q p) [(0, [(0, 0), (1, 1)])] ∧ GoodSched (rope q p) none [0, 1] := by
  have I := valid_rope' q p
  obtain ⟨T, N, hT, hN, hg, hlt⟩ := goodSeqs_of_valid I.wf I.trails I.nonempty
  rw [rope_seqs] at hT
  rw [rope_number] at hN
  obtain rfl := Except.ok.inj hT
  obtain rfl := Except.ok.inj hN
  exact ⟨hg, goodSched I.wf I.trails hg none hlt⟩

theorem rope_keys (q p : ℝ) : (rope q p).nodes.keys = [0, 1] := rfl
theorem rope_next (q p : ℝ) : nxtK (rope q p) none 0 = some 1 ∧ nxtK (rope q p) none 1 = none := ⟨rfl, rfl⟩

/-- The form after any sweep. -/
theorem rope_final {q p : ℝ} {ind : Bool} {o s : EqState ℝ} {r : Int → Vec ℝ} {Q : Int → Int → Vec ℝ}
    (S : FinalSpec (rope q p) none ind o s r Q) : s.pos 0 = ⟨0, 0, 0⟩ ∧
      s.pos 1 = (3 : ℝ) • unit (⟨-q, -p, 0⟩ : Vec ℝ) ∧ r 0 = ⟨-q, -p, 0⟩ := by
  obtain ⟨x0, x1⟩ := rope_next q p
  have hb : dirNbrs (rope q p) 0 = [] ∧ indNbrs (rope q p) 0 = [] := ⟨rfl, rfl⟩
  have d1 : edgeData (rope q p) 0 1 = ⟨.trail, 3, 0, none⟩ := rfl
  obtain ⟨p0, t0⟩ := S.start 0 fun a ha => by
    rw [rope_keys] at ha
    simp only [List.mem_cons, List.not_mem_nil, or_false] at ha
    rcases ha with rfl | rfl <;> simp [x0, x1]
  have ps : posOf (rope q p) 0 = ⟨0, 0, 0⟩ := by unfold posOf; simp [rope_nodes]
  have ld : loadOf (rope q p) 0 = ⟨q, p, 0⟩ := by unfold loadOf; simp [rope_nodes]
  have rs : s.res 0 = 0 := t0.trans rfl
  have p0 : s.pos 0 = ⟨0, 0, 0⟩ := p0.trans (by rw [← ps]; rfl)
  have o0 := S.out 0 (by rw [rope_keys]; simp)
  unfold outVec at o0
  rw [rs, ld, hb.1, hb.2] at o0
  have r0 : r 0 = ⟨-q, -p, 0⟩ := by
    rw [o0]
    cases ind <;> ext <;> simp [devSum]
  obtain ⟨q1, -⟩ := S.next 0 (by rw [rope_keys]; simp) 1 x0
  refine ⟨p0, ?_, r0⟩
  rw [q1, d1, p0, r0, normalize_eq_unit]
  ext <;> simp [effectiveLength]

theorem rope_computed (k : WithTop ℕ∞) {q p : ℝ} (hp : p ≠ 0) {tmax : Nat} (ht : 2 ≤ tmax) {eta : ℝ} (he : 0 < eta) (x : ℝ) :
    ComputedPoint k loadOpt [.add (nodeLoadXParameter 0 none none)] (rope x p) (rope q p)
      (fun j => formOf (rope q p) (iter (rope q p) none [0, 1] j)) ![q] tmax eta 2 := by
  have I := valid_rope' q p
  have FS := fun i => finalSpec_sched I.wf I.trails (rope_good q p).2 i
  have hpos : ∀ j, 1 ≤ j → posOf (formOf (rope q p) (iter (rope q p) none [0, 1] j)) 0 = ⟨0, 0, 0⟩ ∧
      posOf (formOf (rope q p) (iter (rope q p) none [0, 1] j)) 1 = (3 : ℝ) • unit (⟨-q, -p, 0⟩ : Vec ℝ) := by
    intro j h1
    obtain ⟨i, rfl⟩ : ∃ i, j = i + 1 := ⟨j - 1, by omega⟩
    have := posOf_form I.wf (FS i)
    obtain ⟨a0, a1, -⟩ := rope_final (FS i)
    exact ⟨(this 0).trans a0, (this 1).trans a1⟩
  have nodev : ∀ a b d, EdgeBetween (rope q p) a b d → d.type ≠ .deviation ∧ d.plane = none := by
    intro a b d hE
    rcases hE with h | h <;> rw [rope_edges] at h <;> split_ifs at h <;> cases h <;> simp
  refine ⟨loadOpt_history, ?_, valid_rope' x p, ?_, ?_, ⟨?_, ?_, ?_, ?_, ?_⟩, Or.inr ⟨le_rfl, ht, ?_, ?_⟩, ?_, ?_⟩
  · intro j c hr
    rw [← (regInv _).get] at hr
    have e : (runOps (Optimizer.empty : Optimizer ℝ) [.add (nodeLoadXParameter 0 none none)]).parameters =
        [(0, nodeLoadXParameter 0 none none)] := rfl
    rw [e] at hr
    simp only [Dict.get?] at hr
    split_ifs at hr with h1
    cases hr
    exact ⟨by omega, by simp [nodeLoadXParameter, HasSlot, rope_keys]⟩
  · have := carries_of_write (x := List.ofFn ![q]) (D := rope x p) loadOpt_history.nonneg rfl
    exact this
  · intro e d h _
    rw [rope_edges] at h
    split_ifs at h
    cases h
    norm_num
  · intro j _ _
    exact ⟨_, _, _, rope_seqs q p, rope_number q p, sweepsN_eq I.wf I.trails (rope_good q p).1 none 2 j, rfl⟩
  · intro j h1 _
    obtain ⟨i, rfl⟩ : ∃ i, j = i + 1 := ⟨j - 1, by omega⟩
    obtain ⟨-, -, r0⟩ := rope_final (FS i)
    obtain ⟨x0, x1⟩ := rope_next q p
    refine carry_of_final I (FS i) fun a b hab => ?_
    have hak := (Follows.mem I.trails ((trailNext_iff I.wf I.trails).1 hab)).1
    rw [← nxtK_none I.wf I.trails] at hab
    rw [rope_keys] at hak
    simp only [List.mem_cons, List.not_mem_nil, or_false] at hak
    rcases hak with rfl | rfl
    · rw [r0]; intro h; have := congrArg Vec.y h; simp [hp] at this
    · rw [x1] at hab; simp at hab
  · exact fun j _ _ a b d hE hty _ => absurd hty (nodev a b d hE).1
  · exact fun j _ _ a b d _ _ hE hty _ _ _ => absurd hty (nodev a b d hE).1
  · intro j _ _ a b d o N _ hE hpl
    rw [(nodev a b d hE).2] at hpl
    cases hpl
  · obtain ⟨p0, p1⟩ := hpos 1 le_rfl
    obtain ⟨q0, q1⟩ := hpos 2 (by norm_num)
    unfold moved
    rw [rope_keys]
    simp only [List.map_cons, List.map_nil, List.sum_cons, List.sum_nil, Nat.add_one_sub_one, p0, p1,
      q0, q1, Vec.dist, sub_self, Vec.length_zero]
    simpa using he
  · intro j g1 g2
    omega
  · rw [loadOpt_constraints]
    simp [Posed, rope_keys]
  · rw [loadOpt_constraints]
    simp [Clear]

/-- Stopping at a load. -/
theorem rope_solved (x q p : ℝ) (t : Traced (Vec ℝ)) (h : tip q p = some t) : ∃ F,
    loadOpt.solve noAttrs (fun _ => stopAt q) (loadOpt.autograd 100 1) 1 args (rope x p) =
      ⟨rope q p, ⟨some [q], some (some (Vec.dot (⟨1, 0, 0⟩ - t.val) (⟨1, 0, 0⟩ - t.val))), some 1,
        some "NLOPT_SUCCESS", some [some (-2 * Vec.dot (⟨1, 0, 0⟩ - t.val) t.tan)]⟩, [[q]],
        some (.done [q] (some (Vec.dot (⟨1, 0, 0⟩ - t.val) (⟨1, 0, 0⟩ - t.val))) 1 1), .ok F⟩ := by
  obtain ⟨F, hF⟩ := C20_returns_without_indirect (valid_rope' q p) (direct_rope q p) (show 1 ≤ 100 by norm_num)
    (zero_le_one (α := ℝ))
  refine ⟨F, ?_⟩
  have hs : loadOpt.checkSanity = .ok () := rfl
  have hx : loadOpt.optimizationParameters (rope x p) = .ok [x] := rfl
  obtain ⟨bs, hb⟩ : ∃ bs, loadOpt.optimizationBounds (rope x p) = .ok bs := ⟨_, rfl⟩
  have hv := rope_value q p (tmax := 100) (by norm_num) one_pos t h x
  have hgr : ∀ a, loadOpt.gradFunc (loadOpt.autograd 100 1) args (rope a p) [q] =
      (rope q p, .ok [some (-2 * Vec.dot (⟨1, 0, 0⟩ - t.val) t.tan)]) := fun a =>
    (C43_automatic_gradient loadOpt _ rfl (rope_gradient q p (by norm_num) one_pos t h a)).1 rfl
  have hst : nloptStatus 1 = .ok "NLOPT_SUCCESS" := by decide +kernel
  unfold Optimizer.solve
  rw [hs]
  simp only
  rw [if_neg (by simp [args]), hx, hb]
  simp only
  rw [if_neg (by simp [args, nloptAlgorithms])]
  unfold Optimizer.optimize stopAt
  have ha : args.tmax = 100 ∧ args.eta = 1 := ⟨rfl, rfl⟩
  rw [ha.1, ha.2]
  simp only [Optimizer.exec, hv, hgr, if_true, Optimizer.finish, hst, hF]

/-- The direction of the rope is to be found. -/
noncomputable def aimOpt : Optimizer ℝ :=
  Optimizer.ofLists [.direction (0, 1) ⟨0, 1, 0⟩ 1] [nodeLoadXParameter 0 none none]

theorem aimOpt_history : HasHistory aimOpt [.add (nodeLoadXParameter 0 none none)] := rfl

theorem aim_value (a : ℝ) : aimOpt.optimizeForm 100 1 (rope a 0) [0] = (rope 0 0, .ok none) := by
  obtain ⟨r, tf, re, hc⟩ := computed 0 0 (show 2 ≤ 100 by norm_num) (one_pos (α := ℝ))
  have hb := adEquilibriumState_both (rope 0 0) rate 100 1
  unfold Optimizer.optimizeForm
  rw [show aimOpt.updateParameters (rope a 0) [0] = (rope 0 0, .ok ()) from rfl]
  simp only
  cases hn : npEquilibriumState (rope 0 0) 100 (1 : ℝ) false with
  | error e => rw [hn, hc] at hb; exact hb.elim
  | ok s =>
    rw [hn, hc] at hb
    have hb : Shadows (state (tip 0 0) r tf re) s := hb
    have h0 : At s 0 (0 : Vec ℝ) := by
      unfold At
      rw [← hb.xyz, valuesOf_get?]
      rfl
    have h1 : At s 1 (0 : Vec ℝ) := by
      unfold At
      rw [← hb.xyz, valuesOf_get?, tip_slack]
      rfl
    simp only
    rw [show aimOpt.constraints.vals = [.direction (0, 1) ⟨0, 1, 0⟩ 1] from rfl]
    simp only [calculatePenalty, C41_zero_length (e := (0, 1)) (t := ⟨0, 1, 0⟩) (w := 1) h0 h1]
    rfl

theorem aim_gradient (a : ℝ) : aimOpt.autograd 100 1 (rope a 0) [0] = (rope 0 0, .ok [none]) := by
  obtain ⟨h1, -, h2⟩ := C80_raises aimOpt 100 1 (rope a 0) [0]
  obtain ⟨g, hg, hl, hn⟩ := h2 none (by rw [aim_value])
  rw [aim_value] at h1
  match g, hl, hn with
  | [b], _, hn => exact Prod.ext h1 (by rw [hg, hn rfl b (by simp)])

theorem aim_solved (x : ℝ) : ∃ F, aimOpt.solve noAttrs (fun _ => stopAt 0) (aimOpt.autograd 100 1) 1 args (rope x 0) =
    ⟨rope 0 0, ⟨some [0], some none, some 1, some "NLOPT_SUCCESS", some [none]⟩, [[0]], some (.done [0] none 1 1),
      .ok F⟩ := by
  obtain ⟨F, hF⟩ := C20_returns_without_indirect (valid_rope' 0 0) (direct_rope 0 0) (show 1 ≤ 100 by norm_num)
    (zero_le_one (α := ℝ))
  refine ⟨F, ?_⟩
  have hs : aimOpt.checkSanity = .ok () := rfl
  have hx : aimOpt.optimizationParameters (rope x 0) = .ok [x] := rfl
  obtain ⟨bs, hb⟩ : ∃ bs, aimOpt.optimizationBounds (rope x 0) = .ok bs := ⟨_, rfl⟩
  have hgr : ∀ a, aimOpt.gradFunc (aimOpt.autograd 100 1) args (rope a 0) [0] = (rope 0 0, .ok [none]) := fun a =>
    (C43_automatic_gradient aimOpt _ rfl (aim_gradient a)).1 rfl
  have hst : nloptStatus 1 = .ok "NLOPT_SUCCESS" := by decide +kernel
  unfold Optimizer.solve
  rw [hs]
  simp only
  rw [if_neg (by simp [args]), hx, hb]
  simp only
  rw [if_neg (by simp [args, nloptAlgorithms])]
  unfold Optimizer.optimize stopAt
  have ha : args.tmax = 100 ∧ args.eta = 1 := ⟨rfl, rfl⟩
  rw [ha.1, ha.2]
  simp only [Optimizer.exec, aim_value, hgr, if_true, Optimizer.finish, hst, hF]

end SlackEx

open SlackEx MeetsEx SolveEx in
/-- A rope without load has no direction: the norm is NaN, and a form is returned. -/
example : ∃ F, (aimOpt.solve noAttrs (fun _ => stopAt 0) (aimOpt.autograd 100 1) 1 args (rope 5 0)).form = .ok F ∧
    (aimOpt.solve noAttrs (fun _ => stopAt 0) (aimOpt.autograd 100 1) 1 args (rope 5 0)).attrs.gradientNorm =
      some none := by
  obtain ⟨F, hF⟩ := aim_solved 5
  have e1 : (aimOpt.solve noAttrs (fun _ => stopAt 0) (aimOpt.autograd args.tmax args.eta) 1 args (rope 5 0)).form = .ok F :=
    congrArg (·.form) hF
  have e2 : ∀ err, (aimOpt.solve noAttrs (fun _ => stopAt 0) (aimOpt.autograd args.tmax args.eta) 1 args
      (rope 5 0)).ended ≠ some (.raised err) := fun err h => by
    have : (aimOpt.solve noAttrs (fun _ => stopAt 0) (aimOpt.autograd args.tmax args.eta) 1 args (rope 5 0)).ended = _ :=
      congrArg (·.ended) hF
    rw [this] at h
    simp at h
  obtain ⟨x, dv, h1, -, h2, -⟩ := C86_nan aimOpt_history (valid_rope' 5 0).wf noAttrs (fun _ => stopAt 0) 1
    (a := args) rfl e1 e2
  have e3 : (aimOpt.solve noAttrs (fun _ => stopAt 0) (aimOpt.autograd args.tmax args.eta) 1 args (rope 5 0)).attrs.xOpt =
      some [0] := congrArg (·.attrs.xOpt) hF
  obtain rfl := Option.some.inj (h1.symm.trans e3)
  exact ⟨F, e1, h2 (congrArg (·.2) (aim_value 5))⟩

open SlackEx MeetsEx SolveEx in
/-- **C86, no force in a trail.**  Elsewhere the norm means nothing: the problem has an optimum, strictly better
than all other values of its parameter, at which `solve` reports a norm of 6 if the numerical solver stops there. -/
theorem C86_slack : ∃ (o : Optimizer ℝ) (h : List (RegOp (Param ℝ))) (D : Diagram ℝ),
    HasHistory o h ∧ ValidInput D ∧
    (o.optimizeForm 100 1 D [0]).2 = .ok (some 1) ∧
    (∀ q, q ≠ 0 → ∃ J, (o.optimizeForm 100 1 D [q]).2 = .ok (some J) ∧ 4 ≤ J) ∧
    ∃ nlopt F, (o.solve noAttrs nlopt (o.autograd 100 1) 1 args D).form = .ok F ∧
      (o.solve noAttrs nlopt (o.autograd 100 1) 1 args D).attrs.xOpt = some [0] ∧
      (o.solve noAttrs nlopt (o.autograd 100 1) 1 args D).attrs.gradientNorm = some (some 6) := by
  have hv0 : loadOpt.optimizeForm 100 1 (rope 0 0) [0] = (rope 0 0, .ok (some 1)) := by
    rw [rope_value 0 0 (by norm_num) one_pos _ tip_slack]
    norm_num [Vec.dot]
  refine ⟨loadOpt, _, rope 0 0, loadOpt_history, valid_rope, by rw [hv0], fun q hq => ?_, fun _ => stopAt 0, ?_⟩
  · obtain ⟨t, ht, hx⟩ := tip_along hq
    rw [rope_value q 0 (by norm_num) one_pos _ ht]
    refine ⟨_, rfl, ?_⟩
    have : 4 ≤ (1 - t.val.x) * (1 - t.val.x) := by rcases hx with h | h <;> rw [h] <;> norm_num
    simp only [Vec.dot, Vec.sub_x, Vec.sub_y, Vec.sub_z]
    nlinarith [mul_self_nonneg (0 - t.val.y), mul_self_nonneg (0 - t.val.z)]
  · obtain ⟨F, hF⟩ := rope_solved 0 0 0 _ tip_slack
    refine ⟨F, ?_⟩
    rw [hF]
    refine ⟨rfl, rfl, ?_⟩
    simp only [Attrs.gradientNorm, Option.map_some, npNorm, npSquares, lift2]
    congr 2
    rw [show (-2 * Vec.dot ((⟨1, 0, 0⟩ : Vec ℝ) - 0) ⟨-3, 0, 0⟩) = 6 by norm_num [Vec.dot]]
    show Real.sqrt _ = 6
    rw [add_zero]
    exact Real.sqrt_mul_self (by norm_num)

section
open SlackEx MeetsEx SolveEx

/-- A load of 3 across a load of 4: a norm of 96/125 is reported, it is the steepest slope, and with other loads the
objective is smaller. -/
example : ∃ (f : (Fin 1 → ℝ) → ℝ) (F : Diagram ℝ),
    (∀ᶠ x in 𝓝 ![3], (loadOpt.optimizeForm 100 1 (rope 0 4) (List.ofFn x)).2 = .ok (some (f x))) ∧
    Steepest f ![3] (96 / 125) ∧
    (loadOpt.solve noAttrs (fun _ => stopAt 3) (loadOpt.autograd 100 1) 1 args (rope 0 4)).form = .ok F ∧
    (loadOpt.solve noAttrs (fun _ => stopAt 3) (loadOpt.autograd 100 1) 1 args (rope 0 4)).attrs.gradientNorm =
      some (some (96 / 125)) ∧
    ∃ J v : ℝ, (loadOpt.optimizeForm 100 1 (rope 0 4) [3 + v]).2 = .ok (some J) ∧
      ∃ J0, (loadOpt.optimizeForm 100 1 (rope 0 4) [3]).2 = .ok (some J0) ∧ J < J0 := by
  have hx : ([3] : List ℝ) = List.ofFn (![3] : Fin 1 → ℝ) := by simp
  obtain ⟨F, hF⟩ := rope_solved 0 3 4 _ tip_taut
  have hN : (loadOpt.solve noAttrs (fun _ => stopAt 3) (loadOpt.autograd 100 1) 1 args (rope 0 4)).attrs.gradientNorm =
      some (some (96 / 125)) := by
    rw [hF]
    simp only [Attrs.gradientNorm, Option.map_some, npNorm, npSquares, lift2]
    congr 2
    rw [show (-2 * Vec.dot ((⟨1, 0, 0⟩ : Vec ℝ) - ⟨-9 / 5, -12 / 5, 0⟩) ⟨-48 / 125, 36 / 125, 0⟩) = 96 / 125 by
      norm_num [Vec.dot]]
    show Real.sqrt _ = _
    rw [add_zero]
    exact Real.sqrt_mul_self (by norm_num)
  have P := rope_computed 1 (q := 3) (p := 4) (by norm_num) (tmax := args.tmax) (by norm_num [args]) (eta := args.eta)
    (by norm_num [args]) 0
  have e1 : (loadOpt.solve noAttrs (fun _ => stopAt 3) (loadOpt.autograd args.tmax args.eta) 1 args (rope 0 4)).form = .ok F :=
    congrArg (·.form) hF
  have e2 : ∀ err, (loadOpt.solve noAttrs (fun _ => stopAt 3) (loadOpt.autograd args.tmax args.eta) 1 args
      (rope 0 4)).ended ≠ some (.raised err) := fun err h => by
    have : (loadOpt.solve noAttrs (fun _ => stopAt 3) (loadOpt.autograd args.tmax args.eta) 1 args (rope 0 4)).ended = _ :=
      congrArg (·.ended) hF
    rw [this] at h
    simp at h
  have e3 : (loadOpt.solve noAttrs (fun _ => stopAt 3) (loadOpt.autograd args.tmax args.eta) 1 args (rope 0 4)).attrs.xOpt =
      some (List.ofFn (![3] : Fin 1 → ℝ)) := hx ▸ congrArg (·.attrs.xOpt) hF
  obtain ⟨f, N, -, h2, hs, h3⟩ := C86_steepest P le_rfl one_pos rfl
  have hNN : N = 96 / 125 := by
    have := h3 noAttrs (fun _ => stopAt 3) 1 F e1 e2 e3
    rw [show args.tmax = 100 from rfl, show args.eta = 1 from rfl, hN] at this
    simpa using this.symm
  subst hNN
  refine ⟨f, F, h2, hs, e1, hN, ?_⟩
  obtain ⟨M, J0, k1, k2, -, k3, -⟩ := C86_optimal P le_rfl one_pos rfl noAttrs (fun _ => stopAt 3) 1 e1 e2 e3
  rw [show args.tmax = 100 from rfl, show args.eta = 1 from rfl, hN] at k1
  have hM : 0 < M := by
    rw [← Option.some.inj (Option.some.inj k1)]
    norm_num
  obtain ⟨v, -, δ, hδ, H⟩ := k3 hM
  obtain ⟨J, j1, j2⟩ := H (δ / 2) (half_pos hδ) (half_lt_self hδ)
  refine ⟨J, δ / 2 * v 0, ?_, J0, by rw [hx]; exact k2, ?_⟩
  · rw [← j1]
    simp
    rfl
  · have := mul_pos (half_pos hδ) (half_pos hM)
    linarith

/-- With finite differences the reported norm is close to a steepest slope. -/
example : ∃ (f : (Fin 1 → ℝ) → ℝ) (N C : ℝ), Steepest f ![3] N ∧ ∃ δ > 0, ∀ step : ℝ, 0 < |step| → |step| < δ →
    ∀ nlopt F, let s := loadOpt.solve noAttrs nlopt (loadOpt.autograd 100 1) 1 ⟨"SLSQP", "FD", 2, 0, 0, step, 100, 1⟩ (rope 0 4)
      s.form = .ok F → (∀ err, s.ended ≠ some (.raised err)) → s.attrs.xOpt = some [3] →
      ∃ M, s.attrs.gradientNorm = some (some M) ∧ |M - N| ≤ C * |step| := by
  obtain ⟨f, N, -, -, h1, C, δ, hδ, H⟩ := C86_differences (rope_computed 2 (q := 3) (p := 4) (by norm_num) (tmax := 100)
    (by norm_num) one_pos 0) le_rfl one_pos
  refine ⟨f, N, C, h1, δ, hδ, fun step s0 s1 nlopt F hF he hx => ?_⟩
  exact H ⟨"SLSQP", "FD", 2, 0, 0, step, 100, 1⟩ rfl rfl rfl s0 s1 noAttrs nlopt 1 F hF he (by
    rw [show List.ofFn (![3] : Fin 1 → ℝ) = [3] by simp]; exact hx)

end

end Props
end CEM
