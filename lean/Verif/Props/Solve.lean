import Verif.Lemmas.Solve
import Verif.Props.Optimizer
import Verif.Props.Numpy

/-!
# C43, C44, C49: optimization runs

Every theorem is about an arbitrary behaviour of NLopt and of the gradients.
-/

set_option linter.unusedSectionVars false

namespace CEM
namespace Props
open Diagram Spec Optimizer

variable {R : Type} [Field R] [LinearOrder R] [PySqrt R]

/-- The parameters of the optimizer are those that a history of calls leaves registered. -/
def HasHistory {R : Type} (o : Optimizer R) (h : List (RegOp (Param R))) : Prop :=
  o.parameters = (runOps Optimizer.empty h).parameters

theorem HasHistory.nodup {o : Optimizer R} {h : List (RegOp (Param R))} (hh : HasHistory o h) :
    o.parameters.keys.Nodup := by rw [hh]; exact (regInv h).nodup

theorem HasHistory.nonneg {o : Optimizer R} {h : List (RegOp (Param R))} (hh : HasHistory o h) :
    ∀ q ∈ o.parameters, 0 ≤ q.1 := by
  rw [hh]
  exact fun q hq => ((regInv h).key_lt (Dict.mem_keys_of_mem hq)).1

/-! ## Shape of a call -/

theorem solve_cases (o : Optimizer R) (old : Attrs R) (nlopt : Problem R → Run R) (ad : GradFunc R)
    (tol : R) (a : SolveArgs R) (D : Diagram R) :
    (∃ err, o.solve old nlopt ad tol a D = ⟨D, old, [], none, .error err⟩) ∨
    ∃ x bounds, o.optimizationParameters D = .ok x ∧ o.optimizationBounds D = .ok bounds ∧
      o.solve old nlopt ad tol a D = o.optimize old (o.gradFunc ad a) tol a
        (nlopt ⟨a.algorithm, o.parameters.length, bounds, a.iters, a.eps, a.kappa, x⟩) D := by
  unfold solve
  cases o.checkSanity with
  | error err => exact Or.inl ⟨err, rfl⟩
  | ok u =>
    simp only
    by_cases hg : a.grad ≠ "AD" ∧ a.grad ≠ "FD"
    · rw [if_pos hg]; exact Or.inl ⟨_, rfl⟩
    · rw [if_neg hg]
      cases hp : o.optimizationParameters D with
      | error err => exact Or.inl ⟨err, rfl⟩
      | ok x =>
        simp only
        cases hb : o.optimizationBounds D with
        | error err => exact Or.inl ⟨err, rfl⟩
        | ok bounds =>
          simp only
          by_cases ha : a.algorithm ∉ nloptAlgorithms
          · rw [if_pos ha]; exact Or.inl ⟨_, rfl⟩
          · rw [if_neg ha]; exact Or.inr ⟨x, bounds, rfl, rfl, rfl⟩

theorem finish_fields (g : GradFunc R) (tol : R) (old : Attrs R) (D C : Diagram R)
    (xs : List (List R)) (e : Ended R) (x : List R) (v : Num R) (n : Nat) (c : Int) :
    (finish g tol old D C xs e x v n c).topology = D ∧
    (finish g tol old D C xs e x v n c).points = xs ∧
    (finish g tol old D C xs e x v n c).ended = some e ∧
    ∀ F, (finish g tol old D C xs e x v n c).form = .ok F →
      staticEquilibrium D none 100 tol false = .ok F ∧
      ∃ status dv, nloptStatus c = .ok status ∧ (finish g tol old D C xs e x v n c).attrs =
        ⟨some x, some v, some n, some status, some dv⟩ := by
  unfold finish
  cases hs : nloptStatus c with
  | error err => simp
  | ok status =>
    simp only
    rcases hg : (g C x).2 with err | dv
    · simp
    · simp

theorem optimize_fields (o : Optimizer R) (old : Attrs R) (g : GradFunc R) (tol : R)
    (a : SolveArgs R) (run : Run R) (D : Diagram R) :
    (o.optimize old g tol a run D).topology = (exec (o.optimizeForm a.tmax a.eta) g run D D []).1.1 ∧
    (o.optimize old g tol a run D).points = (exec (o.optimizeForm a.tmax a.eta) g run D D []).1.2.2 ∧
    (o.optimize old g tol a run D).ended = some (exec (o.optimizeForm a.tmax a.eta) g run D D []).2 ∧
    ∀ F, (o.optimize old g tol a run D).form = .ok F →
      staticEquilibrium (o.optimize old g tol a run D).topology none 100 tol false = .ok F := by
  unfold optimize
  rcases exec (o.optimizeForm a.tmax a.eta) g run D D [] with ⟨⟨D', C, xs⟩, (⟨y, v, n, c⟩ | ⟨v, n, c⟩ | err)⟩
  · obtain ⟨h1, h2, h3, h4⟩ := finish_fields g tol old D' C xs (.done y v n c) y v n c
    exact ⟨h1, h2, h3, fun F hF => by rw [h1]; exact (h4 F hF).1⟩
  · simp only
    cases o.optimizationParameters D' with
    | error err => simp
    | ok y =>
      obtain ⟨h1, h2, h3, h4⟩ := finish_fields g tol old D' C xs (.roundoff v n c) y v n c
      exact ⟨h1, h2, h3, fun F hF => by
        simp only at hF ⊢
        rw [h1]
        exact (h4 F hF).1⟩
  · simp only
    by_cases he : err = .runtimeError
    · rw [if_pos he]; simp
    · rw [if_neg he]; simp

/-! ## C43 -/

/-- After a call that returned a form the diagram is at the last point. -/
theorem topology_at {o : Optimizer R} {h : List (RegOp (Param R))} (hh : HasHistory o h)
    {D : Diagram R} (I : ValidInput D) (old : Attrs R) (nlopt : Problem R → Run R) (ad : GradFunc R)
    (tol : R) (a : SolveArgs R) (F : Diagram R)
    (hF : (o.solve old nlopt ad tol a D).form = .ok F) :
    At o.parameters D (o.solve old nlopt ad tol a D).topology
      (o.solve old nlopt ad tol a D).points := by
  rcases solve_cases o old nlopt ad tol a D with ⟨err, e⟩ | ⟨x, bounds, hx, hb, e⟩
  · rw [e] at hF; cases hF
  · rw [e] at hF ⊢
    generalize hr : nlopt ⟨a.algorithm, o.parameters.length, bounds, a.iters, a.eps, a.kappa, x⟩ =
      run at hF ⊢
    obtain ⟨h1, h2, h3, h4⟩ := optimize_fields o old (o.gradFunc ad a) tol a run D
    rw [h1, h2]
    have hat := exec_at hh.nonneg a.tmax a.eta (o.gradFunc ad a) run D D [] (SameExcept.refl _ _) rfl
    cases he : (exec (o.optimizeForm a.tmax a.eta) (o.gradFunc ad a) run D D []).2 with
    | done y v n c => rw [he] at hat; exact hat
    | roundoff v n c => rw [he] at hat; exact hat
    | raised err =>
      rw [he] at hat
      have herr : err = .runtimeError := by
        by_contra hne
        unfold optimize at hF
        rcases hx' : exec (o.optimizeForm a.tmax a.eta) (o.gradFunc ad a) run D D [] with
          ⟨⟨D', C, xs⟩, e'⟩
        rw [hx'] at hF he
        simp only at he
        subst he
        simp only at hF
        rw [if_neg hne] at hF
        cases hF
      subst herr
      exact hat fun E x hs => optimizeForm_no_runtime (validInput_same hs I) _ _ _

theorem form_of_topology {o : Optimizer R} {old : Attrs R} {nlopt : Problem R → Run R}
    {ad : GradFunc R} {tol : R} {a : SolveArgs R} {D F : Diagram R}
    (hF : (o.solve old nlopt ad tol a D).form = .ok F) :
    staticEquilibrium (o.solve old nlopt ad tol a D).topology none 100 tol false = .ok F := by
  rcases solve_cases o old nlopt ad tol a D with ⟨err, e⟩ | ⟨x, bounds, hx, hb, e⟩
  · rw [e] at hF; cases hF
  · rw [e] at hF ⊢
    exact (optimize_fields o old (o.gradFunc ad a) tol a _ D).2.2.2 F hF

/-- **C43, what holds of every run.**  A returned form is the equilibrium of the given diagram
with the parameter values at which NLopt called the objective last, or of the diagram itself if
NLopt did not call the objective. -/
theorem C43_last_call {o : Optimizer R} {h : List (RegOp (Param R))} (hh : HasHistory o h)
    {D : Diagram R} (I : ValidInput D) (old : Attrs R) (nlopt : Problem R → Run R) (ad : GradFunc R)
    (tol : R) (a : SolveArgs R) (F : Diagram R)
    (hF : (o.solve old nlopt ad tol a D).form = .ok F) :
    ((o.solve old nlopt ad tol a D).points = [] ∧ staticEquilibrium D none 100 tol false = .ok F) ∨
    ∃ y ys, (o.solve old nlopt ad tol a D).points = y :: ys ∧ Realizes o.parameters tol D y F := by
  have hA := topology_at hh I old nlopt ad tol a F hF
  have hE := form_of_topology hF
  cases hp : (o.solve old nlopt ad tol a D).points with
  | nil =>
    rw [hp] at hA
    have hA : (o.solve old nlopt ad tol a D).topology = D := hA
    rw [hA] at hE
    exact Or.inl ⟨rfl, hE⟩
  | cons y ys =>
    rw [hp] at hA
    exact Or.inr ⟨y, ys, rfl, _, hA, hE⟩

/-- The attributes report what NLopt returned. -/
theorem C43_attributes (o : Optimizer R) (old : Attrs R) (nlopt : Problem R → Run R)
    (ad : GradFunc R) (tol : R) (a : SolveArgs R) (D F : Diagram R)
    (hF : (o.solve old nlopt ad tol a D).form = .ok F) :
    (∀ x v n c, (o.solve old nlopt ad tol a D).ended = some (.done x v n c) →
      ∃ status dv, nloptStatus c = .ok status ∧ (o.solve old nlopt ad tol a D).attrs =
        ⟨some x, some v, some n, some status, some dv⟩) ∧
    (∀ v n c, (o.solve old nlopt ad tol a D).ended = some (.roundoff v n c) →
      ∃ x status dv, nloptStatus c = .ok status ∧
        o.optimizationParameters (o.solve old nlopt ad tol a D).topology = .ok x ∧
        (o.solve old nlopt ad tol a D).attrs =
          ⟨some x, some v, some n, some status, some dv⟩) ∧
    (∀ err, (o.solve old nlopt ad tol a D).ended = some (.raised err) →
      err = .runtimeError ∧ (o.solve old nlopt ad tol a D).attrs = old) := by
  rcases solve_cases o old nlopt ad tol a D with ⟨err, e⟩ | ⟨x, bounds, hx, hb, e⟩
  · rw [e] at hF; cases hF
  · rw [e] at hF ⊢
    generalize nlopt ⟨a.algorithm, o.parameters.length, bounds, a.iters, a.eps, a.kappa, x⟩ =
      run at hF ⊢
    revert hF
    unfold optimize
    rcases exec (o.optimizeForm a.tmax a.eta) (o.gradFunc ad a) run D D [] with
      ⟨⟨D', C, xs⟩, (⟨y, v, n, c⟩ | ⟨v, n, c⟩ | err)⟩ <;> intro hF
    · obtain ⟨h1, h2, h3, h4⟩ := finish_fields (o.gradFunc ad a) tol old D' C xs (.done y v n c) y v n c
      obtain ⟨status, dv, hs, ha⟩ := (h4 F hF).2
      refine ⟨fun x' v' n' c' he => ?_, fun v' n' c' he => ?_, fun err he => ?_⟩
      · simp only at he ⊢
        rw [h3] at he
        cases he
        exact ⟨status, dv, hs, ha⟩
      · simp only at he; rw [h3] at he; cases he
      · simp only at he; rw [h3] at he; cases he
    · simp only at hF ⊢
      cases hp : o.optimizationParameters D' with
      | error err => rw [hp] at hF; cases hF
      | ok y =>
        rw [hp] at hF
        simp only at hF ⊢
        obtain ⟨h1, h2, h3, h4⟩ := finish_fields (o.gradFunc ad a) tol old D' C xs (.roundoff v n c) y v n c
        obtain ⟨status, dv, hs, ha⟩ := (h4 F hF).2
        refine ⟨fun x' v' n' c' he => ?_, fun v' n' c' he => ?_, fun err he => ?_⟩
        · rw [h3] at he; cases he
        · rw [h3] at he
          cases he
          exact ⟨y, status, dv, hs, by rw [h1]; exact hp, ha⟩
        · rw [h3] at he; cases he
    · simp only at hF ⊢
      by_cases hr : err = .runtimeError
      · simp only [if_pos hr]
        refine ⟨fun x' v' n' c' he => by simp at he, fun v' n' c' he => by simp at he,
          fun err' he => ?_⟩
        simp only [Option.some.injEq, Ended.raised.injEq] at he
        exact ⟨he ▸ hr, trivial⟩
      · rw [if_neg hr] at hF; cases hF

/-- C43. The status is the name of the constant that NLopt returned: each of the constants 1 to 6 and -1 to -5 has a
name, no two have the same, and the positive ones are those that report success or a limit. -/
theorem C43_status (c : Int) : ((∃ s, nloptStatus c = .ok s) ↔ -5 ≤ c ∧ c ≤ 6 ∧ c ≠ 0) ∧
    (∀ s c', nloptStatus c = .ok s → nloptStatus c' = .ok s → c = c') ∧
    (∀ s, nloptStatus c = .ok s → (0 < c ↔ s = "NLOPT_SUCCESS" ∨ "_REACHED".toList <:+ s.toList)) := by
  have key : ∀ c s, nloptStatus c = .ok s ↔ nloptResults.get? c = some s := by
    intro c s
    unfold nloptStatus Dict.getE
    cases nloptResults.get? c <;> simp
  have hmem : ∀ c s, nloptResults.get? c = some s ↔ (c, s) ∈ nloptResults := by
    intro c s
    exact ⟨Dict.mem_of_get?, Dict.get?_of_mem (by decide +kernel)⟩
  refine ⟨?_, ?_, ?_⟩
  · constructor
    · rintro ⟨s, hs⟩
      rw [key, hmem] at hs
      have := (by decide +kernel : ∀ p ∈ nloptResults, -5 ≤ p.1 ∧ p.1 ≤ 6 ∧ p.1 ≠ 0) _ hs
      exact this
    · rintro ⟨h1, h2, h3⟩
      have : c ∈ [-5, -4, -3, -2, -1, 1, 2, 3, 4, 5, 6] := by
        simp only [List.mem_cons, List.not_mem_nil, or_false]; omega
      simp only [List.mem_cons, List.not_mem_nil, or_false] at this
      rcases this with rfl | rfl | rfl | rfl | rfl | rfl | rfl | rfl | rfl | rfl | rfl <;> exact ⟨_, rfl⟩
  · intro s c' h1 h2
    rw [key, hmem] at h1 h2
    exact (by decide +kernel : ∀ p ∈ nloptResults, ∀ q ∈ nloptResults, p.2 = q.2 → p.1 = q.1) _ h1 _ h2 rfl
  · intro s h1
    rw [key, hmem] at h1
    exact (by decide +kernel : ∀ p ∈ nloptResults,
      (0 < p.1 ↔ p.2 = "NLOPT_SUCCESS" ∨ "_REACHED".toList <:+ p.2.toList)) _ h1

/-- C43. The gradient that automatic differentiation computes reaches NLopt unchanged; one number is copied to all
places, and any other length raises. -/
theorem C43_automatic_gradient (o : Optimizer R) (ad : GradFunc R) {a : SolveArgs R} (ha : a.grad = "AD")
    {C C' : Diagram R} {x : List R} {v : List (Num R)} (h : ad C x = (C', .ok v)) :
    (v.length = x.length → o.gradFunc ad a C x = (C', .ok v)) ∧
    (∀ y, v = [y] → o.gradFunc ad a C x = (C', .ok (x.map fun _ => y))) ∧
    (v.length ≠ x.length → v.length ≠ 1 → o.gradFunc ad a C x = (C', .error .valueError)) := by
  have e : o.gradFunc ad a C x = (C', gradAutograd (fun _ => .ok v) x (List.replicate x.length (some 0))) := by
    unfold gradFunc
    rw [if_pos ha, h]
  rw [e]
  unfold gradAutograd
  refine ⟨fun hl => ?_, fun y hy => ?_, fun h1 h2 => ?_⟩
  · simp [hl]
  · subst hy
    by_cases hl : ([y] : List (Num R)).length = (List.replicate x.length (some (0 : R))).length
    · simp only [if_pos hl]
      have h1 : x.length = 1 := by simpa using hl.symm
      obtain ⟨z, rfl⟩ := List.length_eq_one_iff.1 h1
      rfl
    · simp [List.map_const']
      intro h1
      exact absurd (by simpa using h1) hl
  · have hl : v.length ≠ (List.replicate x.length (some (0 : R))).length := by simpa using h1
    simp only [if_neg hl]
    split
    · simp at h2
    · rfl

example : nloptStatus (-4) = .ok "NLOPT_ROUNDOFF_LIMITED" ∧ nloptStatus 0 = .error .keyError := ⟨rfl, rfl⟩

/-- A gradient of two numbers. -/
example (o : Optimizer R) (D : Diagram R) (a b : R) :
    o.gradFunc (fun C x => (C, .ok (x.map fun y => some (2 * y)))) ⟨"SLSQP", "AD", 1, 0, 0, 0, 1, 0⟩ D [a, b] =
      (D, .ok [some (2 * a), some (2 * b)]) :=
  (C43_automatic_gradient o _ rfl rfl).1 rfl

/-- **C43, partial.**  The form realizes the reported optimum if NLopt returns the point at which
it called the objective last, and if it stopped with `RoundoffLimited`.  (Missing: NLopt may
return an earlier point, see `C43_claim_false`; on `RuntimeError` nothing is reported, see
`C43_attributes`.) -/
theorem C43_realizes_partial {o : Optimizer R} {h : List (RegOp (Param R))} (hh : HasHistory o h)
    {D : Diagram R} (I : ValidInput D) (old : Attrs R) (nlopt : Problem R → Run R) (ad : GradFunc R)
    (tol : R) (a : SolveArgs R) (F : Diagram R)
    (hF : (o.solve old nlopt ad tol a D).form = .ok F)
    (hlast : ∀ p, EndsAtLast none (nlopt p))
    (hend : ∀ err, (o.solve old nlopt ad tol a D).ended ≠ some (.raised err)) :
    ∃ x, (o.solve old nlopt ad tol a D).attrs.xOpt = some x ∧ Realizes o.parameters tol D x F := by
  obtain ⟨a1, a2, _⟩ := C43_attributes o old nlopt ad tol a D F hF
  have hcall := C43_last_call hh I old nlopt ad tol a F hF
  rcases solve_cases o old nlopt ad tol a D with ⟨err, e⟩ | ⟨x, bounds, hx, hb, e⟩
  · rw [e] at hF; cases hF
  · obtain ⟨h1, h2, h3, h4⟩ := optimize_fields o old (o.gradFunc ad a) tol a
      (nlopt ⟨a.algorithm, o.parameters.length, bounds, a.iters, a.eps, a.kappa, x⟩) D
    rw [← e] at h1 h2 h3 h4
    cases he : (exec (o.optimizeForm a.tmax a.eta) (o.gradFunc ad a)
      (nlopt ⟨a.algorithm, o.parameters.length, bounds, a.iters, a.eps, a.kappa, x⟩) D D []).2 with
    | raised err => rw [he] at h3; exact absurd h3 (hend err)
    | done y v n c =>
      rw [he] at h3
      obtain ⟨status, dv, _, ha⟩ := a1 y v n c h3
      have hy := exec_last (f := o.optimizeForm a.tmax a.eta) (g := o.gradFunc ad a)
        (hlast ⟨a.algorithm, o.parameters.length, bounds, a.iters, a.eps, a.kappa, x⟩) D D [] rfl
        y v n c he
      rw [← h2] at hy
      refine ⟨y, by rw [ha], ?_⟩
      rcases hcall with ⟨hp, _⟩ | ⟨z, zs, hp, hR⟩
      · rw [hp] at hy; cases hy
      · rw [hp] at hy; cases hy; exact hR
    | roundoff v n c =>
      rw [he] at h3
      obtain ⟨y, status, dv, _, hy, ha⟩ := a2 v n c h3
      refine ⟨y, by rw [ha], (o.solve old nlopt ad tol a D).topology, ?_, h4 F hF⟩
      refine Carries.frame ?_ (carries_read hh.nodup hh.nonneg hy)
      rw [h1]
      exact exec_same o a.tmax a.eta _ _ D D []

/-! ## C44 -/

/-- **C44.**  As long as NLopt is not started, neither the diagram nor the attributes change, the
objective is not called, and an error is raised. -/
theorem C44_not_started (o : Optimizer R) (old : Attrs R) (nlopt : Problem R → Run R)
    (ad : GradFunc R) (tol : R) (a : SolveArgs R) (D : Diagram R)
    (hn : (o.solve old nlopt ad tol a D).ended = none) :
    (o.solve old nlopt ad tol a D).topology = D ∧ (o.solve old nlopt ad tol a D).attrs = old ∧
    (o.solve old nlopt ad tol a D).points = [] ∧
    ∃ err, (o.solve old nlopt ad tol a D).form = .error err := by
  rcases solve_cases o old nlopt ad tol a D with ⟨err, e⟩ | ⟨x, bounds, hx, hb, e⟩
  · rw [e]; exact ⟨rfl, rfl, rfl, err, rfl⟩
  · rw [e, (optimize_fields o old (o.gradFunc ad a) tol a _ D).2.2.1] at hn
    cases hn

/-- **C44.**  Without parameters, without constraints or with an unknown gradient method, `solve`
raises `ValueError` and NLopt is not started. -/
theorem C44_value_error (o : Optimizer R) (old : Attrs R) (nlopt : Problem R → Run R)
    (ad : GradFunc R) (tol : R) (a : SolveArgs R) (D : Diagram R)
    (hbad : o.parameters = [] ∨ o.constraints = [] ∨ (a.grad ≠ "AD" ∧ a.grad ≠ "FD")) :
    (o.solve old nlopt ad tol a D).ended = none ∧
    (o.solve old nlopt ad tol a D).form = .error .valueError := by
  unfold solve checkSanity
  by_cases hp : o.parameters.length = 0
  · simp [hp]
  · by_cases hc : o.constraints.length = 0
    · simp [hp, hc]
    · rcases hbad with h | h | h
      · simp [h] at hp
      · simp [h] at hc
      · simp [hp, hc, h]

/-- **C44.**  An unknown algorithm raises `KeyError` without starting NLopt, if the problem is
well posed otherwise. -/
theorem C44_unknown_algorithm [IsStrictOrderedRing R] {o : Optimizer R} {h : List (RegOp (Param R))} (hh : HasHistory o h)
    (old : Attrs R) (nlopt : Problem R → Run R) (ad : GradFunc R) (tol : R) (a : SolveArgs R)
    (D : Diagram R) (hp : o.parameters ≠ []) (hc : o.constraints ≠ [])
    (hg : a.grad = "AD" ∨ a.grad = "FD") (n : Nat) (hseg : InitialSegment h n)
    (hD : ∀ k p, Registered h k p → HasSlot D p.slot)
    (ha : a.algorithm ∉ ["SLSQP", "MMA", "LBFGS", "TNEWTON", "VAR", "AUGLAG"]) :
    (o.solve old nlopt ad tol a D).ended = none ∧
    (o.solve old nlopt ad tol a D).form = .error .keyError := by
  have e1 : o.optimizationParameters D = (runOps Optimizer.empty h).optimizationParameters D := by
    unfold optimizationParameters
    rw [hh]
  have e2 : o.optimizationBounds D = (runOps Optimizer.empty h).optimizationBounds D := by
    unfold optimizationBounds
    rw [hh]
  obtain ⟨x, bs, hx, hb, _⟩ := C37_vector h D hD n hseg
  rw [← e1] at hx
  rw [← e2] at hb
  have hp' : o.parameters.length ≠ 0 := by simpa using hp
  have hc' : o.constraints.length ≠ 0 := by simpa using hc
  have hg' : ¬ (a.grad ≠ "AD" ∧ a.grad ≠ "FD") := by
    rintro ⟨h1, h2⟩
    rcases hg with hg | hg
    · exact h1 hg
    · exact h2 hg
  have hs : o.checkSanity = .ok () := by simp [checkSanity, hp', hc']
  have ha' : a.algorithm ∉ nloptAlgorithms := ha
  unfold solve
  rw [hs]
  simp only
  rw [if_neg hg', hx, hb]
  simp only
  rw [if_pos ha']
  exact ⟨rfl, rfl⟩

/-! ## C49 -/

/-- **C49, frame.**  However NLopt and the gradients behave and however the call ends, nothing of
the diagram changes except the numbers at the places of the registered parameters. -/
theorem C49_frame {o : Optimizer R} {h : List (RegOp (Param R))} (hh : HasHistory o h)
    (old : Attrs R) (nlopt : Problem R → Run R) (ad : GradFunc R) (tol : R) (a : SolveArgs R)
    (D : Diagram R) :
    SameExcept (fun s => ∃ k p, Registered h k p ∧ p.slot = s) D
      (o.solve old nlopt ad tol a D).topology := by
  have key : SameExcept (fun s => ∃ q ∈ o.parameters, q.2.slot = s) D
      (o.solve old nlopt ad tol a D).topology := by
    rcases solve_cases o old nlopt ad tol a D with ⟨err, e⟩ | ⟨x, bounds, hx, hb, e⟩
    · rw [e]; exact SameExcept.refl _ _
    · rw [e, (optimize_fields o old (o.gradFunc ad a) tol a _ D).1]
      exact exec_same o a.tmax a.eta _ _ D D []
  rw [hh] at key
  exact key.mono fun _ ⟨q, hq, e⟩ =>
    ⟨q.1, q.2, ((regInv h).get _ _).1 (Dict.get?_of_mem (regInv h).nodup hq), e⟩

/-- **C49, ready.**  The diagram stays ready for form finding, and the returned form is its
equilibrium. -/
theorem C49_ready {o : Optimizer R} {h : List (RegOp (Param R))} (hh : HasHistory o h)
    (old : Attrs R) (nlopt : Problem R → Run R) (ad : GradFunc R) (tol : R) (a : SolveArgs R)
    {D : Diagram R} (I : ValidInput D) :
    ValidInput (o.solve old nlopt ad tol a D).topology ∧
    ∀ F, (o.solve old nlopt ad tol a D).form = .ok F →
      staticEquilibrium (o.solve old nlopt ad tol a D).topology none 100 tol false = .ok F := by
  refine ⟨validInput_same (C49_frame hh old nlopt ad tol a D) I, fun F hF => form_of_topology hF⟩

/-- **C49, bounds.**  If NLopt calls the objective only within the bounds it is given, and does so
at least once, then after a call that returned a form every parameter's value in the diagram is
within the parameter's bounds.  (If two parameters share a place, this concerns the last one.) -/
theorem C49_bounds {o : Optimizer R} {h : List (RegOp (Param R))} (hh : HasHistory o h)
    {D : Diagram R} (I : ValidInput D) (old : Attrs R) (nlopt : Problem R → Run R) (ad : GradFunc R)
    (tol : R) (a : SolveArgs R) (F : Diagram R)
    (hF : (o.solve old nlopt ad tol a D).form = .ok F)
    (hn : ∀ p, Only (WithinBounds p.bounds) (nlopt p))
    (hp : (o.solve old nlopt ad tol a D).points ≠ []) (k : Int) (p : Param R)
    (hr : Registered h k p) (hlast : ∀ j q, Registered h j q → q.slot = p.slot → j ≤ k) :
    ∃ low up v, p.boundLow D = .ok low ∧ p.boundUp D = .ok up ∧
      HoldsAt (o.solve old nlopt ad tol a D).topology p.slot v ∧
      low ≤ (v : WithBot R) ∧ (v : WithTop R) ≤ up := by
  have hA := topology_at hh I old nlopt ad tol a F hF
  have i := regInv h
  obtain ⟨l1, l2, e⟩ := List.append_of_mem (Dict.mem_of_get? ((i.get k p).2 hr))
  have hl2 : ∀ q ∈ l2, q.2.slot ≠ p.slot := by
    intro q hq hs
    have hreg : Registered h q.1 q.2 :=
      (i.get _ _).1 (Dict.get?_of_mem i.nodup (by rw [e]; simp [hq]))
    have h1 := hlast q.1 q.2 hreg hs
    have hsort := i.sorted
    rw [e] at hsort
    simp only [Dict.keys, List.map_append, List.map_cons, List.pairwise_append,
      List.pairwise_cons] at hsort
    have := hsort.2.1.1 q.1 (List.mem_map.2 ⟨q, hq, rfl⟩)
    omega
  rw [← hh] at e
  rcases solve_cases o old nlopt ad tol a D with ⟨err, es⟩ | ⟨x, bounds, hx, hb, es⟩
  · rw [es] at hF; cases hF
  · have h2 := (optimize_fields o old (o.gradFunc ad a) tol a
      (nlopt ⟨a.algorithm, o.parameters.length, bounds, a.iters, a.eps, a.kappa, x⟩) D).2.1
    rw [← es] at h2
    have honly := exec_only (f := o.optimizeForm a.tmax a.eta) (g := o.gradFunc ad a)
      (hn ⟨a.algorithm, o.parameters.length, bounds, a.iters, a.eps, a.kappa, x⟩) D D [] (by simp)
    rw [← h2] at honly
    cases hpt : (o.solve old nlopt ad tol a D).points with
    | nil => exact absurd hpt hp
    | cons y ys =>
      rw [hpt] at hA honly
      obtain ⟨v, hv, hat⟩ := (show Carries _ _ _ _ from hA).holds l1 k p l2 e hl2
      have hw : WithinBounds bounds y := honly y (by simp)
      obtain ⟨b, hb1, hb2⟩ := (assemble_inv _ _ _ _ hh.nodup hh.nonneg hb).2.1 k p (by rw [e]; simp)
      obtain ⟨hl, hb2⟩ := List.getElem?_eq_some_iff.1 hb2
      obtain ⟨hl', hv⟩ := List.getElem?_eq_some_iff.1 hv
      have hvb := List.Forall₂.get hw hl hl'
      simp only [List.get_eq_getElem, hb2, hv] at hvb
      cases hlow : p.boundLow D with
      | error err => rw [hlow] at hb1; cases hb1
      | ok low =>
        rw [hlow] at hb1
        simp only at hb1
        cases hup : p.boundUp D with
        | error err => rw [hup] at hb1; cases hb1
        | ok up =>
          rw [hup] at hb1
          cases hb1
          exact ⟨low, up, v, rfl, rfl, hat, hvb.1, hvb.2⟩

/-! ## The claim of C43 fails -/

/-- **C43, the claim** for a well-behaved NLopt: it returns a point at which it called the
objective, with the least value among these points. -/
def C43_claim : Prop :=
  ∀ (o : Optimizer ℝ) (h : List (RegOp (Param ℝ))) (D : Diagram ℝ) (old : Attrs ℝ)
    (nlopt : Problem ℝ → Run ℝ) (ad : GradFunc ℝ) (tol : ℝ) (a : SolveArgs ℝ) (F : Diagram ℝ)
    (x : List ℝ) (v : ℝ) (n : Nat) (c : Int), HasHistory o h → ValidInput D → 0 < tol →
    (o.solve old nlopt ad tol a D).form = .ok F →
    (o.solve old nlopt ad tol a D).ended = some (.done x (some v) n c) →
    x ∈ (o.solve old nlopt ad tol a D).points →
    (o.optimizeForm a.tmax a.eta D x).2 = .ok (some v) →
    (∀ y ∈ (o.solve old nlopt ad tol a D).points,
      ∃ w, (o.optimizeForm a.tmax a.eta D y).2 = .ok (some w) ∧ v ≤ w) →
    Realizes o.parameters tol D x F

/-- Form finding with numpy leaves the origins in place. -/
theorem numpy_origin {D : Diagram ℝ} (I : ValidInput D) (hd : DirectOnly D) {tmax : Nat}
    (ht : 1 ≤ tmax) {eta : ℝ} (he : 0 ≤ eta) {n : Int} {tr : List Int} (hn : (n, tr) ∈ D.trails)
    {d : NodeData ℝ} (hd' : D.nodes.get? n = some d) :
    ∃ s, npEquilibriumState D tmax eta false = .ok s ∧ s.xyz.get? n = some (some d.pos) := by
  obtain ⟨F, hF⟩ := C20_returns_without_indirect I hd ht he
  obtain ⟨G, hG, _⟩ := C33_direct I hd hF
  obtain ⟨T, N, hT, hN, hg, hlt⟩ := goodSeqs_of_valid I.wf I.trails I.nonempty
  obtain ⟨b0, b1, b2⟩ := npEquilibriumState_cases I hT hN hg tmax eta false
  have hkeep : ∀ j, (nIter D (sched D T N) j).xyz.get? n = some (some d.pos) := by
    intro j
    induction j with
    | zero =>
      show (npInit D).xyz.get? n = _
      unfold npInit
      simp only
      rw [get?_map_val D.nodes (fun d => some d.pos), hd']
      rfl
    | succ j ih =>
      rw [← ih]
      refine ((nproc_kept (D := D) (nxt := nxtK D none) (ind := decide (j > 0)) (sched D T N)
        (nIter D (sched D T N) j)).1 n fun a _ ha => ?_).1
      exact head_not_next I.wf I.trails hn a (nxtK_trail ha)
  cases hs : npEquilibriumState D tmax eta false with
  | error err =>
    unfold staticEquilibriumNumpy at hG
    rw [hs] at hG
    cases hG
  | ok s =>
    refine ⟨s, rfl, ?_⟩
    rcases Nat.lt_trichotomy tmax 1 with h | h | h
    · omega
    · rw [b1 h] at hs
      cases hs
      exact hkeep 1
    · obtain ⟨m, _, _, _, _, he'⟩ := b2 h
      rw [he'] at hs
      by_cases hc : (nDist D (sched D T N) m).gt eta = true
      · rw [if_pos hc] at hs; cases hs
      · rw [if_neg hc] at hs; cases hs; exact hkeep m

namespace SolveEx
open EqEx

/-- One parameter, the X coordinate of the origin `0`; one constraint, the target `(-1, 0, 0)`
for this node. -/
noncomputable def opt : Optimizer ℝ :=
  Optimizer.ofLists [.point 0 ⟨-1, 0, 0⟩ 1] [originNodeXParameter 0 none none]

def history : List (RegOp (Param ℝ)) := [.add (originNodeXParameter 0 none none)]

theorem opt_history : HasHistory opt history := rfl

theorem opt_parameters : opt.parameters = [(0, originNodeXParameter 0 none none)] := rfl
theorem opt_constraints : opt.constraints = [(0, .point 0 ⟨-1, 0, 0⟩ 1)] := rfl

theorem direct_node : ∃ d, direct.nodes.get? 0 = some d ∧ d.pos = ⟨0, 0, 0⟩ := by
  have hq : ∃ d, directQ.nodes.get? 0 = some d ∧ d.pos = ⟨0, 0, 0⟩ := by
    refine ⟨(directQ.nodes.get? 0).get (by decide +kernel), by simp, by decide +kernel⟩
  obtain ⟨d, hd, hp⟩ := hq
  refine ⟨NodeData.map (fun q : ℚ => (q : ℝ)) d, ?_, ?_⟩
  · show (directQ.map _).nodes.get? 0 = _
    rw [map_nodes_get?, hd]
    rfl
  · simp [NodeData.map, Vec.map, hp]

theorem direct_trail : (0, [0, 1, 2]) ∈ direct.trails := by
  show (0, [0, 1, 2]) ∈ directQ.trails
  decide +kernel

/-- A diagram that carries `t` has the origin at `(t, 0, 0)`. -/
theorem origin_of_carries {t : ℝ} {E : Diagram ℝ} (h : Carries opt.parameters direct [t] E) :
    ∃ d, E.nodes.get? 0 = some d ∧ d.pos = ⟨t, 0, 0⟩ := by
  obtain ⟨d, hd, hp⟩ := direct_node
  obtain ⟨v, hv, d', hd', hx⟩ := h.holds [] 0 _ [] opt_parameters (by simp)
  simp only [Int.toNat_zero, List.getElem?_cons_zero, Option.some.injEq] at hv
  subst hv
  obtain ⟨_, _, _, _, hy, hz, _⟩ := h.same.node 0 d d' hd hd'
  rw [opt_parameters] at hy hz
  have hy := hy (by simp [originNodeXParameter])
  have hz := hz (by simp [originNodeXParameter])
  rw [hp] at hy hz
  refine ⟨d', hd', ?_⟩
  obtain ⟨⟨_, _, _⟩, _, _, _, _⟩ := d'
  simp_all

theorem update_ok (t : ℝ) : (opt.updateParameters direct [t]).2 = .ok () := by
  unfold updateParameters
  rw [writeParameters_ok _ _ _ opt_history.nonneg, opt_parameters]
  intro q hq
  simp only [List.mem_singleton] at hq
  subst hq
  obtain ⟨d, hd, _⟩ := direct_node
  exact ⟨by simp, Dict.mem_keys_of_get? hd⟩

theorem objective (D : Diagram ℝ) (h : SameExcept (fun s => ∃ q ∈ opt.parameters, q.2.slot = s) direct D)
    (t : ℝ) : (opt.optimizeForm 100 1 D [t]).2 = .ok (some ((t + 1) ^ 2)) := by
  have hok : (opt.updateParameters D [t]).2 = .ok () := by
    unfold updateParameters
    rw [writeParameters_ok _ _ _ opt_history.nonneg, opt_parameters]
    intro q hq
    simp only [List.mem_singleton] at hq
    subst hq
    obtain ⟨d, hd, _⟩ := direct_node
    exact ⟨by simp, (h.hasSlot _).2 (Dict.mem_keys_of_get? hd)⟩
  have hc : Carries opt.parameters direct [t] (opt.updateParameters D [t]).1 :=
    Carries.frame h (carries_of_write opt_history.nonneg hok)
  obtain ⟨d, hd, hp⟩ := origin_of_carries hc
  obtain ⟨s, hs, hx⟩ := numpy_origin (validInput_same hc.same valid_direct)
    (directOnly_same hc.same directOnly_direct) (show 1 ≤ 100 by norm_num) (zero_le_one (α := ℝ))
    (n := 0) (tr := [0, 1, 2]) (by rw [hc.same.rest.2.2.1]; exact direct_trail) hd
  unfold optimizeForm
  rcases hu : opt.updateParameters D [t] with ⟨D', (e | u)⟩
  · rw [hu] at hok; cases hok
  · rw [hu] at hs
    simp only at hs ⊢
    rw [hs, opt_constraints]
    simp only [Dict.vals, List.map_cons, List.map_nil, calculatePenalty, Constraint.penalty, Dict.getE, hx]
    simp [vectorPenalty, lift2, distSq, hp, Vec.dot]
    ring_nf

/-- The derivative of the objective. -/
noncomputable def gradient : GradFunc ℝ := fun C x => (C, .ok (x.map fun t => some (2 * (t + 1))))

/-- NLopt tries 0, then 5, and is stopped by the limit on the number of evaluations.  It returns
the better point. -/
noncomputable def run : Run ℝ :=
  .eval [0] true fun v _ => .eval [5] true fun w _ =>
    match v, w with
    | some v, some w => if w < v then .done [5] (some w) 2 5 else .done [0] (some v) 2 5
    | _, _ => .raised .valueError

noncomputable def args : SolveArgs ℝ := ⟨"SLSQP", "AD", 2, 0, 0, 1, 100, 1⟩

def noAttrs : Attrs ℝ := ⟨none, none, none, none, none⟩

theorem run_exec : ∃ D C, exec (opt.optimizeForm 100 1) (opt.gradFunc gradient args) run direct direct [] =
    ((D, C, [[5], [0]]), .done [0] (some 1) 2 5) ∧ Carries opt.parameters direct [5] D := by
  have hg : ∀ C (t : ℝ), opt.gradFunc gradient args C [t] = (C, .ok [some (2 * (t + 1))]) := by
    intro C t
    simp [gradFunc, args, gradient, gradAutograd]
  have h0 := objective direct (SameExcept.refl _ _) 0
  have s0 := optimizeForm_same opt 100 1 direct [0]
  rcases e0 : opt.optimizeForm 100 1 direct [0] with ⟨D1, r1⟩
  rw [e0] at h0 s0
  simp only at h0 s0
  have h5 := objective D1 s0 5
  have c5 := optimizeForm_carries opt_history.nonneg h5
  rcases e5 : opt.optimizeForm 100 1 D1 [5] with ⟨D2, r2⟩
  rw [e5] at h5 c5
  simp only at h5 c5
  refine ⟨D2, direct, ?_, Carries.frame s0 c5⟩
  unfold run
  simp only [exec, e0, e5, h0, h5, hg]
  norm_num [exec]

theorem history_has : ∀ k p, Registered history k p → HasSlot direct p.slot := by
  intro k p hr
  have hm := Dict.mem_of_get? (((regInv history).get k p).2 hr)
  rw [← opt_history, opt_parameters] at hm
  simp only [List.mem_singleton, Prod.mk.injEq] at hm
  rw [hm.2]
  obtain ⟨d, hd, _⟩ := direct_node
  exact Dict.mem_keys_of_get? hd

theorem history_segment : InitialSegment history 1 := by
  intro k
  rw [← mem_keys_registered]
  show (k : Int) ∈ [(0 : Int)] ↔ _
  simp

theorem opt_reads : ∃ x bs, opt.optimizationParameters direct = .ok x ∧
    opt.optimizationBounds direct = .ok bs ∧ opt.checkSanity = .ok () := by
  obtain ⟨x, bs, hx, hb, _⟩ := C37_vector history direct history_has 1 history_segment
  exact ⟨x, bs, hx, hb, by simp [checkSanity, opt_parameters, opt_constraints]⟩

theorem solve_eq (run : Run ℝ) (tol : ℝ) : opt.solve noAttrs (fun _ => run) gradient tol args direct =
    opt.optimize noAttrs (opt.gradFunc gradient args) tol args run direct := by
  obtain ⟨x, bs, hx, hb, hs⟩ := opt_reads
  unfold solve
  rw [hs]
  simp only
  rw [if_neg (by simp [args]), hx, hb]
  simp only
  rw [if_neg (by simp [args, nloptAlgorithms])]

theorem solved : ∃ D F dv, Carries opt.parameters direct [5] D ∧
    staticEquilibrium D none 100 1 false = .ok F ∧
    opt.solve noAttrs (fun _ => run) gradient 1 args direct =
      ⟨D, ⟨some [0], some (some 1), some 2, some "NLOPT_ITERSMAX_REACHED", some dv⟩, [[5], [0]],
        some (.done [0] (some 1) 2 5), .ok F⟩ := by
  obtain ⟨D, C, he, hc⟩ := run_exec
  obtain ⟨F, hF⟩ := C20_returns_without_indirect (validInput_same hc.same valid_direct)
    (directOnly_same hc.same directOnly_direct) (show 1 ≤ 100 by norm_num) (zero_le_one (α := ℝ))
  refine ⟨D, F, [some (2 * (0 + 1))], hc, hF, ?_⟩
  rw [solve_eq]
  unfold optimize
  have ha : args.tmax = 100 ∧ args.eta = 1 := ⟨rfl, rfl⟩
  rw [ha.1, ha.2, he]
  simp only [finish]
  have hst : nloptStatus 5 = .ok "NLOPT_ITERSMAX_REACHED" := by decide +kernel
  rw [hst]
  simp [gradFunc, args, gradient, gradAutograd, hF]

/-- A run that stops at its first point. -/
noncomputable def run5 : Run ℝ := .eval [5] true fun v _ => .done [5] v 1 1

/-- The hypotheses of `C43_last_call`, `C43_attributes`, `C43_realizes_partial`, `C49_frame` and
`C49_ready` hold of this run. -/
theorem solved5 : ∃ D F dv, Carries opt.parameters direct [5] D ∧
    opt.solve noAttrs (fun _ => run5) gradient 1 args direct =
      ⟨D, ⟨some [5], some (some 36), some 1, some "NLOPT_SUCCESS", some dv⟩, [[5]],
        some (.done [5] (some 36) 1 1), .ok F⟩ := by
  have hg : ∀ C (t : ℝ), opt.gradFunc gradient args C [t] = (C, .ok [some (2 * (t + 1))]) := by
    intro C t
    simp [gradFunc, args, gradient, gradAutograd]
  have h5 := objective direct (SameExcept.refl _ _) 5
  have c5 := optimizeForm_carries opt_history.nonneg h5
  rcases e5 : opt.optimizeForm 100 1 direct [5] with ⟨D, r⟩
  rw [e5] at h5 c5
  simp only at h5 c5
  obtain ⟨F, hF⟩ := C20_returns_without_indirect (validInput_same c5.same valid_direct)
    (directOnly_same c5.same directOnly_direct) (show 1 ≤ 100 by norm_num) (zero_le_one (α := ℝ))
  refine ⟨D, F, [some (2 * (5 + 1))], c5, ?_⟩
  rw [solve_eq]
  unfold optimize run5
  have hst : nloptStatus 1 = .ok "NLOPT_SUCCESS" := by decide +kernel
  have ha : args.tmax = 100 ∧ args.eta = 1 := ⟨rfl, rfl⟩
  rw [ha.1, ha.2]
  simp only [exec, e5, h5, hg, if_true, finish, hst, hF]
  norm_num

example : ∃ F x, (opt.solve noAttrs (fun _ => run5) gradient 1 args direct).form = .ok F ∧
    (opt.solve noAttrs (fun _ => run5) gradient 1 args direct).attrs.xOpt = some x ∧
    Realizes opt.parameters 1 direct x F := by
  obtain ⟨D, F, dv, hc, hS⟩ := solved5
  obtain ⟨x, h1, h2⟩ := C43_realizes_partial opt_history valid_direct noAttrs (fun _ => run5)
    gradient 1 args F (by rw [hS]) (fun _ => .eval _ _ _ _ fun _ _ => .done _ _ _ _)
    (by rw [hS]; simp)
  exact ⟨F, x, by rw [hS], h1, h2⟩

/-- The best point was not the last one, but the last one decides. -/
example : ∃ F, (opt.solve noAttrs (fun _ => run) gradient 1 args direct).form = .ok F ∧
    (opt.solve noAttrs (fun _ => run) gradient 1 args direct).attrs.xOpt = some [0] ∧
    Realizes opt.parameters 1 direct [5] F := by
  obtain ⟨D, F, dv, hc, hF, hS⟩ := solved
  rcases C43_last_call opt_history valid_direct noAttrs (fun _ => run) gradient 1 args F
    (by rw [hS]) with ⟨h, _⟩ | ⟨y, ys, h, hR⟩
  · rw [hS] at h; cases h
  · rw [hS] at h; cases h; exact ⟨F, by rw [hS], by rw [hS], hR⟩

/-- NLopt tries `5` if that is within the bounds. -/
noncomputable def runWithin (p : Problem ℝ) : Run ℝ := by
  classical exact if WithinBounds p.bounds [5] then run5 else .raised .valueError

theorem only_runWithin (p : Problem ℝ) : Only (WithinBounds p.bounds) (runWithin p) := by
  unfold runWithin
  split_ifs with h
  · exact .eval _ _ _ h fun _ _ => .done _ _ _ _
  · exact .raised _

example : (∃ low up v, (originNodeXParameter 0 none none : Param ℝ).boundLow direct = .ok low ∧
      (originNodeXParameter 0 none none : Param ℝ).boundUp direct = .ok up ∧
      HoldsAt (opt.solve noAttrs runWithin gradient 1 args direct).topology (.node 0 .x) v ∧
      low ≤ (v : WithBot ℝ) ∧ (v : WithTop ℝ) ≤ up) := by
  have hb : opt.optimizationBounds direct = .ok [(⊥, ⊤)] := by
    unfold optimizationBounds
    rw [opt_parameters]
    simp [assemble, Param.boundLow, Param.boundUp, originNodeXParameter, npSet, npIndex]
  have hw : WithinBounds [((⊥ : WithBot ℝ), (⊤ : WithTop ℝ))] [5] :=
    .cons ⟨bot_le, le_top⟩ .nil
  have heq : opt.solve noAttrs runWithin gradient 1 args direct =
      opt.solve noAttrs (fun _ => run5) gradient 1 args direct := by
    obtain ⟨x, bs, hx, hb', hs⟩ := opt_reads
    rw [hb] at hb'
    cases hb'
    rw [solve_eq]
    unfold solve
    rw [hs]
    simp only
    rw [if_neg (by simp [args]), hx, hb]
    simp only
    rw [if_neg (by simp [args, nloptAlgorithms])]
    unfold runWithin
    rw [if_pos hw]
  obtain ⟨D, F, dv, hc, hS⟩ := solved5
  rw [← heq] at hS
  exact C49_bounds opt_history valid_direct noAttrs runWithin gradient 1 args F (by rw [hS])
    only_runWithin (by rw [hS]; simp) 0 _
    (((regInv history).get _ _).1 (by rw [← opt_history, opt_parameters]; rfl))
    (fun j q hr _ => by
      have hm := Dict.mem_of_get? (((regInv history).get j q).2 hr)
      rw [← opt_history, opt_parameters] at hm
      simp only [List.mem_singleton, Prod.mk.injEq] at hm
      exact hm.1.le)

/-- A `RuntimeError` of NLopt: a form is returned, and nothing is reported. -/
example : ∃ F, (opt.solve noAttrs (fun _ => .raised .runtimeError) gradient 1 args direct).form = .ok F ∧
    (opt.solve noAttrs (fun _ => .raised .runtimeError) gradient 1 args direct).attrs = noAttrs := by
  obtain ⟨F, hF⟩ := C20_returns_without_indirect valid_direct directOnly_direct
    (show 1 ≤ 100 by norm_num) (zero_le_one (α := ℝ))
  have hf : (opt.solve noAttrs (fun _ => .raised .runtimeError) gradient 1 args direct).form = .ok F := by
    rw [solve_eq]
    simp [optimize, exec, hF]
  exact ⟨F, hf, ((C43_attributes opt noAttrs _ gradient 1 args direct F hf).2.2 .runtimeError
    (by rw [solve_eq]; simp [optimize, exec])).2⟩

/-- Unknown names. -/
example : (opt.solve noAttrs (fun _ => run) gradient 1 { args with grad := "ad" } direct).form =
    .error .valueError :=
  (C44_value_error opt noAttrs _ gradient 1 _ direct (Or.inr (Or.inr (by decide)))).2
example : (opt.solve noAttrs (fun _ => run) gradient 1 { args with algorithm := "slsqp" } direct).form =
    .error .keyError ∧
    (opt.solve noAttrs (fun _ => run) gradient 1 { args with algorithm := "slsqp" } direct).topology =
      direct := by
  have h := C44_unknown_algorithm opt_history noAttrs (fun _ => run) gradient 1
    { args with algorithm := "slsqp" } direct (by simp [opt_parameters]) (by simp [opt_constraints])
    (Or.inl rfl) 1 history_segment history_has (by decide)
  exact ⟨h.2, (C44_not_started _ _ _ _ _ _ _ h.1).1⟩

end SolveEx

/-- **C43.**  The claim fails: the form is the one of the last point, not of the best one. -/
theorem C43_claim_false : ¬ C43_claim := by
  intro hclaim
  obtain ⟨D, F, dv, hc, hF, hS⟩ := SolveEx.solved
  have hself := SameExcept.refl (fun s => ∃ q ∈ SolveEx.opt.parameters, q.2.slot = s) EqEx.direct
  obtain ⟨E, hE, hFE⟩ := hclaim SolveEx.opt SolveEx.history EqEx.direct SolveEx.noAttrs
    (fun _ => SolveEx.run) SolveEx.gradient 1 SolveEx.args F [0] 1 2 5 SolveEx.opt_history
    EqEx.valid_direct zero_lt_one (by rw [hS]) (by rw [hS]) (by rw [hS]; simp)
    (by rw [show (1 : ℝ) = (0 + 1) ^ 2 by norm_num]; exact SolveEx.objective _ hself 0)
    (by
      rw [hS]
      intro y hy
      simp only [List.mem_cons, List.not_mem_nil, or_false] at hy
      rcases hy with rfl | rfl
      · exact ⟨_, SolveEx.objective _ hself 5, by norm_num⟩
      · exact ⟨_, SolveEx.objective _ hself 0, by norm_num⟩)
  obtain ⟨d, hd, hp⟩ := SolveEx.origin_of_carries hc
  obtain ⟨e, he, hq⟩ := SolveEx.origin_of_carries hE
  obtain ⟨d', hd', _, _, _, h1, _⟩ := (C25_keeps_data (validInput_same hc.same EqEx.valid_direct) hF).2.2.1
    0 d hd
  obtain ⟨e', he', _, _, _, h2, _⟩ := (C25_keeps_data (validInput_same hE.same EqEx.valid_direct) hFE).2.2.1
    0 e he
  rw [hd'] at he'
  cases he'
  have h1 := h1 ⟨[0, 1, 2], by rw [hc.same.rest.2.2.1]; exact SolveEx.direct_trail⟩
  have h2 := h2 ⟨[0, 1, 2], by rw [hE.same.rest.2.2.1]; exact SolveEx.direct_trail⟩
  rw [h1, hp, hq] at h2
  simp at h2

end Props
end CEM
