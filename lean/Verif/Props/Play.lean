import Verif.Spec.Play
import Verif.Props.Computed

/-!
# C82: the numerical solver sees fixed functions
-/

set_option linter.unusedSectionVars false
set_option linter.unusedSimpArgs false

namespace CEM
namespace Props
open Diagram Spec Filter Topology Optimizer

section
variable {R : Type}

/-- What `F` returns does not depend on the numbers at the places `S`, and it changes nothing else. -/
def FreeOf {α : Type} (S : Slot → Prop) (D : Diagram R) (F : Diagram R → List R → Diagram R × Except PyErr α) : Prop :=
  ∀ E x, SameExcept S D E → (F E x).2 = (F D x).2 ∧ SameExcept S D (F E x).1

theorem write_outcome {S : Slot → Prop} (x : List R) (l : Dict Int (Param R)) {D E : Diagram R} (h : SameExcept S D E)
    (hS : ∀ q ∈ l, S q.2.slot) : (writeParameters x l E).2 = (writeParameters x l D).2 := by
  induction l generalizing D E with
  | nil => rfl
  | cons q l ih =>
    obtain ⟨k, p⟩ := q
    simp only [writeParameters]
    cases npGet x k with
    | error err => rfl
    | ok v =>
      simp only
      by_cases hp : HasSlot D p.slot
      · obtain ⟨D', hD⟩ := setAttribute_ok v hp
        obtain ⟨E', hE⟩ := setAttribute_ok v ((h.hasSlot _).2 hp)
        rw [hD, hE]
        have mono : ∀ {A B : Diagram R}, A.setAttribute v p.slot = .ok B → SameExcept S A B := fun hA =>
          (sameExcept_setAttribute hA).mono fun s hs => by
            rw [hs]
            exact hS (k, p) (by simp)
        exact ih ((mono hD).symm.trans (h.trans (mono hE))) fun q hq => hS q (by simp [hq])
      · rw [setAttribute_error v hp, setAttribute_error v fun c => hp ((h.hasSlot _).1 c)]

end

section
variable {R : Type} [Field R] [LinearOrder R] [PySqrt R]
variable {o : Optimizer R} {D : Diagram R}

abbrev Places (o : Optimizer R) : Slot → Prop := fun s => ∃ q ∈ o.parameters, q.2.slot = s

theorem objective_free (h0 : ∀ q ∈ o.parameters, 0 ≤ q.1) (w : WF D) (tmax : Nat) (eta : R) :
    FreeOf (Places o) D (o.optimizeForm tmax eta) ∧ ∀ E x, SameExcept (Places o) D E →
      ∀ v, (o.optimizeForm tmax eta E x).2 = .ok v → (o.optimizeForm tmax eta E x).1 = (o.optimizeForm tmax eta D x).1 := by
  have key : ∀ E x, SameExcept (Places o) D E → (o.updateParameters E x).2 = (o.updateParameters D x).2 :=
    fun E x h => write_outcome x _ h fun q hq => ⟨q, hq, rfl⟩
  have both : ∀ E x, SameExcept (Places o) D E → ∀ u, (o.updateParameters E x).2 = .ok u →
      o.updateParameters E x = o.updateParameters D x := by
    intro E x h u hE
    have hD : (o.updateParameters D x).2 = .ok () := by rw [← key E x h, hE]
    have c1 := Spec.Carries.frame h (carries_of_write h0 hE)
    have c2 := carries_of_write h0 hD
    exact Prod.ext (Spec.Carries.unique w.nodesNodup w.edgesNodup c1 c2) (key E x h)
  refine ⟨fun E x h => ⟨?_, h.trans (optimizeForm_same o tmax eta E x)⟩, fun E x h v hv => ?_⟩
  · unfold optimizeForm
    rcases hu : o.updateParameters E x with ⟨E', (e | u)⟩
    · have := key E x h
      rw [hu] at this
      rcases hd : o.updateParameters D x with ⟨D', r⟩
      rw [hd] at this
      simp only at this
      subst this
      rfl
    · rw [← both E x h u (by rw [hu]), hu]
  · rw [optimizeForm_fst, optimizeForm_fst, both E x h () (optimizeForm_ok hv)]

theorem fdLoop_free {S : Slot → Prop} {f : Objective (Diagram R) R} (hf : FreeOf S D f) (h : R) (fx0 : Num R)
    (is : List Nat) (E : Diagram R) (hE : SameExcept S D E) (m : FDArrays R) (grad : List (Num R)) :
    (fdLoop f h fx0 is E m grad).2 = (fdLoop f h fx0 is D m grad).2 ∧
      SameExcept S D (fdLoop f h fx0 is E m grad).1.1 := by
  induction is generalizing E m grad with
  | nil => exact ⟨rfl, hE⟩
  | cons i is ih =>
    simp only [fdLoop]
    cases npGet m.copy i with
    | error err => exact ⟨rfl, hE⟩
    | ok xi =>
      simp only
      cases npSet m.copy i (xi + h) with
      | error err => exact ⟨rfl, hE⟩
      | ok c1 =>
        simp only
        obtain ⟨h1, h2⟩ := hf E c1 hE
        have h3 := (hf D c1 (SameExcept.refl _ _)).2
        rcases hx : f E c1 with ⟨E', r⟩
        rcases hy : f D c1 with ⟨D', r'⟩
        rw [hx, hy] at h1
        rw [hx] at h2
        rw [hy] at h3
        simp only at h1 h2 h3
        subst h1
        cases r with
        | error err => exact ⟨rfl, h2⟩
        | ok fx1 =>
          simp only
          cases npSet grad i (fdQuotient fx0 fx1 h) with
          | error err => exact ⟨rfl, h2⟩
          | ok grad' =>
            simp only
            cases npSet c1 i xi with
            | error err => exact ⟨rfl, h2⟩
            | ok c2 =>
              obtain ⟨g1, g2⟩ := ih E' h2 { m with copy := c2 } grad'
              exact ⟨g1.trans (ih D' h3 { m with copy := c2 } grad').1.symm, g2⟩

theorem gradient_free (h0 : ∀ q ∈ o.parameters, 0 ≤ q.1) (w : WF D) (a : SolveArgs R) :
    FreeOf (Places o) D (o.gradFunc (o.autograd a.tmax a.eta) a) := by
  obtain ⟨hf, hs⟩ := objective_free h0 w a.tmax a.eta
  intro E x h
  obtain ⟨h1, h2⟩ := hf E x h
  unfold gradFunc
  by_cases ha : a.grad = "AD"
  · simp only [if_pos ha]
    unfold Optimizer.autograd
    have h3 := hs E x h
    rcases hx : o.optimizeForm a.tmax a.eta E x with ⟨E', r⟩
    rcases hy : o.optimizeForm a.tmax a.eta D x with ⟨D', r'⟩
    rw [hx, hy] at h1 h3
    rw [hx] at h2
    simp only at h1 h2 h3
    subst h1
    cases r with
    | error err => exact ⟨rfl, h2⟩
    | ok v =>
      obtain rfl := h3 v rfl
      simp only
      cases listE (o.adEntry a.tmax a.eta E' x.length) (List.range x.length) with
      | error err => exact ⟨trivial, h2⟩
      | ok dv => exact ⟨trivial, h2⟩
  · simp only [if_neg ha]
    unfold gradFiniteDifferences
    have h3 := (hf D x (SameExcept.refl _ _)).2
    rcases hx : o.optimizeForm a.tmax a.eta E x with ⟨E', r⟩
    rcases hy : o.optimizeForm a.tmax a.eta D x with ⟨D', r'⟩
    rw [hx, hy] at h1
    rw [hx] at h2
    rw [hy] at h3
    simp only at h1 h2 h3
    subst h1
    cases r with
    | error err => exact ⟨rfl, h2⟩
    | ok fx0 =>
      simp only
      obtain ⟨g1, g2⟩ := fdLoop_free hf a.stepSize fx0 (List.range x.length) E' h2 ⟨x, x⟩
        (List.replicate x.length (some 0))
      exact ⟨g1.trans (fdLoop_free hf a.stepSize fx0 _ D' h3 ⟨x, x⟩ _).1.symm, g2⟩

/-- A run on functions with side effects that cannot be noticed. -/
theorem exec_plays {S : Slot → Prop} {f : Diagram R → List R → Diagram R × Except PyErr (Num R)} {g : GradFunc R}
    (hf : FreeOf S D f) (hg : FreeOf S D g) (r : Run R) (E C : Diagram R) (hE : SameExcept S D E)
    (hC : SameExcept S D C) (xs : List (List R)) :
    ∃ ys, (exec f g r E C xs).1.2.2 = ys.reverse ++ xs ∧ SameExcept S D (exec f g r E C xs).1.1 ∧
      SameExcept S D (exec f g r E C xs).1.2.1 ∧
      Plays (fun x => (f D x).2) (fun x => (g D x).2) r ys (exec f g r E C xs).2 := by
  induction r generalizing E C xs with
  | done x v n c => exact ⟨[], rfl, hE, hC, .done x v n c⟩
  | roundoff v n c => exact ⟨[], rfl, hE, hC, .roundoff v n c⟩
  | raised err => exact ⟨[], rfl, hE, hC, .raised err⟩
  | eval x wants next ih =>
    obtain ⟨f1, f2⟩ := hf E x hE
    obtain ⟨g1, g2⟩ := hg C x hC
    simp only [exec]
    rcases hx : f E x with ⟨E', (err | v)⟩
    · rw [hx] at f1 f2
      exact ⟨[x], rfl, f2, hC, .noValue x wants next err f1.symm⟩
    · rw [hx] at f1 f2
      simp only at f1 f2 ⊢
      cases wants with
      | false =>
        obtain ⟨ys, y1, y2, y3, y4⟩ := ih v [] E' C f2 hC (x :: xs)
        exact ⟨x :: ys, by simpa using y1, y2, y3, .value x next v ys _ f1.symm y4⟩
      | true =>
        rw [if_pos rfl]
        rcases hy : g C x with ⟨C', (err | dv)⟩
        · rw [hy] at g1 g2
          exact ⟨[x], rfl, f2, g2, .noGradient x next v err f1.symm g1.symm⟩
        · rw [hy] at g1 g2
          obtain ⟨ys, y1, y2, y3, y4⟩ := ih v dv E' C' f2 g2 (x :: xs)
          exact ⟨x :: ys, by simpa using y1, y2, y3, .gradient x next v dv ys _ f1.symm g1.symm y4⟩

/-- There is one run. -/
theorem plays_unique {f : List R → Except PyErr (Num R)} {g : List R → Except PyErr (List (Num R))} {r : Run R}
    {xs ys : List (List R)} {e d : Ended R} (h : Plays f g r xs e) (h' : Plays f g r ys d) : xs = ys ∧ e = d := by
  induction h generalizing ys d with
  | done x v n c => cases h'; exact ⟨rfl, rfl⟩
  | roundoff v n c => cases h'; exact ⟨rfl, rfl⟩
  | raised err => cases h'; exact ⟨rfl, rfl⟩
  | value x next v xs e h1 _ ih =>
    cases h' with
    | value _ _ v' _ _ g1 g2 =>
      rw [h1] at g1
      cases g1
      obtain ⟨rfl, rfl⟩ := ih g2
      exact ⟨rfl, rfl⟩
    | noValue _ _ _ err g1 => rw [h1] at g1; cases g1
  | gradient x next v dv xs e h1 h2 _ ih =>
    cases h' with
    | gradient _ _ v' dv' _ _ g1 g2 g3 =>
      rw [h1] at g1
      rw [h2] at g2
      cases g1
      cases g2
      obtain ⟨rfl, rfl⟩ := ih g3
      exact ⟨rfl, rfl⟩
    | noValue _ _ _ err g1 => rw [h1] at g1; cases g1
    | noGradient _ _ _ err g1 g2 => rw [h2] at g2; cases g2
  | noValue x wants next err h1 =>
    cases h' with
    | value _ _ v' _ _ g1 g2 => rw [h1] at g1; cases g1
    | gradient _ _ v' dv' _ _ g1 g2 g3 => rw [h1] at g1; cases g1
    | noValue _ _ _ err g1 => rw [h1] at g1; cases g1; exact ⟨rfl, rfl⟩
    | noGradient _ _ _ err g1 g2 => rw [h1] at g1; cases g1
  | noGradient x next v err h1 h2 =>
    cases h' with
    | gradient _ _ v' dv' _ _ g1 g2 g3 => rw [h2] at g2; cases g2
    | noValue _ _ _ err g1 => rw [h1] at g1; cases g1
    | noGradient _ _ _ err g1 g2 => rw [h2] at g2; cases g2; exact ⟨rfl, rfl⟩

section
variable {h : List (RegOp (Param R))} (hh : HasHistory o h) (w : WF D) (old : Attrs R) (nlopt : Problem R → Run R)
  (tol : R) (a : SolveArgs R)
include hh w

/-- **C82.**  The numerical solver sees fixed functions: value and gradient that it is given at a point are those of
the given diagram, whatever points were asked for before. -/
theorem C82_fixed {e : Ended R} (he : (o.solve old nlopt (o.autograd a.tmax a.eta) tol a D).ended = some e) :
    ∃ x bounds, o.optimizationParameters D = .ok x ∧ o.optimizationBounds D = .ok bounds ∧
      Plays (fun y => (o.optimizeForm a.tmax a.eta D y).2)
        (fun y => (o.gradFunc (o.autograd a.tmax a.eta) a D y).2)
        (nlopt ⟨a.algorithm, o.parameters.length, bounds, a.iters, a.eps, a.kappa, x⟩)
        (o.solve old nlopt (o.autograd a.tmax a.eta) tol a D).points.reverse e := by
  rcases solve_cases o old nlopt (o.autograd a.tmax a.eta) tol a D with ⟨err, e1⟩ | ⟨x, bounds, hx, hb, e1⟩
  · rw [e1] at he; cases he
  · rw [e1] at he ⊢
    obtain ⟨h1, h2, h3, -⟩ := optimize_fields o old (o.gradFunc (o.autograd a.tmax a.eta) a) tol a
      (nlopt ⟨a.algorithm, o.parameters.length, bounds, a.iters, a.eps, a.kappa, x⟩) D
    obtain ⟨ys, y1, -, -, y2⟩ := exec_plays (objective_free hh.nonneg w a.tmax a.eta).1
      (gradient_free hh.nonneg w a)
      (nlopt ⟨a.algorithm, o.parameters.length, bounds, a.iters, a.eps, a.kappa, x⟩) D D (SameExcept.refl _ _)
      (SameExcept.refl _ _) []
    rw [h3] at he
    obtain rfl := Option.some.inj he
    refine ⟨x, bounds, hx, hb, ?_⟩
    rw [h2, y1]
    simpa using y2

/-- **C82.**  The gradient that `solve` reports is the one of the given diagram at the optimum that it reports. -/
theorem C82_reported {F : Diagram R} (hF : (o.solve old nlopt (o.autograd a.tmax a.eta) tol a D).form = .ok F)
    (he : ∀ err, (o.solve old nlopt (o.autograd a.tmax a.eta) tol a D).ended ≠ some (.raised err)) :
    ∃ x dv, (o.solve old nlopt (o.autograd a.tmax a.eta) tol a D).attrs.xOpt = some x ∧
      (o.solve old nlopt (o.autograd a.tmax a.eta) tol a D).attrs.gradient = some dv ∧
      (o.gradFunc (o.autograd a.tmax a.eta) a D x).2 = .ok dv := by
  rcases solve_cases o old nlopt (o.autograd a.tmax a.eta) tol a D with ⟨err, e1⟩ | ⟨x, bounds, hx, hb, e1⟩
  · rw [e1] at hF; cases hF
  · rw [e1] at he hF ⊢
    generalize nlopt ⟨a.algorithm, o.parameters.length, bounds, a.iters, a.eps, a.kappa, x⟩ = run at he hF ⊢
    have hg := gradient_free hh.nonneg w a
    obtain ⟨ys, -, -, y2, -⟩ := exec_plays (objective_free hh.nonneg w a.tmax a.eta).1 hg run D D
      (SameExcept.refl _ _) (SameExcept.refl _ _) []
    have fin : ∀ D' C xs e y v n c, SameExcept (Places o) D C →
        (finish (o.gradFunc (o.autograd a.tmax a.eta) a) tol old D' C xs e y v n c).form = .ok F → ∃ x dv,
        (finish (o.gradFunc (o.autograd a.tmax a.eta) a) tol old D' C xs e y v n c).attrs.xOpt = some x ∧
        (finish (o.gradFunc (o.autograd a.tmax a.eta) a) tol old D' C xs e y v n c).attrs.gradient = some dv ∧
        (o.gradFunc (o.autograd a.tmax a.eta) a D x).2 = .ok dv := by
      intro D' C xs e y v n c hC hf
      unfold finish at hf ⊢
      cases hs : nloptStatus c with
      | error err => rw [hs] at hf; cases hf
      | ok status =>
        rw [hs] at hf
        simp only at hf ⊢
        rcases hd : (o.gradFunc (o.autograd a.tmax a.eta) a C y).2 with err | dv
        · rw [hd] at hf; cases hf
        · exact ⟨y, dv, rfl, rfl, by rw [← (hg C y hC).1, hd]⟩
    revert he hF
    unfold optimize
    rcases hx : exec (o.optimizeForm a.tmax a.eta) (o.gradFunc (o.autograd a.tmax a.eta) a) run D D [] with
      ⟨⟨D', C, xs⟩, (⟨y, v, n, c⟩ | ⟨v, n, c⟩ | err)⟩ <;> intro he hF
    · rw [hx] at y2
      exact fin _ _ _ _ _ _ _ _ y2 hF
    · rw [hx] at y2
      simp only at hF ⊢
      cases hp : o.optimizationParameters D' with
      | error err => rw [hp] at hF; cases hF
      | ok y =>
        rw [hp] at hF
        exact fin _ _ _ _ _ _ _ _ y2 hF
    · simp only at he hF
      by_cases hr : err = .runtimeError
      · simp only [if_pos hr] at he
        exact absurd rfl (he err)
      · rw [if_neg hr] at hF; cases hF

/-- **C82.**  The values that the diagram has at the places of the parameters matter only for the start and the bounds
that the numerical solver is given: if it makes the same calls, points and end are the same, and if it called the
objective at all and came to an end, so is everything else. -/
theorem C82_start {E : Diagram R} (hE : SameExcept (Places o) D E) (run : Run R) :
    let s := o.solve old (fun _ => run) (o.autograd a.tmax a.eta) tol a D
    let t := o.solve old (fun _ => run) (o.autograd a.tmax a.eta) tol a E
    s.ended ≠ none → t.ended ≠ none → s.points = t.points ∧ s.ended = t.ended ∧
      (s.points ≠ [] → (∀ err, s.ended ≠ some (.raised err)) → s = t) := by
  intro s t hs ht
  have es : s = o.optimize old (o.gradFunc (o.autograd a.tmax a.eta) a) tol a run D := by
    rcases solve_cases o old (fun _ => run) (o.autograd a.tmax a.eta) tol a D with ⟨err, e1⟩ | ⟨x, bounds, -, -, e1⟩
    · exact absurd (by simp only [s]; rw [e1]) hs
    · exact e1
  have et : t = o.optimize old (o.gradFunc (o.autograd a.tmax a.eta) a) tol a run E := by
    rcases solve_cases o old (fun _ => run) (o.autograd a.tmax a.eta) tol a E with ⟨err, e1⟩ | ⟨x, bounds, -, -, e1⟩
    · exact absurd (by simp only [t]; rw [e1]) ht
    · exact e1
  have hf := (objective_free hh.nonneg w a.tmax a.eta).1
  have hg := gradient_free hh.nonneg w a
  obtain ⟨ys, y1, -, y2, y3⟩ := exec_plays hf hg run D D (SameExcept.refl _ _) (SameExcept.refl _ _) []
  obtain ⟨zs, z1, -, z2, z3⟩ := exec_plays hf hg run E E hE hE []
  obtain ⟨rfl, hend⟩ := plays_unique y3 z3
  obtain ⟨p1, p2, p3, -⟩ := optimize_fields o old (o.gradFunc (o.autograd a.tmax a.eta) a) tol a run D
  obtain ⟨q1, q2, q3, -⟩ := optimize_fields o old (o.gradFunc (o.autograd a.tmax a.eta) a) tol a run E
  rw [es, et]
  refine ⟨by rw [p2, q2, y1, z1], by rw [p3, q3, hend], fun hne hr => ?_⟩
  rw [p2] at hne
  rw [p3] at hr
  have A1 := exec_at hh.nonneg a.tmax a.eta (o.gradFunc (o.autograd a.tmax a.eta) a) run D D [] (SameExcept.refl _ _) rfl
  have A2 := exec_at hh.nonneg a.tmax a.eta (o.gradFunc (o.autograd a.tmax a.eta) a) run E E [] (SameExcept.refl _ _) rfl
  unfold optimize
  rcases hx : exec (o.optimizeForm a.tmax a.eta) (o.gradFunc (o.autograd a.tmax a.eta) a) run D D [] with
    ⟨⟨D1, C1, xs⟩, e1⟩
  rcases hy : exec (o.optimizeForm a.tmax a.eta) (o.gradFunc (o.autograd a.tmax a.eta) a) run E E [] with
    ⟨⟨D2, C2, xs2⟩, e2⟩
  rw [hx] at y1 y2 hend A1 hne hr
  rw [hy] at z1 z2 hend A2
  simp only at y1 y2 z1 z2 hend A1 A2 hne hr
  obtain rfl : xs = xs2 := y1.trans z1.symm
  subst hend
  have hC : ∀ y, (o.gradFunc (o.autograd a.tmax a.eta) a C1 y).2 = (o.gradFunc (o.autograd a.tmax a.eta) a C2 y).2 :=
    fun y => (hg C1 y y2).1.trans (hg C2 y z2).1.symm
  obtain ⟨y, ys', rfl⟩ := List.exists_cons_of_ne_nil hne
  have same : D1 = D2 := by
    have c1 : Carries o.parameters D y D1 := by
      cases e1 with
      | raised err => exact absurd rfl (hr err)
      | _ => exact A1
    have c2 : Carries o.parameters E y D2 := by
      cases e1 with
      | raised err => exact absurd rfl (hr err)
      | _ => exact A2
    exact Spec.Carries.unique w.nodesNodup w.edgesNodup c1 (Spec.Carries.frame hE c2)
  subst same
  cases e1 with
  | raised err => exact absurd rfl (hr err)
  | done x v n c => simp only [finish, hC]
  | roundoff v n c => simp only [finish, hC]

end
end

section
variable {n : Nat} {k : WithTop ℕ∞} {o : Optimizer ℝ} {h : List (RegOp (Param ℝ))} {D E : Diagram ℝ}
  {F : Nat → Diagram ℝ} {x0 : Fin n → ℝ} {a : SolveArgs ℝ} {m : Nat}

/-- **C82.**  If the optimum that `solve` reports is where no sweep is at a kink and form finding clearly stops, the
gradient that it reports by automatic differentiation has the partial derivatives of the objective. -/
theorem C82_derivative (P : ComputedPoint k o h D E F x0 a.tmax a.eta m) (hk : 1 ≤ k) (ha : a.grad = "AD") :
    ∃ f : (Fin n → ℝ) → ℝ, ContDiffAt ℝ k f x0 ∧
      (∀ᶠ x in 𝓝 x0, (o.optimizeForm a.tmax a.eta D (List.ofFn x)).2 = .ok (some (f x))) ∧
      ∀ old nlopt tol G, (o.solve old nlopt (o.autograd a.tmax a.eta) tol a D).form = .ok G →
        (∀ err, (o.solve old nlopt (o.autograd a.tmax a.eta) tol a D).ended ≠ some (.raised err)) →
        (o.solve old nlopt (o.autograd a.tmax a.eta) tol a D).attrs.xOpt = some (List.ofFn x0) →
        (o.solve old nlopt (o.autograd a.tmax a.eta) tol a D).attrs.gradient =
          some (List.ofFn fun i => some (partialAt f x0 i)) := by
  obtain ⟨f, h1, h2, h3, -⟩ := C81_gradients P hk
  refine ⟨f, h1, h2, fun old nlopt tol G hG he hx => ?_⟩
  obtain ⟨x, dv, e1, e2, e3⟩ := C82_reported P.history P.valid.wf old nlopt tol a hG he
  rw [hx] at e1
  obtain rfl := Option.some.inj e1
  rw [(C43_automatic_gradient o _ ha (h3 D (SameExcept.refl _ _))).1 (by simp)] at e3
  rw [e2, Except.ok.inj e3]

end

/-! ## Example: stopping where the gradient vanishes -/

namespace StaleEx

/-- The default settings. -/
noncomputable def defaults : SolveArgs ℝ := ⟨"SLSQP", "AD", 100, 1 / 1000000, 1 / 100000000, 1 / 1000000, 100, 1 / 1000000⟩

/-- A numerical solver that asks at 0 and stops if the gradient vanishes there, and otherwise tries 1. -/
noncomputable def stationary : Run ℝ :=
  .eval [0] true fun v dv => if dv = [some 0] then .done [0] v 1 1 else .eval [1] false fun w _ => .done [1] w 2 1

/-- It stops, though the exact objective has a slope (`C81_stale`). -/
theorem stale_solved (x : ℝ) (old : Attrs ℝ) : ∃ G,
    staleOpt.solve old (fun _ => stationary) (staleOpt.autograd defaults.tmax defaults.eta) (1 / 1000000) defaults (stale x) =
      ⟨stale 0, ⟨some [0], some (some 1), some 1, some "NLOPT_SUCCESS", some [some 0]⟩, [[0]],
        some (.done [0] (some 1) 1 1), .ok G⟩ := by
  have hd : defaults.tmax = 100 ∧ defaults.eta = 1 / 1000000 ∧ defaults.grad = "AD" := ⟨rfl, rfl, rfl⟩
  obtain ⟨G, hG⟩ : ∃ G, staticEquilibrium (stale 0) none 100 (1 / 1000000) false = .ok G := by
    obtain ⟨St, hb⟩ := staged_of_acyclic (valid_stale 0) (acyclic_stale 0)
    exact C65_returns (valid_stale 0) St (N := 98) (fun n hn => by
      have := hb n hn
      have hl : (stale 0).nodes.length = 6 := rfl
      omega) le_rfl (by norm_num) false
  have hv := stale_value 0 x (by simp) (tmax := 100) (by norm_num) (eta := 1 / 1000000) (by simp)
  have hv0 := stale_value 0 0 (by simp) (tmax := 100) (by norm_num) (eta := 1 / 1000000) (by simp)
  have hx : staleOpt.autograd 100 (1 / 1000000) (stale x) [0] = (stale 0, .ok [some 0]) := by
    have h0 := (C81_stale (tmax := 100) (by norm_num)).1 (1 / 1000000) (by norm_num)
    unfold Optimizer.autograd at h0 ⊢
    rw [hv0] at h0
    rw [hv]
    exact h0
  have h0 := (C81_stale (tmax := 100) (by norm_num)).1 (1 / 1000000) (by norm_num)
  have hslot : ∀ j p, Registered staleHistory j p → HasSlot (stale x) p.slot := fun j p hr =>
    ((same_stale 0 x).hasSlot _).2
      ((stale_computed 1 (tmax := 100) (by norm_num) (eta := 1) (by norm_num)).slots j p hr).2
  have hseg : InitialSegment staleHistory 1 := by
    intro j
    rw [← mem_keys_registered]
    show (j : Int) ∈ [(0 : Int)] ↔ _
    simp
  obtain ⟨y, b, hy, hb, -⟩ := C37_vector staleHistory (stale x) hslot 1 hseg
  have hst : nloptStatus 1 = .ok "NLOPT_SUCCESS" := by decide +kernel
  have hp : staleOpt.parameters = [(0, deviationEdgeParameter (2, 5) none none)] := stale_registered
  refine ⟨G, ?_⟩
  have e : staleOpt.solve old (fun _ => stationary) (staleOpt.autograd defaults.tmax defaults.eta) (1 / 1000000) defaults
      (stale x) = staleOpt.optimize old (staleOpt.gradFunc (staleOpt.autograd 100 (1 / 1000000)) defaults)
        (1 / 1000000) defaults stationary (stale x) := by
    have hc : staleOpt.checkSanity = .ok () := by
      unfold checkSanity
      rw [hp, if_neg (by simp), if_neg]
      intro h
      have := stale_goals
      simp [Dict.vals, List.length_eq_zero_iff.1 h] at this
    have hy' : staleOpt.optimizationParameters (stale x) = .ok y := hy
    have hb' : staleOpt.optimizationBounds (stale x) = .ok b := hb
    unfold solve
    rw [hc, hy', hb']
    simp only
    rw [if_neg (by simp [defaults]), if_neg (by simp [defaults, nloptAlgorithms]), hd.1, hd.2.1]
  rw [e]
  have hgr : ∀ y, staleOpt.autograd 100 (1 / 1000000) (stale y) [0] = (stale 0, .ok [some 0]) →
      staleOpt.gradFunc (staleOpt.autograd 100 (1 / 1000000)) defaults (stale y) [0] = (stale 0, .ok [some 0]) := by
    intro y hy
    exact (C43_automatic_gradient staleOpt _ hd.2.2 hy).1 rfl
  unfold optimize stationary
  rw [hd.1, hd.2.1]
  simp only [exec, hv, hgr x hx, if_true, finish, hst, hgr 0 h0, hG]

end StaleEx

open StaleEx in
/-- What the numerical solver sees. -/
example : ∃ bounds, staleOpt.optimizationBounds (stale 0) = .ok bounds ∧
    Plays (fun y => (staleOpt.optimizeForm 100 (1 / 1000000) (stale 0) y).2)
      (fun y => (staleOpt.gradFunc (staleOpt.autograd 100 (1 / 1000000)) defaults (stale 0) y).2) stationary [[0]]
      (.done [0] (some 1) 1 1) := by
  obtain ⟨G, hG⟩ := stale_solved 0 ⟨none, none, none, none, none⟩
  obtain ⟨x, b, -, hb, h⟩ := C82_fixed (o := staleOpt) (D := stale 0) (h := staleHistory)
    (stale_computed 1 (tmax := 100) (by norm_num) (eta := 1) (by norm_num)).history (valid_stale 0).wf
    ⟨none, none, none, none, none⟩ (fun _ => stationary) (1 / 1000000) defaults (e := .done [0] (some 1) 1 1)
    (by rw [hG])
  rw [hG] at h
  exact ⟨b, hb, h⟩

open StaleEx in
/-- Whatever the force in the given diagram. -/
example (x : ℝ) (hs : SameExcept (Places staleOpt) (stale 0) (stale x)) :
    staleOpt.solve ⟨none, none, none, none, none⟩ (fun _ => stationary)
      (staleOpt.autograd defaults.tmax defaults.eta) (1 / 1000000) defaults (stale 0) =
    staleOpt.solve ⟨none, none, none, none, none⟩ (fun _ => stationary)
      (staleOpt.autograd defaults.tmax defaults.eta) (1 / 1000000) defaults (stale x) := by
  obtain ⟨G, hG⟩ := stale_solved 0 ⟨none, none, none, none, none⟩
  obtain ⟨G', hG'⟩ := stale_solved x ⟨none, none, none, none, none⟩
  have := C82_start (o := staleOpt) (D := stale 0) (h := staleHistory)
    (stale_computed 1 (tmax := 100) (by norm_num) (eta := 1) (by norm_num)).history (valid_stale 0).wf
    ⟨none, none, none, none, none⟩ (1 / 1000000) defaults hs stationary (by rw [hG]; simp) (by rw [hG']; simp)
  exact this.2.2 (by rw [hG]; simp) (by rw [hG]; simp)

open StaleEx in
/-- The reported gradient. -/
example : ∃ f : (Fin 1 → ℝ) → ℝ, ContDiffAt ℝ 1 f ![0] ∧ partialAt f ![0] 0 = 0 := by
  obtain ⟨G, hG⟩ := stale_solved 0 ⟨none, none, none, none, none⟩
  obtain ⟨f, h1, -, h2⟩ := C82_derivative (a := defaults)
    (stale_computed 1 (tmax := 100) (by norm_num) (eta := 1 / 1000000) (by norm_num)) le_rfl rfl
  have := h2 ⟨none, none, none, none, none⟩ (fun _ => stationary) (1 / 1000000) G (by rw [hG]) (by rw [hG]; simp)
    (by rw [hG]; simp)
  rw [hG] at this
  exact ⟨f, h1, by simpa using this.symm⟩

end Props
end CEM
