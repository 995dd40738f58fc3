import Verif.Spec.Numbers
import Verif.Props.NumpyApart
import Verif.Props.GradientNorm

/-!
# When the optimizer cannot see NaN (C93)
-/

set_option linter.unusedSectionVars false
set_option linter.unusedSimpArgs false

namespace CEM
namespace Props
open Diagram Spec Optimizer

theorem getE_number {K A : Type} [DecidableEq K] {d : Dict K A} {d' : Dict K (Option A)}
    (h : ∀ k, d'.get? k = (d.get? k).map some) {k : K} {r : Option A} (hr : d'.getE k = .ok r) :
    ∃ a, r = some a ∧ d.get? k = some a := by
  rw [Dict.getE_eq_ok_iff, h] at hr
  obtain ⟨a, ha, rfl⟩ := Option.map_eq_some_iff.1 hr
  exact ⟨a, rfl, ha⟩

theorem penalty_number {D : Diagram ℝ} {s : EqState ℝ} {s' : NState ℝ} (h : SameNumbers s s') {c : Constraint ℝ}
    (hc : Measured D c)
    (hs : ∀ a b d, EdgeBetween D a b d → d.type = .deviation → ∀ p q, s.xyz.get? a = some p → s.xyz.get? b = some q → p ≠ q) :
    c.penalty s' ≠ .ok none := by
  intro h0
  cases c with
  | point n t w =>
    simp only [Constraint.penalty] at h0
    split at h0
    · cases h0
    · obtain ⟨a, rfl, -⟩ := getE_number h.xyz ‹_›
      simp [vectorPenalty, lift2] at h0
  | plane n t w =>
    simp only [Constraint.penalty] at h0
    split at h0
    · cases h0
    · obtain ⟨a, rfl, -⟩ := getE_number h.xyz ‹_›
      obtain ⟨q, hq, -⟩ := closestOnPlane_least a t.1 hc
      simp [vectorPenalty, lift2, hq] at h0
  | line n t w =>
    simp only [Constraint.penalty] at h0
    split at h0
    · cases h0
    · obtain ⟨a, rfl, -⟩ := getE_number h.xyz ‹_›
      simp [vectorPenalty, lift2] at h0
  | polyline n t w =>
    simp only [Constraint.penalty] at h0
    split at h0
    · cases h0
    · obtain ⟨a, ha, -⟩ := getE_number h.xyz ‹_›
      cases ha
    · split at h0
      · cases h0
      · simp [vectorPenalty, lift2] at h0
  | trailForce e t w =>
    simp only [Constraint.penalty] at h0
    split at h0
    · cases h0
    · obtain ⟨a, rfl, -⟩ := getE_number h.forces ‹_›
      simp [floatPenalty] at h0
  | reaction n t w =>
    simp only [Constraint.penalty] at h0
    split at h0
    · cases h0
    · obtain ⟨a, rfl, -⟩ := getE_number h.reactions ‹_›
      simp [vectorPenalty, lift2] at h0
  | length e t w =>
    simp only [Constraint.penalty, edgeLengthRef] at h0
    cases h1 : s'.xyz.getE e.1 with
    | error err => simp [h1] at h0
    | ok a =>
      cases h2 : s'.xyz.getE e.2 with
      | error err => simp [h1, h2] at h0
      | ok b =>
        obtain ⟨p, rfl, -⟩ := getE_number h.xyz h1
        obtain ⟨q, rfl, -⟩ := getE_number h.xyz h2
        simp [h1, h2, floatPenalty, lift2] at h0
  | direction e t w =>
    simp only [Constraint.penalty, edgeDirection] at h0
    cases h2 : s'.xyz.getE e.2 with
    | error err => simp [h2] at h0
    | ok b =>
      cases h1 : s'.xyz.getE e.1 with
      | error err => simp [h1, h2] at h0
      | ok a =>
        obtain ⟨p, rfl, hp⟩ := getE_number h.xyz h1
        obtain ⟨q, rfl, hq⟩ := getE_number h.xyz h2
        obtain ⟨d, hd, ht⟩ := hc
        have hne := hs _ _ d hd ht p q hp hq
        have hl : PySqrt.sqrt (Vec.dot (q - p) (q - p)) ≠ 0 := by
          intro h3
          exact hne (sub_eq_zero.1 (Vec.length_eq_zero.1 h3)).symm
        simp [h1, h2, lift2, hl, vectorPenalty] at h0

theorem calculatePenalty_number {s : NState ℝ} (cs : List (Constraint ℝ)) (h : ∀ c ∈ cs, c.penalty s ≠ .ok none) (a : ℝ) :
    calculatePenalty s cs (some a) ≠ .ok none := by
  induction cs generalizing a with
  | nil => simp [calculatePenalty]
  | cons c cs ih =>
    intro h0
    simp only [calculatePenalty] at h0
    cases hp : c.penalty s with
    | error err => simp [hp] at h0
    | ok p =>
      cases p with
      | none => exact h c (by simp) hp
      | some b =>
        simp only [hp, lift2] at h0
        exact ih (fun c hc => h c (by simp [hc])) _ h0

/-- A state that the numpy solver hands to the constraints has the numbers of a sweep of the plain solver, and the ends
of deviation edges are apart in it. -/
theorem npState_apart {D : Diagram ℝ} (I : ValidInput D) (hp : NoPlanes D) (hA : KeptApart D) {tmax : Nat} {eta : ℝ}
    {s : NState ℝ} (h : npEquilibriumState D tmax eta false = .ok s) :
    ∃ t : EqState ℝ, SameNumbers t s ∧ ∀ a b d, EdgeBetween D a b d → d.type = .deviation →
      ∀ p q, t.xyz.get? a = some p → t.xyz.get? b = some q → p ≠ q := by
  obtain ⟨T, N, hT, hN, hg, hlt⟩ := goodSeqs_of_valid I.wf I.trails I.nonempty
  have GS := goodSched I.wf I.trails hg none hlt
  obtain ⟨b0, b1, b2⟩ := npEquilibriumState_cases I hT hN hg tmax eta false
  have close : ∀ m, npEquilibriumState D tmax eta false = .ok (nIter D (sched D T N) (m + 1)) →
      ∃ t : EqState ℝ, SameNumbers t s ∧ ∀ a b d, EdgeBetween D a b d → d.type = .deviation →
      ∀ p q, t.xyz.get? a = some p → t.xyz.get? b = some q → p ≠ q := by
    intro m hm
    rw [h] at hm
    obtain rfl := Except.ok.inj hm
    refine ⟨iter D none (sched D T N) (m + 1), ?_, fun a b d hd ht p q hp1 hq1 => ?_⟩
    · rw [nIter_apart I hp hA GS]
      exact sameNumbers_lift _
    · have e1 : (iter D none (sched D T N) (m + 1)).pos a = p := by simp [EqState.pos, hp1]
      have e2 : (iter D none (sched D T N) (m + 1)).pos b = q := by simp [EqState.pos, hq1]
      rw [← e1, ← e2]
      rcases hd with hd | hd
      · exact apart_of_reach I hA hd ht (fun _ _ _ _ => iter_reach I hp GS m) (fun _ _ _ _ => iter_reach I hp GS m)
      · exact (apart_of_reach I hA hd ht (fun _ _ _ _ => iter_reach I hp GS m) (fun _ _ _ _ => iter_reach I hp GS m)).symm
  rcases Nat.lt_or_ge tmax 2 with ht | ht
  · rcases (by omega : tmax = 0 ∨ tmax = 1) with rfl | rfl
    · rw [b0 rfl] at h; cases h
    · exact close 0 (b1 rfl)
  · obtain ⟨m, hm2, _, _, _, hm⟩ := b2 ht
    obtain ⟨j, rfl⟩ : ∃ j, m = j + 1 := ⟨m - 1, by omega⟩
    by_cases hgt : (nDist D (sched D T N) (j + 1)).gt eta = true
    · rw [if_pos hgt] at hm
      rw [hm] at h; cases h
    · rw [if_neg hgt] at hm
      exact close j hm

theorem noPlanes_same {S : Slot → Prop} {D E : Diagram ℝ} (h : SameExcept S D E) (hp : NoPlanes D) : NoPlanes E := by
  intro e d hd ht
  obtain ⟨d0, h0⟩ := (Dict.exists_get?_iff D.edges e).2 (by rw [← h.edgeKeys]; exact Dict.mem_keys_of_get? hd)
  obtain ⟨h1, h2, -⟩ := h.edge e d0 d h0 hd
  rw [h2]
  exact hp e d0 h0 (by rw [← h1]; exact ht)

theorem measured_same {S : Slot → Prop} {D E : Diagram ℝ} (h : SameExcept S D E) {c : Constraint ℝ} (hc : Measured D c) :
    Measured E c := by
  have key : ∀ e d0, D.edges.get? e = some d0 → ∃ d, E.edges.get? e = some d ∧ d.type = d0.type := by
    intro e d0 h0
    obtain ⟨d, hd⟩ := (Dict.exists_get?_iff E.edges e).2 (by rw [h.edgeKeys]; exact Dict.mem_keys_of_get? h0)
    exact ⟨d, hd, (h.edge e d0 d h0 hd).1⟩
  cases c with
  | direction e t w =>
    obtain ⟨d0, h0 | h0, ht⟩ := hc
    · obtain ⟨d, hd, e1⟩ := key _ _ h0
      exact ⟨d, Or.inl hd, e1.trans ht⟩
    · obtain ⟨d, hd, e1⟩ := key _ _ h0
      exact ⟨d, Or.inr hd, e1.trans ht⟩
  | _ => exact hc

/-- Loads and forces do not matter for whether deviation edges are kept apart. -/
theorem keptApart_same {S : Slot → Prop} (hS : ∀ s, S s → ForceSlot s) {D E : Diagram ℝ} (h : SameExcept S D E)
    (hA : KeptApart D) : KeptApart E := by
  have hpos : ∀ n, posOf E n = posOf D n := by
    intro n
    unfold posOf
    by_cases hn : n ∈ D.nodes.keys
    · obtain ⟨d, hd⟩ := (Dict.exists_get?_iff D.nodes n).2 hn
      obtain ⟨d', hd'⟩ := (Dict.exists_get?_iff E.nodes n).2 (by rw [h.nodeKeys]; exact hn)
      obtain ⟨-, -, -, hx, hy, hz, -⟩ := h.node n d d' hd hd'
      rw [hd, hd']
      exact Vec.ext (hx fun hs => hS _ hs) (hy fun hs => hS _ hs) (hz fun hs => hS _ hs)
    · rw [(Dict.get?_eq_none_iff D.nodes n).2 hn, (Dict.get?_eq_none_iff E.nodes n).2 (by rw [h.nodeKeys]; exact hn)]
  have hedge : ∀ e, (E.edges.get? e).map (fun d => |d.length|) = (D.edges.get? e).map (fun d => |d.length|) := by
    intro e
    by_cases he : e ∈ D.edges.keys
    · obtain ⟨d, hd⟩ := (Dict.exists_get?_iff D.edges e).2 he
      obtain ⟨d', hd'⟩ := (Dict.exists_get?_iff E.edges e).2 (by rw [h.edgeKeys]; exact he)
      rw [hd, hd', Option.map_some, Option.map_some, (h.edge e d d' hd hd').2.2.1 fun hs => hS _ hs]
    · rw [(Dict.get?_eq_none_iff D.edges e).2 he, (Dict.get?_eq_none_iff E.edges e).2 (by rw [h.edgeKeys]; exact he)]
  have hlen : ∀ a b, lengthBetween E a b = lengthBetween D a b := by
    intro a b
    have h1 := hedge (a, b)
    have h2 := hedge (b, a)
    unfold lengthBetween
    cases e1 : E.edges.get? (a, b) <;> cases e2 : D.edges.get? (a, b) <;> cases e3 : E.edges.get? (b, a) <;>
      cases e4 : D.edges.get? (b, a) <;> simp_all
  have hwalk : ∀ l, walked E l = walked D l := by
    intro l
    induction l with
    | nil => rfl
    | cons a l ih =>
      cases l with
      | nil => rfl
      | cons b l => simp only [walked, hlen, ih]
  intro e d hd ht ka la qa kb lb qb ha hb
  obtain ⟨d0, h0⟩ := (Dict.exists_get?_iff D.edges e).2 (by rw [← h.edgeKeys]; exact Dict.mem_keys_of_get? hd)
  rw [h.rest.2.2.1] at ha hb
  rw [hwalk, hwalk, hpos, hpos]
  exact hA e d0 h0 (by rw [← (h.edge e d0 d h0 hd).1]; exact ht) ka la qa kb lb qb ha hb

section
variable {o : Optimizer ℝ} {D : Diagram ℝ} (I : ValidInput D) (hp : NoPlanes D)
  (hc : ∀ c ∈ o.constraints.vals, Measured D c)
include I hp hc

/-- **C93.**  If deviation edges are kept apart with the values `x` of the parameters, the objective at `x` is not NaN. -/
theorem C93_objective {h : List (RegOp (Param ℝ))} (hh : HasHistory o h) {x : List ℝ}
    (hA : ∀ E, Carries o.parameters D x E → KeptApart E) (tmax : Nat) (eta : ℝ) :
    (o.optimizeForm tmax eta D x).2 ≠ .ok none := by
  intro h0
  have hE := optimizeForm_carries hh.nonneg h0
  have hu := optimizeForm_ok h0
  rw [optimizeForm_fst] at hE
  have hv := validInput_same hE.same I
  unfold Optimizer.optimizeForm at h0
  rcases hw : o.updateParameters D x with ⟨E, r⟩
  rw [hw] at hE hu hv h0
  simp only at hu
  subst hu
  simp only at h0
  cases hs : npEquilibriumState E tmax eta false with
  | error err => simp [hs] at h0
  | ok s =>
    simp only [hs] at h0
    obtain ⟨t, ht, hd⟩ := npState_apart hv (noPlanes_same hE.same hp) (hA E hE) hs
    exact calculatePenalty_number _ (fun c hm => penalty_number ht (measured_same hE.same (hc c hm)) hd) 0 h0

variable (hA : KeptApart D) (hq : ∀ q ∈ o.parameters, ForceSlot q.2.slot)
include hA hq

/-- **C93.**  If all parameters are loads and forces, this can be seen from the diagram alone: the objective is not NaN
anywhere, whatever was written into the diagram before. -/
theorem C93_never {h : List (RegOp (Param ℝ))} (hh : HasHistory o h) {C : Diagram ℝ}
    (hC : SameExcept (fun s => ∃ q ∈ o.parameters, q.2.slot = s) D C) (tmax : Nat) (eta : ℝ) (x : List ℝ) :
    (o.optimizeForm tmax eta C x).2 ≠ .ok none :=
  C93_objective (validInput_same hC I) (noPlanes_same hC hp) (fun c hm => measured_same hC (hc c hm)) hh
    (fun _ hE => keptApart_same (fun _ ⟨q, hm, e⟩ => e ▸ hq q hm) (hC.trans hE.same) hA) tmax eta

/-- **C93.**  Finite differences do not give NaN. -/
theorem C93_differences {h : List (RegOp (Param ℝ))} (hh : HasHistory o h) {C : Diagram ℝ}
    (hC : SameExcept (fun s => ∃ q ∈ o.parameters, q.2.slot = s) D C) (tmax : Nat) (eta : ℝ) {step : ℝ} (h0 : step ≠ 0)
    (x : List ℝ) {grad g : List (Num ℝ)} (hl : grad.length = x.length)
    (hg : (gradFiniteDifferences (o.optimizeForm tmax eta) step C x grad).2 = .ok g) : none ∉ g := by
  have key : ∀ (ys : List (List ℝ)) (C : Diagram ℝ), SameExcept (fun s => ∃ q ∈ o.parameters, q.2.slot = s) D C →
      ∀ vs, (evalAll (o.optimizeForm tmax eta) C ys).2 = .ok vs → none ∉ vs := by
    intro ys
    induction ys with
    | nil =>
      intro C _ vs hv
      simp only [evalAll, Except.ok.injEq] at hv
      simp [← hv]
    | cons y ys ih =>
      intro C hC vs hv
      have n1 := C93_never I hp hc hA hq hh hC tmax eta y
      have n2 := optimizeForm_same o tmax eta C y
      simp only [evalAll] at hv
      rcases hy : o.optimizeForm tmax eta C y with ⟨C', r⟩
      rw [hy] at n1 n2 hv
      cases r with
      | error err => cases hv
      | ok v =>
        simp only at hv
        rcases hys : evalAll (o.optimizeForm tmax eta) C' ys with ⟨C'', r⟩
        rw [hys] at hv
        cases r with
        | error err => cases hv
        | ok us =>
          simp only [Except.ok.injEq] at hv
          have := ih C' (hC.trans n2) us (by rw [hys])
          rw [← hv]
          simp only [List.mem_cons, not_or]
          exact ⟨fun h => n1 (by rw [← h]), this⟩
  rw [C42_trace _ _ _ _ _ hl] at hg
  have hk := key (x :: (List.range x.length).map fun i => bump x i step) C hC
  rcases he : evalAll (o.optimizeForm tmax eta) C (x :: (List.range x.length).map fun i => bump x i step) with ⟨C', r⟩
  rw [he] at hg hk
  cases r with
  | error err => cases hg
  | ok vs =>
    have hk := hk vs rfl
    cases vs with
    | nil =>
      simp only [Except.ok.injEq] at hg
      simp [← hg]
    | cons f0 fs =>
      simp only [Except.ok.injEq] at hg
      rw [← hg]
      intro hm
      obtain ⟨fi, hfi, h1⟩ := List.mem_map.1 hm
      simp only [List.mem_cons, not_or] at hk
      cases f0 with
      | none => exact hk.1 rfl
      | some a =>
        cases fi with
        | none => exact hk.2 hfi
        | some b => simp [fdQuotient, lift2, h0] at h1

/-- **C93.**  Neither does `solve` report NaN as gradient or as its norm, whatever the numerical solver does. -/
theorem C93_reported {h : List (RegOp (Param ℝ))} (hh : HasHistory o h) (old : Attrs ℝ) (nlopt : Problem ℝ → Run ℝ)
    (tol : ℝ) {a : SolveArgs ℝ} (ha : a.grad ≠ "AD") (h0 : a.stepSize ≠ 0) {F : Diagram ℝ}
    (hF : (o.solve old nlopt (o.autograd a.tmax a.eta) tol a D).form = .ok F)
    (he : ∀ err, (o.solve old nlopt (o.autograd a.tmax a.eta) tol a D).ended ≠ some (.raised err)) :
    ∃ g r, (o.solve old nlopt (o.autograd a.tmax a.eta) tol a D).attrs.gradient = some g ∧ none ∉ g ∧
      (o.solve old nlopt (o.autograd a.tmax a.eta) tol a D).attrs.gradientNorm = some (some r) := by
  obtain ⟨x, g, -, e2, e3⟩ := C82_reported hh I.wf old nlopt tol a hF he
  have hn : none ∉ g := by
    unfold Optimizer.gradFunc at e3
    rw [if_neg ha] at e3
    refine C93_differences I hp hc hA hq hh (SameExcept.refl _ D) a.tmax a.eta h0 x
      (grad := List.replicate x.length (some 0)) (by simp) ?_
    rcases hf : gradFiniteDifferences (o.optimizeForm a.tmax a.eta) a.stepSize D x (List.replicate x.length (some 0))
      with ⟨⟨C', y⟩, r⟩
    rw [hf] at e3
    exact e3
  have hs : ∃ r, npSquares g = some r := by
    cases hr : npSquares g with
    | none => exact absurd ((npSquares_none g).1 hr) hn
    | some r => exact ⟨r, rfl⟩
  obtain ⟨r, hr⟩ := hs
  exact ⟨g, PySqrt.sqrt r, e2, hn, by simp [Attrs.gradientNorm, e2, npNorm, hr]⟩

end

/-! ## Automatic differentiation -/

theorem traced_number {d : Dict Int (Vec ℝ)} {d' : Dict Int (NVec ℝ)} {a : Dict Int (TVec ℝ)} (h : valuesOf a = d')
    (h' : ∀ k, d'.get? k = (d.get? k).map some) {k : Int} {r : TVec ℝ} (hr : a.getE k = .ok r) :
    ∃ p, r = some p ∧ d.get? k = some p.val := by
  rw [Dict.getE_eq_ok_iff] at hr
  have h1 := h' k
  rw [← h, valuesOf_get?, hr] at h1
  obtain ⟨p, hp, h2⟩ := Option.map_eq_some_iff.1 h1.symm
  cases r with
  | none => simp at h2
  | some r =>
    simp only [Option.map_some, Option.some.injEq] at h2
    exact ⟨r, rfl, by rw [hp, h2]⟩

theorem adPenalty_number {D : Diagram ℝ} {t : EqState ℝ} {s : NState ℝ} {a : AState ℝ} (hs : Shadows a s)
    (h : SameNumbers t s) {c : Constraint ℝ} (hc : MeasuredSmoothly D c)
    (hd : ∀ a b d, EdgeBetween D a b d → d.type = .deviation → ∀ p q, t.xyz.get? a = some p → t.xyz.get? b = some q → p ≠ q) :
    c.adPenalty a ≠ .ok none := by
  intro h0
  cases c with
  | point n q w =>
    simp only [Constraint.adPenalty] at h0
    split at h0
    · cases h0
    · obtain ⟨a, rfl, -⟩ := traced_number hs.xyz h.xyz ‹_›
      simp [adVectorPenalty, lift2] at h0
  | plane n q w =>
    simp only [Constraint.adPenalty] at h0
    split at h0
    · cases h0
    · obtain ⟨a, rfl, -⟩ := traced_number hs.xyz h.xyz ‹_›
      obtain ⟨r, hr, -⟩ := closestOnPlane_least a.val q.1 hc
      have hn : Vec.dot (Vec.normalize q.2) (Vec.normalize q.2) ≠ 0 := by
        intro h1
        simp [closestOnPlane, h1] at hr
      simp [adVectorPenalty, lift2, adClosestOnPlane, hn] at h0
  | line n q w =>
    simp only [Constraint.adPenalty] at h0
    split at h0
    · cases h0
    · obtain ⟨a, rfl, -⟩ := traced_number hs.xyz h.xyz ‹_›
      simp [adVectorPenalty, lift2] at h0
  | polyline n q w =>
    simp only [Constraint.adPenalty] at h0
    split at h0
    · cases h0
    · obtain ⟨a, ha, -⟩ := traced_number hs.xyz h.xyz ‹_›
      cases ha
    · split at h0
      · cases h0
      · simp [adVectorPenalty, lift2] at h0
  | trailForce e q w => exact hc
  | reaction n q w =>
    simp only [Constraint.adPenalty] at h0
    split at h0
    · cases h0
    · obtain ⟨a, rfl, -⟩ := traced_number hs.reactions h.reactions ‹_›
      simp [adVectorPenalty, lift2] at h0
  | length e q w =>
    simp only [Constraint.adPenalty, adEdgeLengthRef] at h0
    cases h1 : a.xyz.getE e.1 with
    | error err => simp [h1] at h0
    | ok x =>
      cases h2 : a.xyz.getE e.2 with
      | error err => simp [h1, h2] at h0
      | ok y =>
        obtain ⟨x, rfl, hx⟩ := traced_number hs.xyz h.xyz h1
        obtain ⟨y, rfl, hy⟩ := traced_number hs.xyz h.xyz h2
        obtain ⟨d, hE, ht⟩ := hc
        have hne := hd _ _ d hE ht _ _ hx hy
        have hl : Vec.length (x.val - y.val) ≠ 0 := fun h3 => hne (sub_eq_zero.1 (Vec.length_eq_zero.1 h3))
        simp [h1, h2, lift2, Traced.norm, Traced.sub, hl, adFloatPenalty] at h0
  | direction e q w =>
    simp only [Constraint.adPenalty, adEdgeDirection] at h0
    cases h2 : a.xyz.getE e.2 with
    | error err => simp [h2] at h0
    | ok y =>
      cases h1 : a.xyz.getE e.1 with
      | error err => simp [h1, h2] at h0
      | ok x =>
        obtain ⟨x, rfl, hx⟩ := traced_number hs.xyz h.xyz h1
        obtain ⟨y, rfl, hy⟩ := traced_number hs.xyz h.xyz h2
        obtain ⟨d, hE, ht⟩ := hc
        have hne := hd _ _ d hE ht _ _ hx hy
        have hl : PySqrt.sqrt (Vec.dot (y.val - x.val) (y.val - x.val)) ≠ 0 := by
          intro h3
          exact hne (sub_eq_zero.1 (Vec.length_eq_zero.1 h3)).symm
        simp [h1, h2, lift2, Traced.sub, hl, adVectorPenalty] at h0

theorem adCalculatePenalty_number {s : AState ℝ} (cs : List (Constraint ℝ)) (h : ∀ c ∈ cs, c.adPenalty s ≠ .ok none)
    (a : Traced ℝ) : adCalculatePenalty s cs (some a) ≠ .ok none := by
  induction cs generalizing a with
  | nil => simp [adCalculatePenalty]
  | cons c cs ih =>
    intro h0
    simp only [adCalculatePenalty] at h0
    cases hp : c.adPenalty s with
    | error err => simp [hp] at h0
    | ok p =>
      cases p with
      | none => exact h c (by simp) hp
      | some b =>
        simp only [hp, lift2] at h0
        exact ih (fun c hc => h c (by simp [hc])) _ h0

theorem measuredSmoothly_same {S : Slot → Prop} {D E : Diagram ℝ} (h : SameExcept S D E) {c : Constraint ℝ}
    (hc : MeasuredSmoothly D c) : MeasuredSmoothly E c := by
  cases c with
  | length e t w => exact measured_same h (c := .direction e 0 w) hc
  | direction e t w => exact measured_same h (c := .direction e t w) hc
  | _ => exact hc

theorem listE_mem {α β : Type} {f : α → Except PyErr β} {l : List α} {g : List β} (h : listE f l = .ok g) {b : β}
    (hb : b ∈ g) : ∃ a ∈ l, f a = .ok b := by
  induction l generalizing g with
  | nil =>
    simp only [listE, Except.ok.injEq] at h
    simp [← h] at hb
  | cons a l ih =>
    simp only [listE] at h
    cases ha : f a with
    | error err => simp [ha] at h
    | ok c =>
      cases hl : listE f l with
      | error err => simp [ha, hl] at h
      | ok cs =>
        simp only [ha, hl, Except.ok.injEq] at h
        rw [← h] at hb
        rcases List.mem_cons.1 hb with rfl | hb
        · exact ⟨a, by simp, ha⟩
        · obtain ⟨a', h1, h2⟩ := ih hl hb
          exact ⟨a', by simp [h1], h2⟩

section
variable {o : Optimizer ℝ} {D : Diagram ℝ} (I : ValidInput D) (hp : NoPlanes D)
  (hc : ∀ c ∈ o.constraints.vals, MeasuredSmoothly D c)
include I hp hc

/-- **C93.**  Gradients by automatic differentiation have no NaN if in addition no forces of trail edges and no lengths
of trail edges are asked for. -/
theorem C93_autodiff {h : List (RegOp (Param ℝ))} (hh : HasHistory o h) {x : List ℝ}
    (hA : ∀ E, Carries o.parameters D x E → KeptApart E) {tmax : Nat} {eta : ℝ} {g : List (Num ℝ)}
    (hg : (o.autograd tmax eta D x).2 = .ok g) : none ∉ g := by
  intro hm
  unfold Optimizer.autograd at hg
  rcases ho : o.optimizeForm tmax eta D x with ⟨E, r⟩
  rw [ho] at hg
  cases r with
  | error err => cases hg
  | ok v =>
    have h0 : (o.optimizeForm tmax eta D x).2 = .ok v := by rw [ho]
    have hE := optimizeForm_carries hh.nonneg h0
    rw [ho] at hE
    have hE : Carries o.parameters D x E := hE
    have hv := validInput_same hE.same I
    simp only at hg
    obtain ⟨i, -, hi⟩ := listE_mem hg hm
    unfold Optimizer.adEntry at hi
    have hb := C80_values E (o.updateParameters E.still (unitList x.length i)).1 tmax eta
    cases ha : adEquilibriumState E (o.updateParameters E.still (unitList x.length i)).1 tmax eta with
    | error err => simp [ha] at hi
    | ok a =>
      cases hs : npEquilibriumState E tmax eta false with
      | error err =>
        have := (hb.1 err).2 hs
        rw [ha] at this; cases this
      | ok s =>
        obtain ⟨a', ha', hsh⟩ := hb.2 s hs
        rw [ha] at ha'
        obtain rfl := Except.ok.inj ha'
        obtain ⟨t, ht, hd⟩ := npState_apart hv (noPlanes_same hE.same hp) (hA E hE) hs
        have hn := adCalculatePenalty_number o.constraints.vals
          (fun c hm => adPenalty_number hsh ht (measuredSmoothly_same hE.same (hc c hm)) hd) (.const 0)
        simp only [ha] at hi
        cases hq : adCalculatePenalty a o.constraints.vals (some (.const 0)) with
        | error err => simp [hq] at hi
        | ok w =>
          cases w with
          | none => exact hn hq
          | some w => simp [hq] at hi

/-- **C93.**  With loads and forces as parameters `solve` does not report NaN with automatic differentiation either. -/
theorem C93_reported_autodiff (hA : KeptApart D) (hq : ∀ q ∈ o.parameters, ForceSlot q.2.slot)
    {h : List (RegOp (Param ℝ))} (hh : HasHistory o h) (old : Attrs ℝ) (nlopt : Problem ℝ → Run ℝ)
    (tol : ℝ) {a : SolveArgs ℝ} (ha : a.grad = "AD") {F : Diagram ℝ}
    (hF : (o.solve old nlopt (o.autograd a.tmax a.eta) tol a D).form = .ok F)
    (he : ∀ err, (o.solve old nlopt (o.autograd a.tmax a.eta) tol a D).ended ≠ some (.raised err)) :
    ∃ g r, (o.solve old nlopt (o.autograd a.tmax a.eta) tol a D).attrs.gradient = some g ∧ none ∉ g ∧
      (o.solve old nlopt (o.autograd a.tmax a.eta) tol a D).attrs.gradientNorm = some (some r) := by
  obtain ⟨x, g, -, e2, e3⟩ := C82_reported hh I.wf old nlopt tol a hF he
  have hn : none ∉ g := by
    obtain ⟨-, h2, h3⟩ := C80_raises o a.tmax a.eta D x
    cases ho : (o.optimizeForm a.tmax a.eta D x).2 with
    | error err =>
      have := (h2 err).2 ho
      unfold Optimizer.gradFunc at e3
      rw [if_pos ha] at e3
      rcases hg : o.autograd a.tmax a.eta D x with ⟨C, r⟩
      rw [hg] at this e3
      simp only at this
      subst this
      cases e3
    | ok v =>
      obtain ⟨g', hg, hl, -⟩ := h3 v ho
      rw [(C43_automatic_gradient o _ ha (show o.autograd a.tmax a.eta D x = (_, .ok g') from Prod.ext rfl hg)).1 hl] at e3
      obtain rfl := Except.ok.inj e3
      exact C93_autodiff I hp hc hh
        (fun _ hE => keptApart_same (fun _ ⟨q, hm, e⟩ => e ▸ hq q hm) hE.same hA) hg
  have hs : ∃ r, npSquares g = some r := by
    cases hr : npSquares g with
    | none => exact absurd ((npSquares_none g).1 hr) hn
    | some r => exact ⟨r, rfl⟩
  obtain ⟨r, hr⟩ := hs
  exact ⟨g, PySqrt.sqrt r, e2, hn, by simp [Attrs.gradientNorm, e2, npNorm, hr]⟩

end

namespace SlackEx

theorem rope_planes (q p : ℝ) : NoPlanes (rope q p) := by
  intro e d hd _
  have := Dict.mem_of_get? hd
  simp only [rope, List.mem_cons, List.not_mem_nil, or_false, Prod.mk.injEq] at this
  rw [this.2]

theorem rope_apart (q p : ℝ) : KeptApart (rope q p) := by
  intro e d hd ht
  have := Dict.mem_of_get? hd
  simp only [rope, List.mem_cons, List.not_mem_nil, or_false, Prod.mk.injEq] at this
  rw [this.2] at ht
  cases ht

end SlackEx

open SlackEx in
/-- **C93, why directions of trail edges are left out.**  There is a problem without planes and without deviation edges
that could meet, with a parameter that is a load, and with the direction of a trail edge as constraint, in which the
objective is NaN at a point. -/
theorem C93_trail_direction :
    ∃ (o : Optimizer ℝ) (h : List (RegOp (Param ℝ))) (D : Diagram ℝ) (e : Int × Int) (t : Vec ℝ) (w : ℝ),
      HasHistory o h ∧ ValidInput D ∧ NoPlanes D ∧ KeptApart D ∧ (∀ q ∈ o.parameters, ForceSlot q.2.slot) ∧
      o.constraints.vals = [.direction e t w] ∧ (∃ d, D.edges.get? e = some d ∧ d.type = .trail) ∧
      (o.optimizeForm 100 1 D [0]).2 = .ok none := by
  refine ⟨aimOpt, _, rope 0 0, (0, 1), ⟨0, 1, 0⟩, 1, aimOpt_history, valid_rope, rope_planes 0 0, rope_apart 0 0, ?_, rfl,
    ⟨_, rfl, rfl⟩, by rw [aim_value]⟩
  simp [aimOpt, Optimizer.ofLists, Optimizer.addParameter, Optimizer.addConstraint, Optimizer.empty, Dict.set,
    nodeLoadXParameter, ForceSlot]

namespace SlackEx

/-- The force in the rope is to be found. -/
noncomputable def pullOpt : Optimizer ℝ :=
  Optimizer.ofLists [.trailForce (0, 1) 1 1] [nodeLoadXParameter 0 none none]

theorem slack_force : adTrailForce (pull 0 0) (some ⟨3, 0⟩) = none := by
  rw [pull_eq]
  have : Vec.length (⟨-0, -0, 0⟩ : Vec ℝ) = 0 := Vec.length_eq_zero.2 (by ext <;> simp)
  simp only [adTrailForce, Option.bind_some, Traced.norm, this, if_true]

theorem slack_state {tmax : Nat} (ht : 2 ≤ tmax) {eta : ℝ} (he : 0 < eta) :
    ∃ r re, adEquilibriumState (rope 0 0) rate tmax eta = .ok (state (tip 0 0) r [((0, 1), none)] re) := by
  obtain ⟨n, rfl⟩ := Nat.exists_eq_add_of_le' ht
  obtain ⟨x, r, hi⟩ := init_eq 0 0
  obtain ⟨re1, h1⟩ := sweep_eq 0 0 false x r [] []
  obtain ⟨re2, h2⟩ := sweep_eq 0 0 true (tip 0 0) (pull 0 0)
    (Dict.set [] (0, 1) (adTrailForce (pull 0 0) (some ⟨3, 0⟩))) re1
  refine ⟨pull 0 0, re2, ?_⟩
  have hl : adLoop (rope 0 0) rate (tab 0 0) seqs eta 2 (n + 2) 0 (state x r [] []) none =
      .ok (state (tip 0 0) (pull 0 0) (Dict.set (Dict.set [] (0, 1) (adTrailForce (pull 0 0) (some ⟨3, 0⟩))) (0, 1)
        (adTrailForce (pull 0 0) (some ⟨3, 0⟩))) re2, some ⟨1, some (some 0)⟩) := by
    simp only [adLoop, gt_iff_lt, lt_self_iff_false, decide_false, h1, if_true, zero_add, zero_lt_one, decide_true, h2,
      one_ne_zero, if_false, distance_eq, Num.lt, he]
  rw [slack_force] at hl
  unfold adEquilibriumState
  rw [if_neg (show ¬(rope 0 0).numberOfTrails = 0 from (by decide : ¬1 = 0)), rope_seqs, rope_number, rope_tables, hi]
  simp only
  rw [if_neg (by omega : ¬n + 2 = 0)]
  rw [show adLoop (rope 0 0) rate (tab 0 0) [(0, [(0, 0), (1, 1)])] eta 2 (n + 2) 0 (state x r [] []) none = _ from hl]
  simp [adFinish, Num.gt, he.le, Dict.set]

end SlackEx

open SlackEx in
/-- **C93, why forces of trail edges are left out for automatic differentiation.**  There is a problem that meets the
other conditions, with the force of a trail edge as constraint, in which the objective is a number at a point and its
gradient by automatic differentiation is NaN. -/
theorem C93_slack_force :
    ∃ (o : Optimizer ℝ) (h : List (RegOp (Param ℝ))) (D : Diagram ℝ) (e : Int × Int) (t w : ℝ),
      HasHistory o h ∧ ValidInput D ∧ NoPlanes D ∧ KeptApart D ∧ (∀ q ∈ o.parameters, ForceSlot q.2.slot) ∧
      o.constraints.vals = [.trailForce e t w] ∧ (∃ v, (o.optimizeForm 100 1 D [0]).2 = .ok (some v)) ∧
      (o.autograd 100 1 D [0]).2 = .ok [none] := by
  have hf : ∀ q ∈ pullOpt.parameters, ForceSlot q.2.slot := by
    simp [pullOpt, Optimizer.ofLists, Optimizer.addParameter, Optimizer.addConstraint, Optimizer.empty, Dict.set,
      nodeLoadXParameter, ForceSlot]
  have hk : pullOpt.constraints.vals = [.trailForce (0, 1) 1 1] := rfl
  have hh : HasHistory pullOpt [.add (nodeLoadXParameter 0 none none)] := rfl
  obtain ⟨r, re, hs⟩ := slack_state (show 2 ≤ 100 by norm_num) (one_pos (α := ℝ))
  have hw : pullOpt.updateParameters (rope 0 0) [0] = (rope 0 0, .ok ()) := rfl
  have hb := adEquilibriumState_both (rope 0 0) rate 100 1
  have hpen : adCalculatePenalty (state (tip 0 0) r [((0, 1), none)] re) pullOpt.constraints.vals (some (.const 0)) =
      .ok none := by
    rw [hk]
    simp [adCalculatePenalty, Constraint.adPenalty, state, Dict.getE, Dict.get?, adFloatPenalty, lift2]
  obtain ⟨v, hv⟩ : ∃ v, pullOpt.optimizeForm 100 1 (rope 0 0) [0] = (rope 0 0, .ok v) := by
    unfold Optimizer.optimizeForm
    rw [hw]
    simp only
    cases hn : npEquilibriumState (rope 0 0) 100 (1 : ℝ) false with
    | error e => rw [hn, hs] at hb; exact hb.elim
    | ok s =>
      rw [hn, hs] at hb
      have hb := adCalculatePenalty_both hb pullOpt.constraints.vals (x := some (.const 0)) (y := some 0)
        (by rintro f hf; cases hf; rfl)
      rw [hpen] at hb
      simp only
      cases hq : calculatePenalty s pullOpt.constraints.vals (some 0) with
      | error e => rw [hq] at hb; exact hb.elim
      | ok v => exact ⟨v, rfl⟩
  refine ⟨pullOpt, _, rope 0 0, (0, 1), 1, 1, hh, valid_rope, rope_planes 0 0, rope_apart 0 0, hf, hk, ?_, ?_⟩
  · cases v with
    | some v => exact ⟨v, by rw [hv]⟩
    | none =>
      exact absurd (by rw [hv]) (C93_never (o := pullOpt) valid_rope (rope_planes 0 0) (by rw [hk]; simp [Measured])
        (rope_apart 0 0) hf hh (SameExcept.refl _ _) 100 1 [0])
  · unfold Optimizer.autograd
    rw [hv]
    have hen : pullOpt.adEntry 100 1 (rope 0 0) 1 0 = .ok none := by
      unfold Optimizer.adEntry
      rw [show (pullOpt.updateParameters (rope 0 0).still (unitList 1 0)).1 = rate from rfl, hs]
      simp only [hpen, Option.map_none]
    simp only [List.length_singleton, List.range_one, listE, hen]

/-! ## Examples -/

namespace MirrorEx

/-- A deviation force and a load are to be found. -/
noncomputable def steppedOpt : Optimizer ℝ :=
  Optimizer.ofLists [.direction (1, 2) ⟨1, 0, 0⟩ 1, .plane 5 (⟨0, 0, -1⟩, ⟨0, 0, 1⟩) 2, .reaction 5 ⟨0, 0, 1⟩ 1]
    [deviationEdgeParameter (2, 1) none none, nodeLoadZParameter 0 none none]

theorem steppedOpt_history : HasHistory steppedOpt
    [.add (deviationEdgeParameter (2, 1) none none), .add (nodeLoadZParameter 0 none none)] := rfl

theorem steppedOpt_forces : ∀ q ∈ steppedOpt.parameters, ForceSlot q.2.slot := by
  simp [steppedOpt, Optimizer.ofLists, Optimizer.addParameter, Optimizer.addConstraint, Optimizer.empty, Dict.set,
    deviationEdgeParameter, nodeLoadZParameter, ForceSlot]

local instance seenSqrt : PySqrt ℚ := ⟨id⟩

theorem steppedOpt_measured : ∀ c ∈ steppedOpt.constraints.vals, Measured stepped c := by
  have h : stepped.edges.get? (2, 1) = some (EdgeData.map (fun q : ℚ => (q : ℝ)) ⟨.deviation, 0, 1, none⟩) := by
    unfold stepped Diagram.real
    rw [map_edges_get?, show steppedQ.edges.get? (2, 1) = some ⟨.deviation, 0, 1, none⟩ by decide +kernel]
    rfl
  rw [show steppedOpt.constraints.vals = [.direction (1, 2) ⟨1, 0, 0⟩ 1, .plane 5 (⟨0, 0, -1⟩, ⟨0, 0, 1⟩) 2,
    .reaction 5 ⟨0, 0, 1⟩ 1] from rfl]
  simp only [List.mem_cons, List.not_mem_nil, or_false, forall_eq_or_imp, forall_eq, Measured, and_true]
  refine ⟨⟨_, Or.inr h, rfl⟩, fun h0 => ?_⟩
  have := congrArg Vec.z h0
  simp at this

theorem steppedOpt_smooth : ∀ c ∈ steppedOpt.constraints.vals, MeasuredSmoothly stepped c := by
  intro c hm
  have h := steppedOpt_measured c hm
  rw [show steppedOpt.constraints.vals = [.direction (1, 2) ⟨1, 0, 0⟩ 1, .plane 5 (⟨0, 0, -1⟩, ⟨0, 0, 1⟩) 2,
    .reaction 5 ⟨0, 0, 1⟩ 1] from rfl] at hm
  simp only [List.mem_cons, List.not_mem_nil, or_false] at hm
  rcases hm with rfl | rfl | rfl <;> exact h

end MirrorEx

open MirrorEx in
/-- With indirect deviation edges, at all points, and with values written into the diagram before. -/
example : (∀ tmax eta x, (steppedOpt.optimizeForm tmax eta stepped x).2 ≠ .ok none) ∧
    (∀ tmax eta x y, (steppedOpt.optimizeForm tmax eta (steppedOpt.optimizeForm tmax eta stepped x).1 y).2 ≠ .ok none) ∧
    ∀ tmax eta x g, (gradFiniteDifferences (steppedOpt.optimizeForm tmax eta) 1 stepped x
      (List.replicate x.length (some 0))).2 = .ok g → none ∉ g :=
  ⟨fun tmax eta _ => C93_objective valid_stepped stepped_plane_free steppedOpt_measured steppedOpt_history
      (fun _ hE => keptApart_same (fun _ ⟨q, hm, e⟩ => e ▸ steppedOpt_forces q hm) hE.same stepped_apart) tmax eta,
    fun tmax eta x y => C93_never valid_stepped stepped_plane_free steppedOpt_measured stepped_apart steppedOpt_forces
      steppedOpt_history (optimizeForm_same _ _ _ _ x) tmax eta y,
    fun tmax eta x _ => C93_differences valid_stepped stepped_plane_free steppedOpt_measured stepped_apart
      steppedOpt_forces steppedOpt_history (SameExcept.refl _ _) tmax eta one_ne_zero x (by simp)⟩

namespace SlackEx
open MeetsEx SolveEx

noncomputable def fdArgs : SolveArgs ℝ := ⟨"SLSQP", "FD", 2, 0, 0, 1, 100, 1⟩

/-- Stopping at a load, with finite differences. -/
theorem rope_differences (x q p : ℝ) : ∃ F v,
    (loadOpt.solve noAttrs (fun _ => stopAt q) (loadOpt.autograd 100 1) 1 fdArgs (rope x p)).form = .ok F ∧
    (loadOpt.solve noAttrs (fun _ => stopAt q) (loadOpt.autograd 100 1) 1 fdArgs (rope x p)).ended =
      some (.done [q] (some v) 1 1) := by
  obtain ⟨F, hF⟩ := C20_returns_without_indirect (valid_rope' q p) (direct_rope q p) (show 1 ≤ 100 by norm_num)
    (zero_le_one (α := ℝ))
  obtain ⟨t, ht⟩ := tip_some q p
  obtain ⟨t1, ht1⟩ := tip_some (q + 1) p
  have hs : loadOpt.checkSanity = .ok () := rfl
  have hx : loadOpt.optimizationParameters (rope x p) = .ok [x] := rfl
  obtain ⟨bs, hb⟩ : ∃ bs, loadOpt.optimizationBounds (rope x p) = .ok bs := ⟨_, rfl⟩
  have hv := rope_value q p (tmax := 100) (by norm_num) one_pos t ht
  have hv1 := rope_value (q + 1) p (tmax := 100) (by norm_num) one_pos t1 ht1
  obtain ⟨dv, hgr⟩ : ∃ dv, ∀ a, loadOpt.gradFunc (loadOpt.autograd 100 1) fdArgs (rope a p) [q] =
      (rope (q + 1) p, .ok dv) := by
    refine ⟨[fdQuotient (some (Vec.dot (⟨1, 0, 0⟩ - t.val) (⟨1, 0, 0⟩ - t.val)))
      (some (Vec.dot (⟨1, 0, 0⟩ - t1.val) (⟨1, 0, 0⟩ - t1.val))) 1], fun a => ?_⟩
    unfold Optimizer.gradFunc
    rw [if_neg (by simp [fdArgs]), C42_trace _ _ _ _ _ (by simp)]
    have ha : fdArgs.tmax = 100 ∧ fdArgs.eta = 1 ∧ fdArgs.stepSize = 1 := ⟨rfl, rfl, rfl⟩
    rw [ha.1, ha.2.1, ha.2.2]
    have hbump : (List.range [q].length).map (fun i => bump [q] i 1) = [[q + 1]] := by
      simp [bump]
    rw [hbump]
    simp only [evalAll, hv, hv1, List.map_cons, List.map_nil]
  have hst : nloptStatus 1 = .ok "NLOPT_SUCCESS" := by decide +kernel
  refine ⟨F, Vec.dot (⟨1, 0, 0⟩ - t.val) (⟨1, 0, 0⟩ - t.val), ?_⟩
  unfold Optimizer.solve
  rw [hs]
  simp only
  rw [if_neg (by simp [fdArgs]), hx, hb]
  simp only
  rw [if_neg (by simp [fdArgs, nloptAlgorithms])]
  unfold Optimizer.optimize stopAt
  have ha : fdArgs.tmax = 100 ∧ fdArgs.eta = 1 := ⟨rfl, rfl⟩
  rw [ha.1, ha.2]
  simp only [Optimizer.exec, hv, hgr, if_true, Optimizer.finish, hst, hF, true_and, and_self]

end SlackEx

open SlackEx MeetsEx SolveEx in
/-- A run that ends, even at the load zero where the rope is slack. -/
example : ∃ g r, (loadOpt.solve noAttrs (fun _ => stopAt 0) (loadOpt.autograd 100 1) 1 fdArgs (rope 0 0)).attrs.gradient =
      some g ∧ none ∉ g ∧
    (loadOpt.solve noAttrs (fun _ => stopAt 0) (loadOpt.autograd 100 1) 1 fdArgs (rope 0 0)).attrs.gradientNorm =
      some (some r) := by
  obtain ⟨F, v, h1, h2⟩ := rope_differences 0 0 0
  refine C93_reported (a := fdArgs) valid_rope (rope_planes 0 0) ?_ (rope_apart 0 0) ?_ loadOpt_history _ _ _ (by simp [fdArgs])
    (by simp [fdArgs]) h1 (fun err h => ?_)
  · rw [loadOpt_constraints]; simp [Measured]
  · rw [loadOpt_parameters]; simp [nodeLoadXParameter, ForceSlot]
  · have := h2.symm.trans h
    cases this

open SlackEx MeetsEx SolveEx in
/-- The same with automatic differentiation. -/
example : ∃ g r, (loadOpt.solve noAttrs (fun _ => stopAt 0) (loadOpt.autograd 100 1) 1 args (rope 0 0)).attrs.gradient =
      some g ∧ none ∉ g ∧
    (loadOpt.solve noAttrs (fun _ => stopAt 0) (loadOpt.autograd 100 1) 1 args (rope 0 0)).attrs.gradientNorm =
      some (some r) := by
  obtain ⟨F, h1⟩ := rope_solved 0 0 0 _ tip_slack
  refine C93_reported_autodiff (a := args) valid_rope (rope_planes 0 0) ?_ (rope_apart 0 0) ?_ loadOpt_history _ _ _ rfl
    (F := F) (by rw [show args.tmax = 100 from rfl, show args.eta = 1 from rfl, h1]) (fun err h => ?_)
  · rw [loadOpt_constraints]; simp [MeasuredSmoothly, Measured]
  · rw [loadOpt_parameters]; simp [nodeLoadXParameter, ForceSlot]
  · rw [show args.tmax = 100 from rfl, show args.eta = 1 from rfl, h1] at h
    cases h

open MirrorEx in
/-- With indirect deviation edges, at any point. -/
example (tmax : Nat) (eta : ℝ) (x : List ℝ) (g : List (Num ℝ))
    (hg : (steppedOpt.autograd tmax eta stepped x).2 = .ok g) : none ∉ g :=
  C93_autodiff valid_stepped stepped_plane_free steppedOpt_smooth steppedOpt_history
    (fun _ hE => keptApart_same (fun _ ⟨q, hm, e⟩ => e ▸ steppedOpt_forces q hm) hE.same stepped_apart) hg

end Props
end CEM
