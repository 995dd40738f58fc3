import Verif.Spec.Goals
import Verif.Props.Constraints

/-!
# Property C62: constraints made by components
-/

set_option linter.unusedSectionVars false
set_option linter.unusedSimpArgs false

namespace CEM
namespace Props
open Spec Vec Component

/-- C62. A component makes a constraint exactly if all its inputs but the weight are connected. -/
theorem C62_connected {R : Type} [Field R] [DecidableEq R] (g : Goal R) (w : Option R) :
    (∃ c, g.make w = some c) ↔ Connected g := by
  cases g <;> rename_i n t <;> cases n <;> cases t <;> simp [Goal.make, made, Connected]

private theorem weight_of {g : Goal ℝ} {w : Option ℝ} {c : Constraint ℝ} (h : g.make w = some c) :
    c.weight = orElse w 1 := by
  cases g <;> rename_i n t <;> cases n <;> cases t <;>
    simp only [Goal.make, made, Option.some.injEq, reduceCtorEq] at h <;> subst h <;> rfl

private theorem satisfied_of {g : Goal ℝ} {w : Option ℝ} {c : Constraint ℝ} (s : NState ℝ)
    (h : g.make w = some c) : Satisfied s c ↔ Met s g := by
  cases g <;> rename_i n t <;> cases n <;> cases t <;>
    simp only [Goal.make, made, Option.some.injEq, reduceCtorEq] at h <;> subst h
  case plane.some.some k t => obtain ⟨b, v⟩ := t; simp [Satisfied, Met]
  case line.some.some k t => obtain ⟨a, b⟩ := t; simp [Satisfied, Met]
  case length.some.some k t =>
    obtain ⟨u, v⟩ := k
    simp only [Satisfied, Met, Option.some.injEq, Prod.mk.injEq]
    constructor
    · rintro ⟨a, b, ha, hb, h⟩; exact ⟨u, v, t, a, b, ⟨rfl, rfl⟩, rfl, ha, hb, h⟩
    · rintro ⟨_, _, _, a, b, ⟨rfl, rfl⟩, rfl, ha, hb, h⟩; exact ⟨a, b, ha, hb, h⟩
  case direction.some.some k t => obtain ⟨a, b⟩ := k; simp [Satisfied, Met]
  all_goals simp [Satisfied, Met]

private theorem orElse_pos {w : Option ℝ} (hw : ∀ x, w = some x → 0 ≤ x) : 0 < orElse w (1 : ℝ) := by
  cases w with
  | none => simp [orElse]
  | some x =>
    have := hw x rfl
    simp only [orElse]
    split_ifs with h
    · norm_num
    · exact lt_of_le_of_ne this (Ne.symm h)

/-- C62. The constraint has penalty zero exactly if the state has what the component asks for,
for every weight that is not negative: missing, zero or positive. -/
theorem C62_met {g : Goal ℝ} {w : Option ℝ} {c : Constraint ℝ} (s : NState ℝ)
    (h : g.make w = some c) (hw : ∀ x, w = some x → 0 ≤ x) :
    c.penalty s = .ok (some 0) ↔ Met s g := by
  rw [C39_constraint s c (by rw [weight_of h]; exact orElse_pos hw), satisfied_of s h]

/-- The penalty with a weight is the penalty without one, times the weight. -/
private theorem penalty_times {g : Goal ℝ} {w : Option ℝ} {c c1 : Constraint ℝ} (s : NState ℝ)
    (h : g.make w = some c) (h1 : g.make none = some c1) :
    c.penalty s = (c1.penalty s).map (Option.map (· * orElse w 1)) := by
  cases g <;> rename_i n t <;> cases n <;> cases t <;>
    simp only [Goal.make, made, Option.some.injEq, reduceCtorEq] at h h1 <;> subst h <;> subst h1
  case polyline.some.some k t =>
    simp only [Constraint.penalty]
    cases s.xyz.getE k with
    | error e => rfl
    | ok r =>
      cases r with
      | none => simp only []; split_ifs <;> rfl
      | some p =>
        simp only []
        cases closestOnPolyline p t with
        | error e => rfl
        | ok q => simp [Except.map, vectorPenalty, lift2, orElse]
  case length.some.some k t =>
    simp only [Constraint.penalty]
    cases edgeLengthRef s.xyz k with
    | error e => rfl
    | ok r => cases r <;> simp [Except.map, floatPenalty, orElse]
  case trailForce.some.some k t =>
    simp only [Constraint.penalty]
    cases s.trailForces.getE k with
    | error e => rfl
    | ok r => cases r <;> simp [Except.map, floatPenalty, orElse]
  case reaction.some.some k t =>
    simp only [Constraint.penalty]
    cases s.reactions.getE k with
    | error e => rfl
    | ok r => cases r <;> simp [Except.map, vectorPenalty, lift2, orElse]
  case direction.some.some k t =>
    simp only [Constraint.penalty]
    cases edgeDirection s.xyz k with
    | error e => rfl
    | ok r => cases r <;> simp [Except.map, vectorPenalty, lift2, orElse]
  case point.some.some k t =>
    simp only [Constraint.penalty]
    cases s.xyz.getE k with
    | error e => rfl
    | ok r => cases r <;> simp [Except.map, vectorPenalty, lift2, orElse]
  case line.some.some k t =>
    simp only [Constraint.penalty]
    cases s.xyz.getE k with
    | error e => rfl
    | ok r => cases r <;> simp [Except.map, vectorPenalty, lift2, orElse]
  case plane.some.some k t =>
    simp only [Constraint.penalty]
    cases s.xyz.getE k with
    | error e => rfl
    | ok r =>
      cases r with
      | none => simp [Except.map, vectorPenalty, lift2, orElse]
      | some p =>
        simp only [Option.bind_some]
        cases closestOnPlane p t.1 t.2 <;> simp [Except.map, vectorPenalty, lift2, orElse]

/-- What one would expect: the contribution to the objective is proportional to the weight. -/
def C62_claim : Prop := ∀ (g : Goal ℝ) (w : ℝ) (c c1 : Constraint ℝ) (s : NState ℝ) (v : ℝ),
  g.make (some w) = some c → g.make none = some c1 → c1.penalty s = .ok (some v) →
  c.penalty s = .ok (some (v * w))

/-- C62. It is, for every weight but zero. -/
theorem C62_weight_partial {g : Goal ℝ} {w : ℝ} {c c1 : Constraint ℝ} (s : NState ℝ) {v : ℝ}
    (hw : w ≠ 0) (h : g.make (some w) = some c) (h1 : g.make none = some c1)
    (hv : c1.penalty s = .ok (some v)) : c.penalty s = .ok (some (v * w)) := by
  rw [penalty_times s h h1, hv]
  simp [Except.map, orElse, hw]

/-- C62. Weight zero gives the constraint that one gets without a weight, so a constraint cannot be
switched off by its weight. -/
theorem C62_zero_weight {g : Goal ℝ} {c c1 : Constraint ℝ} (s : NState ℝ)
    (h : g.make (some 0) = some c) (h1 : g.make none = some c1) :
    c.penalty s = c1.penalty s ∧
      ∀ cs, calculatePenalty s (c :: cs) (some 0) = calculatePenalty s (c1 :: cs) (some 0) := by
  have : c.penalty s = c1.penalty s := by
    rw [penalty_times s h h1]
    cases c1.penalty s with
    | error e => rfl
    | ok r => cases r <;> simp [Except.map, orElse]
  exact ⟨this, fun cs => by simp only [calculatePenalty, this]⟩

/-- C62. A constraint of the library with weight zero, in contrast, contributes nothing. -/
theorem C62_library_zero {c : Constraint ℝ} (s : NState ℝ) (hw : c.weight = 0) {v : ℝ}
    (h : c.penalty s = .ok (some v)) : v = 0 := by
  obtain ⟨d, _, rfl⟩ := penalty_nonneg h
  rw [hw, mul_zero]

private theorem away (w : ℝ) : (Constraint.point 0 ⟨3, 4, 0⟩ w).penalty ConEx.st = .ok (some (25 * w)) := by
  simp only [Constraint.penalty, dict_getE_ok ConEx.at0, vectorPenalty, lift2, distSq_eq, sqDist,
    Option.map_some]
  norm_num

/-- A node at the origin that is asked to go to (3, 4, 0), with weight zero. -/
theorem C62_claim_false : ¬ C62_claim := by
  intro H
  have h := H (.point (some 0) (some ⟨3, 4, 0⟩)) 0 _ _ ConEx.st 25 rfl rfl
    (by simpa [orElse] using away 1)
  simp only [orElse, if_true, away] at h
  norm_num at h

/-! ## Examples -/

example : (∃ c, (Goal.point (some 0) (some (⟨3, 4, 0⟩ : Vec ℝ))).make none = some c) ∧
    (Goal.point (R := ℝ) none (some ⟨3, 4, 0⟩)).make (some 1) = none ∧
    (Goal.length (R := ℝ) (some (0, 1)) none).make (some 1) = none :=
  ⟨(C62_connected _ _).2 (by simp [Connected]), rfl, rfl⟩

/-- Met and missed goals, with and without weight. -/
example : (Constraint.line 1 (⟨6, 8, 0⟩, ⟨9, 12, 0⟩) 1).penalty ConEx.st = .ok (some (0 : ℝ)) ∧
    (Constraint.point 0 ⟨3, 4, 0⟩ (1 : ℝ)).penalty ConEx.st ≠ .ok (some 0) := by
  constructor
  · refine (C62_met (g := .line (some 1) (some (⟨6, 8, 0⟩, ⟨9, 12, 0⟩))) (w := some 0) ConEx.st
      (by simp [Goal.make, made, orElse]) (by simp)).2 ⟨1, _, _, _, rfl, rfl, ConEx.at1, -1, ?_⟩
    ext <;> simp <;> norm_num
  · rw [away]; norm_num

/-- Weight two doubles the penalty, weight zero does not change it. -/
example : (Constraint.point 0 ⟨3, 4, 0⟩ (2 : ℝ)).penalty ConEx.st = .ok (some (25 * 2)) ∧
    ∀ c, (Goal.point (some 0) (some (⟨3, 4, 0⟩ : Vec ℝ))).make (some 0) = some c →
      c.penalty ConEx.st = .ok (some 25) := by
  constructor
  · exact C62_weight_partial (g := .point (some 0) (some ⟨3, 4, 0⟩)) (c1 := .point 0 ⟨3, 4, 0⟩ 1)
      ConEx.st two_ne_zero (by simp [Goal.make, made, orElse]) (by simp [Goal.make, made, orElse])
      (by rw [away, mul_one])
  · intro c h
    rw [(C62_zero_weight ConEx.st h (c1 := .point 0 ⟨3, 4, 0⟩ 1) (by simp [Goal.make, made, orElse])).1,
      away, mul_one]

example : ∀ v, (Constraint.point 0 ⟨3, 4, 0⟩ (0 : ℝ)).penalty ConEx.st = .ok (some v) → v = 0 :=
  fun _ => C62_library_zero ConEx.st rfl

end Props
end CEM
