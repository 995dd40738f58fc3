import Verif.Spec.Meets
import Verif.Props.Play
import Verif.Props.Threshold
import Verif.Props.Constraints

/-!
# C83: the objective and the form that constrained form finding returns
-/

set_option linter.unusedSectionVars false
set_option linter.unusedSimpArgs false

namespace CEM
namespace Props
open Diagram Spec EqEx Filter Topology

/-- A state has exactly the numbers of a form, without NaN. -/
structure StateIs (F : Diagram ℝ) (s : NState ℝ) : Prop where
  pos : ∀ n, s.xyz.get? n = (F.nodes.get? n).map fun d => some d.pos
  force : ∀ e, s.trailForces.get? e =
    (F.edges.get? e).bind fun d => if d.type = .trail then some (some d.force) else none
  reaction : ∀ n, s.reactions.get? n =
    (F.nodes.get? n).bind fun d => if d.type = .support then some (some d.reaction) else none

section
variable {F : Diagram ℝ} {s : NState ℝ}

theorem StateIs.lies (h : StateIs F s) {n : Int} {p : Vec ℝ} : At s n p ↔ Lies F n p := by
  unfold At Lies
  rw [h.pos]
  simp

theorem StateIs.carries (h : StateIs F s) {e : Int × Int} {f : ℝ} :
    s.trailForces.get? e = some (some f) ↔ CarriesForce F e f := by
  unfold CarriesForce
  rw [h.force]
  cases F.edges.get? e with
  | none => simp
  | some d => by_cases ht : d.type = .trail <;> simp [ht]

theorem StateIs.reacts (h : StateIs F s) {n : Int} {r : Vec ℝ} :
    s.reactions.get? n = some (some r) ↔ Reacts F n r := by
  unfold Reacts
  rw [h.reaction]
  cases F.nodes.get? n with
  | none => simp
  | some d => by_cases ht : d.type = .support <;> simp [ht]

theorem StateIs.satisfied (h : StateIs F s) (c : Constraint ℝ) : Satisfied s c ↔ Meets F c := by
  cases c <;> simp only [Satisfied, Meets, h.lies, h.carries, h.reacts]

theorem isSqDistTo_unique {p : Vec ℝ} {S : Vec ℝ → Prop} {m m' : ℝ} (h : IsSqDistTo p S m) (h' : IsSqDistTo p S m') :
    m = m' := by
  obtain ⟨⟨q, h1, h2⟩, h3⟩ := h
  obtain ⟨⟨q', h1', h2'⟩, h3'⟩ := h'
  exact le_antisymm (h2' ▸ h3 q' h1') (h2 ▸ h3' q h1)

theorem StateIs.xyz_cases (h : StateIs F s) (n : Int) :
    (∃ p, Lies F n p ∧ At s n p ∧ ∀ q, Lies F n q → q = p) ∨ (s.xyz.getE n = .error .keyError ∧ ∀ p, ¬ Lies F n p) := by
  cases hg : F.nodes.get? n with
  | none =>
    right
    refine ⟨?_, fun p => ?_⟩
    · unfold Dict.getE; rw [h.pos, hg]; rfl
    · rintro ⟨d, hd, _⟩; rw [hg] at hd; cases hd
  | some d =>
    left
    refine ⟨d.pos, ⟨d, hg, rfl⟩, h.lies.2 ⟨d, hg, rfl⟩, ?_⟩
    rintro q ⟨d', hd', rfl⟩
    rw [hg] at hd'
    cases hd'
    rfl

theorem unitOf_eq (v : Vec ℝ) : unitOf v = unit v := by
  unfold unitOf unit
  rw [sqDist_eq_dot, sub_zero]
  rfl

theorem min_sqDist {u v : Vec ℝ} (hu : Vec.dot u u = 1) (hv : Vec.dot v v = 1) :
    min (sqDist u v) (sqDist u (-v)) = 2 - 2 * |Vec.dot u v| := by
  have h1 : sqDist u v = 2 - 2 * Vec.dot u v := by
    simp only [sqDist, Vec.dot] at *
    linear_combination hu + hv
  have h2 : sqDist u (-v) = 2 + 2 * Vec.dot u v := by
    simp only [sqDist, Vec.dot, Vec.neg_x, Vec.neg_y, Vec.neg_z] at *
    linear_combination hu + hv
  rw [h1, h2]
  rcases le_total 0 (Vec.dot u v) with h | h
  · rw [abs_of_nonneg h, min_eq_left (by linarith)]
  · rw [abs_of_nonpos h, min_eq_right (by linarith)]; ring

/-- A penalty that is a number is the weight times what the form misses the constraint by. -/
theorem StateIs.penalty (h : StateIs F s) (c : Constraint ℝ) (v : ℝ) :
    c.penalty s = .ok (some v) ↔ ∃ m, Misses F c m ∧ v = m * c.weight := by
  cases c with
  | point n t w =>
    simp only [Misses, Constraint.weight]
    rcases h.xyz_cases n with ⟨p, h1, h2, h3⟩ | ⟨h1, h2⟩
    · simp only [Constraint.penalty, dict_getE_ok h2, vectorPenalty, lift2, Option.map_some, distSq_eq,
        Except.ok.injEq, Option.some.injEq]
      constructor
      · rintro rfl; exact ⟨_, ⟨p, h1, rfl⟩, rfl⟩
      · rintro ⟨m, ⟨q, hq, rfl⟩, rfl⟩; rw [h3 q hq]
    · simp only [Constraint.penalty, h1, reduceCtorEq, false_iff]
      rintro ⟨m, ⟨q, hq, -⟩, -⟩
      exact h2 q hq
  | plane n t w =>
    obtain ⟨base, normal⟩ := t
    simp only [Misses, Constraint.weight]
    rcases h.xyz_cases n with ⟨p, h1, h2, h3⟩ | ⟨h1, h2⟩
    · by_cases hn : normal = 0
      · subst hn
        rw [C40_plane_zero_normal s n base p w h2]
        simp
      · obtain ⟨m, hm, e⟩ := C40_plane s n base normal p w h2 hn
        rw [e]
        simp only [Except.ok.injEq, Option.some.injEq]
        constructor
        · rintro rfl; exact ⟨m, ⟨hn, p, h1, hm⟩, rfl⟩
        · rintro ⟨m', ⟨-, q, hq, hm'⟩, rfl⟩
          rw [h3 q hq] at hm'
          rw [isSqDistTo_unique hm hm']
    · simp only [Constraint.penalty, h1, reduceCtorEq, false_iff]
      rintro ⟨m, ⟨-, q, hq, -⟩, -⟩
      exact h2 q hq
  | line n t w =>
    obtain ⟨a, b⟩ := t
    simp only [Misses, Constraint.weight]
    rcases h.xyz_cases n with ⟨p, h1, h2, h3⟩ | ⟨h1, h2⟩
    · obtain ⟨m, hm, e⟩ := C40_line s n a b p w h2
      rw [e]
      simp only [Except.ok.injEq, Option.some.injEq]
      constructor
      · rintro rfl; exact ⟨m, ⟨p, h1, hm⟩, rfl⟩
      · rintro ⟨m', ⟨q, hq, hm'⟩, rfl⟩
        rw [h3 q hq] at hm'
        rw [isSqDistTo_unique hm hm']
    · simp only [Constraint.penalty, h1, reduceCtorEq, false_iff]
      rintro ⟨m, ⟨q, hq, -⟩, -⟩
      exact h2 q hq
  | polyline n t w =>
    simp only [Misses, Constraint.weight]
    rcases h.xyz_cases n with ⟨p, h1, h2, h3⟩ | ⟨h1, h2⟩
    · by_cases hl : 2 ≤ t.length
      · obtain ⟨m, hm, e⟩ := C40_polyline s n t p w h2 hl
        rw [e]
        simp only [Except.ok.injEq, Option.some.injEq]
        constructor
        · rintro rfl; exact ⟨m, ⟨p, h1, hm⟩, rfl⟩
        · rintro ⟨m', ⟨q, hq, hm'⟩, rfl⟩
          rw [h3 q hq] at hm'
          rw [isSqDistTo_unique hm hm']
      · rw [C40_polyline_short s n t p w h2 (by omega)]
        simp only [reduceCtorEq, false_iff]
        rintro ⟨m, ⟨_, _, ⟨_, ⟨i, a, b, _, hb, _⟩, _⟩, _⟩, -⟩
        have := (List.getElem?_eq_some_iff.1 hb).1
        omega
    · simp only [Constraint.penalty, h1, reduceCtorEq, false_iff]
      rintro ⟨m, ⟨q, hq, -⟩, -⟩
      exact h2 q hq
  | trailForce e t w =>
    simp only [Misses, Constraint.weight, Constraint.penalty]
    by_cases hc : ∃ f, CarriesForce F e f
    · obtain ⟨f, hf⟩ := hc
      have hu : ∀ f', CarriesForce F e f' → f' = f := by
        rintro f' ⟨d', hd', -, rfl⟩
        obtain ⟨d, hd, -, rfl⟩ := hf
        rw [hd] at hd'; cases hd'; rfl
      simp only [dict_getE_ok (h.carries.2 hf), floatPenalty, Option.map_some, Except.ok.injEq, Option.some.injEq]
      constructor
      · rintro rfl; exact ⟨_, ⟨f, hf, rfl⟩, by ring⟩
      · rintro ⟨m, ⟨f', hf', rfl⟩, rfl⟩; rw [hu f' hf']; ring
    · have : s.trailForces.get? e = none := by
        rw [h.force]
        cases hg : F.edges.get? e with
        | none => rfl
        | some d =>
          simp only [Option.bind_some]
          rw [if_neg]
          exact fun ht => hc ⟨_, d, hg, ht, rfl⟩
      simp only [Dict.getE, this, reduceCtorEq, false_iff]
      rintro ⟨m, ⟨f, hf, -⟩, -⟩
      exact hc ⟨f, hf⟩
  | reaction n t w =>
    simp only [Misses, Constraint.weight, Constraint.penalty]
    by_cases hc : ∃ r, Reacts F n r
    · obtain ⟨r, hr⟩ := hc
      have hu : ∀ r', Reacts F n r' → r' = r := by
        rintro r' ⟨d', hd', -, rfl⟩
        obtain ⟨d, hd, -, rfl⟩ := hr
        rw [hd] at hd'; cases hd'; rfl
      simp only [dict_getE_ok (h.reacts.2 hr), vectorPenalty, lift2, Option.map_some, distSq_eq, Except.ok.injEq,
        Option.some.injEq]
      constructor
      · rintro rfl; exact ⟨_, ⟨r, hr, rfl⟩, rfl⟩
      · rintro ⟨m, ⟨r', hr', rfl⟩, rfl⟩; rw [hu r' hr']
    · have : s.reactions.get? n = none := by
        rw [h.reaction]
        cases hg : F.nodes.get? n with
        | none => rfl
        | some d =>
          simp only [Option.bind_some]
          rw [if_neg]
          exact fun ht => hc ⟨_, d, hg, ht, rfl⟩
      simp only [Dict.getE, this, reduceCtorEq, false_iff]
      rintro ⟨m, ⟨r, hr, -⟩, -⟩
      exact hc ⟨r, hr⟩
  | length e t w =>
    simp only [Misses, Constraint.weight, Constraint.penalty, edgeLengthRef]
    rcases h.xyz_cases e.1 with ⟨p, h1, h2, h3⟩ | ⟨h1, h2⟩
    · rcases h.xyz_cases e.2 with ⟨q, k1, k2, k3⟩ | ⟨k1, k2⟩
      · simp only [dict_getE_ok h2, dict_getE_ok k2, lift2, floatPenalty, Option.map_some, dist_eq, Except.ok.injEq,
          Option.some.injEq]
        constructor
        · rintro rfl; exact ⟨_, ⟨p, q, h1, k1, rfl⟩, by ring⟩
        · rintro ⟨m, ⟨p', q', hp', hq', rfl⟩, rfl⟩; rw [h3 p' hp', k3 q' hq']; ring
      · simp only [dict_getE_ok h2, k1, reduceCtorEq, false_iff]
        rintro ⟨m, ⟨_, q, _, hq, -⟩, -⟩
        exact k2 q hq
    · have hne : ∀ v : ℝ, ¬ ∃ m, (∃ a b, Lies F e.1 a ∧ Lies F e.2 b ∧ m = (Real.sqrt (sqDist a b) - t) ^ 2) ∧
          v = m * w := by
        rintro v ⟨m, ⟨q, _, hq, -⟩, -⟩
        exact h2 q hq
      constructor
      · intro hp
        rw [h1] at hp
        cases hg : s.xyz.getE e.2 <;> rw [hg] at hp <;> simp at hp
      · exact fun hm => absurd hm (hne v)
  | direction e t w =>
    simp only [Misses, Constraint.weight]
    rcases h.xyz_cases e.1 with ⟨p, h1, h2, h3⟩ | ⟨h1, h2⟩
    · rcases h.xyz_cases e.2 with ⟨q, k1, k2, k3⟩ | ⟨k1, k2⟩
      · by_cases hpq : p = q
        · subst hpq
          rw [C41_zero_length h2 k2]
          simp only [Except.ok.injEq, reduceCtorEq, false_iff]
          rintro ⟨m, ⟨p', q', hp', hq', hne, -⟩, -⟩
          exact hne ((h3 p' hp').trans (k3 q' hq').symm)
        · have hne : q - p ≠ 0 := sub_ne_zero.2 (Ne.symm hpq)
          have hu1 : Vec.dot (unit (q - p)) (unit (q - p)) = 1 := by
            rw [← Vec.length_sq, length_unit hne]; norm_num
          have hval : (Constraint.direction e t w).penalty s =
              .ok (some (min (sqDist (unitOf (q - p)) (unitOf t)) (sqDist (unitOf (q - p)) (-unitOf t)) * w)) := by
            simp only [unitOf_eq]
            by_cases ht : t = 0
            · subst ht
              rw [direction_zero w h2 k2 hpq, unit_zero, neg_zero, min_self, sqDist_eq_dot, sub_zero, hu1, one_mul]
            · have hu2 : Vec.dot (unit t) (unit t) = 1 := by
                rw [← Vec.length_sq, length_unit ht]; norm_num
              rw [direction_penalty w h2 k2 hpq ht, min_sqDist hu1 hu2]
          rw [hval]
          simp only [Except.ok.injEq, Option.some.injEq]
          constructor
          · rintro rfl; exact ⟨_, ⟨p, q, h1, k1, hpq, rfl⟩, rfl⟩
          · rintro ⟨m, ⟨p', q', hp', hq', -, rfl⟩, rfl⟩; rw [h3 p' hp', k3 q' hq']
      · constructor
        · intro hp
          simp only [Constraint.penalty, edgeDirection, dict_getE_ok h2, k1] at hp
          simp at hp
        · rintro ⟨m, ⟨_, q, _, hq, -⟩, -⟩
          exact absurd hq (k2 q)
    · constructor
      · intro hp
        simp only [Constraint.penalty, edgeDirection, h1] at hp
        cases hg : s.xyz.getE e.2 <;> rw [hg] at hp <;> simp at hp
      · rintro ⟨m, ⟨q, _, hq, -⟩, -⟩
        exact absurd hq (h2 q)

/-- The penalties of all constraints. -/
theorem StateIs.penalties (h : StateIs F s) (cs : List (Constraint ℝ)) (v : ℝ) :
    calculatePenalty s cs (some 0) = .ok (some v) ↔
      ∃ ms, List.Forall₂ (Misses F) cs ms ∧ v = (List.zipWith (fun c m => c.weight * m) cs ms).sum := by
  rw [calculatePenalty_acc]
  simp only [zero_add]
  induction cs generalizing v with
  | nil => simp
  | cons c cs ih =>
    constructor
    · rintro ⟨ps, hps, rfl⟩
      cases hps with
      | cons hc hl =>
        obtain ⟨m, hm, rfl⟩ := (h.penalty c _).1 hc
        obtain ⟨ms, hms, e⟩ := (ih _).1 ⟨_, hl, rfl⟩
        refine ⟨m :: ms, .cons hm hms, ?_⟩
        simp only [List.sum_cons, List.zipWith_cons_cons, ← e]
        ring
    · rintro ⟨ms, hms, rfl⟩
      cases hms with
      | @cons _ m _ ms hm hl =>
        obtain ⟨ps, hps, e⟩ := (ih _).2 ⟨ms, hl, rfl⟩
        refine ⟨_ :: ps, .cons ((h.penalty c _).2 ⟨m, hm, rfl⟩) hps, ?_⟩
        simp only [List.sum_cons, List.zipWith_cons_cons, e]
        ring

end

theorem support_iff {D : Diagram ℝ} (w : WF D) (V : ValidTrails D) {n : Int} {d : NodeData ℝ}
    (hd : D.nodes.get? n = some d) : d.type = .support ↔ nxtK D none n = none := by
  have ht : typeOf D n = some d.type := by unfold typeOf; rw [hd]; rfl
  rw [nxtK_none w V]
  constructor
  · intro h
    cases hx : trailNext D n with
    | none => rfl
    | some m => exact absurd (by rw [ht, h]) (trailNext_support w V hx)
  · intro h
    by_contra hc
    obtain ⟨m, hm⟩ := trailNext_isSome w V (Dict.mem_keys_of_get? hd) (by rw [ht]; simpa using hc)
    rw [h] at hm
    cases hm

/-- The state after a sweep has the numbers of its form. -/
theorem stateIs_iter {D : Diagram ℝ} (I : ValidInput D) {L : List Int} (G : GoodSched D none L) (i : Nat)
    {t : NState ℝ} (hx : t.xyz = (liftS (iter D none L (i + 1))).xyz)
    (hr : t.reactions = (liftS (iter D none L (i + 1))).reactions)
    (hf : t.trailForces = (liftS (iter D none L (i + 1))).trailForces) :
    StateIs (formOf D (iter D none L (i + 1))) t := by
  have S := finalSpec_sched I.wf I.trails G i
  refine ⟨fun n => ?_, fun e => ?_, fun n => ?_⟩
  · rw [hx, formOf_get? I.wf S]
    unfold liftS
    simp only [mapVal_get?]
    cases hd : D.nodes.get? n with
    | none =>
      have : n ∉ (iter D none L (i + 1)).xyz.keys := by rw [S.keys.1, ← Dict.get?_eq_none_iff]; exact hd
      rw [← Dict.get?_eq_none_iff] at this
      rw [this]
      rfl
    | some d =>
      obtain ⟨v, hv⟩ := (Dict.exists_get?_iff (iter D none L (i + 1)).xyz n).2 (by
        rw [S.keys.1]; exact Dict.mem_keys_of_get? hd)
      simp [hv, EqState.pos]
  · rw [hf, formOf_edge S]
    unfold liftS
    simp only [mapVal_get?]
    cases hd : D.edges.get? e with
    | none =>
      rw [S.force e]
      · rfl
      · intro a ha m hm hk
        rw [nxtK_none I.wf I.trails] at hm
        have := (edgeData_trail I.wf I.trails I.simple hm).1
        rw [hk, hd] at this
        cases this
    | some d =>
      simp only [Option.map_some, Option.bind_some]
      obtain ⟨k1, k2, k3⟩ := signedLength_type (formOf D (iter D none L (i + 1))).nodes e
        { d with force := ((iter D none L (i + 1)).trailForces.get? e).getD d.force }
      rw [k1, k3]
      simp only
      by_cases ht : d.type = .trail
      · rw [if_pos ht]
        obtain ⟨a, b, hab, hk⟩ := trail_ends I hd ht
        have ha := (Follows.mem I.trails ((trailNext_iff I.wf I.trails).1 hab)).1
        have h3 := (S.next a ha b (by rw [nxtK_none I.wf I.trails]; exact hab)).2.2.1
        rw [hk] at h3
        rw [h3]
        rfl
      · rw [if_neg ht, S.force e]
        · rfl
        · intro a ha m hm hk
          rw [nxtK_none I.wf I.trails] at hm
          obtain ⟨e1, e2⟩ := edgeData_trail I.wf I.trails I.simple hm
          rw [hk, hd] at e1
          rw [Option.some.inj e1] at ht
          exact ht e2
  · rw [hr, formOf_get? I.wf S]
    unfold liftS
    simp only [mapVal_get?]
    rw [S.react n]
    cases hd : D.nodes.get? n with
    | none =>
      rw [if_neg]
      · rfl
      · rintro ⟨h, _⟩
        rw [← Dict.exists_get?_iff] at h
        obtain ⟨d, h⟩ := h
        rw [hd] at h
        cases h
    | some d =>
      simp only [Option.map_some, Option.bind_some]
      by_cases hs : d.type = .support
      · rw [if_pos hs, if_pos ⟨Dict.mem_keys_of_get? hd, (support_iff I.wf I.trails hd).1 hs⟩]
        rfl
      · rw [if_neg hs, if_neg fun h => hs ((support_iff I.wf I.trails hd).2 h.2)]
        rfl

/-- Without indirect deviation edges all sweeps give the same form. -/
theorem form_direct {D : Diagram ℝ} (I : ValidInput D) (hd : DirectOnly D) {L : List Int}
    (G : GoodSched D none L) (i j : Nat) :
    (∀ n, (formOf D (iter D none L (i + 1))).nodes.get? n = (formOf D (iter D none L (j + 1))).nodes.get? n) ∧
    ∀ e, ((formOf D (iter D none L (i + 1))).edges.get? e).map (fun d => (d.type, d.force)) =
      ((formOf D (iter D none L (j + 1))).edges.get? e).map fun d => (d.type, d.force) := by
  have S := finalSpec_sched I.wf I.trails G i
  have S' := finalSpec_sched I.wf I.trails G j
  refine ⟨fun n => ?_, fun e => ?_⟩
  · rw [formOf_get? I.wf S, formOf_get? I.wf S']
    cases hn : D.nodes.get? n with
    | none => rfl
    | some d =>
      have hk := Dict.mem_keys_of_get? hn
      obtain ⟨h1, h2⟩ := rAt_direct I hd G i j hk
      simp only [Option.map_some]
      rw [h1, S.react, S'.react, h2]
  · rw [formOf_edge S, formOf_edge S']
    cases he : D.edges.get? e with
    | none => rfl
    | some d =>
      simp only [Option.map_some]
      obtain ⟨k1, -, k3⟩ := signedLength_type (formOf D (iter D none L (i + 1))).nodes e
        { d with force := ((iter D none L (i + 1)).trailForces.get? e).getD d.force }
      obtain ⟨k1', -, k3'⟩ := signedLength_type (formOf D (iter D none L (j + 1))).nodes e
        { d with force := ((iter D none L (j + 1)).trailForces.get? e).getD d.force }
      rw [k1, k3, k1', k3']
      simp only
      by_cases ht : d.type = .trail
      · obtain ⟨a, b, hab, hk⟩ := trail_ends I he ht
        have ha := (Follows.mem I.trails ((trailNext_iff I.wf I.trails).1 hab)).1
        have hnx : nxtK D none a = some b := by rw [nxtK_none I.wf I.trails]; exact hab
        have h3 := (S.next a ha b hnx).2.2.1
        have h3' := (S'.next a ha b hnx).2.2.1
        obtain ⟨h1, h2⟩ := rAt_direct I hd G i j ha
        rw [hk] at h3 h3'
        rw [h3, h3', h1, h2]
      · have : ∀ a ∈ D.nodes.keys, ∀ m, nxtK D none a = some m → edgeKey D a m ≠ e := by
          intro a ha m hm hk
          rw [nxtK_none I.wf I.trails] at hm
          obtain ⟨e1, e2⟩ := edgeData_trail I.wf I.trails I.simple hm
          rw [hk, he] at e1
          rw [Option.some.inj e1] at ht
          exact ht e2
        rw [S.force e this, S'.force e this]

theorem StateIs.congr {F F' : Diagram ℝ} {s : NState ℝ} (h : StateIs F s)
    (hn : ∀ n, F.nodes.get? n = F'.nodes.get? n)
    (he : ∀ e, (F.edges.get? e).map (fun d => (d.type, d.force)) = (F'.edges.get? e).map fun d => (d.type, d.force)) :
    StateIs F' s := by
  refine ⟨fun n => by rw [h.pos, hn], fun e => ?_, fun n => by rw [h.reaction, hn]⟩
  rw [h.force]
  have := he e
  cases h1 : F.edges.get? e <;> cases h2 : F'.edges.get? e <;> rw [h1, h2] at this <;> simp at this
  · simp only [Option.bind_some]
    rw [this.1, this.2]

/-- Without indirect deviation edges both solvers return the results of some sweeps, whatever the settings of both. -/
theorem both_iter {D : Diagram ℝ} (I : ValidInput D) (hd : DirectOnly D) {tmax : Nat} {eta : ℝ}
    {verbose : Bool} {F : Diagram ℝ} (hF : staticEquilibrium D none tmax eta verbose = .ok F) :
    ∃ L j, GoodSched D none L ∧ F = formOf D (iter D none L (j + 1)) ∧
      ∀ tmax' (eta' : ℝ), 1 ≤ tmax' → 0 ≤ eta' →
        ∃ i, npEquilibriumState D tmax' eta' false = .ok (nIter D L (i + 1)) := by
  obtain ⟨T, N, hT, hN, hg, hlt⟩ := goodSeqs_of_valid I.wf I.trails I.nonempty
  have G := goodSched I.wf I.trails hg none hlt
  obtain ⟨a0, a1, a2⟩ := equilibriumState_sched I (kmax := none) (by simp) hT hN hg tmax eta verbose
  obtain ⟨s, hs, hFs⟩ := staticEquilibrium_ok hF
  have hplain : ∃ i, s = iter D none (sched D T N) (i + 1) := by
    rcases Nat.lt_trichotomy tmax 1 with h | h | h
    · rw [a0 (by omega)] at hs; simp at hs
    · rw [a1 h] at hs
      cases verbose with
      | true => simp at hs
      | false =>
        simp only [Bool.false_eq_true, if_false, Except.ok.injEq] at hs
        exact ⟨0, hs.symm⟩
    · obtain ⟨m, hm2, -, -, -, e⟩ := a2 h
      rw [e] at hs
      split_ifs at hs
      obtain ⟨i, rfl⟩ : ∃ i, m = i + 1 := ⟨m - 1, by omega⟩
      exact ⟨i, (Except.ok.inj hs).symm⟩
  have hnp : ∀ tmax' (eta' : ℝ), 1 ≤ tmax' → 0 ≤ eta' →
      ∃ i, npEquilibriumState D tmax' eta' false = .ok (nIter D (sched D T N) (i + 1)) := by
    intro tmax' eta' ht he
    obtain ⟨b0, b1, b2⟩ := npEquilibriumState_cases I hT hN hg tmax' eta' false
    rcases Nat.lt_or_ge tmax' 2 with h | h
    · rw [b1 (by omega)]
      exact ⟨0, rfl⟩
    · obtain ⟨m, hm2, -, -, -, e⟩ := b2 h
      have hgt : ¬ (nDist D (sched D T N) m).gt eta' = true := by
        rcases nDist_direct I hd G m hm2 with hd' | hd' <;> rw [hd']
        · simp [Num.gt]
        · rw [gt_iff_some]; exact not_lt.2 he
      rw [if_neg hgt] at e
      obtain ⟨i, rfl⟩ : ∃ i, m = i + 1 := ⟨m - 1, by omega⟩
      exact ⟨i, e⟩
  obtain ⟨j, rfl⟩ := hplain
  exact ⟨_, j, G, hFs, hnp⟩

/-- Without indirect deviation edges the numpy solver returns the numbers of the form of the plain solver, whatever the
settings of both. -/
theorem npState_is {D : Diagram ℝ} (I : ValidInput D) (hd : DirectOnly D) {tmax tmax' : Nat} {eta eta' : ℝ}
    {verbose : Bool} {F : Diagram ℝ} (hF : staticEquilibrium D none tmax eta verbose = .ok F)
    (hn : Nondegenerate F) (ht : 1 ≤ tmax') (he : 0 ≤ eta') :
    ∃ s, npEquilibriumState D tmax' eta' false = .ok s ∧ StateIs F s := by
  obtain ⟨L, j, G, rfl, hi⟩ := both_iter I hd hF
  obtain ⟨i, hi⟩ := hi tmax' eta' ht he
  have e := nIter_lift I hd G j hn (i + 1)
  obtain ⟨k1, k2⟩ := form_direct I hd G i j
  exact ⟨_, hi, (stateIs_iter I G i (by rw [e]) (by rw [e]) (by rw [e])).congr k1 k2⟩

/-- As long as the objective does not fail, it has a value at the last point. -/
theorem exec_value {R : Type} [Field R] [LinearOrder R] [PySqrt R] {o : Optimizer R} (h0 : ∀ q ∈ o.parameters, 0 ≤ q.1)
    {D0 : Diagram R} (w : WF D0) (tmax : Nat) (eta : R) (g : GradFunc R) (r : Run R) (D C : Diagram R)
    (xs : List (List R)) (hsame : SameExcept (Places o) D0 D)
    (hA : ∀ y ys, xs = y :: ys → ∃ v, (o.optimizeForm tmax eta D0 y).2 = .ok v)
    (hbad : ∀ err, (Optimizer.exec (o.optimizeForm tmax eta) g r D C xs).2 = .raised err →
      ∀ E x, SameExcept (Places o) D0 E → (o.optimizeForm tmax eta E x).2 ≠ .error err) :
    ∀ y ys, (Optimizer.exec (o.optimizeForm tmax eta) g r D C xs).1.2.2 = y :: ys →
      ∃ v, (o.optimizeForm tmax eta D0 y).2 = .ok v := by
  induction r generalizing D C xs with
  | done x v n c => exact hA
  | roundoff v n c => exact hA
  | raised err => exact hA
  | eval x wants next ih =>
    have hs := Optimizer.optimizeForm_same o tmax eta D x
    have hfree := (objective_free h0 w tmax eta).1 D x hsame
    simp only [Optimizer.exec] at hbad ⊢
    rcases hf : o.optimizeForm tmax eta D x with ⟨D', (e | v)⟩
    · rw [hf] at hbad
      exact absurd (by rw [hf]) (hbad e rfl D x hsame)
    · rw [hf] at hs hfree hbad
      have hA' : ∀ y ys, x :: xs = y :: ys → ∃ v, (o.optimizeForm tmax eta D0 y).2 = .ok v := by
        intro y ys e
        obtain ⟨rfl, -⟩ := List.cons.inj e
        exact ⟨v, hfree.1.symm⟩
      simp only at hbad ⊢
      by_cases hw : wants = true
      · rw [if_pos hw] at hbad ⊢
        rcases hg : g C x with ⟨C', (e | dv)⟩
        · exact hA'
        · rw [hg] at hbad
          exact ih v dv D' C' _ hfree.2 hA' hbad
      · rw [if_neg hw] at hbad ⊢
        exact ih v [] D' C _ hfree.2 hA' hbad

/-- When `solve` returns a form, the objective has a value, possibly NaN, at the point at which it was called last. -/
theorem last_value {R : Type} [Field R] [LinearOrder R] [PySqrt R] {o : Optimizer R} {h : List (RegOp (Param R))}
    (hh : HasHistory o h) {D : Diagram R} (I : ValidInput D) (old : Attrs R) (nlopt : Problem R → Run R)
    (ad : GradFunc R) (tol : R) (a : SolveArgs R) {F : Diagram R} (hF : (o.solve old nlopt ad tol a D).form = .ok F)
    {y : List R} {ys : List (List R)} (hy : (o.solve old nlopt ad tol a D).points = y :: ys) :
    ∃ v, (o.optimizeForm a.tmax a.eta D y).2 = .ok v := by
  rcases solve_cases o old nlopt ad tol a D with ⟨err, e⟩ | ⟨x, bounds, hx, hb, e⟩
  · rw [e] at hF; cases hF
  · rw [e] at hF hy
    generalize hr : nlopt ⟨a.algorithm, o.parameters.length, bounds, a.iters, a.eps, a.kappa, x⟩ =
      run at hF hy
    obtain ⟨h1, h2, h3, h4⟩ := optimize_fields o old (o.gradFunc ad a) tol a run D
    rw [h2] at hy
    refine exec_value hh.nonneg I.wf a.tmax a.eta (o.gradFunc ad a) run D D [] (SameExcept.refl _ _)
      (fun _ _ h => by cases h) ?_ y ys hy
    intro err he
    have herr : err = .runtimeError := by
      by_contra hne
      unfold Optimizer.optimize at hF
      rcases hx' : Optimizer.exec (o.optimizeForm a.tmax a.eta) (o.gradFunc ad a) run D D [] with
        ⟨⟨D', C, xs⟩, e'⟩
      rw [hx'] at hF he
      simp only at he
      subst he
      simp only at hF
      rw [if_neg hne] at hF
      cases hF
    subst herr
    exact fun E x hE => Optimizer.optimizeForm_no_runtime (validInput_same hE I) _ _ _

/-! ## The objective at the last call -/

section
variable {o : Optimizer ℝ} {h : List (RegOp (Param ℝ))} (hh : HasHistory o h) {D : Diagram ℝ} (I : ValidInput D)
  (hd : DirectOnly D) (old : Attrs ℝ) (nlopt : Problem ℝ → Run ℝ) (ad : GradFunc ℝ) (tol : ℝ) (a : SolveArgs ℝ)
  (ht : 1 ≤ a.tmax) (he : 0 ≤ a.eta) {F : Diagram ℝ} (hF : (o.solve old nlopt ad tol a D).form = .ok F)
  (hn : Nondegenerate F) {y : List ℝ} {ys : List (List ℝ)}
  (hy : (o.solve old nlopt ad tol a D).points = y :: ys)
include hh I hd ht he hF hn hy

theorem last_state : ∃ s, StateIs F s ∧
    (o.optimizeForm a.tmax a.eta D y).2 = calculatePenalty s o.constraints.vals (some 0) := by
  rcases C43_last_call hh I old nlopt ad tol a F hF with ⟨h0, -⟩ | ⟨y', ys', h1, E, hE, hEF⟩
  · rw [h0] at hy; cases hy
  rw [h1] at hy
  obtain ⟨v, hv⟩ := last_value hh I old nlopt ad tol a hF h1
  obtain ⟨rfl, rfl⟩ := List.cons.inj hy
  unfold Optimizer.optimizeForm at hv ⊢
  rcases hu : o.updateParameters D y' with ⟨E', (e | u)⟩
  · rw [hu] at hv; cases hv
  have hu2 : (o.updateParameters D y').2 = .ok () := by rw [hu]
  obtain rfl : E = E' := by
    have := Spec.Carries.unique I.wf.nodesNodup I.wf.edgesNodup hE (carries_of_write hh.nonneg hu2)
    rw [this]
    exact congrArg Prod.fst hu
  obtain ⟨s, h2, h3⟩ := npState_is (validInput_same hE.same I) (directOnly_same hE.same hd) hEF hn ht he
  refine ⟨s, h3, ?_⟩
  simp only [h2]

/-- **C83.**  On a diagram without indirect deviation edges, the value of the objective at its last call is the weighted
sum of what the form that is returned misses the constraints by. -/
theorem C83_value (v : ℝ) : (o.optimizeForm a.tmax a.eta D y).2 = .ok (some v) ↔
    ∃ ms, List.Forall₂ (Misses F) o.constraints.vals ms ∧
      v = (List.zipWith (fun c m => c.weight * m) o.constraints.vals ms).sum := by
  obtain ⟨s, h1, h2⟩ := last_state hh I hd old nlopt ad tol a ht he hF hn hy
  rw [h2]
  exact h1.penalties _ v

/-- **C83.**  If all weights are positive, this value is zero exactly if the form that is returned meets all
constraints. -/
theorem C83_meets (hw : ∀ c ∈ o.constraints.vals, 0 < c.weight) :
    (o.optimizeForm a.tmax a.eta D y).2 = .ok (some 0) ↔ ∀ c ∈ o.constraints.vals, Meets F c := by
  obtain ⟨s, h1, h2⟩ := last_state hh I hd old nlopt ad tol a ht he hF hn hy
  rw [h2, C39_zero s _ hw]
  simp only [h1.satisfied]

end

/-- **C83.**  If the form `F` of a diagram without indirect deviation edges has a deviation edge of length zero, or an
unstressed trail edge with a plane, there are constraints that it meets but at which the objective is not a number, or
fails. -/
theorem C83_degenerate {E : Diagram ℝ} (I : ValidInput E) (hd : DirectOnly E) {tol : ℝ} {F : Diagram ℝ}
    (hF : staticEquilibrium E none 100 tol false = .ok F) (hn : ¬ Nondegenerate F) :
    ∃ c : Constraint ℝ, c.weight = 1 ∧ Meets F c ∧ ∀ (o : Optimizer ℝ) h D y tmax eta v, HasHistory o h → ValidInput D →
      Carries o.parameters D y E → c ∈ o.constraints.vals → 1 ≤ tmax → 0 ≤ eta →
      (o.optimizeForm tmax eta D y).2 ≠ .ok (some v) := by
  obtain ⟨L, j, G, rfl, hnp⟩ := both_iter I hd hF
  obtain ⟨n, hnL, hnan⟩ := nIter_nan I hd G j hn
  have S := finalSpec_sched I.wf I.trails G j
  have hex : ∃ c : Constraint ℝ, c.weight = 1 ∧ Meets (formOf E (iter E none L (j + 1))) c ∧
      ∀ i, c.penalty (nIter E L (i + 1)) = .ok none := by
    have hs := stateIs_iter I G j rfl rfl rfl
    have hnode : ∀ b ∈ E.nodes.keys, ∃ d, (formOf E (iter E none L (j + 1))).nodes.get? b = some d := by
      intro b hb
      obtain ⟨d, hb⟩ := (Dict.exists_get?_iff E.nodes b).2 hb
      rw [formOf_get? I.wf S, hb]
      exact ⟨_, rfl⟩
    cases hb : nxtK E none n with
    | none =>
      have hr : ∀ i, (nIter E L (i + 1)).reactions.get? n = some none := by
        intro i
        rcases hnan i with ⟨-, h⟩ | ⟨b, h, -⟩
        · exact h
        · rw [hb] at h; cases h
      obtain ⟨r, hr1⟩ : ∃ r, Reacts (formOf E (iter E none L (j + 1))) n r := by
        have hk : n ∈ E.nodes.keys := (G.mem n).1 hnL
        obtain ⟨d, hd'⟩ := (Dict.exists_get?_iff E.nodes n).2 hk
        have ht := (support_iff I.wf I.trails hd').2 hb
        have hf := formOf_get? (D := E) I.wf S n
        rw [hd', Option.map_some] at hf
        exact ⟨_, _, hf, ht, rfl⟩
      refine ⟨.reaction n r 1, rfl, hr1, fun i => ?_⟩
      simp only [Constraint.penalty, dict_getE_ok (hr i), vectorPenalty, lift2, Option.map_none]
    | some b =>
      have hx : ∀ i, (nIter E L (i + 1)).xyz.get? b = some none := by
        intro i
        rcases hnan i with ⟨h, -⟩ | ⟨b', h, h'⟩
        · rw [hb] at h; cases h
        · rw [hb] at h; cases h; exact h'
      have hk : b ∈ E.nodes.keys := by
        rw [← (goodNState_iter (R := ℝ) I.wf I.trails L 1).1]
        exact Dict.mem_keys_of_get? (hx 0)
      obtain ⟨d, hd'⟩ := hnode b hk
      refine ⟨.point b d.pos 1, rfl, ⟨d, hd', rfl⟩, fun i => ?_⟩
      simp only [Constraint.penalty, dict_getE_ok (hx i), vectorPenalty, lift2, Option.map_none]
  obtain ⟨c, c1, c2, c3⟩ := hex
  refine ⟨c, c1, c2, fun o h D y tmax eta v hh J hE hc ht he hv => ?_⟩
  unfold Optimizer.optimizeForm at hv
  rcases hu : o.updateParameters D y with ⟨E', (e | u)⟩
  · rw [hu] at hv; cases hv
  have hu2 : (o.updateParameters D y).2 = .ok () := by rw [hu]
  obtain rfl : E = E' := by
    have := Spec.Carries.unique J.wf.nodesNodup J.wf.edgesNodup hE (carries_of_write hh.nonneg hu2)
    rw [this]
    exact congrArg Prod.fst hu
  rw [hu] at hv
  obtain ⟨i, hi⟩ := hnp tmax eta ht he
  simp only [hi] at hv
  obtain ⟨ps, h1, -⟩ := (calculatePenalty_acc _ _ _ _).1 hv
  obtain ⟨k, hk, hck⟩ := List.getElem_of_mem hc
  have := h1.get hk (by rw [← h1.length_eq]; exact hk)
  simp only [List.get_eq_getElem, hck, c3] at this
  cases this

namespace MeetsEx
open SolveEx

/-- A run that stops at its first point. -/
noncomputable def stopAt (t : ℝ) : Run ℝ := .eval [t] true fun v _ => .done [t] v 1 1

theorem solved_at (t : ℝ) : ∃ D F dv, Carries opt.parameters direct [t] D ∧
    staticEquilibrium D none 100 1 false = .ok F ∧
    opt.solve noAttrs (fun _ => stopAt t) gradient 1 args direct =
      ⟨D, ⟨some [t], some (some ((t + 1) ^ 2)), some 1, some "NLOPT_SUCCESS", some dv⟩, [[t]],
        some (.done [t] (some ((t + 1) ^ 2)) 1 1), .ok F⟩ := by
  have hg : ∀ C (t : ℝ), opt.gradFunc gradient args C [t] = (C, .ok [some (2 * (t + 1))]) := by
    intro C t
    simp [Optimizer.gradFunc, args, gradient, gradAutograd]
  have h5 := SolveEx.objective direct (SameExcept.refl _ _) t
  have c5 := Optimizer.optimizeForm_carries opt_history.nonneg h5
  rcases e5 : opt.optimizeForm 100 1 direct [t] with ⟨D, r⟩
  rw [e5] at h5 c5
  simp only at h5 c5
  obtain ⟨F, hF⟩ := C20_returns_without_indirect (validInput_same c5.same valid_direct)
    (directOnly_same c5.same directOnly_direct) (show 1 ≤ 100 by norm_num) (zero_le_one (α := ℝ))
  refine ⟨D, F, [some (2 * (t + 1))], c5, hF, ?_⟩
  rw [solve_eq]
  unfold Optimizer.optimize stopAt
  have hst : nloptStatus 1 = .ok "NLOPT_SUCCESS" := by decide +kernel
  have ha : args.tmax = 100 ∧ args.eta = 1 := ⟨rfl, rfl⟩
  rw [ha.1, ha.2]
  simp only [Optimizer.exec, e5, h5, hg, if_true, Optimizer.finish, hst, hF]

theorem origin_four {t : ℝ} {E : Diagram ℝ} (hc : Carries opt.parameters direct [t] E) :
    ∃ d, E.nodes.get? 4 = some d ∧ d.pos = ⟨4, 0, 0⟩ := by
  have hq : ∃ d, directQ.nodes.get? 4 = some d ∧ d.pos = ⟨4, 0, 0⟩ :=
    ⟨(directQ.nodes.get? 4).get (by decide +kernel), by simp, by decide +kernel⟩
  obtain ⟨q, hq, hp⟩ := hq
  have hd : direct.nodes.get? 4 = some (NodeData.map (fun q : ℚ => (q : ℝ)) q) := by
    show (directQ.map _).nodes.get? 4 = _
    rw [map_nodes_get?, hq]
    rfl
  obtain ⟨d', hd'⟩ := (Dict.exists_get?_iff E.nodes 4).2 (by
    rw [hc.same.nodeKeys]; exact Dict.mem_keys_of_get? hd)
  obtain ⟨_, _, _, hx, hy, hz, _⟩ := hc.same.node 4 _ d' hd hd'
  rw [opt_parameters] at hx hy hz
  have hx := hx (by simp [originNodeXParameter])
  have hy := hy (by simp [originNodeXParameter])
  have hz := hz (by simp [originNodeXParameter])
  refine ⟨d', hd', ?_⟩
  obtain ⟨⟨_, _, _⟩, _, _, _, _⟩ := d'
  simp [NodeData.map, Vec.map, hp] at hx hy hz
  simp [hx, hy, hz]

theorem dev_edge {t : ℝ} {E : Diagram ℝ} (hc : Carries opt.parameters direct [t] E) :
    (∀ e d, E.edges.get? e = some d → d.plane = none ∧ (d.type = .deviation → e = (0, 4))) ∧
    ∃ d, E.edges.get? (0, 4) = some d ∧ d.type = .deviation := by
  have hdev : ∀ p ∈ directQ.edges, p.2.type = .deviation → p.1 = (0, 4) := by decide +kernel
  have hpl : ∀ p ∈ directQ.edges, p.2.plane = none := by decide +kernel
  refine ⟨fun e d hd => ?_, ?_⟩
  · obtain ⟨d0, hd0⟩ := (Dict.exists_get?_iff direct.edges e).2 (by
      rw [← hc.same.edgeKeys]; exact Dict.mem_keys_of_get? hd)
    obtain ⟨h1, h2, -⟩ := hc.same.edge e d0 d hd0 hd
    unfold direct Diagram.real at hd0
    rw [map_edges_get?] at hd0
    obtain ⟨q, hq, rfl⟩ := Option.map_eq_some_iff.1 hd0
    refine ⟨?_, fun ht => hdev _ (Dict.mem_of_get? hq) (h1.symm.trans ht)⟩
    have := hpl _ (Dict.mem_of_get? hq)
    simp only at this
    rw [h2]
    simp [EdgeData.map, this]
  · have hq : directQ.edges.get? (0, 4) = some ⟨.deviation, 0, 1, none⟩ := by decide +kernel
    have hd : direct.edges.get? (0, 4) = some (EdgeData.map (fun q : ℚ => (q : ℝ)) ⟨.deviation, 0, 1, none⟩) := by
      unfold direct Diagram.real
      rw [map_edges_get?, hq]
      rfl
    obtain ⟨d, hd'⟩ := (Dict.exists_get?_iff E.edges (0, 4)).2 (by
      rw [hc.same.edgeKeys]; exact Dict.mem_keys_of_get? hd)
    exact ⟨d, hd', (hc.same.edge _ _ _ hd hd').1⟩

/-- The ends of the deviation edge coincide if the first origin is moved to 4. -/
theorem nondegenerate_at {t : ℝ} {E F : Diagram ℝ} {eta : ℝ} (hc : Carries opt.parameters direct [t] E)
    (h : staticEquilibrium E none 100 eta false = .ok F) : Nondegenerate F ↔ t ≠ 4 := by
  obtain ⟨_, hk, hnodes, hedges⟩ := C25_keeps_data (validInput_same hc.same valid_direct) h
  obtain ⟨g1, d04, g2, g3⟩ := dev_edge hc
  have htr : E.trails = direct.trails := hc.same.rest.2.2.1
  obtain ⟨d0, e0, q0⟩ := origin_of_carries hc
  obtain ⟨d4, e4, q4⟩ := origin_four hc
  have p0 : posOf F 0 = ⟨t, 0, 0⟩ := by
    obtain ⟨d', hd', _, _, _, hpos, _⟩ := hnodes 0 d0 e0
    unfold posOf
    rw [hd', ← q0]
    exact hpos ⟨[0, 1, 2], by rw [htr]; exact direct_trail⟩
  have p4 : posOf F 4 = ⟨4, 0, 0⟩ := by
    obtain ⟨d', hd', _, _, _, hpos, _⟩ := hnodes 4 d4 e4
    unfold posOf
    rw [hd', ← q4]
    refine hpos ⟨[4, 3], ?_⟩
    rw [htr]
    show _ ∈ directQ.trails
    decide +kernel
  have back : ∀ e d, F.edges.get? e = some d → ∃ d', E.edges.get? e = some d' ∧ d.type = d'.type ∧ d.plane = d'.plane := by
    intro e d hd
    obtain ⟨d', hd'⟩ := (Dict.exists_get?_iff E.edges e).2 (by rw [← hk]; exact Dict.mem_keys_of_get? hd)
    obtain ⟨d'', hd'', k1, k2, -⟩ := hedges e d' hd'
    rw [hd] at hd''
    cases hd''
    exact ⟨d', hd', k1, k2⟩
  constructor
  · rintro hn rfl
    obtain ⟨d', hd', k1, -⟩ := hedges _ _ g2
    exact hn.deviation 0 4 d' hd' (k1.trans g3) (p0.trans p4.symm)
  · intro ht
    constructor
    · intro a b d hd htd he
      obtain ⟨d', hd', k1, -⟩ := back _ _ hd
      have := (g1 _ _ hd').2 (k1.symm.trans htd)
      simp only [Prod.mk.injEq] at this
      obtain ⟨rfl, rfl⟩ := this
      rw [p0, p4] at he
      exact ht (congrArg Vec.x he)
    · intro e d hd _ hp
      obtain ⟨d', hd', -, k2⟩ := back _ _ hd
      exact absurd (k2.trans (g1 _ _ hd').1) hp

/-- A run that stops at 5, where the origin is six away from its target, and one that stops at -1, where the form meets
the constraint. -/
example : (∃ F, (opt.solve noAttrs (fun _ => stopAt 5) gradient 1 args direct).form = .ok F ∧
      Misses F (.point 0 ⟨-1, 0, 0⟩ 1) 36) ∧
    ∃ F, (opt.solve noAttrs (fun _ => stopAt (-1)) gradient 1 args direct).form = .ok F ∧
      Meets F (.point 0 ⟨-1, 0, 0⟩ 1) := by
  have hv : opt.constraints.vals = [.point 0 ⟨-1, 0, 0⟩ 1] := rfl
  constructor
  · obtain ⟨D, F, dv, hc, hF, hS⟩ := solved_at 5
    obtain ⟨ms, h1, h2⟩ := (C83_value opt_history valid_direct directOnly_direct noAttrs (fun _ => stopAt 5) gradient 1
      args (by show 1 ≤ 100; norm_num) (by show (0 : ℝ) ≤ 1; norm_num) (by rw [hS])
      ((nondegenerate_at hc hF).2 (by norm_num)) (by rw [hS]) ((5 + 1) ^ 2)).1
      (SolveEx.objective direct (SameExcept.refl _ _) 5)
    refine ⟨F, by rw [hS], ?_⟩
    rw [hv] at h1 h2
    cases h1 with
    | cons h1 h3 =>
      cases h3
      norm_num [Constraint.weight] at h2
      rw [h2]
      exact h1
  · obtain ⟨D, F, dv, hc, hF, hS⟩ := solved_at (-1)
    refine ⟨F, by rw [hS], ?_⟩
    refine (C83_meets opt_history valid_direct directOnly_direct noAttrs (fun _ => stopAt (-1)) gradient 1
      args (by show 1 ≤ 100; norm_num) (by show (0 : ℝ) ≤ 1; norm_num) (by rw [hS])
      ((nondegenerate_at hc hF).2 (by norm_num)) (by rw [hS]) ?_).1 ?_ _ (by rw [hv]; simp)
    · rw [hv]; simp [Constraint.weight]
    · have := SolveEx.objective direct (SameExcept.refl _ _) (-1)
      rw [show ((-1 : ℝ) + 1) ^ 2 = 0 by norm_num] at this
      exact this

/-- The hypotheses of `C83_degenerate` hold of the diagram with the first origin moved to 4. -/
example : ∃ E F, Carries opt.parameters direct [4] E ∧ staticEquilibrium E none 100 1 false = .ok F ∧
    ∃ c : Constraint ℝ, c.weight = 1 ∧ Meets F c ∧
      ∀ v, ({ opt with constraints := [(0, c)] }.optimizeForm 100 1 direct [4]).2 ≠ .ok (some v) := by
  obtain ⟨E, F, dv, hc, hF, hS⟩ := solved_at 4
  obtain ⟨c, h1, h2, h3⟩ := C83_degenerate (validInput_same hc.same valid_direct)
    (directOnly_same hc.same directOnly_direct) hF fun h => (nondegenerate_at hc hF).1 h rfl
  exact ⟨E, F, hc, hF, c, h1, h2, fun v => h3 _ SolveEx.history direct [4] 100 1 v rfl valid_direct hc
    (by simp [Dict.vals]) (by norm_num) zero_le_one⟩

end MeetsEx

/-! ## With indirect deviation edges and thresholds -/

/-- A form that the plain solver returns is nearly reproduced by one more round, and there is a state with its
numbers. -/
theorem plain_nearly {D : Diagram ℝ} (I : ValidInput D) {tmax : Nat} (ht : 2 ≤ tmax) {eta : ℝ} {verbose : Bool}
    {F : Diagram ℝ} (h : staticEquilibrium D none tmax eta verbose = .ok F) :
    ∃ s r z, NearForm D F eta s r ∧ StateOf D F z ∧ StateIs F z := by
  obtain ⟨L, m, G, rfl, -, h2⟩ := returned I (by simp) h
  obtain ⟨h3, h4⟩ := h2 ht
  have S := finalSpec_sched I.wf I.trails G m
  rw [decide_eq_true (by omega : m ≠ 0)] at S
  refine ⟨_, _, liftS (iter D none L (m + 1)), nearForm_of_final I S fun n hn => ?_,
    stateOf_iter I G m rfl rfl rfl, stateIs_iter I G m rfl rfl rfl⟩
  exact (dist_le_residual _ _ (by rw [S.keys.1]; exact hn)).trans h4

section
variable {k : WithTop ℕ∞} {o : Optimizer ℝ} {h : List (RegOp (Param ℝ))} {D E G : Diagram ℝ} {n : Nat}
  {x0 : Fin n → ℝ} {tmax : Nat}

/-- Near the values `x0`, and for small thresholds, what the forms of the plain solver miss the constraints by adds up to
the objective without threshold, up to a factor times the threshold. -/
theorem plain_objective (P : SmoothPoint k o h D E G x0 tmax 0) (hk : 1 ≤ k) (hA : Acyclic D)
    (ht : D.nodes.length < tmax) {t : Nat} (ht2 : 2 ≤ t) {f : (Fin n → ℝ) → ℝ}
    (hf : ∀ᶠ x in 𝓝 x0, (o.optimizeForm tmax 0 D (List.ofFn x)).2 = .ok (some (f x))) :
    ∃ C, ∃ δ > 0, ∀ x, dist x x0 < δ → ∀ tol : ℝ, 0 ≤ tol → tol < δ → ∀ F,
      staticEquilibrium (o.updateParameters D (List.ofFn x)).1 none t tol false = .ok F →
      ∃ ms, List.Forall₂ (Misses F) o.constraints.vals ms ∧
        |(List.zipWith (fun c m => c.weight * m) o.constraints.vals ms).sum - f x| ≤ C * tol := by
  obtain ⟨H, hH, hsm, hval⟩ := smooth_objective P
  have h0 := P.history.nonneg
  have hok := P.written
  have S := smooth_written h0 hok k x0
  have hs : ∀ x : Fin n → ℝ, SameExcept (fun s => ∃ q ∈ o.parameters, q.2.slot = s) D
      (o.updateParameters D (List.ofFn x)).1 := fun x =>
    Optimizer.writeParameters_same (List.ofFn x) o.parameters D
  have J : ∀ x : Fin n → ℝ, ValidInput (o.updateParameters D (List.ofFn x)).1 := fun x =>
    validInput_same (hs x) P.valid
  have hE : (o.updateParameters D (List.ofFn x0)).1 = E :=
    Spec.Carries.unique P.valid.wf.nodesNodup P.valid.wf.edgesNodup (carries_of_write h0 (hok x0)) P.carries
  have hG : H x0 = G := by
    have := hH x0
    rw [hE, P.form] at this
    exact (Except.ok.inj this).symm
  have hpos := nodes_pos P.valid
  have hset : ∀ x, ∃ q : EqState ℝ × (Int → Vec ℝ), SettledForm (o.updateParameters D (List.ofFn x)).1 (H x) q.1 q.2 :=
    fun x => settled_zero (J x) (by omega) le_rfl (hH x)
  have hrun : ∀ p : (Fin n → ℝ) × ℝ, ∃ F : Diagram ℝ, ∀ F',
      staticEquilibrium (o.updateParameters D (List.ofFn p.1)).1 none t p.2 false = .ok F' → F' = F := by
    intro p
    cases hp : staticEquilibrium (o.updateParameters D (List.ofFn p.1)).1 none t p.2 false with
    | error err => exact ⟨D, fun F' h => by cases h⟩
    | ok F => exact ⟨F, fun F' h => (Except.ok.inj h).symm⟩
  choose F hF using hrun
  let Ret : Set ((Fin n → ℝ) × ℝ) :=
    {p | ∃ F', staticEquilibrium (o.updateParameters D (List.ofFn p.1)).1 none t p.2 false = .ok F'}
  let l0 : Filter ((Fin n → ℝ) × ℝ) := 𝓝 x0 ×ˢ 𝓝[≥] 0
  let l : Filter ((Fin n → ℝ) × ℝ) := l0 ⊓ 𝓟 Ret
  have hl : l ≤ l0 := inf_le_left
  have hge : ∀ᶠ p : (Fin n → ℝ) × ℝ in l0, 0 ≤ p.2 :=
    tendsto_snd.eventually self_mem_nhdsWithin
  have hw : Vanishing l (fun p => p.2) :=
    ⟨hge.filter_mono hl, ((tendsto_nhdsWithin_iff.1 (tendsto_snd (f := 𝓝 x0) (g := 𝓝[≥] (0 : ℝ)))).1).mono_left hl⟩
  have hret : ∀ᶠ p in l, staticEquilibrium (o.updateParameters D (List.ofFn p.1)).1 none t p.2 false = .ok (F p) := by
    have : ∀ᶠ p in l, p ∈ Ret := (eventually_principal.2 fun _ h => h : ∀ᶠ p in 𝓟 Ret, p ∈ Ret).filter_mono inf_le_right
    exact this.mono fun p hp => by
      obtain ⟨F', hp⟩ := hp
      rw [hp, hF p F' hp]
  have hX := P.distinct
  rw [← hE, ← hG] at hX
  have hc := P.carry
  rw [← hG] at hc
  have CF := close_form (D := fun x : Fin n → ℝ => (o.updateParameters D (List.ofFn x)).1) (t := Prod.fst) (l := l)
    (F := F) (G := fun p => H p.1) hw
    (tendsto_fst.mono_left hl) (J x0) (by rw [hE]; exact P.nonzero) (acyclic_same (hs x0) hA) S
    (hret.mono fun p hp => by
      obtain ⟨s, r, z, h1, -, -⟩ := plain_nearly (J p.1) ht2 hp
      exact ⟨(s, r), h1⟩) (.of_forall fun p => hset p.1) (hset x0) hc hX
  have hpen := fun c hc' => close_penalty hw CF (posed_same (hs x0) (P.posed c hc'))
    (clear_mono hk (by rw [hG]; exact P.clear c hc'))
  have hclear : ∀ᶠ p in l, ∀ c ∈ o.constraints.vals, Clear 0 (F p) c := by
    have : ∀ cs : List (Constraint ℝ), (∀ c ∈ cs, ∀ᶠ p in l, Clear 0 (F p) c) →
        ∀ᶠ p in l, ∀ c ∈ cs, Clear 0 (F p) c := by
      intro cs
      induction cs with
      | nil => simp
      | cons c cs ih =>
        intro hl
        filter_upwards [hl c (by simp), ih fun c' hc' => hl c' (by simp [hc'])] with x a1 a2
        simpa using ⟨a1, a2⟩
    exact this _ fun c hc' => (hpen c hc').2
  obtain ⟨C, hC⟩ := (Close.list_sum hw o.constraints.vals
    (a := fun c p => formPenalty (F p) c)
    (b := fun c p => formPenalty (H p.1) c) (v := fun c => formPenalty (H x0) c)
    fun c hc' => (hpen c hc').1).rate
  have hfH : ∀ᶠ p in l, f p.1 = (o.constraints.vals.map (formPenalty (H p.1))).sum :=
    (tendsto_fst.mono_left hl).eventually ((hf.and hval).mono fun x hx => by
      have := hx.1.symm.trans hx.2
      simpa using this)
  have hall : ∀ᶠ p in l, ∃ ms, List.Forall₂ (Misses (F p)) o.constraints.vals ms ∧
      |(List.zipWith (fun c m => c.weight * m) o.constraints.vals ms).sum - f p.1| ≤ C * p.2 := by
    filter_upwards [hret, hclear, hC, hfH] with p a1 a3 a4 a5
    obtain ⟨s, r, z, -, z1, z2⟩ := plain_nearly (J p.1) ht2 a1
    have := penalties_form (k := 0) z1 (cs := o.constraints.vals) fun c hc' =>
      ⟨posed_same (hs p.1) (P.posed c hc'), a3 c hc'⟩
    obtain ⟨ms, h1, h2⟩ := (z2.penalties _ _).1 this
    refine ⟨ms, h1, ?_⟩
    rw [← h2, a5]
    exact a4
  have hall' := Filter.eventually_inf_principal.1 hall
  obtain ⟨U, hU, V, hV, hUV⟩ := Filter.eventually_prod_iff.1 hall'
  obtain ⟨d1, hd1, h1⟩ := Metric.eventually_nhds_iff.1 hU
  obtain ⟨d2, hd2, h2⟩ := Metric.eventually_nhds_iff.1 (eventually_nhdsWithin_iff.1 hV)
  refine ⟨C, min d1 d2, lt_min hd1 hd2, fun x hx tol he0 he F' hF' => ?_⟩
  obtain ⟨ms, e1, e2⟩ := hUV (h1 (hx.trans_le (min_le_left _ _))) (h2 (by
    rw [Real.dist_eq, sub_zero, abs_of_nonneg he0]
    exact he.trans_le (min_le_right _ _)) he0) ⟨F', hF'⟩
  rw [← hF (x, tol) F' hF'] at e1
  exact ⟨ms, e1, e2⟩

/-- **C83.**  With indirect deviation edges, but without feedback and away from kinks, the value of the objective at its
last call is the weighted sum of what the form that is returned misses the constraints by, up to a factor times the
thresholds of both. -/
theorem C83_near (P : SmoothPoint k o h D E G x0 tmax 0) (hk : 1 ≤ k) (hA : Acyclic D) (ht : D.nodes.length < tmax) :
    ∃ C, ∃ δ > 0, ∀ (a : SolveArgs ℝ) old nlopt ad tol F x ys, a.tmax = tmax → 0 ≤ a.eta → a.eta < δ → 0 ≤ tol →
      tol < δ → (o.solve old nlopt ad tol a D).form = .ok F →
      (o.solve old nlopt ad tol a D).points = List.ofFn x :: ys → dist x x0 < δ →
      ∃ v ms, (o.optimizeForm a.tmax a.eta D (List.ofFn x)).2 = .ok (some v) ∧
        List.Forall₂ (Misses F) o.constraints.vals ms ∧
        |v - (List.zipWith (fun c m => c.weight * m) o.constraints.vals ms).sum| ≤ C * (a.eta + tol) := by
  obtain ⟨f, -, hf, C1, d1, hd1, h1⟩ := C79_objective P hk hA ht
  obtain ⟨C2, d2, hd2, h2⟩ := plain_objective P hk hA ht (t := 100) (by norm_num) hf
  refine ⟨max C1 C2, min d1 d2, lt_min hd1 hd2, fun a old nlopt ad tol F x ys ha e0 e1 t0 t1 hF hy hx => ?_⟩
  subst ha
  obtain ⟨v, hv, hv2⟩ := h1 x (hx.trans_le (min_le_left _ _)) a.eta e0 (e1.trans_le (min_le_left _ _))
  rcases C43_last_call P.history P.valid old nlopt ad tol a F hF with ⟨h0, -⟩ | ⟨y, zs, e, X, hX, hXF⟩
  · rw [h0] at hy; cases hy
  rw [e] at hy
  obtain ⟨rfl, rfl⟩ := List.cons.inj hy
  have hXe : (o.updateParameters D (List.ofFn x)).1 = X :=
    Spec.Carries.unique P.valid.wf.nodesNodup P.valid.wf.edgesNodup
      (carries_of_write P.history.nonneg (P.written x)) hX
  obtain ⟨ms, m1, m2⟩ := h2 x (hx.trans_le (min_le_right _ _)) tol t0 (t1.trans_le (min_le_right _ _)) F
    (by rw [hXe]; exact hXF)
  refine ⟨v, ms, hv, m1, ?_⟩
  have k1 := mul_le_mul_of_nonneg_right (le_max_left C1 C2) e0
  have k2 := mul_le_mul_of_nonneg_right (le_max_right C1 C2) t0
  rw [abs_le] at hv2 m2 ⊢
  constructor <;> linarith [hv2.1, hv2.2, m2.1, m2.2]

end

namespace StaleEx

/-- Stops at 0. -/
noncomputable def rest : Run ℝ := .eval [0] false fun v _ => .done [0] v 1 1

noncomputable def settings (eta : ℝ) : SolveArgs ℝ := ⟨"SLSQP", "AD", 100, 0, 0, 1, 100, eta⟩

/-- With any positive thresholds this run returns a form. -/
theorem stale_rest (old : Attrs ℝ) {eta tol : ℝ} (he : 0 < eta) (ht : 0 < tol) : ∃ G,
    staleOpt.solve old (fun _ => rest) (staleOpt.autograd 100 eta) tol (settings eta) (stale 0) =
      ⟨stale 0, ⟨some [0], some (some 1), some 1, some "NLOPT_SUCCESS", some [some 0]⟩, [[0]],
        some (.done [0] (some 1) 1 1), .ok G⟩ := by
  have hd : (settings eta).tmax = 100 ∧ (settings eta).eta = eta ∧ (settings eta).grad = "AD" := ⟨rfl, rfl, rfl⟩
  obtain ⟨G, hG⟩ : ∃ G, staticEquilibrium (stale 0) none 100 tol false = .ok G := by
    obtain ⟨St, hb⟩ := staged_of_acyclic (valid_stale 0) (acyclic_stale 0)
    exact C65_returns (valid_stale 0) St (N := 98) (fun n hn => by
      have := hb n hn
      have hl : (stale 0).nodes.length = 6 := rfl
      omega) le_rfl ht.le false
  have hv0 := stale_value 0 0 (by simp) (tmax := 100) (by norm_num) (eta := eta) (by simpa using he)
  have h0 := (C81_stale (tmax := 100) (by norm_num)).1 eta he
  have hslot : ∀ j p, Registered staleHistory j p → HasSlot (stale 0) p.slot := fun j p hr =>
    ((stale_computed 1 (tmax := 100) (by norm_num) (eta := 1) (by norm_num)).slots j p hr).2
  have hseg : InitialSegment staleHistory 1 := by
    intro j
    rw [← mem_keys_registered]
    show (j : Int) ∈ [(0 : Int)] ↔ _
    simp
  obtain ⟨y, b, hy, hb, -⟩ := C37_vector staleHistory (stale 0) hslot 1 hseg
  have hst : nloptStatus 1 = .ok "NLOPT_SUCCESS" := by decide +kernel
  have hp : staleOpt.parameters = [(0, deviationEdgeParameter (2, 5) none none)] := stale_registered
  refine ⟨G, ?_⟩
  have hc : staleOpt.checkSanity = .ok () := by
    unfold Optimizer.checkSanity
    rw [hp, if_neg (by simp), if_neg]
    intro h
    have := stale_goals
    simp [Dict.vals, List.length_eq_zero_iff.1 h] at this
  have hy' : staleOpt.optimizationParameters (stale 0) = .ok y := hy
  have hb' : staleOpt.optimizationBounds (stale 0) = .ok b := hb
  unfold Optimizer.solve
  rw [hc, hy', hb']
  simp only
  rw [if_neg (by simp [settings]), if_neg (by simp [settings, nloptAlgorithms])]
  have hgr : staleOpt.gradFunc (staleOpt.autograd 100 eta) (settings eta) (stale 0) [0] = (stale 0, .ok [some 0]) :=
    (C43_automatic_gradient staleOpt _ hd.2.2 h0).1 rfl
  unfold Optimizer.optimize rest
  rw [hd.1, hd.2.1]
  simp only [Optimizer.exec, hv0, hgr, Bool.false_eq_true, if_false, Optimizer.finish, hst, hG]

end StaleEx

open StaleEx in
/-- For this diagram with an indirect deviation edge the reported value, 1, is what the form returned misses the
constraints by, up to a factor times the thresholds. -/
example : ∃ C, ∃ δ > 0, ∀ eta tol : ℝ, 0 < eta → eta < δ → 0 < tol → tol < δ → ∃ F ms,
    (staleOpt.solve SolveEx.noAttrs (fun _ => rest) (staleOpt.autograd 100 eta) tol (settings eta) (stale 0)).form =
      .ok F ∧ List.Forall₂ (Misses F) staleOpt.constraints.vals ms ∧
    |1 - (List.zipWith (fun c m => c.weight * m) staleOpt.constraints.vals ms).sum| ≤ C * (eta + tol) := by
  obtain ⟨G, P⟩ := stale_point 1 (tmax := 100) (by norm_num)
  obtain ⟨C, δ, hδ, H⟩ := C83_near P le_rfl (acyclic_stale 0) (by change 6 < 100; norm_num)
  refine ⟨C, δ, hδ, fun eta tol e0 e1 t0 t1 => ?_⟩
  obtain ⟨F, hS⟩ := stale_rest SolveEx.noAttrs e0 t0
  obtain ⟨v, ms, h1, h2, h3⟩ := H (settings eta) SolveEx.noAttrs (fun _ => rest) (staleOpt.autograd 100 eta) tol F ![0] []
    rfl e0.le e1 t0.le t1 (by rw [hS]) (by rw [hS]; rfl) (by simpa using hδ)
  have hv := stale_value 0 0 (by simp) (tmax := 100) (by norm_num) (eta := eta) (by simpa using e0)
  have : (staleOpt.optimizeForm (settings eta).tmax (settings eta).eta (stale 0) (List.ofFn ![0])).2 = .ok (some 1) :=
    congrArg Prod.snd hv
  rw [this] at h1
  obtain rfl : (1 : ℝ) = v := by simpa using h1
  exact ⟨F, ms, by rw [hS], h2, h3⟩

end Props
end CEM
