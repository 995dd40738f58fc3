import Verif.Lemmas.CoordinatesAutodiff

/-!
# Derivatives of penalties, and gradients, in other coordinates and units
-/

set_option linter.unusedSectionVars false
set_option linter.unusedSimpArgs false

namespace CEM
open Diagram Spec Optimizer

section
variable {R : Type} [Field R] [LinearOrder R] [IsStrictOrderedRing R] [PySqrt R]
variable {A : Vec R → Vec R} {τ : Trans R} {cl cf : R} {v : Vec R} (S : τ.Similar A cl cf v) (lam : R)
  (K : τ.Keeps (cl * cl) (cf * cf))

theorem tn_weight {k : R} (hk : k ≠ 0) (a : Traced R) (w : R) :
    (tn lam k a).mul (.const (w / k)) = tn lam 1 (a.mul (.const w)) := by
  unfold Traced.mul tn Traced.const
  simp only [mul_zero, add_zero, one_mul, mul_one]
  congr 1 <;> field_simp

namespace Trans.Similar

section
include S

theorem p_const (a : Vec R) : (Traced.const (τ.p a) : Traced (Vec R)) = tv A lam cl v (.const a) := by
  rw [tv_const S.orth, S.p]

theorem r_const (a : Vec R) : (Traced.const (τ.r a) : Traced (Vec R)) = tv A lam cf 0 (.const a) := by
  rw [tv_const S.orth, S.r, add_zero]

theorem u_const (a : Vec R) : (Traced.const (τ.u a) : Traced (Vec R)) = tv A lam 1 0 (.const a) := by
  rw [tv_const S.orth, S.u, add_zero, one_smul]

theorem p_sub (a b : Vec R) : τ.p a - τ.p b = cl • A (a - b) := by
  rw [S.p, S.p, Props.orth_sub S.orth, smul_sub, add_sub_add_right_eq_sub]

theorem vectorPenalty {k : R} (hk : Scaling k) (w : Vec R) (r t : TVec R) (wt : R) :
    adVectorPenalty (r.map (tv A lam k w)) (t.map (tv A lam k w)) (wt / (k * k)) =
      (adVectorPenalty r t wt).map (tn lam 1) := by
  unfold adVectorPenalty
  have hd : ∀ a b, adDistSq (tv A lam k w a) (tv A lam k w b) = tn lam (k * k) (adDistSq a b) := by
    intro a b
    unfold adDistSq
    rw [tv_sub S.orth, tv_dot S.orth]
  rw [lift2_map hd]
  generalize lift2 adDistSq r t = x
  cases x with
  | none => rfl
  | some x => exact congrArg some (tn_weight lam (mul_ne_zero hk.ne hk.ne) x wt)

omit S in
theorem floatPenalty {k : R} (hk : Scaling k) (r : TNum R) (t wt : R) :
    adFloatPenalty (r.map (tn lam k)) (k * t) (wt / (k * k)) = (adFloatPenalty r t wt).map (tn lam 1) := by
  unfold adFloatPenalty
  cases r with
  | none => rfl
  | some r =>
    simp only [Option.map_some]
    rw [← tn_const lam, tn_sub, tn_mul, tn_weight lam (mul_ne_zero hk.ne hk.ne)]

theorem line (p : Traced (Vec R)) (a b : Vec R) :
    adClosestOnLine (tv A lam cl v p) (τ.p a) (τ.p b) = tv A lam cl v (adClosestOnLine p a b) := by
  unfold adClosestOnLine
  have hk := mul_ne_zero S.len.ne S.len.ne
  rw [S.p_const lam a, tv_sub S.orth, S.p_sub, dot_smul_smul, S.orth.dot]
  have hc : (Traced.const (cl • A (b - a)) : Traced (Vec R)) = tv A lam cl 0 (.const (b - a)) := by
    rw [tv_const S.orth, add_zero]
  have hn : (Traced.const (cl * cl * Vec.dot (b - a) (b - a)) : Traced R) =
      tn lam (cl * cl) (.const (Vec.dot (b - a) (b - a))) := by rw [tn_const]
  simp only [mul_eq_zero, S.len.ne, false_or]
  rw [hc, hn, tv_dot S.orth, tn_div lam _ hk, div_self hk, tv_scale S.orth, one_mul]
  split_ifs
  · have h0 : (Traced.const 0 : Traced (Vec R)) = tv A lam cl 0 (.const 0) := by
      rw [tv_const S.orth, orth_zero S.orth, smul_zero, add_zero]
    rw [h0, tv_add S.orth, ← h0]
  · rw [tv_add S.orth]

theorem plane (p : Traced (Vec R)) (a n : Vec R) :
    adClosestOnPlane (tv A lam cl v p) (τ.p a) (τ.u n) = (adClosestOnPlane p a n).map (tv A lam cl v) := by
  unfold adClosestOnPlane
  simp only
  rw [S.u, Props.orth_normalize S.orth, S.orth.dot]
  split_ifs with h0
  · rfl
  · rw [Option.map_some]
    congr 1
    generalize Vec.normalize n = m at h0 ⊢
    have hm : (Traced.const (A m) : Traced (Vec R)) = tv A lam 1 0 (.const m) := by
      rw [tv_const S.orth, add_zero, one_smul]
    have hd : (Traced.dot (.const (A m)) (tv A lam cl v p)).sub (.const (Vec.dot (A m) (τ.p a))) =
        tn lam cl ((Traced.dot (.const m) p).sub (.const (Vec.dot m a))) := by
      unfold Traced.dot Traced.sub Traced.const tv tn
      rw [S.p]
      simp only
      have e : ∀ x y z : Vec R, Vec.dot x (y + z) = Vec.dot x y + Vec.dot x z := by
        intro x y z; simp [Vec.dot]; ring
      have e2 : ∀ (c : R) (x y : Vec R), Vec.dot x (c • y) = c * Vec.dot x y := by
        intro c x y; simp [Vec.dot]; ring
      have e3 : ∀ y : Vec R, Vec.dot 0 y = 0 := by intro y; simp [Vec.dot]
      simp only [e, e2, e3, S.orth.dot]
      congr 1 <;> ring
    rw [hd, hm]
    have hn : (Traced.const (Vec.dot m m) : Traced R) = tn lam 1 (.const (Vec.dot m m)) := by
      rw [tn_const, one_mul]
    rw [hn, tn_div lam _ one_ne_zero, div_one, tv_scale S.orth, mul_one]
    unfold Traced.sub tv
    simp only [add_zero, Props.orth_sub S.orth, smul_sub, ← hn]
    congr 1
    abel

end

section
include S K

theorem tv_val (a : Traced (Vec R)) : (tv A lam cl v a).val = τ.p a.val := by
  rw [S.p]; rfl

theorem segment (p : Traced (Vec R)) (a b : Vec R) :
    adClosestOnSegment (tv A lam cl v p) (τ.p a) (τ.p b) = tv A lam cl v (adClosestOnSegment p a b) := by
  unfold adClosestOnSegment
  simp only
  rw [S.line lam, S.tv_val lam K, S.p_const lam a, S.p_const lam b]
  simp only [K.p_sq, gt_iff_lt, K.kp_lt]
  split_ifs <;> rfl

theorem first (p : Traced (Vec R)) (best : Traced (Vec R)) (qs : List (Traced (Vec R))) :
    adFirstClosest (tv A lam cl v p).val (tv A lam cl v best) (qs.map (tv A lam cl v)) =
      tv A lam cl v (adFirstClosest p.val best qs) := by
  induction qs generalizing best with
  | nil => rfl
  | cons q qs ih =>
    simp only [List.map_cons, adFirstClosest]
    rw [← ih]
    congr 1
    simp only [S.tv_val lam K, K.dist, K.l_lt]
    split_ifs <;> rfl

theorem polyline (p : Traced (Vec R)) (pts : List (Vec R)) :
    adClosestOnPolyline (tv A lam cl v p) (pts.map τ.p) = (adClosestOnPolyline p pts).map (tv A lam cl v) := by
  unfold adClosestOnPolyline
  have : (((pts.map τ.p).zip (pts.map τ.p).tail).map fun s => adClosestOnSegment (tv A lam cl v p) s.1 s.2) =
      ((pts.zip pts.tail).map fun s => adClosestOnSegment p s.1 s.2).map (tv A lam cl v) := by
    rw [← List.map_tail, List.zip_map, List.map_map, List.map_map]
    refine List.map_congr_left fun s _ => ?_
    exact S.segment lam K p s.1 s.2
  rw [this]
  cases (pts.zip pts.tail).map fun s => adClosestOnSegment p s.1 s.2 with
  | nil => rfl
  | cons q qs => exact congrArg Except.ok (S.first lam K p q qs)

theorem edgeDirection (xyz : Dict Int (TVec R)) (e : Int × Int) :
    adEdgeDirection (mapVal (Option.map (tv A lam cl v)) xyz) e =
      (adEdgeDirection xyz e).map (Option.map (tv A lam 1 0)) := by
  unfold adEdgeDirection
  rw [mapVal_getE, mapVal_getE]
  cases xyz.getE e.2 with
  | error err => rfl
  | ok pv =>
    simp only [Except.map]
    cases xyz.getE e.1 with
    | error err => rfl
    | ok pu =>
      simp only
      rw [lift2_map (tv_sub S.orth lam cl v)]
      generalize lift2 Traced.sub pv pu = x
      cases x with
      | none => rfl
      | some x =>
        simp only [Option.map_some, Option.bind_some]
        congr 1
        have hv : (tv A lam cl 0 x).val = cl • A x.val := add_zero _
        rw [hv, dot_smul_smul, S.orth.dot, S.len.sqrt]
        simp only [mul_eq_zero, S.len.ne, false_or]
        split_ifs
        · rfl
        · rw [tv_dot S.orth, tn_sqrt lam S.len]
          have h1 : (Traced.const 1 : Traced R) = tn lam 1 (.const 1) := by rw [tn_const, one_mul]
          rw [h1, tn_div lam _ S.len.ne, tv_scale S.orth, one_div, inv_mul_cancel₀ S.len.ne, ← h1]
          rfl

theorem edgeLength (xyz : Dict Int (TVec R)) (e : Int × Int) :
    adEdgeLengthRef (mapVal (Option.map (tv A lam cl v)) xyz) e =
      (adEdgeLengthRef xyz e).map (Option.map (tn lam cl)) := by
  unfold adEdgeLengthRef
  rw [mapVal_getE, mapVal_getE]
  cases xyz.getE e.1 with
  | error err => rfl
  | ok a =>
    simp only [Except.map]
    cases xyz.getE e.2 with
    | error err => rfl
    | ok b =>
      simp only
      rw [lift2_map (tv_sub S.orth lam cl v)]
      generalize lift2 Traced.sub a b = x
      cases x with
      | none => rfl
      | some x => exact congrArg Except.ok (tv_norm S.orth lam S.len x)

/-- The derivatives of penalties. -/
theorem penalty (con : Constraint R) (s : AState R) :
    (τ.constraint (cl * cl) (cf * cf) con).adPenalty (aTrans A cl cf v lam s) =
      (con.adPenalty s).map (Option.map (tn lam 1)) := by
  have hx : ∀ n, (aTrans A cl cf v lam s).xyz.getE n = (s.xyz.getE n).map (Option.map (tv A lam cl v)) :=
    fun n => mapVal_getE _ _ _
  have hf : ∀ n, (aTrans A cl cf v lam s).trailForces.getE n = (s.trailForces.getE n).map (Option.map (tn lam cf)) :=
    fun n => mapVal_getE _ _ _
  have hr : ∀ n, (aTrans A cl cf v lam s).reactions.getE n = (s.reactions.getE n).map (Option.map (tv A lam cf 0)) :=
    fun n => mapVal_getE _ _ _
  cases con with
  | point n t w =>
    simp only [Trans.constraint, Constraint.adPenalty, hx]
    cases s.xyz.getE n with
    | error err => rfl
    | ok r =>
      simp only [Except.map]
      rw [S.p_const lam, show (some (tv A lam cl v (.const t)) : TVec R) = (some (.const t) : TVec R).map (tv A lam cl v)
        from rfl, S.vectorPenalty lam S.len]
  | plane n t w =>
    simp only [Trans.constraint, Constraint.adPenalty, hx]
    cases s.xyz.getE n with
    | error err => rfl
    | ok r =>
      simp only [Except.map]
      have : (Option.map (tv A lam cl v) r).bind (fun p => adClosestOnPlane p (τ.p t.1) (τ.u t.2)) =
          (r.bind fun p => adClosestOnPlane p t.1 t.2).map (tv A lam cl v) := by
        cases r with
        | none => rfl
        | some p => exact S.plane lam p t.1 t.2
      rw [this, S.vectorPenalty lam S.len]
  | line n t w =>
    simp only [Trans.constraint, Constraint.adPenalty, hx]
    cases s.xyz.getE n with
    | error err => rfl
    | ok r =>
      simp only [Except.map]
      have : (Option.map (tv A lam cl v) r).map (fun p => adClosestOnLine p (τ.p t.1) (τ.p t.2)) =
          (r.map fun p => adClosestOnLine p t.1 t.2).map (tv A lam cl v) := by
        cases r with
        | none => rfl
        | some p => exact congrArg some (S.line lam p t.1 t.2)
      rw [this, S.vectorPenalty lam S.len]
  | polyline n t w =>
    simp only [Trans.constraint, Constraint.adPenalty, hx]
    cases s.xyz.getE n with
    | error err => rfl
    | ok r =>
      cases r with
      | none =>
        simp only [Except.map, Option.map_none, List.length_map]
        split_ifs <;> rfl
      | some p =>
        simp only [Except.map, Option.map_some]
        rw [S.polyline lam K]
        cases adClosestOnPolyline p t with
        | error err => rfl
        | ok q => exact congrArg Except.ok (S.vectorPenalty lam S.len v (some p) (some q) w)
  | trailForce e t w =>
    simp only [Trans.constraint, Constraint.adPenalty, hf]
    cases s.trailForces.getE e with
    | error err => rfl
    | ok r =>
      simp only [Except.map]
      rw [S.f, floatPenalty lam S.frc]
  | reaction n t w =>
    simp only [Trans.constraint, Constraint.adPenalty, hr]
    cases s.reactions.getE n with
    | error err => rfl
    | ok r =>
      simp only [Except.map]
      rw [S.r_const lam, show (some (tv A lam cf 0 (.const t)) : TVec R) = (some (.const t) : TVec R).map (tv A lam cf 0)
        from rfl, S.vectorPenalty lam S.frc]
  | length e t w =>
    simp only [Trans.constraint, Constraint.adPenalty]
    have : adEdgeLengthRef (aTrans A cl cf v lam s).xyz e = _ := S.edgeLength lam K s.xyz e
    rw [this]
    cases adEdgeLengthRef s.xyz e with
    | error err => rfl
    | ok r =>
      simp only [Except.map]
      rw [S.l, floatPenalty lam S.len]
  | direction e t w =>
    simp only [Trans.constraint, Constraint.adPenalty]
    have : adEdgeDirection (aTrans A cl cf v lam s).xyz e = _ := S.edgeDirection lam K s.xyz e
    rw [this]
    cases adEdgeDirection s.xyz e with
    | error err => rfl
    | ok r =>
      simp only [Except.map]
      have hval : (Option.map (tv A lam 1 0) r).map Traced.val = (r.map Traced.val).map τ.u := by
        cases r with
        | none => rfl
        | some r =>
          simp only [Option.map_some, tv, one_smul, add_zero]
          rw [S.u]
      have h1 := S.vectorPenalty lam Scaling.one 0 r (some (.const (alignedTarget t (r.map Traced.val)))) w
      rw [one_mul, div_one, Option.map_some] at h1
      rw [hval, K.align, S.u_const lam, h1]

theorem total (s : AState R) (l : List (Constraint R)) (acc : TNum R) :
    adCalculatePenalty (aTrans A cl cf v lam s) (l.map (τ.constraint (cl * cl) (cf * cf))) (acc.map (tn lam 1)) =
      (adCalculatePenalty s l acc).map (Option.map (tn lam 1)) := by
  induction l generalizing acc with
  | nil => rfl
  | cons con l ih =>
    simp only [List.map_cons, adCalculatePenalty]
    rw [S.penalty lam K]
    cases con.adPenalty s with
    | error err => rfl
    | ok p =>
      simp only [Except.map]
      rw [lift2_map (fun a b => tn_add lam 1 a b)]
      exact ih _

end
end Trans.Similar

/-! ## Gradients -/

/-- The factor by which the value of a parameter is multiplied. -/
def slotFactor (cl cf : R) (s : Slot) : R := if IsForce s then cf else cl

section
include S

theorem still_tangent (D : Diagram R) : (τ.diagram D).still = (τ.tangent A cl cf lam).diagram D.still := by
  unfold Diagram.still Trans.diagram
  simp only [mapVal, List.map_map]
  congr 1
  · refine List.map_congr_left fun q _ => ?_
    simp only [Function.comp, Trans.node, Trans.tangent, orth_zero S.orth, smul_zero]
  · refine List.map_congr_left fun q _ => ?_
    simp only [Function.comp, Trans.edge, Trans.tangent, mul_zero]

omit S in
theorem tangent_fits (s : Slot) (hA : A = id ∨ ∃ e a, s = .edge e a) :
    Fits (τ.tangent A cl cf lam) (fun s w => lam * slotFactor cl cf s * w) s := by
  rcases hA with rfl | ⟨e, a, rfl⟩
  · rcases s with ⟨n, a⟩ | ⟨e, a⟩ <;> cases a <;> intro d w <;>
      refine ⟨?_, ?_⟩ <;>
      simp [NodeAttr.set, EdgeAttr.set, NodeAttr.get, EdgeAttr.get, Trans.node, Trans.edge, Trans.tangent,
        slotFactor, IsForce] <;> rfl
  · cases a <;> intro d w <;> refine ⟨?_, ?_⟩ <;>
      simp [EdgeAttr.set, EdgeAttr.get, Trans.edge, Trans.tangent, slotFactor, IsForce]

end

section
variable {g b dg : Slot → R → R} {c : Constraint R → Constraint R} {o : Optimizer R}

theorem write_fits (hn : o.parameters.keys.Nodup) (h0 : ∀ q ∈ o.parameters, 0 ≤ q.1) {σ : Trans R} {k : Slot → R → R}
    (hf : ∀ q ∈ o.parameters, Fits σ k q.2.slot)
    (x : List R) (l : Dict Int (Param R)) (hl : ∀ q ∈ l, q ∈ o.parameters) (D : Diagram R) :
    writeParameters (along k (slotsOf o.parameters) x)
      (l.map fun q => (q.1, (⟨q.2.slot, q.2.low.map (b q.2.slot), q.2.up.map (b q.2.slot)⟩ : Param R))) (σ.diagram D) =
      (σ.diagram (writeParameters x l D).1, (writeParameters x l D).2) := by
  induction l generalizing D with
  | nil => rfl
  | cons q l ih =>
    obtain ⟨j, p⟩ := q
    have hm := hl (j, p) (by simp)
    have hj := h0 _ hm
    simp only [List.map_cons, writeParameters]
    rw [npGet_along k _ x hj (slotsOf_mem hn hj hm)]
    cases npGet x j with
    | error err => rfl
    | ok v =>
      simp only [Except.map]
      rw [(hf _ hm).setAttribute D v]
      cases D.setAttribute v p.slot with
      | error err => rfl
      | ok D' => exact ih (fun q hq => hl q (by simp [hq])) D'

/-- What the derivative with respect to entry `i` is multiplied by. -/
def entryRate (cl cf : R) (slots : Nat → Option Slot) (i : Nat) : R :=
  match slots i with
  | some s => 1 / slotFactor cl cf s
  | none => 1

theorem unit_along (hcl : cl ≠ 0) (hcf : cf ≠ 0) (slots : Nat → Option Slot) (n i : Nat) :
    along (fun s w => entryRate cl cf slots i * slotFactor cl cf s * w) slots (unitList n i) = unitList n i := by
  refine List.ext_getElem? fun j => ?_
  rw [along_get?]
  unfold unitList
  rw [List.getElem?_map]
  by_cases hj : j < n
  · rw [List.getElem?_range hj]
    simp only [Option.map_some]
    by_cases hi : j = i
    · subst hi
      rw [if_pos rfl]
      unfold entryRate
      cases slots j with
      | none => rfl
      | some s =>
        simp only [mul_one]
        have : slotFactor cl cf s ≠ 0 := by unfold slotFactor; split_ifs <;> assumption
        rw [one_div, inv_mul_cancel₀ this]
    · rw [if_neg hi]
      cases slots j with
      | none => rfl
      | some s => simp only [mul_zero]
  · rw [List.getElem?_eq_none (by simpa using hj)]
    rfl

theorem listE_scaled {α β γ : Type} {f : α → Except PyErr β} {f' : α → Except PyErr γ} {k : Nat → β → γ} (l : List α)
    (h : ∀ i a, l[i]? = some a → f' a = (f a).map (k i)) : listE f' l = (listE f l).map (List.mapIdx k) := by
  induction l generalizing k with
  | nil => rfl
  | cons a l ih =>
    unfold listE
    rw [h 0 a rfl]
    cases f a with
    | error err => rfl
    | ok y =>
      simp only [Except.map]
      rw [ih (k := fun i => k (i + 1)) fun i b hb => h (i + 1) b hb]
      cases listE f l with
      | error err => rfl
      | ok ys => simp only [Except.map, List.mapIdx_cons]

theorem listE_length {α β : Type} {f : α → Except PyErr β} {l : List α} {ys : List β} (h : listE f l = .ok ys) :
    ys.length = l.length := by
  induction l generalizing ys with
  | nil => cases h; rfl
  | cons a l ih =>
    unfold listE at h
    cases hf : f a with
    | error err => rw [hf] at h; cases h
    | ok y =>
      rw [hf] at h
      cases hl : listE f l with
      | error err => rw [hl] at h; cases h
      | ok zs => rw [hl] at h; cases h; simp [ih hl]

/-- Gradients have as many entries as the vector. -/
theorem autograd_length (o : Optimizer R) (tmax : Nat) (eta : R) (C : Diagram R) (x : List R) (dv : List (Num R))
    (h : (o.autograd tmax eta C x).2 = .ok dv) : dv.length = x.length := by
  unfold Optimizer.autograd at h
  generalize o.optimizeForm tmax eta C x = r at h
  obtain ⟨D, (e | _)⟩ := r
  · cases h
  · have := listE_length h
    simpa using this

theorem optimizeForm_written (o : Optimizer R) (tmax : Nat) (eta : R) (C : Diagram R) (x : List R) :
    (o.optimizeForm tmax eta C x).1 = (o.updateParameters C x).1 := by
  unfold optimizeForm
  rcases o.updateParameters C x with ⟨D, (e | _)⟩
  · rfl
  · simp only
    cases npEquilibriumState D tmax eta false with
    | error err => rfl
    | ok s => rfl

namespace Rewrites
variable (H : Rewrites τ g b dg (τ.constraint (cl * cl) (cf * cf)) o)
  (hA : ∀ q ∈ o.parameters, A = id ∨ ∃ e a, q.2.slot = .edge e a)
include H S K hA

theorem adEntry (tmax : Nat) (eta : R) (D : Diagram R) (n i : Nat)
    (hz : cf = 1 ∨ NeverSlack D (o.updateParameters D.still (unitList n i)).1 tmax) :
    (rewriteOptimizer b (τ.constraint (cl * cl) (cf * cf)) o).adEntry tmax (τ.l eta) (τ.diagram D) n i =
      (o.adEntry tmax eta D n i).map (Option.map (entryRate cl cf (slotsOf o.parameters) i * ·)) := by
  obtain ⟨sq, N⟩ := H.solver
  unfold Optimizer.adEntry
  have hT : ((rewriteOptimizer b (τ.constraint (cl * cl) (cf * cf)) o).updateParameters (τ.diagram D).still
      (unitList n i)).1 = (τ.tangent A cl cf (entryRate cl cf (slotsOf o.parameters) i)).diagram
        (o.updateParameters D.still (unitList n i)).1 := by
    have := write_fits (b := b) H.nodup H.nonneg
      (fun q hq => tangent_fits (τ := τ) (A := A) (cl := cl) (cf := cf)
        (entryRate cl cf (slotsOf o.parameters) i) q.2.slot (hA q hq))
      (unitList n i) o.parameters (fun _ h => h) D.still
    rw [unit_along S.len.ne S.frc.ne] at this
    rw [still_tangent S]
    exact congrArg Prod.fst this
  rw [hT, S.equilibrium _ N D _ tmax eta hz]
  cases adEquilibriumState D (o.updateParameters D.still (unitList n i)).1 tmax eta with
  | error err => rfl
  | ok s =>
    simp only [Except.map]
    have hv : (rewriteOptimizer b (τ.constraint (cl * cl) (cf * cf)) o).constraints.vals =
        o.constraints.vals.map (τ.constraint (cl * cl) (cf * cf)) := by
      unfold rewriteOptimizer Dict.vals
      simp only [List.map_map]
      rfl
    have h0 : (some (.const 0) : TNum R) =
        (some (.const 0) : TNum R).map (tn (entryRate cl cf (slotsOf o.parameters) i) 1) := by
      rw [Option.map_some, tn_const, mul_zero]
    rw [hv, h0, S.total _ K, ← h0]
    cases adCalculatePenalty s o.constraints.vals (some (.const 0)) with
    | error err => rfl
    | ok p =>
      simp only [Except.map]
      cases p with
      | none => rfl
      | some p => simp only [Option.map_some, tn, mul_one]

/-- The gradient by automatic differentiation, in other coordinates and units. -/
theorem autograd (hdg : ∀ s w, dg s w = 1 / slotFactor cl cf s * w) (tmax : Nat) (eta : R) (C : Diagram R) (x : List R)
    (hz : cf = 1 ∨ ∀ i, i < x.length → NeverSlack (o.updateParameters C x).1
      (o.updateParameters (o.updateParameters C x).1.still (unitList x.length i)).1 tmax) :
    (rewriteOptimizer b (τ.constraint (cl * cl) (cf * cf)) o).autograd tmax (τ.l eta) (τ.diagram C)
        (along g (slotsOf o.parameters) x) =
      (τ.diagram (o.autograd tmax eta C x).1, (o.autograd tmax eta C x).2.map
        (along (fun s => Option.map (dg s)) (slotsOf o.parameters))) := by
  unfold Optimizer.autograd
  rw [H.objective]
  have hw := optimizeForm_written o tmax eta C x
  generalize o.optimizeForm tmax eta C x = r at hw ⊢
  obtain ⟨D, (e | p)⟩ := r
  · rfl
  · simp only at hw ⊢
    rw [along_length]
    congr 1
    refine listE_scaled (List.range x.length) fun i a ha => ?_
    have hi : i < x.length := by
      by_contra hi
      rw [List.getElem?_eq_none (by simpa using hi)] at ha
      cases ha
    rw [List.getElem?_range hi] at ha
    cases ha
    rw [adEntry S K H hA tmax eta D x.length i (hz.imp id fun hz => by rw [hw]; exact hz i hi)]
    congr 1
    funext w
    unfold entryRate
    cases slotsOf o.parameters i with
    | none => cases w <;> simp
    | some s => cases w <;> simp [hdg]

end Rewrites
end
end
end CEM
