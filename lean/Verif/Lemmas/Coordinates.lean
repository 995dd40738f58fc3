import Verif.Lemmas.SimulationNumpy
import Verif.Lemmas.Solve
import Verif.Spec.Coordinates

/-!
# The optimizer on transformed problems

`Fits` is what the rewriting of parameters has to satisfy so that the objective and `solve`
commute with a transformation.
-/

set_option linter.unusedSectionVars false
set_option linter.unusedSimpArgs false

namespace CEM
open Diagram Spec Optimizer

/-! ## Vectors -/

section
variable {α : Type} (g : Slot → α → α)

@[simp] theorem along_length (S : Nat → Option Slot) (x : List α) : (along g S x).length = x.length := by
  simp [along]

theorem along_get? (S : Nat → Option Slot) (x : List α) (i : Nat) :
    (along g S x)[i]? = x[i]?.map fun v => match S i with | some s => g s v | none => v := by
  simp only [along, List.getElem?_mapIdx]
  rfl

theorem along_set (S : Nat → Option Slot) (x : List α) (j : Nat) (v : α) :
    along g S (x.set j v) = (along g S x).set j (match S j with | some s => g s v | none => v) := by
  refine List.ext_getElem? fun i => ?_
  rw [along_get?, List.getElem?_set, List.getElem?_set, along_length, along_get?]
  by_cases h : j = i
  · subst h
    rw [if_pos rfl, if_pos rfl]
    split_ifs <;> rfl
  · rw [if_neg h, if_neg h]

theorem along_none (x : List α) : along g (fun _ => none) x = x := by
  refine List.ext_getElem? fun i => ?_
  rw [along_get?]
  simp

theorem along_congr {S T : Nat → Option Slot} (x : List α)
    (h : ∀ i v, (match S i with | some s => g s v | none => v) = (match T i with | some s => g s v | none => v)) :
    along g S x = along g T x := by
  refine List.ext_getElem? fun i => ?_
  rw [along_get?, along_get?]
  simp only [h]

/-- Nothing is rewritten. -/
theorem along_id {S : Nat → Option Slot} (h : ∀ i s v, S i = some s → g s v = v) (x : List α) :
    along g S x = x := by
  refine List.ext_getElem? fun i => ?_
  rw [along_get?]
  cases hs : S i with
  | none => simp
  | some s => simp [h i s _ hs]

theorem npGet_along (S : Nat → Option Slot) (x : List α) {k : Int} (h0 : 0 ≤ k) {s : Slot} (hs : S k.toNat = some s) :
    npGet (along g S x) k = (npGet x k).map (g s) := by
  unfold npGet
  rw [along_length]
  by_cases hl : k < x.length
  · rw [npIndex_of h0 hl]
    simp only [along_get?, hs]
    cases x[k.toNat]? <;> rfl
  · rw [npIndex_ge h0 hl]
    rfl

end

theorem slotsOf_mem {R : Type} {l : Dict Int (Param R)} (hn : l.keys.Nodup) {k : Int} {p : Param R} (h0 : 0 ≤ k)
    (h : (k, p) ∈ l) : slotsOf l k.toNat = some p.slot := by
  unfold slotsOf
  rw [Int.toNat_of_nonneg h0, Dict.get?_of_mem hn h]
  rfl

theorem slotsOf_some {R : Type} {l : Dict Int (Param R)} {i : Nat} {s : Slot} (h : slotsOf l i = some s) :
    ∃ q ∈ l, q.2.slot = s := by
  unfold slotsOf at h
  obtain ⟨p, hp, rfl⟩ := Option.map_eq_some_iff.1 h
  exact ⟨_, Dict.mem_of_get? hp, rfl⟩

variable {R : Type} [Field R] [LinearOrder R] [PySqrt R]

/-- Writing `g s v` into the transformed diagram is writing `v` into the diagram. -/
def Fits (τ : Trans R) (g : Slot → R → R) : Slot → Prop
  | .node n a => ∀ d v, a.set (τ.node d) (g (.node n a) v) = τ.node (a.set d v) ∧
      a.get (τ.node d) = g (.node n a) (a.get d)
  | .edge e a => ∀ d v, a.set (τ.edge d) (g (.edge e a) v) = τ.edge (a.set d v) ∧
      a.get (τ.edge d) = g (.edge e a) (a.get d)

namespace Fits
variable {τ : Trans R} {g : Slot → R → R}

theorem setAttribute {s : Slot} (h : Fits τ g s) (D : Diagram R) (v : R) :
    (τ.diagram D).setAttribute (g s v) s = (D.setAttribute v s).map τ.diagram := by
  cases s with
  | node n a =>
    unfold Diagram.setAttribute
    have hh : (τ.diagram D).nodes.has n = D.nodes.has n := by
      unfold Dict.has Trans.diagram
      rw [mapVal_get?, Option.isSome_map]
    simp only [hh]
    split_ifs
    · unfold Trans.diagram
      simp only [Except.map]
      rw [mapVal_modify τ.node D.nodes n (fun d => a.set d v) _ (fun d => (h d v).1)]
    · rfl
  | edge e a =>
    unfold Diagram.setAttribute
    have hh : (τ.diagram D).edges.has e = D.edges.has e := by
      unfold Dict.has Trans.diagram
      rw [mapVal_get?, Option.isSome_map]
    simp only [hh]
    split_ifs
    · unfold Trans.diagram
      simp only [Except.map]
      rw [mapVal_modify τ.edge D.edges e (fun d => a.set d v) _ (fun d => (h d v).1)]
    · rfl

theorem getAttribute {s : Slot} (h : Fits τ g s) (D : Diagram R) :
    (τ.diagram D).getAttribute s = (D.getAttribute s).map (g s) := by
  cases s with
  | node n a =>
    unfold Diagram.getAttribute Trans.diagram
    simp only [mapVal_get?]
    cases D.nodes.get? n with
    | none => rfl
    | some d => exact congrArg Except.ok (h d 0).2
  | edge e a =>
    unfold Diagram.getAttribute Trans.diagram
    simp only [mapVal_get?]
    cases D.edges.get? e with
    | none => rfl
    | some d => exact congrArg Except.ok (h d 0).2

end Fits

/-! ## The optimizer -/

/-- A transformation together with what becomes of parameters (`g`), widths of bounds (`b`),
gradients (`dg`) and constraints (`c`), for the optimizer `o`. -/
structure Rewrites (τ : Trans R) (g b dg : Slot → R → R) (c : Constraint R → Constraint R) (o : Optimizer R) :
    Prop where
  nodup : o.parameters.keys.Nodup
  nonneg : ∀ q ∈ o.parameters, 0 ≤ q.1
  fits : ∀ q ∈ o.parameters, Fits τ g q.2.slot
  low : ∀ s v w, g s (v - |w|) = g s v - |b s w|
  up : ∀ s v w, g s (v + |w|) = g s v + |b s w|
  solver : ∃ sq, τ.NGood sq
  penalty : ∀ con s, (c con).penalty (τ.nstate s) = con.penalty s

namespace Rewrites
variable {τ : Trans R} {g b dg : Slot → R → R} {c : Constraint R → Constraint R} {o : Optimizer R}
variable (H : Rewrites τ g b dg c o)
include H

omit H in
theorem keys_rewrite : (rewriteOptimizer b c o).parameters.keys = o.parameters.keys := by
  unfold rewriteOptimizer Dict.keys
  simp only [List.map_map]
  rfl

theorem write_aux (x : List R) (l : Dict Int (Param R)) (hl : ∀ q ∈ l, q ∈ o.parameters) (D : Diagram R) :
    writeParameters (along g (slotsOf o.parameters) x)
      (l.map fun q => (q.1, (⟨q.2.slot, q.2.low.map (b q.2.slot), q.2.up.map (b q.2.slot)⟩ : Param R))) (τ.diagram D) =
      (τ.diagram (writeParameters x l D).1, (writeParameters x l D).2) := by
  induction l generalizing D with
  | nil => rfl
  | cons q l ih =>
    obtain ⟨k, p⟩ := q
    have hm := hl (k, p) (by simp)
    have h0 := H.nonneg _ hm
    simp only [List.map_cons, writeParameters]
    rw [npGet_along g _ x h0 (slotsOf_mem H.nodup h0 hm)]
    cases npGet x k with
    | error err => rfl
    | ok v =>
      simp only [Except.map]
      rw [(H.fits _ hm).setAttribute D v]
      cases D.setAttribute v p.slot with
      | error err => rfl
      | ok D' => exact ih (fun q hq => hl q (by simp [hq])) D'

theorem update (x : List R) (D : Diagram R) :
    (rewriteOptimizer b c o).updateParameters (τ.diagram D) (along g (slotsOf o.parameters) x) =
      (τ.diagram (o.updateParameters D x).1, (o.updateParameters D x).2) :=
  H.write_aux x o.parameters (fun _ h => h) D

theorem total (s : NState R) (l : List (Constraint R)) (acc : Num R) :
    calculatePenalty (τ.nstate s) (l.map c) acc = calculatePenalty s l acc := by
  induction l generalizing acc with
  | nil => rfl
  | cons con l ih =>
    simp only [List.map_cons, calculatePenalty]
    rw [H.penalty]
    cases con.penalty s with
    | error err => rfl
    | ok p => exact ih _

/-- The objective has the same values. -/
theorem objective (tmax : Nat) (eta : R) (D : Diagram R) (x : List R) :
    (rewriteOptimizer b c o).optimizeForm tmax (τ.l eta) (τ.diagram D) (along g (slotsOf o.parameters) x) =
      (τ.diagram (o.optimizeForm tmax eta D x).1, (o.optimizeForm tmax eta D x).2) := by
  obtain ⟨sq, N⟩ := H.solver
  unfold optimizeForm
  rw [H.update]
  rcases o.updateParameters D x with ⟨D', (e | u)⟩
  · rfl
  · simp only
    rw [N.equilibrium]
    cases npEquilibriumState D' tmax eta false with
    | error err => rfl
    | ok s =>
      simp only [Except.map]
      have : (rewriteOptimizer b c o).constraints.vals = o.constraints.vals.map c := by
        unfold rewriteOptimizer Dict.vals
        simp only [List.map_map]
        rfl
      rw [this, H.total]

/-! ### Start vector and bounds -/

omit H in
theorem assemble_along {α : Type} (ga : Slot → α → α) (ψ : Param R → Param R) (f f' : Param R → Except PyErr α)
    (l : Dict Int (Param R)) (hf : ∀ q ∈ l, f' (ψ q.2) = (f q.2).map (ga q.2.slot)) (h0 : ∀ q ∈ l, 0 ≤ q.1)
    (hn : l.keys.Nodup) (S : Nat → Option Slot) (a : List α) (hS : ∀ k ∈ l.keys, S k.toNat = none) :
    assemble f' (l.map fun q => (q.1, ψ q.2)) (along ga S a) =
      (assemble f l a).map (along ga fun i => (slotsOf l i).or (S i)) := by
  induction l generalizing S a with
  | nil =>
    simp only [List.map_nil, assemble, Except.map]
    congr 1
  | cons q l ih =>
    obtain ⟨k, p⟩ := q
    have hk : 0 ≤ k := h0 (k, p) (by simp)
    rw [Dict.keys_cons, List.nodup_cons] at hn
    simp only [List.map_cons, assemble]
    rw [hf (k, p) (by simp)]
    cases f p with
    | error err => rfl
    | ok v =>
      simp only [Except.map]
      unfold npSet
      rw [along_length]
      by_cases hl : k < a.length
      · rw [npIndex_of hk hl]
        simp only
        let S' : Nat → Option Slot := fun i => if i = k.toNat then some p.slot else S i
        have e : (along ga S a).set k.toNat (ga p.slot v) = along ga S' (a.set k.toNat v) := by
          rw [along_set]
          have h1 : S' k.toNat = some p.slot := if_pos rfl
          rw [h1]
          refine List.ext_getElem? fun i => ?_
          rw [List.getElem?_set, List.getElem?_set, along_length, along_length, along_get?, along_get?]
          by_cases hi : k.toNat = i
          · rw [if_pos hi, if_pos hi]
          · have h2 : S' i = S i := if_neg (Ne.symm hi)
            rw [if_neg hi, if_neg hi, h2]
        rw [e, ih (fun q hq => hf q (by simp [hq])) (fun q hq => h0 q (by simp [hq])) hn.2 S']
        · have : (fun i => (slotsOf l i).or (S' i)) = fun i => (slotsOf ((k, p) :: l) i).or (S i) := by
            funext i
            unfold slotsOf
            rw [show Dict.get? ((k, p) :: l) (i : Int) = if k = (i : Int) then some p else Dict.get? l i from rfl]
            by_cases hi : k = (i : Int)
            · have h3 : i = k.toNat := by omega
              have h4 : Dict.get? l (i : Int) = none := by
                rw [← hi]; exact (Dict.get?_eq_none_iff _ _).2 hn.1
              rw [if_pos hi, h4]
              simp [S', h3]
            · have h3 : ¬ i = k.toNat := by omega
              rw [if_neg hi]
              simp only [S', if_neg h3]
          rw [this]
          rfl
        · intro j hj
          have h5 : ¬ j.toNat = k.toNat := by
            obtain ⟨pj, hpj⟩ := Dict.exists_get?_iff _ _ |>.2 hj
            have := h0 (j, pj) (by simp [Dict.mem_of_get? hpj])
            intro e
            have : j = k := by simp only at this; omega
            exact hn.1 (this ▸ hj)
          simp only [S', if_neg h5]
          exact hS j (by rw [Dict.keys_cons]; simp [hj])
      · rw [npIndex_ge hk hl]

theorem start (D : Diagram R) : (rewriteOptimizer b c o).optimizationParameters (τ.diagram D) =
    (o.optimizationParameters D).map (along g (slotsOf o.parameters)) := by
  have h := assemble_along g (fun p => ⟨p.slot, p.low.map (b p.slot), p.up.map (b p.slot)⟩)
    (fun p => p.startValue D) (fun p => p.startValue (τ.diagram D)) o.parameters
    (fun q hq => (H.fits q hq).getAttribute D) H.nonneg H.nodup (fun _ => none)
    (List.replicate o.parameters.length 0) (fun _ _ => rfl)
  rw [along_none] at h
  simp only [Option.or_none] at h
  unfold optimizationParameters
  have hl : (rewriteOptimizer b c o).parameters.length = o.parameters.length := by
    simp [rewriteOptimizer]
  rw [hl]
  exact h

theorem boundLow (D : Diagram R) {q : Int × Param R} (hq : q ∈ o.parameters) :
    (⟨q.2.slot, q.2.low.map (b q.2.slot), q.2.up.map (b q.2.slot)⟩ : Param R).boundLow (τ.diagram D) =
      (q.2.boundLow D).map (WithBot.map (g q.2.slot)) := by
  unfold Param.boundLow Param.startValue
  simp only
  cases q.2.low with
  | none => rfl
  | some w =>
    simp only [Option.map_some]
    rw [(H.fits q hq).getAttribute D]
    cases D.getAttribute q.2.slot with
    | error err => rfl
    | ok v => simp only [Except.map, WithBot.map_coe, H.low]

theorem boundUp (D : Diagram R) {q : Int × Param R} (hq : q ∈ o.parameters) :
    (⟨q.2.slot, q.2.low.map (b q.2.slot), q.2.up.map (b q.2.slot)⟩ : Param R).boundUp (τ.diagram D) =
      (q.2.boundUp D).map (WithTop.map (g q.2.slot)) := by
  unfold Param.boundUp Param.startValue
  simp only
  cases q.2.up with
  | none => rfl
  | some w =>
    simp only [Option.map_some]
    rw [(H.fits q hq).getAttribute D]
    cases D.getAttribute q.2.slot with
    | error err => rfl
    | ok v => simp only [Except.map, WithTop.map_coe, H.up]

theorem bounds (D : Diagram R) : (rewriteOptimizer b c o).optimizationBounds (τ.diagram D) =
    (o.optimizationBounds D).map
      (along (fun s q => (q.1.map (g s), q.2.map (g s))) (slotsOf o.parameters)) := by
  have h := assemble_along (fun s q => (WithBot.map (g s) q.1, WithTop.map (g s) q.2))
    (fun p => ⟨p.slot, p.low.map (b p.slot), p.up.map (b p.slot)⟩)
    (fun p => match p.boundLow D with
        | .error err => .error err
        | .ok a => match p.boundUp D with
          | .error err => .error err
          | .ok b => .ok (a, b))
    (fun p => match p.boundLow (τ.diagram D) with
        | .error err => .error err
        | .ok a => match p.boundUp (τ.diagram D) with
          | .error err => .error err
          | .ok b => .ok (a, b)) o.parameters
    (fun q hq => by
      rw [H.boundLow D hq, H.boundUp D hq]
      cases q.2.boundLow D with
      | error err => rfl
      | ok a => cases q.2.boundUp D <;> rfl) H.nonneg H.nodup (fun _ => none)
    (List.replicate o.parameters.length (((0 : R) : WithBot R), ((0 : R) : WithTop R))) (fun _ _ => rfl)
  rw [along_none] at h
  simp only [Option.or_none] at h
  unfold optimizationBounds
  have hl : (rewriteOptimizer b c o).parameters.length = o.parameters.length := by
    simp [rewriteOptimizer]
  rw [hl]
  exact h

end Rewrites

/-! ## Gradients -/

theorem fdLoop_along {S : Type} (f f' : Objective S R) (T : S → S) (h : R) (fx0 : Num R) (m : List R → List R)
    (hlen : ∀ x, (m x).length = x.length)
    (hf : ∀ s x, f' (T s) (m x) = (T (f s x).1, (f s x).2))
    (hm : ∀ x (i : Nat) v, x[i]? = some v → ∃ v', (m x)[i]? = some v' ∧ (m x).set i (v' + h) = m (x.set i (v + h)))
    (is : List Nat) (s : S) (x : List R) (c : List R) (grad : List (Num R)) :
    fdLoop f' h fx0 is (T s) ⟨m x, m c⟩ grad =
      ((T (fdLoop f h fx0 is s ⟨x, c⟩ grad).1.1, ⟨m (fdLoop f h fx0 is s ⟨x, c⟩ grad).1.2.x,
        m (fdLoop f h fx0 is s ⟨x, c⟩ grad).1.2.copy⟩), (fdLoop f h fx0 is s ⟨x, c⟩ grad).2) := by
  induction is generalizing s c grad with
  | nil => rfl
  | cons i is ih =>
    unfold fdLoop
    by_cases hi : (i : Int) < c.length
    · have hi' : (i : Int) < (m c).length := by rw [hlen]; exact hi
      have hi2 : i < c.length := by omega
      obtain ⟨v', hv', hs⟩ := hm c i c[i] (List.getElem?_eq_getElem hi2)
      have g1 : npGet c (i : Int) = .ok c[i] := by
        unfold npGet
        rw [npIndex_of (by omega) hi]
        simp [List.getElem?_eq_getElem hi2]
      have g2 : npGet (m c) (i : Int) = .ok v' := by
        unfold npGet
        rw [npIndex_of (by omega) hi']
        simp [hv']
      have s1 : npSet c (i : Int) (c[i] + h) = .ok (c.set i (c[i] + h)) := by
        unfold npSet; rw [npIndex_of (by omega) hi]; simp
      have s2 : npSet (m c) (i : Int) (v' + h) = .ok (m (c.set i (c[i] + h))) := by
        unfold npSet; rw [npIndex_of (by omega) hi']; simp [hs]
      simp only [g1, g2, s1, s2, hf]
      rcases f s (c.set i (c[i] + h)) with ⟨s', (e | fx1)⟩
      · rfl
      · simp only
        cases npSet grad (i : Int) (fdQuotient fx0 fx1 h) with
        | error err => rfl
        | ok grad' =>
          simp only
          have s3 : npSet (c.set i (c[i] + h)) (i : Int) c[i] = .ok c := by
            unfold npSet
            rw [npIndex_of (by omega) (by rw [List.length_set]; exact hi)]
            simp
          have s4 : npSet (m (c.set i (c[i] + h))) (i : Int) v' = .ok (m c) := by
            unfold npSet
            rw [npIndex_of (by omega) (by rw [hlen, List.length_set]; exact hi), ← hs]
            simp only [Int.toNat_natCast, List.set_set, Except.ok.injEq]
            refine List.ext_getElem? fun j => ?_
            rw [List.getElem?_set]
            by_cases hj : i = j
            · subst hj
              rw [if_pos rfl, if_pos (by rw [hlen]; exact hi2), hv']
            · rw [if_neg hj]
          simp only [s3, s4]
          exact ih s' c grad'
    · have hi' : ¬ (i : Int) < (m c).length := by rw [hlen]; exact hi
      have g1 : npGet c (i : Int) = .error .indexError := by
        unfold npGet; rw [npIndex_ge (by omega) hi]
      have g2 : npGet (m c) (i : Int) = .error .indexError := by
        unfold npGet; rw [npIndex_ge (by omega) hi']
      simp only [g1, g2]

theorem fd_along {S : Type} (f f' : Objective S R) (T : S → S) (h : R) (m : List R → List R)
    (hlen : ∀ x, (m x).length = x.length)
    (hf : ∀ s x, f' (T s) (m x) = (T (f s x).1, (f s x).2))
    (hm : ∀ x (i : Nat) v, x[i]? = some v → ∃ v', (m x)[i]? = some v' ∧ (m x).set i (v' + h) = m (x.set i (v + h)))
    (s : S) (x : List R) (grad : List (Num R)) :
    (gradFiniteDifferences f' h (T s) (m x) grad).1.1 = T (gradFiniteDifferences f h s x grad).1.1 ∧
      (gradFiniteDifferences f' h (T s) (m x) grad).2 = (gradFiniteDifferences f h s x grad).2 := by
  unfold gradFiniteDifferences
  rw [hf]
  rcases f s x with ⟨s', (e | fx0)⟩
  · exact ⟨rfl, rfl⟩
  · simp only
    rw [hlen, fdLoop_along f f' T h fx0 m hlen hf hm]
    exact ⟨rfl, rfl⟩

theorem along_step {g : Slot → R → R} {S : Nat → Option Slot} (hg : ∀ i s v h, S i = some s → g s (v + h) = g s v + h)
    (h : R) (x : List R) (i : Nat) (v : R) (hv : x[i]? = some v) :
    ∃ v', (along g S x)[i]? = some v' ∧ (along g S x).set i (v' + h) = along g S (x.set i (v + h)) := by
  rw [along_get?, hv, along_set]
  refine ⟨_, rfl, ?_⟩
  cases hs : S i with
  | none => rfl
  | some s => simp only [hg i s v h hs]

namespace Rewrites
variable {τ : Trans R} {g b dg : Slot → R → R} {c : Constraint R → Constraint R} {o : Optimizer R}
variable (H : Rewrites τ g b dg c o)
include H

/-- Gradients by either method. -/
theorem gradientAt {ad ad' : GradFunc R} {a : SolveArgs R} {C : Diagram R} {x : List R}
    (had : a.grad = "AD" → ad' (τ.diagram C) (along g (slotsOf o.parameters) x) =
      (τ.diagram (ad C x).1, (ad C x).2.map (along (fun s => Option.map (dg s)) (slotsOf o.parameters))))
    (hlen : a.grad = "AD" → ∀ v, (ad C x).2 = .ok v → v.length = x.length)
    (hfd : a.grad ≠ "AD" → ∀ i s, slotsOf o.parameters i = some s →
      (∀ v h, g s (v + h) = g s v + h) ∧ ∀ v, dg s v = v) :
    (rewriteOptimizer b c o).gradFunc ad' { a with eta := τ.l a.eta } (τ.diagram C)
      (along g (slotsOf o.parameters) x) =
      (τ.diagram (o.gradFunc ad a C x).1, (o.gradFunc ad a C x).2.map
        (along (fun s => Option.map (dg s)) (slotsOf o.parameters))) := by
  unfold gradFunc
  by_cases ha : a.grad = "AD"
  · simp only [if_pos ha]
    rw [had ha]
    have hl := hlen ha
    generalize ad C x = r at hl ⊢
    obtain ⟨C', (e | v)⟩ := r
    · rfl
    · simp only [Except.map, gradAutograd]
      have := hl v rfl
      simp [this]
  · simp only [if_neg ha]
    have hf := fd_along (o.optimizeForm a.tmax a.eta) ((rewriteOptimizer b c o).optimizeForm a.tmax (τ.l a.eta))
      τ.diagram a.stepSize (along g (slotsOf o.parameters)) (along_length g _)
      (fun s x => H.objective a.tmax a.eta s x)
      (fun x i v hv => along_step (fun i s v h hs => (hfd ha i s hs).1 v h) a.stepSize x i v hv) C x
      (List.replicate x.length (some 0))
    rw [along_length]
    refine Prod.ext hf.1 ?_
    refine hf.2.trans ?_
    have : along (fun s => Option.map (dg s)) (slotsOf o.parameters) = id := by
      funext l
      refine along_id _ (fun i s v hs => ?_) l
      cases v with
      | none => rfl
      | some v => exact congrArg some ((hfd ha i s hs).2 v)
    rw [this]
    simp only
    generalize (gradFiniteDifferences _ _ C x _).2 = r
    cases r <;> rfl

theorem gradient {ad ad' : GradFunc R} {a : SolveArgs R}
    (had : a.grad = "AD" → ∀ C x, ad' (τ.diagram C) (along g (slotsOf o.parameters) x) =
      (τ.diagram (ad C x).1, (ad C x).2.map (along (fun s => Option.map (dg s)) (slotsOf o.parameters))))
    (hlen : a.grad = "AD" → ∀ C x v, (ad C x).2 = .ok v → v.length = x.length)
    (hfd : a.grad ≠ "AD" → ∀ i s, slotsOf o.parameters i = some s →
      (∀ v h, g s (v + h) = g s v + h) ∧ ∀ v, dg s v = v) (C : Diagram R) (x : List R) :
    (rewriteOptimizer b c o).gradFunc ad' { a with eta := τ.l a.eta } (τ.diagram C)
      (along g (slotsOf o.parameters) x) =
      (τ.diagram (o.gradFunc ad a C x).1, (o.gradFunc ad a C x).2.map
        (along (fun s => Option.map (dg s)) (slotsOf o.parameters))) :=
  H.gradientAt (fun ha => had ha C x) (fun ha => hlen ha C x) hfd

end Rewrites

/-! ## Runs -/

theorem exec_along {f f' : Diagram R → List R → Diagram R × Except PyErr (Num R)} {gr gr' : GradFunc R}
    {T : Diagram R → Diagram R} {m : List R → List R} {md : List (Num R) → List (Num R)}
    (hmd : md [] = [])
    (hf : ∀ D x, f' (T D) (m x) = (T (f D x).1, (f D x).2)) {P : Diagram R → Prop}
    (hg : ∀ C x, P C → gr' (T C) (m x) = (T (gr C x).1, (gr C x).2.map md)) (hP : ∀ C x, P C → P (gr C x).1)
    {r r' : Run R} (h : SameChoices m md r r') (D C : Diagram R) (hC : P C) (xs : List (List R)) :
    exec f' gr' r' (T D) (T C) (xs.map m) =
      ((T (exec f gr r D C xs).1.1, T (exec f gr r D C xs).1.2.1, (exec f gr r D C xs).1.2.2.map m),
        rewriteEnded m (exec f gr r D C xs).2) ∧ P (exec f gr r D C xs).1.2.1 := by
  induction h generalizing D C xs with
  | eval x wants next next' h ih =>
    unfold exec
    rw [hf]
    rcases f D x with ⟨D', (e | v)⟩
    · exact ⟨rfl, hC⟩
    · simp only
      cases wants with
      | true =>
        simp only [if_true]
        rw [hg C x hC]
        have hC' := hP C x hC
        generalize gr C x = q at hC' ⊢
        obtain ⟨C', (e | dv)⟩ := q
        · exact ⟨rfl, hC'⟩
        · exact ih v dv D' C' hC' (x :: xs)
      | false =>
        simp only [Bool.false_eq_true, if_false]
        have := ih v [] D' C hC (x :: xs)
        rw [hmd] at this
        exact this
  | done x v n c => exact ⟨rfl, hC⟩
  | roundoff v n c => exact ⟨rfl, hC⟩
  | raised err => exact ⟨rfl, hC⟩

theorem wf_same {S : Slot → Prop} {D E : Diagram R} (h : SameExcept S D E) (w : WF D) : WF E where
  nodesNodup := by rw [h.nodeKeys]; exact w.nodesNodup
  edgesNodup := by rw [h.edgeKeys]; exact w.edgesNodup
  gkeysNodup := by rw [h.rest.2.1]; exact w.gkeysNodup
  le_max := by rw [h.nodeKeys, h.rest.1]; exact w.le_max
  max_ge := by rw [h.rest.1]; exact w.max_ge
  lookup_mem := by rw [h.rest.2.1, h.nodeKeys]; exact w.lookup_mem
  edge_left := by rw [h.edgeKeys, h.nodeKeys]; exact w.edge_left
  edge_right := by rw [h.edgeKeys, h.nodeKeys]; exact w.edge_right

theorem finish_along {gr gr' : GradFunc R} {T : Diagram R → Diagram R} {m : List R → List R}
    {md : List (Num R) → List (Num R)} {C : Diagram R} (hg : ∀ x, gr' (T C) (m x) = (T (gr C x).1, (gr C x).2.map md))
    {tol tol' : R} {D : Diagram R}
    (hs : staticEquilibrium (T D) none 100 tol' false = (staticEquilibrium D none 100 tol false).map T)
    (old : Attrs R) (xs : List (List R)) (e : Ended R) (x : List R) (v : Num R) (n : Nat) (c : Int) :
    finish gr' tol' (rewriteAttrs m md old) (T D) (T C) (xs.map m) (rewriteEnded m e) (m x) v n c =
      rewriteSolved T m md (finish gr tol old D C xs e x v n c) := by
  unfold finish
  cases nloptStatus c with
  | error err => rfl
  | ok status =>
    simp only
    rw [hg]
    simp only
    cases (gr C x).2 with
    | error err => rfl
    | ok dv =>
      simp only [Except.map]
      rw [hs]
      rfl

namespace Rewrites
variable {τ : Trans R} {g b dg : Slot → R → R} {c : Constraint R → Constraint R} {o : Optimizer R}
variable (H : Rewrites τ g b dg c o)
include H

/-- `solve` commutes with the transformation, if gradients do on the diagrams that occur. -/
theorem solveOn (G : τ.Good) {D : Diagram R} (w : WF D) {ad ad' : GradFunc R} {a : SolveArgs R}
    {P : Diagram R → Prop} (hD : P D) (hkeep : ∀ C x, P C → P (o.gradFunc ad a C x).1)
    (hgr : ∀ C x, P C → (rewriteOptimizer b c o).gradFunc ad' { a with eta := τ.l a.eta } (τ.diagram C)
      (along g (slotsOf o.parameters) x) =
      (τ.diagram (o.gradFunc ad a C x).1, (o.gradFunc ad a C x).2.map
        (along (fun s => Option.map (dg s)) (slotsOf o.parameters))))
    {nlopt nlopt' : Problem R → Run R}
    (hn : ∀ P, SameChoices (along g (slotsOf o.parameters)) (along (fun s => Option.map (dg s)) (slotsOf o.parameters))
      (nlopt P) (nlopt' (rewriteProblem g (slotsOf o.parameters) P))) (old : Attrs R) (tol : R) :
    (rewriteOptimizer b c o).solve
      (rewriteAttrs (along g (slotsOf o.parameters)) (along (fun s => Option.map (dg s)) (slotsOf o.parameters)) old)
      nlopt' ad' (τ.l tol) { a with eta := τ.l a.eta } (τ.diagram D) =
      rewriteSolved τ.diagram (along g (slotsOf o.parameters))
        (along (fun s => Option.map (dg s)) (slotsOf o.parameters)) (o.solve old nlopt ad tol a D) := by
  generalize hm : along g (slotsOf o.parameters) = m at *
  generalize hmd : along (fun s => Option.map (dg s)) (slotsOf o.parameters) = md at *
  have hstart := H.start
  have hobj := H.objective a.tmax a.eta
  rw [hm] at hstart
  simp only [hm] at hobj
  unfold Optimizer.solve
  have hc : (rewriteOptimizer b c o).checkSanity = o.checkSanity := by
    unfold checkSanity rewriteOptimizer
    simp only [List.length_map]
  have hl : (rewriteOptimizer b c o).parameters.length = o.parameters.length := by
    simp [rewriteOptimizer]
  rw [hc, hstart, H.bounds, hl]
  cases o.checkSanity with
  | error err => rfl
  | ok _ =>
    simp only
    by_cases hgrad : a.grad ≠ "AD" ∧ a.grad ≠ "FD"
    · rw [if_pos hgrad, if_pos hgrad]; rfl
    rw [if_neg hgrad, if_neg hgrad]
    cases o.optimizationParameters D with
    | error err => rfl
    | ok x =>
      simp only [Except.map]
      cases o.optimizationBounds D with
      | error err => rfl
      | ok bs =>
        simp only
        by_cases halg : a.algorithm ∉ nloptAlgorithms
        · rw [if_pos halg, if_pos halg]; rfl
        rw [if_neg halg, if_neg halg]
        have hP := hn ⟨a.algorithm, o.parameters.length, bs, a.iters, a.eps, a.kappa, x⟩
        unfold rewriteProblem at hP
        simp only [hm] at hP
        unfold optimize
        have hmd0 : md [] = [] := by rw [← hmd]; rfl
        obtain ⟨he, hPC⟩ := exec_along hmd0 hobj hgr hkeep hP D D hD []
        rw [List.map_nil] at he
        simp only
        rw [he]
        have hsame := exec_same o a.tmax a.eta (o.gradFunc ad a)
          (nlopt ⟨a.algorithm, o.parameters.length, bs, a.iters, a.eps, a.kappa, x⟩) D D []
        generalize exec (o.optimizeForm a.tmax a.eta) (o.gradFunc ad a)
          (nlopt ⟨a.algorithm, o.parameters.length, bs, a.iters, a.eps, a.kappa, x⟩) D D [] = r at hsame hPC ⊢
        obtain ⟨⟨D', C, xs⟩, e⟩ := r
        have hgr' := fun x => hgr C x hPC
        have w' : WF D' := wf_same hsame w
        have hs := G.staticEquilibrium w' none 100 tol false
        cases e with
        | done y v n k => exact finish_along hgr' hs old xs (.done y v n k) y v n k
        | roundoff v n k =>
          simp only [rewriteEnded]
          rw [hstart]
          cases o.optimizationParameters D' with
          | error err => rfl
          | ok y => exact finish_along hgr' hs old xs (.roundoff v n k) y v n k
        | raised err =>
          simp only [rewriteEnded]
          by_cases hr : err = .runtimeError
          · rw [if_pos hr, if_pos hr, hs]; rfl
          · rw [if_neg hr, if_neg hr]; rfl

/-- `solve` commutes with the transformation. -/
theorem solve (G : τ.Good) {D : Diagram R} (w : WF D) {ad ad' : GradFunc R} {a : SolveArgs R}
    (hgr : ∀ C x, (rewriteOptimizer b c o).gradFunc ad' { a with eta := τ.l a.eta } (τ.diagram C)
      (along g (slotsOf o.parameters) x) =
      (τ.diagram (o.gradFunc ad a C x).1, (o.gradFunc ad a C x).2.map
        (along (fun s => Option.map (dg s)) (slotsOf o.parameters))))
    {nlopt nlopt' : Problem R → Run R}
    (hn : ∀ P, SameChoices (along g (slotsOf o.parameters)) (along (fun s => Option.map (dg s)) (slotsOf o.parameters))
      (nlopt P) (nlopt' (rewriteProblem g (slotsOf o.parameters) P))) (old : Attrs R) (tol : R) :
    (rewriteOptimizer b c o).solve
      (rewriteAttrs (along g (slotsOf o.parameters)) (along (fun s => Option.map (dg s)) (slotsOf o.parameters)) old)
      nlopt' ad' (τ.l tol) { a with eta := τ.l a.eta } (τ.diagram D) =
      rewriteSolved τ.diagram (along g (slotsOf o.parameters))
        (along (fun s => Option.map (dg s)) (slotsOf o.parameters)) (o.solve old nlopt ad tol a D) :=
  H.solveOn G w (P := fun _ => True) trivial (fun _ _ _ => trivial) (fun C x _ => hgr C x) hn old tol

end Rewrites
end CEM
