import Verif.Spec.Solve
import Verif.Lemmas.Optimizer
import Verif.Lemmas.Numpy

/-!
# Facts about optimization runs
-/

set_option linter.unusedSectionVars false
set_option linter.unusedSimpArgs false

namespace CEM
open Spec Diagram

variable {R : Type}

/-- In a list with an element of some kind there is a last one. -/
theorem exists_last {α : Type} (P : α → Prop) (l : List α) (h : ∃ a ∈ l, P a) :
    ∃ l1 a l2, l = l1 ++ a :: l2 ∧ P a ∧ ∀ b ∈ l2, ¬ P b := by
  induction l with
  | nil => simp at h
  | cons a l ih =>
    by_cases hl : ∃ b ∈ l, P b
    · obtain ⟨l1, b, l2, rfl, hb, hr⟩ := ih hl
      exact ⟨a :: l1, b, l2, by simp, hb, hr⟩
    · obtain ⟨b, hb, hP⟩ := h
      rcases List.mem_cons.1 hb with rfl | hb
      · exact ⟨[], b, l, rfl, hP, fun c hc hPc => hl ⟨c, hc, hPc⟩⟩
      · exact absurd ⟨b, hb, hP⟩ hl

theorem carries_of_write {x : List R} {l : Dict Int (Param R)} {D : Diagram R}
    (h0 : ∀ q ∈ l, 0 ≤ q.1) (hok : (Optimizer.writeParameters x l D).2 = .ok ()) :
    Carries l D x (Optimizer.writeParameters x l D).1 := by
  refine ⟨Optimizer.writeParameters_same x l D, fun l1 k p l2 e hl => ?_⟩
  simp only [holdsAt_iff]
  exact (Optimizer.writeParameters_get x l D h0 hok p.slot).2 l1 k p l2 e rfl hl

theorem Spec.Carries.trans {l : Dict Int (Param R)} {D E F : Diagram R} {x y : List R}
    (h : Carries l D x E) (g : Carries l E y F) : Carries l D y F :=
  ⟨h.same.trans g.same, g.holds⟩

theorem Spec.Carries.frame {l : Dict Int (Param R)} {D E F : Diagram R} {y : List R}
    (h : SameExcept (fun s => ∃ q ∈ l, q.2.slot = s) D E) (g : Carries l E y F) : Carries l D y F :=
  ⟨h.trans g.same, g.holds⟩

/-- All numbers at parameter places are determined by the vector. -/
theorem Spec.Carries.agree {l : Dict Int (Param R)} {D E F : Diagram R} {x : List R}
    (h : Carries l D x E) (g : Carries l D x F) {s : Slot} (hs : ∃ q ∈ l, q.2.slot = s) :
    ∃ v, HoldsAt E s v ∧ HoldsAt F s v := by
  obtain ⟨l1, ⟨k, p⟩, l2, e, hp, hr⟩ := exists_last (fun q => q.2.slot = s) l hs
  subst hp
  obtain ⟨v, hv, h1⟩ := h.holds l1 k p l2 e hr
  obtain ⟨w, hw, h2⟩ := g.holds l1 k p l2 e hr
  rw [hv] at hw
  cases hw
  exact ⟨v, h1, h2⟩

theorem Spec.Carries.unique {l : Dict Int (Param R)} {D E F : Diagram R} {x : List R}
    (hn : D.nodes.keys.Nodup) (he : D.edges.keys.Nodup)
    (h : Carries l D x E) (g : Carries l D x F) : E = F := by
  classical
  have key : ∀ (s : Slot) (a b : R), HoldsAt E s a → HoldsAt F s b →
      ((¬ ∃ q ∈ l, q.2.slot = s) → a = b) → a = b := fun s a b ha hb hab => by
    by_cases hs : ∃ q ∈ l, q.2.slot = s
    · obtain ⟨v, h1, h2⟩ := h.agree g hs
      rw [holdsAt_iff] at ha hb h1 h2
      rw [ha] at h1
      rw [hb] at h2
      cases h1
      cases h2
      rfl
    · exact hab hs
  have hnodes : E.nodes = F.nodes := by
    refine Dict.ext_get? (by rw [h.same.nodeKeys]; exact hn)
      (h.same.nodeKeys.trans g.same.nodeKeys.symm) fun n => ?_
    by_cases hm : n ∈ D.nodes.keys
    · obtain ⟨d, hd⟩ := (Dict.exists_get?_iff _ _).2 hm
      obtain ⟨d1, h1⟩ := (Dict.exists_get?_iff E.nodes n).2 (by rw [h.same.nodeKeys]; exact hm)
      obtain ⟨d2, h2⟩ := (Dict.exists_get?_iff F.nodes n).2 (by rw [g.same.nodeKeys]; exact hm)
      rw [h1, h2]
      obtain ⟨a1, a2, a3, a4, a5, a6, a7, a8, a9⟩ := h.same.node n d d1 hd h1
      obtain ⟨b1, b2, b3, b4, b5, b6, b7, b8, b9⟩ := g.same.node n d d2 hd h2
      have k4 := key (.node n .x) d1.pos.x d2.pos.x ⟨d1, h1, rfl⟩ ⟨d2, h2, rfl⟩
        (fun c => (a4 c).trans (b4 c).symm)
      have k5 := key (.node n .y) d1.pos.y d2.pos.y ⟨d1, h1, rfl⟩ ⟨d2, h2, rfl⟩
        (fun c => (a5 c).trans (b5 c).symm)
      have k6 := key (.node n .z) d1.pos.z d2.pos.z ⟨d1, h1, rfl⟩ ⟨d2, h2, rfl⟩
        (fun c => (a6 c).trans (b6 c).symm)
      have k7 := key (.node n .qx) d1.load.x d2.load.x ⟨d1, h1, rfl⟩ ⟨d2, h2, rfl⟩
        (fun c => (a7 c).trans (b7 c).symm)
      have k8 := key (.node n .qy) d1.load.y d2.load.y ⟨d1, h1, rfl⟩ ⟨d2, h2, rfl⟩
        (fun c => (a8 c).trans (b8 c).symm)
      have k9 := key (.node n .qz) d1.load.z d2.load.z ⟨d1, h1, rfl⟩ ⟨d2, h2, rfl⟩
        (fun c => (a9 c).trans (b9 c).symm)
      obtain ⟨⟨_, _, _⟩, ⟨_, _, _⟩, _, _, _⟩ := d1
      obtain ⟨⟨_, _, _⟩, ⟨_, _, _⟩, _, _, _⟩ := d2
      simp_all
    · rw [(Dict.get?_eq_none_iff _ _).2 (by rw [h.same.nodeKeys]; exact hm),
        (Dict.get?_eq_none_iff _ _).2 (by rw [g.same.nodeKeys]; exact hm)]
      exact fun _ => rfl
  have hedges : E.edges = F.edges := by
    refine Dict.ext_get? (by rw [h.same.edgeKeys]; exact he)
      (h.same.edgeKeys.trans g.same.edgeKeys.symm) fun n => ?_
    by_cases hm : n ∈ D.edges.keys
    · obtain ⟨d, hd⟩ := (Dict.exists_get?_iff _ _).2 hm
      obtain ⟨d1, h1⟩ := (Dict.exists_get?_iff E.edges n).2 (by rw [h.same.edgeKeys]; exact hm)
      obtain ⟨d2, h2⟩ := (Dict.exists_get?_iff F.edges n).2 (by rw [g.same.edgeKeys]; exact hm)
      rw [h1, h2]
      obtain ⟨a1, a2, a3, a4⟩ := h.same.edge n d d1 hd h1
      obtain ⟨b1, b2, b3, b4⟩ := g.same.edge n d d2 hd h2
      have k3 := key (.edge n .length) d1.length d2.length ⟨d1, h1, rfl⟩ ⟨d2, h2, rfl⟩
        (fun c => (a3 c).trans (b3 c).symm)
      have k4 := key (.edge n .force) d1.force d2.force ⟨d1, h1, rfl⟩ ⟨d2, h2, rfl⟩
        (fun c => (a4 c).trans (b4 c).symm)
      obtain ⟨_, _, _, _⟩ := d1
      obtain ⟨_, _, _, _⟩ := d2
      simp_all
    · rw [(Dict.get?_eq_none_iff _ _).2 (by rw [h.same.edgeKeys]; exact hm),
        (Dict.get?_eq_none_iff _ _).2 (by rw [g.same.edgeKeys]; exact hm)]
      exact fun _ => rfl
  obtain ⟨e1, e2, e3, e4, e5, e6⟩ := h.same.rest
  obtain ⟨f1, f2, f3, f4, f5, f6⟩ := g.same.rest
  cases E
  cases F
  simp_all

/-! ## Valid input -/

theorem typeOf_same {S : Slot → Prop} {D E : Diagram R} (h : SameExcept S D E) (n : Int) :
    typeOf E n = typeOf D n := by
  unfold typeOf
  by_cases hm : n ∈ D.nodes.keys
  · obtain ⟨d, hd⟩ := (Dict.exists_get?_iff _ _).2 hm
    obtain ⟨d1, h1⟩ := (Dict.exists_get?_iff E.nodes n).2 (by rw [h.nodeKeys]; exact hm)
    simp [hd, h1, (h.node n d d1 hd h1).2.2.1]
  · rw [(Dict.get?_eq_none_iff _ _).2 hm,
      (Dict.get?_eq_none_iff _ _).2 (by rw [h.nodeKeys]; exact hm)]

theorem seqOf_same {S : Slot → Prop} {D E : Diagram R} (h : SameExcept S D E) (n : Int) :
    seqOf E n = seqOf D n := by
  unfold seqOf
  by_cases hm : n ∈ D.nodes.keys
  · obtain ⟨d, hd⟩ := (Dict.exists_get?_iff _ _).2 hm
    obtain ⟨d1, h1⟩ := (Dict.exists_get?_iff E.nodes n).2 (by rw [h.nodeKeys]; exact hm)
    simp [hd, h1, (h.node n d d1 hd h1).2.1]
  · rw [(Dict.get?_eq_none_iff _ _).2 hm,
      (Dict.get?_eq_none_iff _ _).2 (by rw [h.nodeKeys]; exact hm)]

theorem edgeType_same {S : Slot → Prop} {D E : Diagram R} (h : SameExcept S D E) (e : Int × Int)
    (t : EdgeType) : (∃ d, E.edges.get? e = some d ∧ d.type = t) ↔
      ∃ d, D.edges.get? e = some d ∧ d.type = t := by
  constructor
  · rintro ⟨d1, h1, ht⟩
    obtain ⟨d, hd⟩ := (Dict.exists_get?_iff D.edges e).2
      (by rw [← h.edgeKeys]; exact Dict.mem_keys_of_get? h1)
    exact ⟨d, hd, by rw [← (h.edge e d d1 hd h1).1, ht]⟩
  · rintro ⟨d, hd, ht⟩
    obtain ⟨d1, h1⟩ := (Dict.exists_get?_iff E.edges e).2
      (by rw [h.edgeKeys]; exact Dict.mem_keys_of_get? hd)
    exact ⟨d1, h1, by rw [(h.edge e d d1 hd h1).1, ht]⟩

theorem trailAdj_same {S : Slot → Prop} {D E : Diagram R} (h : SameExcept S D E) :
    TrailAdj E = TrailAdj D := by
  funext a b
  unfold TrailAdj IsTrail
  rw [edgeType_same h, edgeType_same h]

/-- Changing numbers keeps a diagram ready for form finding. -/
theorem validInput_same [Field R] {S : Slot → Prop} {D E : Diagram R} (h : SameExcept S D E)
    (I : ValidInput D) : ValidInput E := by
  obtain ⟨r1, r2, r3, r4, r5, r6⟩ := h.rest
  refine ⟨⟨?_, ?_, ?_, ?_, ?_, ?_, ?_, ?_⟩, ⟨?_, ?_⟩, ⟨?_, ?_, ?_, ?_, ?_, ?_, ?_⟩, ?_, ?_, ?_⟩
  · rw [h.nodeKeys]; exact I.wf.nodesNodup
  · rw [h.edgeKeys]; exact I.wf.edgesNodup
  · rw [r2]; exact I.wf.gkeysNodup
  · rw [h.nodeKeys, r1]; exact I.wf.le_max
  · rw [r1]; exact I.wf.max_ge
  · rw [h.nodeKeys, r2]; exact I.wf.lookup_mem
  · rw [h.nodeKeys, h.edgeKeys]; exact I.wf.edge_left
  · rw [h.nodeKeys, h.edgeKeys]; exact I.wf.edge_right
  · rw [h.edgeKeys]; exact I.simple.noLoop
  · rw [h.edgeKeys]; exact I.simple.noAnti
  · rw [r3]; exact I.trails.head
  · intro key tr hm; rw [r3] at hm; rw [typeOf_same h]; exact I.trails.origin key tr hm
  · intro key tr hm; rw [r3] at hm; rw [trailAdj_same h]; exact I.trails.chain key tr hm
  · rw [r3, h.nodeKeys]; exact I.trails.partition
  · rw [trailAdj_same h, r3]; exact I.trails.complete
  · intro key tr hm n hn; rw [r3] at hm; rw [typeOf_same h]; exact I.trails.support key tr hm n hn
  · intro key tr hm
    rw [r3] at hm
    obtain ⟨s, hs⟩ := I.trails.seq key tr hm
    exact ⟨s, fun i hi => by rw [seqOf_same h]; exact hs i hi⟩
  · rw [r3]; exact I.nonempty
  · intro n d1 h1
    obtain ⟨d, hd⟩ := (Dict.exists_get?_iff D.nodes n).2
      (by rw [← h.nodeKeys]; exact Dict.mem_keys_of_get? h1)
    rw [(h.node n d d1 hd h1).1]
    exact I.reaction n d hd
  · intro e d1 h1
    obtain ⟨d, hd⟩ := (Dict.exists_get?_iff D.edges e).2
      (by rw [← h.edgeKeys]; exact Dict.mem_keys_of_get? h1)
    rw [(h.edge e d d1 hd h1).1]
    exact I.typed e d hd

theorem directOnly_same {S : Slot → Prop} {D E : Diagram R} (h : SameExcept S D E)
    (hd : DirectOnly D) : DirectOnly E := by
  intro a b d1 h1 ht
  obtain ⟨d, hd', ht'⟩ := (edgeType_same h (a, b) .deviation).1 ⟨d1, h1, ht⟩
  rw [seqOf_same h, seqOf_same h]
  exact hd a b d hd' ht'

/-! ## Reading the parameters -/

namespace Optimizer

theorem npSet_ok {α : Type} {a b : List α} {i : Int} (h0 : 0 ≤ i) {v : α}
    (h : npSet a i v = .ok b) : i < a.length ∧ b = a.set i.toNat v := by
  unfold npSet at h
  by_cases hl : i < a.length
  · rw [npIndex_of h0 hl] at h
    cases h
    exact ⟨hl, rfl⟩
  · rw [npIndex_ge h0 hl] at h
    cases h

theorem assemble_inv {α : Type} (f : Param R → Except PyErr α) (l : Dict Int (Param R))
    (a b : List α) (hn : l.keys.Nodup) (h0 : ∀ q ∈ l, 0 ≤ q.1) (h : assemble f l a = .ok b) :
    b.length = a.length ∧ (∀ k p, (k, p) ∈ l → ∃ v, f p = .ok v ∧ b[k.toNat]? = some v) ∧
      ∀ j : Nat, (j : Int) ∉ l.keys → b[j]? = a[j]? := by
  induction l generalizing a with
  | nil => cases h; simp
  | cons q l ih =>
    obtain ⟨k, p⟩ := q
    simp only [assemble] at h
    cases hf : f p with
    | error err => rw [hf] at h; cases h
    | ok v =>
      rw [hf] at h
      simp only at h
      cases hs : npSet a k v with
      | error err => rw [hs] at h; cases h
      | ok a' =>
        rw [hs] at h
        simp only at h
        have hk0 : 0 ≤ k := h0 (k, p) (by simp)
        obtain ⟨hl, rfl⟩ := npSet_ok hk0 hs
        rw [Dict.keys_cons, List.nodup_cons] at hn
        obtain ⟨i1, i2, i3⟩ := ih _ hn.2 (fun q hq => h0 q (by simp [hq])) h
        refine ⟨by simpa using i1, fun k' p' hm => ?_, fun j hj => ?_⟩
        · rcases List.mem_cons.1 hm with e | hm
          · cases e
            refine ⟨v, hf, ?_⟩
            have := i3 k.toNat (by rw [Int.toNat_of_nonneg hk0]; exact hn.1)
            rw [this, List.getElem?_set_self (by omega)]
          · exact i2 k' p' hm
        · rw [Dict.keys_cons, List.mem_cons, not_or] at hj
          rw [i3 j hj.2, List.getElem?_set_ne (by omega)]

/-- A diagram carries the values read from it. -/
theorem carries_read [Zero R] {o : Optimizer R} {D : Diagram R} {x : List R}
    (hn : o.parameters.keys.Nodup) (h0 : ∀ q ∈ o.parameters, 0 ≤ q.1)
    (h : o.optimizationParameters D = .ok x) : Carries o.parameters D x D := by
  refine ⟨SameExcept.refl _ _, fun l1 k p l2 e _ => ?_⟩
  obtain ⟨v, hv, hx⟩ := (assemble_inv _ _ _ _ hn h0 h).2.1 k p (by rw [e]; simp)
  exact ⟨v, hx, (holdsAt_iff _ _ _).2 hv⟩

/-! ## The objective -/

variable [Field R] [LinearOrder R] [PySqrt R]

theorem optimizeForm_fst (o : Optimizer R) (tmax : Nat) (eta : R) (D : Diagram R) (x : List R) :
    (o.optimizeForm tmax eta D x).1 = (o.updateParameters D x).1 := by
  unfold optimizeForm
  rcases o.updateParameters D x with ⟨D', (e | u)⟩
  · rfl
  · simp only
    cases npEquilibriumState D' tmax eta false <;> rfl

theorem optimizeForm_ok {o : Optimizer R} {tmax : Nat} {eta : R} {D : Diagram R} {x : List R}
    {v : Num R} (h : (o.optimizeForm tmax eta D x).2 = .ok v) :
    (o.updateParameters D x).2 = .ok () := by
  unfold optimizeForm at h
  rcases hu : o.updateParameters D x with ⟨D', (e | u)⟩
  · rw [hu] at h; cases h
  · rfl

theorem optimizeForm_same (o : Optimizer R) (tmax : Nat) (eta : R) (D : Diagram R) (x : List R) :
    SameExcept (fun s => ∃ q ∈ o.parameters, q.2.slot = s) D (o.optimizeForm tmax eta D x).1 := by
  rw [optimizeForm_fst]
  exact writeParameters_same x _ D

theorem optimizeForm_carries {o : Optimizer R} (h0 : ∀ q ∈ o.parameters, 0 ≤ q.1) {tmax : Nat}
    {eta : R} {D : Diagram R} {x : List R} {v : Num R}
    (h : (o.optimizeForm tmax eta D x).2 = .ok v) :
    Carries o.parameters D x (o.optimizeForm tmax eta D x).1 := by
  rw [optimizeForm_fst]
  exact carries_of_write h0 (optimizeForm_ok h)

/-! ## Runs -/

/-- The diagram is the original one before the first call of the objective, and afterwards the
original one with the point of the last call. -/
def At (l : Dict Int (Param R)) (D0 : Diagram R) (D : Diagram R) : List (List R) → Prop
  | [] => D = D0
  | y :: _ => Carries l D0 y D

theorem exec_same (o : Optimizer R) (tmax : Nat) (eta : R) (g : GradFunc R) (r : Run R)
    (D C : Diagram R) (xs : List (List R)) :
    SameExcept (fun s => ∃ q ∈ o.parameters, q.2.slot = s) D
      (exec (o.optimizeForm tmax eta) g r D C xs).1.1 := by
  induction r generalizing D C xs with
  | done x v n c => exact SameExcept.refl _ _
  | roundoff v n c => exact SameExcept.refl _ _
  | raised err => exact SameExcept.refl _ _
  | eval x wants next ih =>
    have hs := optimizeForm_same o tmax eta D x
    simp only [exec]
    rcases hf : o.optimizeForm tmax eta D x with ⟨D', (e | v)⟩
    · rw [hf] at hs; exact hs
    · rw [hf] at hs
      simp only
      by_cases hw : wants = true
      · rw [if_pos hw]
        rcases g C x with ⟨C', (e | dv)⟩
        · exact hs
        · exact hs.trans (ih v dv D' C' _)
      · rw [if_neg hw]
        exact hs.trans (ih v [] D' C _)

/-- As long as the objective does not fail, the diagram is at the last point.  `bad` is an error
that the objective does not raise. -/
theorem exec_at {o : Optimizer R} (h0 : ∀ q ∈ o.parameters, 0 ≤ q.1) (tmax : Nat) (eta : R)
    (g : GradFunc R) (r : Run R) {D0 : Diagram R} (D C : Diagram R) (xs : List (List R))
    (hsame : SameExcept (fun s => ∃ q ∈ o.parameters, q.2.slot = s) D0 D)
    (hA : At o.parameters D0 D xs) :
    match (exec (o.optimizeForm tmax eta) g r D C xs).2 with
    | .raised err =>
      (∀ E x, SameExcept (fun s => ∃ q ∈ o.parameters, q.2.slot = s) D0 E →
        (o.optimizeForm tmax eta E x).2 ≠ .error err) →
      At o.parameters D0 (exec (o.optimizeForm tmax eta) g r D C xs).1.1
        (exec (o.optimizeForm tmax eta) g r D C xs).1.2.2
    | _ => At o.parameters D0 (exec (o.optimizeForm tmax eta) g r D C xs).1.1
        (exec (o.optimizeForm tmax eta) g r D C xs).1.2.2 := by
  induction r generalizing D C xs with
  | done x v n c => exact hA
  | roundoff v n c => exact hA
  | raised err => exact fun _ => hA
  | eval x wants next ih =>
    have hs := optimizeForm_same o tmax eta D x
    simp only [exec]
    rcases hf : o.optimizeForm tmax eta D x with ⟨D', (e | v)⟩
    · intro hbad
      exact absurd (by rw [hf]) (hbad D x hsame)
    · rw [hf] at hs
      have hc : Carries o.parameters D x D' := by
        have := optimizeForm_carries (o := o) h0 (tmax := tmax) (eta := eta) (D := D) (x := x)
          (v := v) (by rw [hf])
        rwa [hf] at this
      have hA' : At o.parameters D0 D' (x :: xs) := Carries.frame hsame hc
      simp only
      by_cases hw : wants = true
      · rw [if_pos hw]
        rcases g C x with ⟨C', (e | dv)⟩
        · exact fun _ => hA'
        · exact ih v dv D' C' _ (hsame.trans hs) hA'
      · rw [if_neg hw]
        exact ih v [] D' C _ (hsame.trans hs) hA'

theorem exec_only {f : Diagram R → List R → Diagram R × Except PyErr (Num R)} {g : GradFunc R}
    {P : List R → Prop} {r : Run R} (hr : Only P r) (D C : Diagram R) (xs : List (List R))
    (hx : ∀ x ∈ xs, P x) : ∀ x ∈ (exec f g r D C xs).1.2.2, P x := by
  induction hr generalizing D C xs with
  | done x v n c => exact hx
  | roundoff v n c => exact hx
  | raised err => exact hx
  | eval x wants next hP _ ih =>
    have hx' : ∀ y ∈ x :: xs, P y := by
      intro y hy
      rcases List.mem_cons.1 hy with rfl | hy
      · exact hP
      · exact hx y hy
    simp only [exec]
    rcases f D x with ⟨D', (e | v)⟩
    · exact hx'
    · simp only
      by_cases hw : wants = true
      · rw [if_pos hw]
        rcases g C x with ⟨C', (e | dv)⟩
        · exact hx'
        · exact ih v dv D' C' _ hx'
      · rw [if_neg hw]
        exact ih v [] D' C _ hx'

theorem exec_last {f : Diagram R → List R → Diagram R × Except PyErr (Num R)} {g : GradFunc R}
    {r : Run R} {last : Option (List R)} (hr : EndsAtLast last r) (D C : Diagram R)
    (xs : List (List R)) (hx : last = xs.head?) :
    ∀ y v n c, (exec f g r D C xs).2 = .done y v n c → (exec f g r D C xs).1.2.2.head? = some y := by
  induction hr generalizing D C xs with
  | done x v n c => intro y v' n' c' h; cases h; exact hx.symm
  | roundoff _ v n c => intro y v' n' c' h; cases h
  | raised _ err => intro y v' n' c' h; cases h
  | eval _ x wants next _ ih =>
    simp only [exec]
    rcases f D x with ⟨D', (e | v)⟩
    · intro y v' n' c' h; cases h
    · simp only
      by_cases hw : wants = true
      · rw [if_pos hw]
        rcases g C x with ⟨C', (e | dv)⟩
        · intro y v' n' c' h; cases h
        · exact ih v dv D' C' _ rfl
      · rw [if_neg hw]
        exact ih v [] D' C _ rfl

/-! ## Errors of the objective -/

theorem calculatePenalty_error {s : NState R} {cs : List (Constraint R)} {acc : Num R} {err : PyErr}
    (h : calculatePenalty s cs acc = .error err) : ∃ c ∈ cs, c.penalty s = .error err := by
  induction cs generalizing acc with
  | nil => cases h
  | cons c cs ih =>
    simp only [calculatePenalty] at h
    cases hc : c.penalty s with
    | error e => rw [hc] at h; cases h; exact ⟨c, by simp, hc⟩
    | ok p =>
      rw [hc] at h
      obtain ⟨c', hm, e⟩ := ih h
      exact ⟨c', by simp [hm], e⟩

theorem getE_error {K V : Type} [DecidableEq K] {d : Dict K V} {k : K} {err : PyErr}
    (h : d.getE k = .error err) : err = .keyError := by
  unfold Dict.getE at h
  cases hk : d.get? k <;> rw [hk] at h <;> cases h
  rfl

theorem closestOnPolyline_error {p : Vec R} {pts : List (Vec R)} {err : PyErr}
    (h : closestOnPolyline p pts = .error err) : err = .valueError := by
  unfold closestOnPolyline at h
  split at h <;> cases h
  rfl

theorem penalty_error {s : NState R} {c : Constraint R} {err : PyErr}
    (h : c.penalty s = .error err) : err = .keyError ∨ err = .valueError := by
  have len : ∀ {e : Int × Int}, edgeLengthRef s.xyz e = .error err → err = .keyError := by
    intro e h
    unfold edgeLengthRef at h
    cases h1 : s.xyz.getE e.1 with
    | error e1 => rw [h1] at h; cases h; exact getE_error h1
    | ok a =>
      rw [h1] at h
      simp only at h
      cases h2 : s.xyz.getE e.2 with
      | error e2 => rw [h2] at h; cases h; exact getE_error h2
      | ok b => rw [h2] at h; cases h
  have dir : ∀ {e : Int × Int}, edgeDirection s.xyz e = .error err → err = .keyError := by
    intro e h
    unfold edgeDirection at h
    cases h1 : s.xyz.getE e.2 with
    | error e1 => rw [h1] at h; cases h; exact getE_error h1
    | ok a =>
      rw [h1] at h
      simp only at h
      cases h2 : s.xyz.getE e.1 with
      | error e2 => rw [h2] at h; cases h; exact getE_error h2
      | ok b => rw [h2] at h; cases h
  cases c with
  | point n t w | plane n t w | line n t w =>
    simp only [Constraint.penalty] at h
    cases h1 : s.xyz.getE n with
    | error e1 => rw [h1] at h; cases h; exact Or.inl (getE_error h1)
    | ok a => rw [h1] at h; cases h
  | polyline n t w =>
    simp only [Constraint.penalty] at h
    cases h1 : s.xyz.getE n with
    | error e1 => rw [h1] at h; cases h; exact Or.inl (getE_error h1)
    | ok a =>
      rw [h1] at h
      cases a with
      | none =>
        simp only at h
        by_cases hl : t.length < 2
        · rw [if_pos hl] at h; cases h; exact Or.inr rfl
        · rw [if_neg hl] at h; cases h
      | some p =>
        simp only at h
        cases h2 : closestOnPolyline p t with
        | error e2 => rw [h2] at h; cases h; exact Or.inr (closestOnPolyline_error h2)
        | ok q => rw [h2] at h; cases h
  | trailForce n t w =>
    simp only [Constraint.penalty] at h
    cases h1 : s.trailForces.getE n with
    | error e1 => rw [h1] at h; cases h; exact Or.inl (getE_error h1)
    | ok a => rw [h1] at h; cases h
  | reaction n t w =>
    simp only [Constraint.penalty] at h
    cases h1 : s.reactions.getE n with
    | error e1 => rw [h1] at h; cases h; exact Or.inl (getE_error h1)
    | ok a => rw [h1] at h; cases h
  | length e t w =>
    simp only [Constraint.penalty] at h
    cases h1 : edgeLengthRef s.xyz e with
    | error e1 => rw [h1] at h; cases h; exact Or.inl (len h1)
    | ok a => rw [h1] at h; cases h
  | direction e t w =>
    simp only [Constraint.penalty] at h
    cases h1 : edgeDirection s.xyz e with
    | error e1 => rw [h1] at h; cases h; exact Or.inl (dir h1)
    | ok a => rw [h1] at h; cases h

theorem npIndex_error {n : Nat} {i : Int} {err : PyErr} (h : npIndex n i = .error err) :
    err = .indexError := by
  unfold npIndex at h
  split_ifs at h
  cases h
  rfl

theorem npGet_error {α : Type} {a : List α} {i : Int} {err : PyErr} (h : npGet a i = .error err) :
    err = .indexError := by
  unfold npGet at h
  cases h1 : npIndex a.length i with
  | error e => rw [h1] at h; cases h; exact npIndex_error h1
  | ok j =>
    rw [h1] at h
    simp only at h
    cases h2 : a[j]? <;> rw [h2] at h <;> cases h
    rfl

theorem writeParameters_error {x : List R} {l : Dict Int (Param R)} {D : Diagram R} {err : PyErr}
    (h : (writeParameters x l D).2 = .error err) : err = .indexError ∨ err = .keyError := by
  induction l generalizing D with
  | nil => cases h
  | cons q l ih =>
    obtain ⟨k, p⟩ := q
    simp only [writeParameters] at h
    cases h1 : npGet x k with
    | error e => rw [h1] at h; cases h; exact Or.inl (npGet_error h1)
    | ok v =>
      rw [h1] at h
      simp only at h
      by_cases hs : HasSlot D p.slot
      · obtain ⟨D', hD'⟩ := setAttribute_ok v hs
        rw [hD'] at h
        exact ih h
      · rw [setAttribute_error v hs] at h
        cases h
        exact Or.inr rfl

theorem npEquilibriumState_error {D : Diagram R} (I : ValidInput D) {tmax : Nat} {eta : R}
    {verbose : Bool} {err : PyErr} (h : npEquilibriumState D tmax eta verbose = .error err) :
    err = .unboundLocal ∨ err = .valueError := by
  obtain ⟨T, N, hT, hN, hg, hlt⟩ := goodSeqs_of_valid I.wf I.trails I.nonempty
  obtain ⟨b0, b1, b2⟩ := npEquilibriumState_cases I hT hN hg tmax eta verbose
  rcases Nat.lt_trichotomy tmax 1 with ht | ht | ht
  · rw [b0 (by omega)] at h
    cases h
    exact Or.inl rfl
  · rw [b1 ht] at h
    cases verbose <;> cases h
    exact Or.inl rfl
  · obtain ⟨m, _, _, _, _, he⟩ := b2 ht
    rw [he] at h
    by_cases hc : (nDist D (sched D T N) m).gt eta = true
    · rw [if_pos hc] at h
      cases h
      exact Or.inr rfl
    · rw [if_neg hc] at h
      cases h

/-- On a diagram ready for form finding the objective does not raise `RuntimeError`. -/
theorem optimizeForm_no_runtime {o : Optimizer R} {D : Diagram R} (I : ValidInput D) (tmax : Nat)
    (eta : R) (x : List R) : (o.optimizeForm tmax eta D x).2 ≠ .error .runtimeError := by
  intro h
  have hv := validInput_same (optimizeForm_same o tmax eta D x) I
  rw [optimizeForm_fst] at hv
  unfold optimizeForm at h
  rcases hu : o.updateParameters D x with ⟨D', (e | u)⟩
  · rw [hu] at h
    cases h
    have : (writeParameters x o.parameters D).2 = .error .runtimeError := by
      unfold updateParameters at hu
      rw [hu]
    rcases writeParameters_error this with c | c <;> cases c
  · rw [hu] at h hv
    simp only at h hv
    cases hn : npEquilibriumState D' tmax eta false with
    | error e =>
      rw [hn] at h
      cases h
      rcases npEquilibriumState_error hv hn with c | c <;> cases c
    | ok s =>
      rw [hn] at h
      obtain ⟨c, _, hc⟩ := calculatePenalty_error h
      rcases penalty_error hc with c | c <;> cases c

end Optimizer
end CEM
