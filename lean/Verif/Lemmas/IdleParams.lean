import Verif.Lemmas.Idle
import Verif.Spec.Grad

/-! # Writing parameters at idle places -/

set_option linter.unusedSectionVars false
set_option linter.unusedSimpArgs false

namespace CEM
open Diagram Spec

variable {R : Type}

theorem _root_.CEM.Spec.SameExcept.symm {S : Slot → Prop} {D E : Diagram R} (h : SameExcept S D E) :
    SameExcept S E D := by
  refine ⟨h.nodeKeys.symm, h.edgeKeys.symm, fun n d d' e e' => ?_, fun n d d' e e' => ?_, ?_⟩
  · obtain ⟨h1, h2, h3, h4, h5, h6, h7, h8, h9⟩ := h.node n d' d e' e
    exact ⟨h1.symm, h2.symm, h3.symm, fun k => (h4 k).symm, fun k => (h5 k).symm,
      fun k => (h6 k).symm, fun k => (h7 k).symm, fun k => (h8 k).symm, fun k => (h9 k).symm⟩
  · obtain ⟨h1, h2, h3, h4⟩ := h.edge n d' d e' e
    exact ⟨h1.symm, h2.symm, fun k => (h3 k).symm, fun k => (h4 k).symm⟩
  · obtain ⟨h1, h2, h3, h4, h5, h6⟩ := h.rest
    exact ⟨h1.symm, h2.symm, h3.symm, h4.symm, h5.symm, h6.symm⟩

/-- The same number written into two diagrams. -/
theorem setAttribute_both {S : Slot → Prop} {D E D' E' : Diagram R} (h : SameExcept S D E)
    {s : Slot} {v : R} (hD : D.setAttribute v s = .ok D') (hE : E.setAttribute v s = .ok E') :
    SameExcept S D' E' := by
  rcases s with ⟨n, a⟩ | ⟨e, a⟩
  · simp only [Diagram.setAttribute] at hD hE
    split_ifs at hD hE
    cases hD; cases hE
    refine ⟨by simpa using h.nodeKeys, h.edgeKeys, fun m d d' h1 h2 => ?_, h.edge, h.rest⟩
    simp only [Dict.get?_modify] at h1 h2
    by_cases hn : n = m
    · subst hn
      simp only [if_true, Option.map_eq_some_iff] at h1 h2
      obtain ⟨d0, h1, rfl⟩ := h1
      obtain ⟨d1, h2, rfl⟩ := h2
      obtain ⟨g1, g2, g3, g4, g5, g6, g7, g8, g9⟩ := h.node n d0 d1 h1 h2
      cases a <;> simp only [NodeAttr.set] <;>
        exact ⟨g1, g2, g3, by first | exact g4 | simp,
          by first | exact g5 | simp, by first | exact g6 | simp,
          by first | exact g7 | simp, by first | exact g8 | simp,
          by first | exact g9 | simp⟩
    · simp only [hn, if_false] at h1 h2
      exact h.node m d d' h1 h2
  · simp only [Diagram.setAttribute] at hD hE
    split_ifs at hD hE
    cases hD; cases hE
    refine ⟨h.nodeKeys, by simpa using h.edgeKeys, h.node, fun m d d' h1 h2 => ?_, h.rest⟩
    simp only [Dict.get?_modify] at h1 h2
    by_cases hn : e = m
    · subst hn
      simp only [if_true, Option.map_eq_some_iff] at h1 h2
      obtain ⟨d0, h1, rfl⟩ := h1
      obtain ⟨d1, h2, rfl⟩ := h2
      obtain ⟨g1, g2, g3, g4⟩ := h.edge e d0 d1 h1 h2
      cases a <;> simp only [EdgeAttr.set] <;>
        exact ⟨g1, g2, by first | exact g3 | simp,
          by first | exact g4 | simp⟩
    · simp only [hn, if_false] at h1 h2
      exact h.edge m d d' h1 h2

/-- Two vectors that agree but at the given places, written into two diagrams that agree but
there. -/
theorem writeParameters_both {S : Slot → Prop} {x y : List R} (hl : y.length = x.length)
    (l : Dict Int (Param R)) (h0 : ∀ q ∈ l, 0 ≤ q.1)
    (hx : ∀ q ∈ l, ¬ S q.2.slot → y[q.1.toNat]? = x[q.1.toNat]?) {D E : Diagram R}
    (h : SameExcept S D E) :
    (Optimizer.writeParameters y l E).2 = (Optimizer.writeParameters x l D).2 ∧
    SameExcept S (Optimizer.writeParameters x l D).1 (Optimizer.writeParameters y l E).1 := by
  induction l generalizing D E with
  | nil => exact ⟨rfl, h⟩
  | cons q l ih =>
    obtain ⟨k, p⟩ := q
    simp only [List.mem_cons, forall_eq_or_imp] at h0 hx
    simp only [Optimizer.writeParameters]
    by_cases hk : k < x.length
    · obtain ⟨v, hv, e1⟩ := npGet_of (a := x) h0.1 hk
      obtain ⟨w, hw, e2⟩ := npGet_of (a := y) h0.1 (by rw [hl]; exact hk)
      simp only [e1, e2]
      by_cases hs : HasSlot D p.slot
      · obtain ⟨D1, h1⟩ := setAttribute_ok v hs
        obtain ⟨E1, h2⟩ := setAttribute_ok w ((h.hasSlot _).2 hs)
        simp only [h1, h2]
        refine ih h0.2 hx.2 ?_
        by_cases hS : S p.slot
        · have k1 := (sameExcept_setAttribute h1).mono (T := S) fun s e => by rw [e]; exact hS
          have k2 := (sameExcept_setAttribute h2).mono (T := S) fun s e => by rw [e]; exact hS
          exact k1.symm.trans (h.trans k2)
        · have := hx.1 hS
          rw [hw, hv] at this
          cases this
          exact setAttribute_both h h1 h2
      · rw [setAttribute_error v hs, setAttribute_error w (fun hc => hs ((h.hasSlot _).1 hc))]
        exact ⟨rfl, h⟩
    · have e1 : npGet x k = .error .indexError := by
        unfold npGet; rw [npIndex_ge h0.1 hk]
      have e2 : npGet y k = .error .indexError := by
        unfold npGet; rw [npIndex_ge h0.1 (by rw [hl]; exact hk)]
      simp only [e1, e2]
      exact ⟨trivial, h⟩

/-- What is idle does not depend on the numbers. -/
theorem idle_same {S : Slot → Prop} {D E : Diagram R} (h : SameExcept S D E) (s : Slot) :
    Idle E s ↔ Idle D s := by
  have ht : E.trails.keys = D.trails.keys := by rw [h.rest.2.2.1]
  rcases s with ⟨n, a⟩ | ⟨e, a⟩
  · cases a <;> simp [Idle, ht]
  · cases a
    · exact edgeType_same h e .deviation
    · exact edgeType_same h e .trail

section
variable [Field R] [LinearOrder R] [PySqrt R]

/-- Idle entries of the vector do not change the objective. -/
theorem optimizeForm_idle {o : Optimizer R} (h0 : ∀ q ∈ o.parameters, 0 ≤ q.1) (tmax : Nat) (eta : R)
    {D E : Diagram R} (I : ValidInput D) (h : SameExcept (Idle D) D E) {x y : List R}
    (hl : y.length = x.length)
    (hx : ∀ q ∈ o.parameters, ¬ Idle D q.2.slot → y[q.1.toNat]? = x[q.1.toNat]?) :
    (o.optimizeForm tmax eta E y).2 = (o.optimizeForm tmax eta D x).2 ∧
    SameExcept (Idle D) (o.optimizeForm tmax eta D x).1 (o.optimizeForm tmax eta E y).1 := by
  obtain ⟨h1, h2⟩ := writeParameters_both hl o.parameters h0 hx h
  refine ⟨?_, by rw [Optimizer.optimizeForm_fst, Optimizer.optimizeForm_fst]; exact h2⟩
  have hs := Optimizer.writeParameters_same x o.parameters D
  unfold Optimizer.optimizeForm Optimizer.updateParameters
  rcases hD : Optimizer.writeParameters x o.parameters D with ⟨D1, r1⟩
  rcases hE : Optimizer.writeParameters y o.parameters E with ⟨E1, r2⟩
  rw [hD, hE] at h1 h2
  rw [hD] at hs
  simp only at h1 h2 hs
  subst h1
  cases r2 with
  | error err => rfl
  | ok u =>
    simp only
    have hi : SameExcept (Idle D1) D1 E1 := h2.mono fun s hc => (idle_same hs s).2 hc
    rw [npEquilibriumState_idle hi (validInput_same hs I)]
    cases npEquilibriumState D1 tmax eta false <;> rfl

/-- The objective depends on the vector only, not on the numbers that the parameters had. -/
theorem optimizeForm_state {o : Optimizer R} (h0 : ∀ q ∈ o.parameters, 0 ≤ q.1) (tmax : Nat)
    (eta : R) {D E : Diagram R} (w : WF D)
    (h : SameExcept (fun s => ∃ q ∈ o.parameters, q.2.slot = s) D E) {x : List R} {v : Num R}
    (hv : (o.optimizeForm tmax eta E x).2 = .ok v) : (o.optimizeForm tmax eta D x).2 = .ok v := by
  have hE := Optimizer.optimizeForm_ok hv
  have hD : (o.updateParameters D x).2 = .ok () := by
    unfold Optimizer.updateParameters at hE ⊢
    rw [Optimizer.writeParameters_ok _ _ _ h0] at hE ⊢
    exact fun q hq => ⟨(hE q hq).1, (h.hasSlot _).1 (hE q hq).2⟩
  have c1 := Spec.Carries.frame h (carries_of_write h0 hE)
  have c2 := carries_of_write h0 hD
  have he := Spec.Carries.unique w.nodesNodup w.edgesNodup c2 c1
  have : o.updateParameters D x = o.updateParameters E x := by
    refine Prod.ext he ?_
    rw [hD, hE]
  have hf : (o.optimizeForm tmax eta D x).2 = (o.optimizeForm tmax eta E x).2 := by
    unfold Optimizer.optimizeForm
    rw [this]
  rw [hf, hv]

theorem evalAll_values {o : Optimizer R} (h0 : ∀ q ∈ o.parameters, 0 ≤ q.1) (tmax : Nat) (eta : R)
    {D : Diagram R} (w : WF D) (ys : List (List R)) {E E' : Diagram R} {vs : List (Num R)}
    (h : SameExcept (fun s => ∃ q ∈ o.parameters, q.2.slot = s) D E)
    (he : evalAll (o.optimizeForm tmax eta) E ys = (E', .ok vs)) :
    List.Forall₂ (fun y v => (o.optimizeForm tmax eta D y).2 = .ok v) ys vs := by
  induction ys generalizing E vs with
  | nil => cases he; exact .nil
  | cons y ys ih =>
    simp only [evalAll] at he
    have hs := h.trans (Optimizer.optimizeForm_same o tmax eta E y)
    rcases hf : o.optimizeForm tmax eta E y with ⟨E1, (err | v)⟩
    · rw [hf] at he; cases he
    · rw [hf] at he hs
      simp only at he
      rcases hr : evalAll (o.optimizeForm tmax eta) E1 ys with ⟨E2, (err | us)⟩
      · rw [hr] at he; cases he
      · rw [hr] at he
        cases he
        exact .cons (optimizeForm_state h0 tmax eta w h (by rw [hf])) (ih hs hr)

end
end CEM
