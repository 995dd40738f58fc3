import Verif.Spec.Optimizer
import Verif.Lemmas.Dict
import Mathlib.Data.List.Sort
import Mathlib.Data.List.Perm.Subperm
import Mathlib.Data.List.Range
import Mathlib.Tactic.Linarith
import Mathlib.Order.Fin.Basic

/-!
# Lemmas on the optimizer's registry and on parameter updates
-/

set_option linter.unusedSectionVars false
set_option linter.unusedSimpArgs false

namespace CEM
open Spec

variable {R : Type}

/-! ## Histories -/

theorem added_append {P : Type} (h1 h2 : List (RegOp P)) :
    added (h1 ++ h2) = added h1 ++ added h2 := by
  induction h1 with
  | nil => rfl
  | cons a l ih => cases a <;> simp [added, ih]

theorem runOps_append (o : Optimizer R) (h1 h2 : List (RegOp (Param R))) :
    runOps o (h1 ++ h2) = runOps (runOps o h1) h2 := by
  induction h1 generalizing o with
  | nil => rfl
  | cons a l ih =>
    cases a with
    | add p => simpa [runOps] using ih _
    | remove k =>
      simp only [List.cons_append, runOps]
      cases o.removeParameter k <;> exact ih _

theorem removed_lt {P : Type} {h : List (RegOp P)} {k : Int} (hr : Removed h k) :
    0 ≤ k ∧ k < (added h).length := by
  obtain ⟨h1, h2, rfl, h0, hk⟩ := hr
  refine ⟨h0, ?_⟩
  simp only [added_append, List.length_append]
  push_cast
  have := (added (RegOp.remove k :: h2)).length.cast_nonneg (α := Int)
  omega

theorem removed_snoc_add {P : Type} (h : List (RegOp P)) (p : P) (k : Int) :
    Removed (h ++ [.add p]) k ↔ Removed h k := by
  constructor
  · rintro ⟨h1, h2, e, h0, hk⟩
    rcases List.eq_nil_or_concat h2 with rfl | ⟨l, a, rfl⟩
    · simp at e
    · have e' : h ++ [RegOp.add p] = (h1 ++ RegOp.remove k :: l) ++ [a] := by simp [e]
      obtain ⟨e1, _⟩ := List.append_inj' e' rfl
      exact ⟨h1, l, e1, h0, hk⟩
  · rintro ⟨h1, h2, rfl, h0, hk⟩
    exact ⟨h1, h2 ++ [.add p], by simp, h0, hk⟩

theorem removed_snoc_remove {P : Type} (h : List (RegOp P)) (j k : Int) :
    Removed (h ++ [.remove j]) k ↔ Removed h k ∨ (k = j ∧ 0 ≤ k ∧ k < (added h).length) := by
  constructor
  · rintro ⟨h1, h2, e, h0, hk⟩
    rcases List.eq_nil_or_concat h2 with rfl | ⟨l, a, rfl⟩
    · obtain ⟨e1, e2⟩ := List.append_inj' (t₁ := [RegOp.remove j]) (t₂ := [RegOp.remove k])
        (by simpa using e) rfl
      subst e1
      simp only [List.cons.injEq, RegOp.remove.injEq, and_true] at e2
      exact .inr ⟨e2.symm, h0, hk⟩
    · have e' : h ++ [RegOp.remove j] = (h1 ++ RegOp.remove k :: l) ++ [a] := by simp [e]
      obtain ⟨e1, _⟩ := List.append_inj' e' rfl
      exact .inl ⟨h1, l, e1, h0, hk⟩
  · rintro (⟨h1, h2, rfl, h0, hk⟩ | ⟨rfl, h0, hk⟩)
    · exact ⟨h1, h2 ++ [.remove j], by simp, h0, hk⟩
    · exact ⟨h, [], rfl, h0, hk⟩

theorem registered_lt {P : Type} {h : List (RegOp P)} {k : Int} {p : P} (hr : Registered h k p) :
    0 ≤ k ∧ k < (added h).length := by
  obtain ⟨h0, e, _⟩ := hr
  have := (List.getElem?_eq_some_iff.1 e).1
  exact ⟨h0, by omega⟩

theorem registered_snoc_add {P : Type} (h : List (RegOp P)) (p q : P) (k : Int) :
    Registered (h ++ [.add p]) k q ↔
      Registered h k q ∨ (k = (added h).length ∧ q = p) := by
  unfold Registered
  rw [removed_snoc_add, added_append]
  simp only [added]
  constructor
  · rintro ⟨h0, e, hr⟩
    by_cases hk : k.toNat < (added h).length
    · rw [List.getElem?_append_left hk] at e
      exact .inl ⟨h0, e, hr⟩
    · rw [List.getElem?_append_right (by omega)] at e
      have h1 := (List.getElem?_eq_some_iff.1 e).1
      simp only [List.length_singleton] at h1
      have : k.toNat - (added h).length = 0 := by omega
      rw [this] at e
      simp at e
      exact .inr ⟨by omega, e.symm⟩
  · rintro (⟨h0, e, hr⟩ | ⟨rfl, rfl⟩)
    · refine ⟨h0, ?_, hr⟩
      rw [List.getElem?_append_left (List.getElem?_eq_some_iff.1 e).1]
      exact e
    · refine ⟨by omega, by simp, fun hr => ?_⟩
      have := (removed_lt hr).2
      omega

theorem registered_snoc_remove {P : Type} (h : List (RegOp P)) (q : P) (j k : Int) :
    Registered (h ++ [.remove j]) k q ↔ Registered h k q ∧ k ≠ j := by
  unfold Registered
  rw [removed_snoc_remove, added_append]
  simp only [added, List.append_nil]
  constructor
  · rintro ⟨h0, e, hr⟩
    refine ⟨⟨h0, e, fun h => hr (.inl h)⟩, fun hk => hr (.inr ⟨hk, h0, ?_⟩)⟩
    have := (List.getElem?_eq_some_iff.1 e).1
    omega
  · rintro ⟨⟨h0, e, hr⟩, hk⟩
    exact ⟨h0, e, by rintro (h | ⟨h, _⟩) <;> contradiction⟩

/-- What a registry (a dictionary and its key counter) looks like after a history. -/
structure RegInv {P : Type} (h : List (RegOp P)) (items : Dict Int P) (key : Int) : Prop where
  key_eq : key = (added h).length - 1
  sorted : items.keys.Pairwise (· < ·)
  get : ∀ k p, items.get? k = some p ↔ Registered h k p

section
variable {P : Type} {h : List (RegOp P)} {items : Dict Int P} {key : Int}

theorem RegInv.nodup (i : RegInv h items key) : items.keys.Nodup :=
  i.sorted.imp (fun h => ne_of_lt h)

theorem RegInv.key_lt (i : RegInv h items key) {k : Int} (hk : k ∈ items.keys) :
    0 ≤ k ∧ k < (added h).length := by
  obtain ⟨p, hp⟩ := (Dict.exists_get?_iff _ _).2 hk
  exact registered_lt ((i.get k p).1 hp)

theorem RegInv.nil : RegInv ([] : List (RegOp P)) [] (-1) := by
  refine ⟨rfl, List.Pairwise.nil, fun k p => ⟨fun h => by simp at h, ?_⟩⟩
  rintro ⟨_, e, _⟩
  simp [added] at e

theorem RegInv.add (ih : RegInv h items key) (p : P) :
    RegInv (h ++ [.add p]) (items.set (key + 1) p) (key + 1) := by
  have hnew : key + 1 = ((added h).length : Int) := by rw [ih.key_eq]; omega
  have hmem : key + 1 ∉ items.keys := fun hm => by
    have := (ih.key_lt hm).2
    omega
  refine ⟨?_, ?_, fun k q => ?_⟩
  · simp only [hnew, added_append, added, List.length_append, List.length_singleton]
    push_cast
    omega
  · rw [Dict.keys_set_of_not_mem _ hmem, List.pairwise_append]
    refine ⟨ih.sorted, by simp, fun a ha b hb => ?_⟩
    simp only [List.mem_singleton] at hb
    have := (ih.key_lt ha).2
    omega
  · rw [registered_snoc_add, Dict.get?_set, ← ih.get, ← hnew]
    by_cases hk : key + 1 = k
    · subst hk
      rw [if_pos rfl]
      have : items.get? (key + 1) = none := (Dict.get?_eq_none_iff _ _).2 hmem
      simp [this, eq_comm]
    · rw [if_neg hk]
      simp [Ne.symm hk]

theorem RegInv.remove (ih : RegInv h items key) (j : Int) :
    RegInv (h ++ [.remove j]) (if items.has j then items.erase j else items) key := by
  by_cases hj : items.has j = true
  · rw [if_pos hj]
    refine ⟨?_, ?_, fun k q => ?_⟩
    · simp [added_append, added, ih.key_eq]
    · exact List.Pairwise.sublist (Dict.keys_erase_sublist _ _) ih.sorted
    · rw [registered_snoc_remove, Dict.get?_erase ih.nodup, ← ih.get]
      by_cases hk : j = k
      · subst hk; simp
      · simp [hk, Ne.symm hk]
  · rw [if_neg hj]
    refine ⟨by simp [added_append, added, ih.key_eq], ih.sorted, fun k q => ?_⟩
    rw [registered_snoc_remove, ← ih.get]
    constructor
    · intro e
      refine ⟨e, fun hk => hj ?_⟩
      subst hk
      simp [Dict.has, e]
    · exact fun e => e.1

end

theorem regInv (h : List (RegOp (Param R))) :
    RegInv h (runOps (Optimizer.empty : Optimizer R) h).parameters
      (runOps (Optimizer.empty : Optimizer R) h).pkey := by
  induction h using List.reverseRecOn with
  | nil => exact RegInv.nil
  | append_singleton h op ih =>
    rw [runOps_append]
    cases op with
    | add p => exact ih.add p
    | remove j =>
      have := ih.remove j
      simp only [runOps, Optimizer.removeParameter]
      split_ifs at this ⊢ <;> exact this

theorem runConstraintOps_append (o : Optimizer R) (h1 h2 : List (RegOp (Constraint R))) :
    runConstraintOps o (h1 ++ h2) = runConstraintOps (runConstraintOps o h1) h2 := by
  induction h1 generalizing o with
  | nil => rfl
  | cons a l ih =>
    cases a with
    | add p => simpa [runConstraintOps] using ih _
    | remove k =>
      simp only [List.cons_append, runConstraintOps]
      cases o.removeConstraint k <;> exact ih _

theorem regInv_constraints (h : List (RegOp (Constraint R))) :
    RegInv h (runConstraintOps (Optimizer.empty : Optimizer R) h).constraints
      (runConstraintOps (Optimizer.empty : Optimizer R) h).ckey := by
  induction h using List.reverseRecOn with
  | nil => exact RegInv.nil
  | append_singleton h op ih =>
    rw [runConstraintOps_append]
    cases op with
    | add p => exact ih.add p
    | remove j =>
      have := ih.remove j
      simp only [runConstraintOps, Optimizer.removeConstraint]
      split_ifs at this ⊢ <;> exact this

/-! ## Arrays -/

theorem npIndex_of {n : Nat} {i : Int} (h0 : 0 ≤ i) (h : i < n) : npIndex n i = .ok i.toNat := by
  simp [npIndex, h0, h]

theorem npIndex_ge {n : Nat} {i : Int} (h0 : 0 ≤ i) (h : ¬ i < n) :
    npIndex n i = .error .indexError := by
  unfold npIndex
  rw [if_neg (fun hc => h hc.2), if_neg (fun hc => by omega)]

theorem npGet_of {α : Type} {a : List α} {i : Int} (h0 : 0 ≤ i) (h : i < a.length) :
    ∃ v, a[i.toNat]? = some v ∧ npGet a i = .ok v := by
  have hl : i.toNat < a.length := by omega
  refine ⟨a[i.toNat], List.getElem?_eq_getElem hl, ?_⟩
  simp [npGet, npIndex_of h0 h, List.getElem?_eq_getElem hl]

theorem npGet_ok {α : Type} {a : List α} {i : Int} (h0 : 0 ≤ i) {v : α} (h : npGet a i = .ok v) :
    a[i.toNat]? = some v := by
  by_cases hl : i < a.length
  · obtain ⟨w, e, hw⟩ := npGet_of (a := a) h0 hl
    rw [h] at hw
    cases hw
    exact e
  · simp [npGet, npIndex_ge h0 hl] at h

namespace Optimizer

theorem assemble_ok {α : Type} (f : Param R → Except PyErr α) (l : Dict Int (Param R))
    (a : List α) (hn : l.keys.Nodup) (h0 : ∀ k ∈ l.keys, 0 ≤ k) (hf : ∀ q ∈ l, ∃ v, f q.2 = .ok v)
    (hl : ∀ k ∈ l.keys, k < a.length) :
    ∃ b, assemble f l a = .ok b ∧ b.length = a.length ∧
      (∀ k p, (k, p) ∈ l → ∃ v, f p = .ok v ∧ b[k.toNat]? = some v) ∧
      ∀ j : Nat, (j : Int) ∉ l.keys → b[j]? = a[j]? := by
  induction l generalizing a with
  | nil => exact ⟨a, rfl, rfl, by simp, by simp⟩
  | cons q l ih =>
    obtain ⟨k, p⟩ := q
    simp only [Dict.keys_cons, List.nodup_cons, List.mem_cons, forall_eq_or_imp] at hn h0 hl hf
    obtain ⟨v, hv⟩ := hf.1
    obtain ⟨b, hb, hlen, hget, hrest⟩ := ih (a.set k.toNat v) hn.2 h0.2 hf.2 (by simpa using hl.2)
    refine ⟨b, ?_, by simpa using hlen, ?_, ?_⟩
    · simp only [assemble, hv, npSet, npIndex_of h0.1 hl.1]
      exact hb
    · intro k' p' hm
      rcases List.mem_cons.1 hm with e | hm
      · cases e
        refine ⟨v, hv, ?_⟩
        have hkk : ((k.toNat : Nat) : Int) = k := by have := h0.1; omega
        rw [hrest k.toNat (by rw [hkk]; exact hn.1)]
        have := hl.1
        have := h0.1
        rw [List.getElem?_set_self (by omega)]
      · exact hget k' p' hm
    · intro j hj
      simp only [Dict.keys_cons, List.mem_cons, not_or] at hj
      rw [hrest j hj.2, List.getElem?_set_ne]
      have := h0.1
      omega

theorem assemble_error {α : Type} (f : Param R → Except PyErr α) (l : Dict Int (Param R))
    (a : List α) (h0 : ∀ k ∈ l.keys, 0 ≤ k) (hf : ∀ q ∈ l, ∃ v, f q.2 = .ok v)
    (hl : ∃ k ∈ l.keys, ¬ k < a.length) : assemble f l a = .error .indexError := by
  induction l generalizing a with
  | nil => simp at hl
  | cons q l ih =>
    obtain ⟨k, p⟩ := q
    simp only [Dict.keys_cons, List.mem_cons, forall_eq_or_imp, exists_eq_or_imp] at h0 hl hf
    obtain ⟨v, hv⟩ := hf.1
    simp only [assemble, hv, npSet]
    by_cases hk : k < a.length
    · rw [npIndex_of h0.1 hk]
      refine ih _ h0.2 hf.2 ?_
      rcases hl with hl | hl
      · exact absurd hk hl
      · simpa using hl
    · rw [npIndex_ge h0.1 hk]

end Optimizer

/-- Strictly ascending natural numbers below their count are all of them. -/
theorem keys_eq_range {ks : List Int} (hs : ks.Pairwise (· < ·)) (h0 : ∀ k ∈ ks, 0 ≤ k)
    (hl : ∀ k ∈ ks, k < ks.length) : ks = (List.range ks.length).map Int.ofNat := by
  have hsub : ks ⊆ (List.range ks.length).map Int.ofNat := fun k hk => by
    have := h0 k hk
    have := hl k hk
    exact List.mem_map.2 ⟨k.toNat, List.mem_range.2 (by omega), by simp; omega⟩
  have hperm : ks.Perm ((List.range ks.length).map Int.ofNat) :=
    (List.subperm_of_subset (hs.imp (fun h => ne_of_lt h)) hsub).perm_of_length_le (by simp)
  refine hperm.eq_of_pairwise (le := (· < ·)) (fun a b _ _ h1 h2 => ?_) hs ?_
  · exact absurd h1 (not_lt.2 h2.le)
  · rw [List.pairwise_map]
    exact List.pairwise_lt_range.imp (fun h => by simpa using h)

/-! ## Attributes -/

theorem holdsAt_iff (D : Diagram R) (s : Slot) (v : R) :
    HoldsAt D s v ↔ D.getAttribute s = .ok v := by
  rcases s with ⟨n, a⟩ | ⟨e, a⟩
  · cases hd : D.nodes.get? n <;> cases a <;> simp [HoldsAt, Diagram.getAttribute, NodeAttr.get, hd]
  · cases hd : D.edges.get? e <;> cases a <;> simp [HoldsAt, Diagram.getAttribute, EdgeAttr.get, hd]

theorem hasSlot_iff (D : Diagram R) (s : Slot) :
    HasSlot D s ↔ ∃ v, D.getAttribute s = .ok v := by
  rcases s with ⟨n, a⟩ | ⟨e, a⟩
  · simp only [HasSlot, ← Dict.exists_get?_iff, Diagram.getAttribute]
    cases D.nodes.get? n <;> simp
  · simp only [HasSlot, ← Dict.exists_get?_iff, Diagram.getAttribute]
    cases D.edges.get? e <;> simp

theorem NodeAttr.get_set (d : NodeData R) (v : R) (a b : NodeAttr) :
    b.get (a.set d v) = if a = b then v else b.get d := by
  cases a <;> cases b <;> simp [NodeAttr.get, NodeAttr.set]

theorem EdgeAttr.get_set (d : EdgeData R) (v : R) (a b : EdgeAttr) :
    b.get (a.set d v) = if a = b then v else b.get d := by
  cases a <;> cases b <;> simp [EdgeAttr.get, EdgeAttr.set]

theorem setAttribute_ok {D : Diagram R} {s : Slot} (v : R) (h : HasSlot D s) :
    ∃ D', D.setAttribute v s = .ok D' := by
  rcases s with ⟨n, a⟩ | ⟨e, a⟩
  · simp [Diagram.setAttribute, (Dict.has_iff _ _).2 h]
  · simp [Diagram.setAttribute, (Dict.has_iff _ _).2 h]

theorem setAttribute_error {D : Diagram R} {s : Slot} (v : R) (h : ¬ HasSlot D s) :
    D.setAttribute v s = .error .keyError := by
  rcases s with ⟨n, a⟩ | ⟨e, a⟩
  · simp only [Diagram.setAttribute]
    rw [if_neg (fun hc => h ((Dict.has_iff _ _).1 hc))]
  · simp only [Diagram.setAttribute]
    rw [if_neg (fun hc => h ((Dict.has_iff _ _).1 hc))]

theorem get_setAttribute {D D' : Diagram R} {s : Slot} {v : R} (h : D.setAttribute v s = .ok D')
    (t : Slot) : D'.getAttribute t = if s = t then .ok v else D.getAttribute t := by
  rcases s with ⟨n, a⟩ | ⟨e, a⟩
  · simp only [Diagram.setAttribute] at h
    by_cases hm : D.nodes.has n = true
    · rw [if_pos hm] at h
      cases h
      rcases t with ⟨n', a'⟩ | ⟨e', a'⟩
      · simp only [Diagram.getAttribute, Dict.get?_modify, Slot.node.injEq]
        by_cases hn : n = n'
        · subst hn
          obtain ⟨d, hd⟩ := Option.isSome_iff_exists.1 hm
          simp only [hd, if_true, Option.map_some, true_and, NodeAttr.get_set]
          split_ifs <;> rfl
        · simp [hn]
      · simp [Diagram.getAttribute]
    · rw [if_neg hm] at h
      cases h
  · simp only [Diagram.setAttribute] at h
    by_cases hm : D.edges.has e = true
    · rw [if_pos hm] at h
      cases h
      rcases t with ⟨n', a'⟩ | ⟨e', a'⟩
      · simp [Diagram.getAttribute]
      · simp only [Diagram.getAttribute, Dict.get?_modify, Slot.edge.injEq]
        by_cases hn : e = e'
        · subst hn
          obtain ⟨d, hd⟩ := Option.isSome_iff_exists.1 hm
          simp only [hd, if_true, Option.map_some, true_and, EdgeAttr.get_set]
          split_ifs <;> rfl
        · simp [hn]
    · rw [if_neg hm] at h
      cases h

theorem _root_.CEM.Spec.SameExcept.refl (S : Slot → Prop) (D : Diagram R) : SameExcept S D D :=
  ⟨rfl, rfl, fun n d d' h h' => by rw [h] at h'; cases h'; simp,
    fun n d d' h h' => by rw [h] at h'; cases h'; simp, by simp⟩

theorem _root_.CEM.Spec.SameExcept.mono {S T : Slot → Prop} (hST : ∀ s, S s → T s) {D D' : Diagram R}
    (h : SameExcept S D D') : SameExcept T D D' := by
  refine ⟨h.nodeKeys, h.edgeKeys, fun n d d' e e' => ?_, fun n d d' e e' => ?_, h.rest⟩
  · obtain ⟨h1, h2, h3, h4, h5, h6, h7, h8, h9⟩ := h.node n d d' e e'
    exact ⟨h1, h2, h3, fun k => h4 fun c => k (hST _ c), fun k => h5 fun c => k (hST _ c),
      fun k => h6 fun c => k (hST _ c), fun k => h7 fun c => k (hST _ c),
      fun k => h8 fun c => k (hST _ c), fun k => h9 fun c => k (hST _ c)⟩
  · obtain ⟨h1, h2, h3, h4⟩ := h.edge n d d' e e'
    exact ⟨h1, h2, fun k => h3 fun c => k (hST _ c), fun k => h4 fun c => k (hST _ c)⟩

theorem _root_.CEM.Spec.SameExcept.trans {S : Slot → Prop} {D E F : Diagram R} (h : SameExcept S D E)
    (g : SameExcept S E F) : SameExcept S D F := by
  refine ⟨g.nodeKeys.trans h.nodeKeys, g.edgeKeys.trans h.edgeKeys, fun n d d' e e' => ?_,
    fun n d d' e e' => ?_, ?_⟩
  · obtain ⟨d1, hd1⟩ := (Dict.exists_get?_iff E.nodes n).2
      (by rw [h.nodeKeys]; exact Dict.mem_keys_of_get? e)
    obtain ⟨h1, h2, h3, h4, h5, h6, h7, h8, h9⟩ := h.node n d d1 e hd1
    obtain ⟨g1, g2, g3, g4, g5, g6, g7, g8, g9⟩ := g.node n d1 d' hd1 e'
    exact ⟨g1.trans h1, g2.trans h2, g3.trans h3, fun k => (g4 k).trans (h4 k),
      fun k => (g5 k).trans (h5 k), fun k => (g6 k).trans (h6 k), fun k => (g7 k).trans (h7 k),
      fun k => (g8 k).trans (h8 k), fun k => (g9 k).trans (h9 k)⟩
  · obtain ⟨d1, hd1⟩ := (Dict.exists_get?_iff E.edges n).2
      (by rw [h.edgeKeys]; exact Dict.mem_keys_of_get? e)
    obtain ⟨h1, h2, h3, h4⟩ := h.edge n d d1 e hd1
    obtain ⟨g1, g2, g3, g4⟩ := g.edge n d1 d' hd1 e'
    exact ⟨g1.trans h1, g2.trans h2, fun k => (g3 k).trans (h3 k), fun k => (g4 k).trans (h4 k)⟩
  · obtain ⟨h1, h2, h3, h4, h5, h6⟩ := h.rest
    obtain ⟨g1, g2, g3, g4, g5, g6⟩ := g.rest
    exact ⟨g1.trans h1, g2.trans h2, g3.trans h3, g4.trans h4, g5.trans h5, g6.trans h6⟩

theorem _root_.CEM.Spec.SameExcept.hasSlot {S : Slot → Prop} {D D' : Diagram R} (h : SameExcept S D D')
    (s : Slot) : HasSlot D' s ↔ HasSlot D s := by
  cases s <;> simp [HasSlot, h.nodeKeys, h.edgeKeys]

theorem sameExcept_setAttribute {D D' : Diagram R} {s : Slot} {v : R}
    (h : D.setAttribute v s = .ok D') : SameExcept (· = s) D D' := by
  rcases s with ⟨n, a⟩ | ⟨e, a⟩
  · simp only [Diagram.setAttribute] at h
    by_cases hm : D.nodes.has n = true
    · rw [if_pos hm] at h
      cases h
      refine ⟨by simp, rfl, fun m d d' h h' => ?_, fun m d d' h h' => ?_, by simp⟩
      · simp only [Dict.get?_modify] at h'
        by_cases hn : n = m
        · subst hn
          simp only [if_true, h, Option.map_some, Option.some.injEq] at h'
          subst h'
          cases a <;> simp [NodeAttr.set]
        · simp only [hn, if_false, h, Option.some.injEq] at h'
          subst h'
          simp
      · rw [h] at h'; cases h'; simp
    · rw [if_neg hm] at h
      cases h
  · simp only [Diagram.setAttribute] at h
    by_cases hm : D.edges.has e = true
    · rw [if_pos hm] at h
      cases h
      refine ⟨rfl, by simp, fun m d d' h h' => ?_, fun m d d' h h' => ?_, by simp⟩
      · rw [h] at h'; cases h'; simp
      · simp only [Dict.get?_modify] at h'
        by_cases hn : e = m
        · subst hn
          simp only [if_true, h, Option.map_some, Option.some.injEq] at h'
          subst h'
          cases a <;> simp [EdgeAttr.set]
        · simp only [hn, if_false, h, Option.some.injEq] at h'
          subst h'
          simp
    · rw [if_neg hm] at h
      cases h

namespace Optimizer

/-- Whether or not it raises, a write changes only the designated places. -/
theorem writeParameters_same (x : List R) (l : Dict Int (Param R)) (D : Diagram R) :
    SameExcept (fun s => ∃ q ∈ l, q.2.slot = s) D (writeParameters x l D).1 := by
  induction l generalizing D with
  | nil => exact SameExcept.refl _ _
  | cons q l ih =>
    obtain ⟨k, p⟩ := q
    simp only [writeParameters]
    cases hv : npGet x k with
    | error err => exact SameExcept.refl _ _
    | ok v =>
      simp only
      cases hD : D.setAttribute v p.slot with
      | error err => exact SameExcept.refl _ _
      | ok D' =>
        exact ((sameExcept_setAttribute hD).mono fun s hs => ⟨(k, p), by simp, hs.symm⟩).trans
          ((ih D').mono fun s ⟨q, hq, e⟩ => ⟨q, by simp [hq], e⟩)

theorem writeParameters_ok (x : List R) (l : Dict Int (Param R)) (D : Diagram R)
    (h0 : ∀ q ∈ l, 0 ≤ q.1) :
    (writeParameters x l D).2 = .ok () ↔ ∀ q ∈ l, q.1 < x.length ∧ HasSlot D q.2.slot := by
  induction l generalizing D with
  | nil => simp [writeParameters]
  | cons q l ih =>
    obtain ⟨k, p⟩ := q
    simp only [List.mem_cons, forall_eq_or_imp] at h0 ⊢
    simp only [writeParameters]
    by_cases hk : k < x.length
    · obtain ⟨v, _, hv⟩ := npGet_of (a := x) h0.1 hk
      simp only [hv]
      by_cases hs : HasSlot D p.slot
      · obtain ⟨D', hD⟩ := setAttribute_ok v hs
        simp only [hD]
        rw [ih D' h0.2]
        simp only [hk, hs, true_and, and_true]
        simp only [(sameExcept_setAttribute hD).hasSlot]
      · simp [setAttribute_error v hs, hs]
    · simp [npGet, npIndex_ge h0.1 hk, hk]

/-- The last parameter that designates a place wins. -/
theorem writeParameters_get (x : List R) (l : Dict Int (Param R)) (D : Diagram R)
    (h0 : ∀ q ∈ l, 0 ≤ q.1) (hok : (writeParameters x l D).2 = .ok ()) (s : Slot) :
    ((∀ q ∈ l, q.2.slot ≠ s) → (writeParameters x l D).1.getAttribute s = D.getAttribute s) ∧
    ∀ l1 k p l2, l = l1 ++ (k, p) :: l2 → p.slot = s → (∀ q ∈ l2, q.2.slot ≠ s) →
      ∃ v, x[k.toNat]? = some v ∧ (writeParameters x l D).1.getAttribute s = .ok v := by
  induction l generalizing D with
  | nil => simp [writeParameters]
  | cons q l ih =>
    obtain ⟨k, p⟩ := q
    simp only [List.mem_cons, forall_eq_or_imp] at h0
    simp only [writeParameters] at hok ⊢
    cases hv : npGet x k with
    | error err => simp [hv] at hok
    | ok v =>
      simp only [hv] at hok ⊢
      cases hD : D.setAttribute v p.slot with
      | error err => simp [hD] at hok
      | ok D' =>
        simp only [hD] at hok ⊢
        obtain ⟨ih1, ih2⟩ := ih D' h0.2 hok
        constructor
        · intro h
          simp only [List.mem_cons, forall_eq_or_imp] at h
          rw [ih1 h.2, get_setAttribute hD, if_neg h.1]
        · intro l1 k' p' l2 e hs hlast
          cases l1 with
          | nil =>
            simp only [List.nil_append, List.cons.injEq, Prod.mk.injEq] at e
            obtain ⟨⟨rfl, rfl⟩, rfl⟩ := e
            refine ⟨v, npGet_ok h0.1 hv, ?_⟩
            rw [ih1 hlast, get_setAttribute hD, if_pos hs]
          | cons q1 l1 =>
            simp only [List.cons_append, List.cons.injEq] at e
            exact ih2 l1 k' p' l2 e.2 hs hlast

end Optimizer
end CEM
