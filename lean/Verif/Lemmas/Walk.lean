import Verif.Lemmas.Construction
import Verif.Spec.Trails
import Mathlib.Data.Finset.Card
import Mathlib.Data.List.Chain

/-! # Adjacency and the walk of `build_trails` -/

set_option linter.unusedSectionVars false

namespace CEM
namespace Diagram
open Spec
variable {R : Type}

theorem mem_insertNew {l : List Int} {v x : Int} : x ∈ insertNew l v ↔ x = v ∨ x ∈ l := by
  unfold insertNew
  split
  · constructor
    · exact Or.inr
    · rintro (rfl | h) <;> assumption
  · simp [or_comm]

theorem nodup_insertNew {l : List Int} {v : Int} (h : l.Nodup) : (insertNew l v).Nodup := by
  unfold insertNew
  split
  · exact h
  · rename_i hv
    exact List.nodup_append.2 ⟨h, by simp, by
      intro a ha b hb; simp at hb; subst hb; rintro rfl; exact hv ha⟩

theorem mem_adjStep {n : Int} {l : List Int} {e : Int × Int} {x : Int} :
    x ∈ adjStep n l e ↔ x ∈ l ∨ (e = (n, x)) ∨ (e = (x, n)) := by
  obtain ⟨a, b⟩ := e
  unfold adjStep
  by_cases h1 : a = n <;> by_cases h2 : b = n <;>
    simp [h1, h2, mem_insertNew, Prod.ext_iff, eq_comm] <;> tauto

theorem nodup_adjStep {n : Int} {l : List Int} {e : Int × Int} (h : l.Nodup) :
    (adjStep n l e).Nodup := by
  unfold adjStep
  dsimp only
  split_ifs <;> first | exact h | exact nodup_insertNew h | exact nodup_insertNew (nodup_insertNew h)

theorem mem_foldl_adjStep {n x : Int} (es : List (Int × Int)) (l : List Int) :
    x ∈ es.foldl (adjStep n) l ↔ x ∈ l ∨ (n, x) ∈ es ∨ (x, n) ∈ es := by
  induction es generalizing l with
  | nil => simp
  | cons e es ih =>
    simp only [List.foldl_cons, ih, mem_adjStep, List.mem_cons]
    constructor
    · rintro ((h | rfl | rfl) | h | h) <;> simp_all
    · rintro (h | (h | h) | (h | h)) <;> simp_all

theorem nodup_foldl_adjStep {n : Int} (es : List (Int × Int)) {l : List Int} (h : l.Nodup) :
    (es.foldl (adjStep n) l).Nodup := by
  induction es generalizing l with
  | nil => exact h
  | cons e es ih => exact ih (nodup_adjStep h)

theorem mem_neighbors {D : Diagram R} {n x : Int} :
    x ∈ D.neighbors n ↔ (n, x) ∈ D.edges.keys ∨ (x, n) ∈ D.edges.keys := by
  simp [neighbors, mem_foldl_adjStep]

theorem nodup_neighbors (D : Diagram R) (n : Int) : (D.neighbors n).Nodup :=
  nodup_foldl_adjStep _ List.nodup_nil

theorem isTrailPair_adj {D : Diagram R} {n x : Int} (h : D.isTrailPair n x = true) :
    TrailAdj D n x := by
  unfold isTrailPair at h
  split at h
  · rename_i d hd; exact Or.inl ⟨d, hd, by simpa using h⟩
  · split at h
    · rename_i d hd; exact Or.inr ⟨d, hd, by simpa using h⟩
    · simp at h

theorem adj_mem_neighbors {D : Diagram R} {n x : Int} (h : TrailAdj D n x) : x ∈ D.neighbors n := by
  rw [mem_neighbors]
  rcases h with ⟨d, hd, _⟩ | ⟨d, hd, _⟩
  · exact Or.inl (Dict.mem_keys_of_get? hd)
  · exact Or.inr (Dict.mem_keys_of_get? hd)

theorem _root_.CEM.Spec.TrailAdj.symm {D : Diagram R} {a b : Int} (h : TrailAdj D a b) : TrailAdj D b a := Or.symm h

theorem _root_.CEM.Spec.TrailAdj.mem_left {D : Diagram R} (w : WF D) {a b : Int} (h : TrailAdj D a b) :
    a ∈ D.nodes.keys := by
  rcases h with ⟨d, hd, _⟩ | ⟨d, hd, _⟩
  · exact w.edge_left _ (Dict.mem_keys_of_get? hd)
  · exact w.edge_right _ (Dict.mem_keys_of_get? hd)

theorem _root_.CEM.Spec.TrailAdj.mem_right {D : Diagram R} (w : WF D) {a b : Int} (h : TrailAdj D a b) :
    b ∈ D.nodes.keys := TrailAdj.mem_left w h.symm

theorem _root_.CEM.Spec.TrailAdj.ne {D : Diagram R} (g : SimpleGraph D) {a b : Int} (h : TrailAdj D a b) : a ≠ b := by
  rintro rfl
  rcases h with ⟨d, hd, _⟩ | ⟨d, hd, _⟩ <;> exact g.noLoop a (Dict.mem_keys_of_get? hd)

theorem isTrailPair_iff {D : Diagram R} (g : SimpleGraph D) {n x : Int} :
    D.isTrailPair n x = true ↔ TrailAdj D n x := by
  refine ⟨isTrailPair_adj, fun h => ?_⟩
  unfold isTrailPair
  rcases h with ⟨d, hd, ht⟩ | ⟨d, hd, ht⟩
  · simp [hd, ht]
  · have : D.edges.get? (n, x) = none := by
      rw [Dict.get?_eq_none_iff]
      exact g.noAnti _ _ (Dict.mem_keys_of_get? hd)
    simp [this, hd, ht]

/-! ## The next node -/

theorem nextInWalk_some {D : Diagram R} {v : List Int} {n x : Int} (h : D.nextInWalk v n = some x) :
    x ∉ v ∧ D.isTrailPair n x = true := by
  have := List.find?_some h
  simpa using this

theorem nextInWalk_none {D : Diagram R} {v : List Int} {n : Int} (h : D.nextInWalk v n = none)
    {x : Int} (hx : x ∈ D.neighbors n) (ht : D.isTrailPair n x = true) : x ∈ v := by
  unfold nextInWalk at h
  rw [List.find?_eq_none] at h
  have := h x (by simpa using hx)
  simp only [Bool.and_eq_true, decide_eq_true_eq, not_and] at this
  by_contra hv
  exact this hv ht

/-! ## The walk depends on the edges only -/

theorem neighbors_congr {D D' : Diagram R} (h : D'.edges = D.edges) (n : Int) :
    D'.neighbors n = D.neighbors n := by simp [neighbors, h]

theorem isTrailPair_congr {D D' : Diagram R} (h : D'.edges = D.edges) (n x : Int) :
    D'.isTrailPair n x = D.isTrailPair n x := by simp [isTrailPair, h]

theorem nextInWalk_congr {D D' : Diagram R} (h : D'.edges = D.edges) (v : List Int) (n : Int) :
    D'.nextInWalk v n = D.nextInWalk v n := by
  unfold nextInWalk; simp only [neighbors_congr h, isTrailPair_congr h]

theorem walk_congr {D D' : Diagram R} (h : D'.edges = D.edges) (fuel : Nat) (acc : List Int)
    (n : Int) : D'.walk fuel acc n = D.walk fuel acc n := by
  induction fuel generalizing acc n with
  | zero => rfl
  | succ fuel ih => simp only [walk, nextInWalk_congr h, ih]

theorem trailAdj_congr {D D' : Diagram R} (h : D'.edges = D.edges) (a b : Int) :
    TrailAdj D' a b ↔ TrailAdj D a b := by simp [TrailAdj, IsTrail, h]

/-! ## Termination -/

theorem walk_terminates {D : Diagram R} (w : WF D) (fuel : Nat) (acc : List Int) (n : Int)
    (hnd : (n :: acc).Nodup) (hsub : ∀ x ∈ n :: acc, x ∈ D.nodes.keys)
    (hf : D.nodes.length ≤ fuel + acc.length) : ∃ tr, D.walk fuel acc n = some tr := by
  induction fuel generalizing acc n with
  | zero =>
    exfalso
    have h1 : (n :: acc).length ≤ D.nodes.keys.length := by
      have hs : (n :: acc).toFinset ⊆ D.nodes.keys.toFinset := by
        intro x hx; rw [List.mem_toFinset] at hx ⊢; exact hsub x hx
      have := Finset.card_le_card hs
      rwa [List.toFinset_card_of_nodup hnd, List.toFinset_card_of_nodup w.nodesNodup] at this
    simp only [List.length_cons, Dict.length_keys] at h1
    omega
  | succ fuel ih =>
    unfold walk
    split
    · exact ⟨_, rfl⟩
    · rename_i nb hnb
      split_ifs with heq
      · exact ⟨_, rfl⟩
      · obtain ⟨hv, ht⟩ := nextInWalk_some hnb
        refine ih (n :: acc) nb ?_ ?_ ?_
        · rw [List.nodup_cons]; exact ⟨by simp [heq, hv], hnd⟩
        · intro x hx
          rcases List.mem_cons.1 hx with rfl | hx
          · exact (isTrailPair_adj ht).mem_right w
          · exact hsub x hx
        · simp only [List.length_cons]; omega

/-! ## Shape of the walk's result -/

/-- Shape of a finished walk without self-loops: a duplicate-free chain ending in
the start node, from whose head no unvisited neighbour can be reached. -/
theorem walk_shape {D : Diagram R} (g : SimpleGraph D) (fuel : Nat) (acc : List Int) (n : Int)
    (tr : List Int) (h : D.walk fuel acc n = some tr)
    (hnd : (n :: acc).Nodup) (hch : (n :: acc).IsChain (TrailAdj D)) :
    tr.Nodup ∧ tr.IsChain (TrailAdj D) ∧ (∃ pre, tr = pre ++ n :: acc) ∧
    (∀ x, tr.head? = some x → ∀ y, TrailAdj D x y → y ∈ tr) := by
  induction fuel generalizing acc n with
  | zero => simp [walk] at h
  | succ fuel ih =>
    unfold walk at h
    split at h
    · rename_i hnone
      simp only [Option.some.injEq] at h
      subst h
      refine ⟨hnd, hch, ⟨[], rfl⟩, ?_⟩
      intro x hx y hy
      simp only [List.head?_cons, Option.some.injEq] at hx
      subst hx
      exact List.mem_cons_of_mem _
        (nextInWalk_none hnone (adj_mem_neighbors hy) ((isTrailPair_iff g).2 hy))
    · rename_i nb hnb
      obtain ⟨hv, ht⟩ := nextInWalk_some hnb
      have hadj := isTrailPair_adj ht
      split_ifs at h with heq
      · exact absurd heq (hadj.ne g).symm
      · have hnd' : (nb :: n :: acc).Nodup := by
          rw [List.nodup_cons]; exact ⟨by simp [heq, hv], hnd⟩
        have hch' : (nb :: n :: acc).IsChain (TrailAdj D) :=
          List.isChain_cons_cons.2 ⟨hadj.symm, hch⟩
        obtain ⟨h1, h2, ⟨pre, h3⟩, h4⟩ := ih _ _ h hnd' hch'
        exact ⟨h1, h2, ⟨pre ++ [nb], by simp [h3]⟩, h4⟩

/-- Shape in general, self-loops included. -/
theorem walk_shape_general {D : Diagram R} (fuel : Nat) (acc : List Int) (n : Int)
    (tr : List Int) (h : D.walk fuel acc n = some tr)
    (hnd : (n :: acc).Nodup) (hch : (n :: acc).IsChain (TrailAdj D)) :
    tr.IsChain (TrailAdj D) ∧ (∃ pre, tr = pre ++ n :: acc) ∧
    (tr.Nodup ∨ ∃ x rest, tr = x :: x :: rest ∧ (x :: rest).Nodup ∧ IsTrail D x x) := by
  induction fuel generalizing acc n with
  | zero => simp [walk] at h
  | succ fuel ih =>
    unfold walk at h
    split at h
    · simp only [Option.some.injEq] at h
      subst h
      exact ⟨hch, ⟨[], rfl⟩, Or.inl hnd⟩
    · rename_i nb hnb
      obtain ⟨hv, ht⟩ := nextInWalk_some hnb
      have hadj := isTrailPair_adj ht
      split_ifs at h with heq
      · simp only [Option.some.injEq] at h
        subst h
        subst heq
        refine ⟨List.isChain_cons_cons.2 ⟨hadj, hch⟩, ⟨[nb], rfl⟩, Or.inr ⟨nb, acc, rfl, hnd, ?_⟩⟩
        rcases hadj with h | h <;> exact h
      · have hnd' : (nb :: n :: acc).Nodup := by
          rw [List.nodup_cons]; exact ⟨by simp [heq, hv], hnd⟩
        have hch' : (nb :: n :: acc).IsChain (TrailAdj D) :=
          List.isChain_cons_cons.2 ⟨hadj.symm, hch⟩
        obtain ⟨h1, ⟨pre, h3⟩, h4⟩ := ih _ _ h hnd' hch'
        exact ⟨h1, ⟨pre ++ [nb], by simp [h3]⟩, h4⟩

theorem walk_ne_nil {D : Diagram R} {fuel : Nat} {acc : List Int} {n : Int} {tr : List Int}
    (h : D.walk fuel acc n = some tr) : tr ≠ [] := by
  induction fuel generalizing acc n with
  | zero => simp [walk] at h
  | succ fuel ih =>
    unfold walk at h
    split at h
    · simp only [Option.some.injEq] at h; subst h; simp
    · split_ifs at h
      · simp only [Option.some.injEq] at h; subst h; simp
      · exact ih h

theorem walk_subset {D : Diagram R} (w : WF D) {fuel : Nat} {acc : List Int} {n : Int}
    {tr : List Int} (h : D.walk fuel acc n = some tr) (hsub : ∀ x ∈ n :: acc, x ∈ D.nodes.keys) :
    ∀ x ∈ tr, x ∈ D.nodes.keys := by
  induction fuel generalizing acc n with
  | zero => simp [walk] at h
  | succ fuel ih =>
    unfold walk at h
    split at h
    · simp only [Option.some.injEq] at h; subst h; exact hsub
    · rename_i nb hnb
      obtain ⟨hv, ht⟩ := nextInWalk_some hnb
      split_ifs at h with heq
      · simp only [Option.some.injEq] at h
        subst h
        intro x hx
        rcases List.mem_cons.1 hx with rfl | hx
        · exact hsub _ (by simp)
        · exact hsub _ hx
      · refine ih h ?_
        intro x hx
        rcases List.mem_cons.1 hx with rfl | hx
        · exact (isTrailPair_adj ht).mem_right w
        · exact hsub x hx

end Diagram
end CEM
