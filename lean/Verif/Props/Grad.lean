import Verif.Spec.Grad
import Mathlib.Tactic.Ring
import Mathlib.Tactic.FieldSimp
import Mathlib.Tactic.NormNum
import Mathlib.Algebra.BigOperators.Group.List.Basic
import Mathlib.Algebra.Order.Field.Rat
import Verif.Lemmas.Optimizer

/-!
# Finite difference gradients (C42)
-/

set_option linter.unusedSectionVars false
set_option linter.unusedSimpArgs false

namespace CEM
namespace Props
open Spec

variable {S R : Type} [Field R] [LinearOrder R]

theorem npGet_nat {α : Type} {a : List α} {i : Nat} (h : i < a.length) :
    npGet a (i : Int) = .ok a[i] := by
  simp [npGet, npIndex_of (n := a.length) (i := (i : Int)) (by omega) (by omega),
    List.getElem?_eq_getElem h]

theorem npSet_nat {α : Type} {a : List α} {i : Nat} (h : i < a.length) (v : α) :
    npSet a (i : Int) v = .ok (a.set i v) := by
  simp [npSet, npIndex_of (n := a.length) (i := (i : Int)) (by omega) (by omega)]

theorem set_eq_bump (x : List R) (i : Nat) (h : i < x.length) (d : R) :
    x.set i (x[i] + d) = bump x i d := by
  refine List.ext_getElem (by simp [bump]) fun j h1 h2 => ?_
  simp only [bump, List.getElem_mapIdx, List.getElem_set]
  by_cases e : i = j
  · subst e; simp
  · simp [e, Ne.symm e]

theorem fdLoop_eq (f : Objective S R) (h : R) (fx0 : Num R) (x : List R) (is : List Nat)
    (hi : ∀ i ∈ is, i < x.length) (s : S) (grad : List (Num R)) (hg : grad.length = x.length) :
    ∃ m : FDArrays R, m.x = x ∧ fdLoop f h fx0 is s ⟨x, x⟩ grad =
      match evalAll f s (is.map fun i => bump x i h) with
      | (s', .error err) => ((s', m), .error err)
      | (s', .ok vs) => ((s', m), .ok ((is.zip vs).foldl
          (fun g p => g.set p.1 (fdQuotient fx0 p.2 h)) grad)) := by
  induction is generalizing s grad with
  | nil => exact ⟨⟨x, x⟩, rfl, rfl⟩
  | cons i is ih =>
    simp only [List.mem_cons, forall_eq_or_imp] at hi
    simp only [fdLoop, npGet_nat hi.1, npSet_nat hi.1, set_eq_bump x i hi.1, List.map_cons, evalAll]
    rcases hf : f s (bump x i h) with ⟨s', v⟩
    cases v with
    | error err => exact ⟨⟨x, bump x i h⟩, rfl, rfl⟩
    | ok fx1 =>
      have hb : i < (bump x i h).length := by simpa [bump] using hi.1
      have hback : (bump x i h).set i x[i] = x := by
        rw [← set_eq_bump x i hi.1, List.set_set, List.set_getElem_self]
      simp only [npSet_nat (a := grad) (hg ▸ hi.1), npSet_nat hb, hback]
      obtain ⟨m, hm, e⟩ := ih hi.2 s' (grad.set i (fdQuotient fx0 fx1 h)) (by simpa using hg)
      refine ⟨m, hm, ?_⟩
      rw [e]
      rcases evalAll f s' (is.map fun i => bump x i h) with ⟨s'', r⟩
      cases r <;> rfl

theorem evalAll_length {f : Objective S R} {s s' : S} {ys : List (List R)} {vs : List (Num R)}
    (h : evalAll f s ys = (s', .ok vs)) : vs.length = ys.length := by
  induction ys generalizing s vs with
  | nil => simp only [evalAll, Prod.mk.injEq, Except.ok.injEq] at h; simp [← h.2]
  | cons y ys ih =>
    simp only [evalAll] at h
    rcases hf : f s y with ⟨s1, v⟩
    rw [hf] at h
    cases v with
    | error err => simp at h
    | ok v =>
      simp only at h
      rcases he : evalAll f s1 ys with ⟨s2, r⟩
      rw [he] at h
      cases r with
      | error err => simp at h
      | ok ws =>
        simp only [Prod.mk.injEq, Except.ok.injEq] at h
        obtain ⟨rfl, rfl⟩ := h
        simp [ih he]

theorem foldl_set_range {α β : Type} (q : β → α) (vs : List β) (grad : List α) (k : Nat)
    (h : grad.length = k + vs.length) :
    ((List.range' k vs.length).zip vs).foldl (fun g p => g.set p.1 (q p.2)) grad =
      grad.take k ++ vs.map q := by
  induction vs generalizing grad k with
  | nil => simp at h ⊢; omega
  | cons v vs ih =>
    simp only [List.length_cons, List.range'_succ, List.zip_cons_cons, List.foldl_cons,
      List.map_cons] at h ⊢
    rw [ih (grad.set k (q v)) (k + 1) (by simp; omega)]
    rw [List.take_add_one, List.take_set_of_le (le_refl k)]
    simp only [List.append_assoc]
    congr 1
    rw [List.getElem?_set_self (by omega)]
    rfl

/-- **C42.**  For every objective, also one with side effects: it is evaluated at `x` and then
at `x + h e_i` for `i = 0, ..., n - 1` in this order, up to the first exception; entry `i` of
the gradient is the difference quotient; the caller's `x` stays as it is. -/
theorem C42_trace (f : Objective S R) (h : R) (s : S) (x : List R) (grad : List (Num R))
    (hg : grad.length = x.length) :
    gradFiniteDifferences f h s x grad =
      match evalAll f s (x :: (List.range x.length).map fun i => bump x i h) with
      | (s', .ok (f0 :: fs)) => ((s', x), .ok (fs.map fun fi => fdQuotient f0 fi h))
      | (s', .ok []) => ((s', x), .ok [])
      | (s', .error err) => ((s', x), .error err) := by
  unfold gradFiniteDifferences
  simp only [evalAll]
  rcases hf : f s x with ⟨s1, v⟩
  cases v with
  | error err => rfl
  | ok fx0 =>
    obtain ⟨m, hm, e⟩ := fdLoop_eq f h fx0 x (List.range x.length)
      (fun i hi => List.mem_range.1 hi) s1 grad hg
    simp only [e]
    rcases he : evalAll f s1 ((List.range x.length).map fun i => bump x i h) with ⟨s2, r⟩
    cases r with
    | error err => simp [hm]
    | ok vs =>
      have hl := evalAll_length he
      simp only [List.length_map, List.length_range] at hl
      simp only [hm]
      congr 2
      rw [← hl, List.range_eq_range', foldl_set_range (fun fi => fdQuotient fx0 fi h) vs grad 0
        (by omega)]
      simp

theorem evalAll_recording (f : List R → R) (s : List (List R)) (ys : List (List R)) :
    evalAll (recording f) s ys = (s ++ ys, .ok (ys.map fun y => some (f y))) := by
  induction ys generalizing s with
  | nil => simp [evalAll]
  | cons y ys ih => simp [evalAll, recording, ih]

/-- **C42, pure objectives.**  Entry `i` is `(f (x + h e_i) - f x) / h`, and `f` is evaluated
`n + 1` times. -/
theorem C42_pure (f : List R → R) (h : R) (hh : h ≠ 0) (x : List R) (grad : List (Num R))
    (hg : grad.length = x.length) :
    ∃ trace g, gradFiniteDifferences (recording f) h [] x grad = ((trace, x), .ok g) ∧
      trace = x :: (List.range x.length).map (fun i => bump x i h) ∧
      trace.length = x.length + 1 ∧ g.length = x.length ∧
      ∀ i, i < x.length → g[i]? = some (some ((f (bump x i h) - f x) / h)) := by
  refine ⟨_, (List.range x.length).map (fun i => some ((f (bump x i h) - f x) / h)), ?_, rfl, by simp,
    by simp, fun i hi => by simp [hi]⟩
  rw [C42_trace _ _ _ _ _ hg, evalAll_recording]
  simp [fdQuotient, lift2, hh]

theorem affine_bump (c h : R) (a x : List R) (i : Nat) (hi : i < x.length)
    (ha : a.length = x.length) :
    affine c a (bump x i h) = affine c a x + h * (a[i]'(by omega)) := by
  unfold affine
  rw [← set_eq_bump x i hi]
  rw [add_assoc]
  congr 1
  induction x generalizing a i with
  | nil => simp at hi
  | cons v x ih =>
    cases a with
    | nil => simp at ha
    | cons b a =>
      cases i with
      | zero => simp; ring
      | succ i =>
        simp only [List.length_cons] at hi ha
        have := ih a i (by omega) (by omega)
        simp only [List.set_cons_succ, List.zipWith_cons_cons, List.sum_cons,
          List.getElem_cons_succ] at this ⊢
        rw [this]
        ring

/-- **C42, affine objectives.**  The finite differences are exact, for any step. -/
theorem C42_affine (c h : R) (hh : h ≠ 0) (a x : List R) (ha : a.length = x.length)
    (grad : List (Num R)) (hg : grad.length = x.length) :
    ∃ trace, gradFiniteDifferences (recording (affine c a)) h [] x grad =
      ((trace, x), .ok (a.map some)) := by
  obtain ⟨trace, g, e, _, _, hl, hgi⟩ := C42_pure (affine c a) h hh x grad hg
  refine ⟨trace, ?_⟩
  rw [e]
  congr 2
  refine List.ext_getElem? fun i => ?_
  by_cases hi : i < x.length
  · rw [hgi i hi, affine_bump c h a x i hi ha]
    rw [List.getElem?_map, List.getElem?_eq_getElem (by omega)]
    simp [hh]
  · rw [List.getElem?_eq_none (by omega), List.getElem?_eq_none (by simp; omega)]

/-- An exception of the objective ends the loop. -/
example : gradFiniteDifferences (fun (n : Nat) (_ : List ℚ) => if n < 2 then (n + 1, .ok (some 1))
    else (n, .error .valueError)) 1 0 [0, 0, 0] [none, none, none] =
      ((2, [0, 0, 0]), .error .valueError) := by decide +kernel

/-- A non-linear objective. -/
example : (gradFiniteDifferences (recording fun x => (x.map fun v => v * v).sum) (1 / 2) []
    [1, 2] [none, none] : (List (List ℚ) × List ℚ) × Except PyErr (List (Num ℚ))) =
      (([[1, 2], [3 / 2, 2], [1, 5 / 2]], [1, 2]), .ok [some (5 / 2), some (9 / 2)]) := by
  decide +kernel

example : ∃ trace, gradFiniteDifferences (recording (affine (7 : ℚ) [3, -1])) (1 / 1000) [] [10, 20]
    [none, none] = ((trace, [10, 20]), .ok [some 3, some (-1)]) :=
  C42_affine 7 (1 / 1000) (by norm_num) [3, -1] [10, 20] rfl _ rfl

end Props
end CEM
