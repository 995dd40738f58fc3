import Verif.Model.Drawing
import Verif.Lemmas.Queries
import Verif.Lemmas.Sequences

/-!
# Lemmas about drawing
-/

set_option linter.unusedSectionVars false
set_option linter.unusedSimpArgs false

namespace CEM
namespace Drawing
open Diagram

variable {R : Type}

/-- A loop that either fails or gives one result for each element. -/
theorem mapE_ok_iff {α β : Type} {f : α → Except PyErr β} {l : List α} {r : List β} :
    mapE f l = .ok r ↔ List.Forall₂ (fun a b => f a = .ok b) l r := by
  induction l generalizing r with
  | nil => simp [mapE, eq_comm]
  | cons a l ih =>
    unfold mapE
    cases ha : f a with
    | error e =>
      simp only [reduceCtorEq, false_iff]
      intro h
      cases h with
      | cons h1 _ => rw [ha] at h1; simp at h1
    | ok b =>
      cases hl : mapE f l with
      | error e =>
        simp only [reduceCtorEq, false_iff]
        intro h
        cases h with
        | cons _ h2 => rw [ih.2 h2] at hl; simp at hl
      | ok bs =>
        simp only [Except.ok.injEq]
        constructor
        · rintro rfl
          exact .cons ha (ih.1 hl)
        · intro h
          cases h with
          | cons h1 h2 =>
            rw [ha] at h1
            rw [ih.2 h2] at hl
            simp only [Except.ok.injEq] at h1 hl
            rw [h1, hl]

/-- The first failure of a loop is reported. -/
theorem mapE_error_of {α β : Type} {f : α → Except PyErr β} {l : List α} {e : PyErr}
    (h : ∃ a ∈ l, ∀ b, f a ≠ .ok b) (he : ∀ a ∈ l, ∀ e', f a = .error e' → e' = e) :
    mapE f l = .error e := by
  induction l with
  | nil => simp at h
  | cons a l ih =>
    unfold mapE
    cases ha : f a with
    | error e' => simp [he a (by simp) e' ha]
    | ok b =>
      have : mapE f l = .error e := by
        apply ih
        · obtain ⟨c, hc, hcn⟩ := h
          rcases List.mem_cons.1 hc with rfl | hc
          · exact absurd ha (hcn b)
          · exact ⟨c, hc, hcn⟩
        · exact fun c hc => he c (by simp [hc])
      simp [this]

section
variable [Field R] [LinearOrder R]

theorem foldl_min_spec (l : List R) (a : R) :
    let m := l.foldl (fun m x => if x < m then x else m) a
    (m = a ∨ m ∈ l) ∧ m ≤ a ∧ ∀ x ∈ l, m ≤ x := by
  induction l generalizing a with
  | nil => simp
  | cons b l ih =>
    simp only [List.foldl_cons]
    obtain ⟨h1, h2, h3⟩ := ih (if b < a then b else a)
    refine ⟨?_, ?_, ?_⟩
    · split_ifs at h1 ⊢ with h
      · rcases h1 with h1 | h1
        · exact Or.inr (by rw [h1]; simp)
        · exact Or.inr (by simp [h1])
      · rcases h1 with h1 | h1
        · exact Or.inl h1
        · exact Or.inr (by simp [h1])
    · refine h2.trans ?_
      split_ifs with h
      · exact h.le
      · exact le_rfl
    · intro x hx
      rcases List.mem_cons.1 hx with rfl | hx
      · refine h2.trans ?_
        split_ifs with h
        · exact le_rfl
        · exact not_lt.1 h
      · exact h3 x hx

theorem foldl_max_spec (l : List R) (a : R) :
    let m := l.foldl (fun m x => if x > m then x else m) a
    (m = a ∨ m ∈ l) ∧ a ≤ m ∧ ∀ x ∈ l, x ≤ m := by
  induction l generalizing a with
  | nil => simp
  | cons b l ih =>
    simp only [List.foldl_cons]
    obtain ⟨h1, h2, h3⟩ := ih (if b > a then b else a)
    refine ⟨?_, ?_, ?_⟩
    · split_ifs at h1 ⊢ with h
      · rcases h1 with h1 | h1
        · exact Or.inr (by rw [h1]; simp)
        · exact Or.inr (by simp [h1])
      · rcases h1 with h1 | h1
        · exact Or.inl h1
        · exact Or.inr (by simp [h1])
    · refine le_trans ?_ h2
      split_ifs with h
      · exact (gt_iff_lt.1 h).le
      · exact le_rfl
    · intro x hx
      rcases List.mem_cons.1 hx with rfl | hx
      · refine le_trans ?_ h2
        split_ifs with h
        · exact le_rfl
        · exact not_lt.1 h
      · exact h3 x hx

theorem pyMin_ok {l : List R} {m : R} (h : pyMin l = .ok m) : m ∈ l ∧ ∀ x ∈ l, m ≤ x := by
  cases l with
  | nil => simp [pyMin] at h
  | cons a l =>
    obtain ⟨h1, h2, h3⟩ := foldl_min_spec l a
    simp only [pyMin, Except.ok.injEq] at h
    rw [h] at h1 h2 h3
    refine ⟨by rcases h1 with h1 | h1 <;> simp [h1], ?_⟩
    intro x hx
    rcases List.mem_cons.1 hx with rfl | hx
    · exact h2
    · exact h3 x hx

theorem pyMax_ok {l : List R} {m : R} (h : pyMax l = .ok m) : m ∈ l ∧ ∀ x ∈ l, x ≤ m := by
  cases l with
  | nil => simp [pyMax] at h
  | cons a l =>
    obtain ⟨h1, h2, h3⟩ := foldl_max_spec l a
    simp only [pyMax, Except.ok.injEq] at h
    rw [h] at h1 h2 h3
    refine ⟨by rcases h1 with h1 | h1 <;> simp [h1], ?_⟩
    intro x hx
    rcases List.mem_cons.1 hx with rfl | hx
    · exact h2
    · exact h3 x hx

theorem forceSize_ok {D : Diagram R} {e : Int × Int} {f : R} :
    forceSize D e = .ok f ↔ ∃ d, D.edges.get? e = some d ∧ f = |d.force| := by
  unfold forceSize edgeForce
  cases D.edges.get? e <;> simp [eq_comm]

theorem forceSize_error {D : Diagram R} {e : Int × Int} :
    (∀ b, forceSize D e ≠ .ok b) ↔ e ∉ D.edges.keys := by
  rw [← Dict.get?_eq_none_iff]
  unfold forceSize edgeForce
  cases D.edges.get? e <;> simp

theorem widthLoop_spec {D : Diagram R} {low high fmin fmax : R} {l : List (Int × Int)}
    {acc ws : Dict (Int × Int) R} (h : widthLoop D low high fmin fmax l acc = .ok ws) :
    ∀ e, ws.get? e = if e ∈ l then
      (D.edges.get? e).map (fun d => width low high fmin fmax |d.force|) else acc.get? e := by
  induction l generalizing acc with
  | nil => simp only [widthLoop, Except.ok.injEq] at h; subst h; simp
  | cons a l ih =>
    unfold widthLoop at h
    cases ha : forceSize D a with
    | error err => rw [ha] at h; simp at h
    | ok f =>
      rw [ha] at h
      obtain ⟨d, hd, rfl⟩ := forceSize_ok.1 ha
      intro e
      rw [ih h e]
      by_cases he : e ∈ l
      · simp [he]
      · by_cases hea : e = a
        · subst hea
          simp [he, hd]
        · simp only [he, if_false, List.mem_cons, hea, or_self]
          rw [Dict.get?_set_ne _ _ (Ne.symm hea)]

/-- The width of every edge, with the extreme forces. -/
theorem rangeWidths_spec {D : Diagram R} {edges : List (Int × Int)} {low high : R}
    {ws : Dict (Int × Int) R} (h : rangeWidths D edges low high = .ok ws) :
    ∃ fmin fmax, (∀ e ∈ edges, ∃ d, D.edges.get? e = some d ∧ fmin ≤ |d.force| ∧ |d.force| ≤ fmax) ∧
      (∃ e ∈ edges, ∃ d, D.edges.get? e = some d ∧ |d.force| = fmin) ∧
      (∃ e ∈ edges, ∃ d, D.edges.get? e = some d ∧ |d.force| = fmax) ∧
      ∀ e, ws.get? e = if e ∈ edges then
        (D.edges.get? e).map (fun d => width low high fmin fmax |d.force|) else none := by
  unfold rangeWidths at h
  cases hf : mapE (forceSize D) edges with
  | error err => simp [hf] at h
  | ok forces =>
    cases h1 : pyMin forces with
    | error err => simp [hf, h1] at h
    | ok fmin =>
      cases h2 : pyMax forces with
      | error err => simp [hf, h1, h2] at h
      | ok fmax =>
        simp only [hf, h1, h2] at h
        have hw := widthLoop_spec h
        obtain ⟨m1, m2⟩ := pyMin_ok h1
        obtain ⟨M1, M2⟩ := pyMax_ok h2
        have hm := mapE_ok_iff.1 hf
        have hin : ∀ e ∈ edges, ∃ d, D.edges.get? e = some d ∧ |d.force| ∈ forces := by
          intro e he
          clear h1 h2 h hw m1 m2 M1 M2 hf
          induction hm with
          | nil => simp at he
          | cons ha hl ih =>
            rcases List.mem_cons.1 he with rfl | he
            · obtain ⟨d, hd, rfl⟩ := forceSize_ok.1 ha
              exact ⟨d, hd, by simp⟩
            · obtain ⟨d, hd, hm⟩ := ih he
              exact ⟨d, hd, by simp [hm]⟩
        have hout : ∀ f ∈ forces, ∃ e ∈ edges, ∃ d, D.edges.get? e = some d ∧ |d.force| = f := by
          intro f hfm
          clear h1 h2 h hw m1 m2 M1 M2 hf hin
          induction hm with
          | nil => simp at hfm
          | @cons a b _ _ ha hl ih =>
            rcases List.mem_cons.1 hfm with rfl | hfm
            · obtain ⟨d, hd, rfl⟩ := forceSize_ok.1 ha
              exact ⟨a, by simp, d, hd, rfl⟩
            · obtain ⟨e, he, r⟩ := ih hfm
              exact ⟨e, by simp [he], r⟩
        refine ⟨fmin, fmax, ?_, hout _ m1, hout _ M1, ?_⟩
        · intro e he
          obtain ⟨d, hd, hmem⟩ := hin e he
          exact ⟨d, hd, m2 _ hmem, M2 _ hmem⟩
        · intro e
          rw [hw e]; simp

theorem widthLoop_ok {D : Diagram R} {low high fmin fmax : R} (l : List (Int × Int))
    (acc : Dict (Int × Int) R) (h : ∀ e ∈ l, e ∈ D.edges.keys) :
    ∃ ws, widthLoop D low high fmin fmax l acc = .ok ws := by
  induction l generalizing acc with
  | nil => exact ⟨_, rfl⟩
  | cons a l ih =>
    unfold widthLoop
    obtain ⟨d, hd⟩ := (Dict.exists_get?_iff _ _).2 (h a (by simp))
    rw [forceSize_ok.2 ⟨d, hd, rfl⟩]
    exact ih _ fun e he => h e (by simp [he])

variable [IsStrictOrderedRing R]

theorem width_mono {low high fmin fmax f f' : R} (h : low ≤ high) (hf : f ≤ f') (h1 : fmin ≤ fmax) :
    width low high fmin fmax f ≤ width low high fmin fmax f' := by
  unfold width
  simp only
  split_ifs with h0
  · exact le_rfl
  · have hp : 0 < fmax - fmin := lt_of_le_of_ne (sub_nonneg.2 h1) (Ne.symm h0)
    have : (f - fmin) / (fmax - fmin) ≤ (f' - fmin) / (fmax - fmin) := by gcongr
    nlinarith

theorem width_strict {low high fmin fmax f f' : R} (h : low < high) (hf : f < f')
    (h1 : fmin < fmax) : width low high fmin fmax f < width low high fmin fmax f' := by
  unfold width
  simp only
  have hp : 0 < fmax - fmin := sub_pos.2 h1
  rw [if_neg hp.ne', if_neg hp.ne']
  have : (f - fmin) / (fmax - fmin) < (f' - fmin) / (fmax - fmin) := by gcongr
  nlinarith

theorem width_max {low high fmin fmax : R} : width low high fmin fmax fmax = high := by
  unfold width
  simp only
  split_ifs with h0
  · ring
  · rw [div_self h0]; ring

theorem width_min {low high fmin fmax : R} (h : fmin < fmax) : width low high fmin fmax fmin = low := by
  unfold width
  simp only
  rw [if_neg (sub_pos.2 h).ne', sub_self, zero_div]; ring

theorem low_le_width {low high fmin fmax f : R} (h : low ≤ high) (hf : fmin ≤ f) (hf' : f ≤ fmax) :
    low ≤ width low high fmin fmax f := by
  rcases (hf.trans hf').lt_or_eq with hlt | heq
  · exact (width_min hlt).ge.trans (width_mono h hf hlt.le)
  · subst heq
    have : f = fmin := le_antisymm hf' hf
    rw [this, width_max]; exact h

theorem width_le_high {low high fmin fmax f : R} (h : low ≤ high) (hf : fmin ≤ f) (hf' : f ≤ fmax) :
    width low high fmin fmax f ≤ high := by
  exact (width_mono h hf' (hf.trans hf')).trans width_max.le

end
end Drawing
end CEM
