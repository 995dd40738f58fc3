import Verif.Lemmas.Drawing
import Verif.Props.Queries

/-!
# C51: edge widths
-/

set_option linter.unusedSectionVars false
set_option linter.unusedSimpArgs false

namespace CEM
namespace Props
open Diagram Spec Drawing TrailEx

variable {R : Type}

local instance widthSqrt : PySqrt ℚ := ⟨id⟩

section
variable [Field R] [LinearOrder R] [IsStrictOrderedRing R]

/-- C51. Widths for a range `(low, high)` with `low ≤ high` lie in the range and grow with
the size of the force; the edge with the largest force gets `high`, and, unless all forces
are of one size, the edge with the smallest gets `low`. -/
theorem C51_range {D : Diagram R} {edges : List (Int × Int)} {low high : R} (hlh : low ≤ high)
    {ws : Dict (Int × Int) R} (h : rangeWidths D edges low high = .ok ws) :
    (∀ e, e ∈ ws.keys ↔ e ∈ edges) ∧
    (∀ e w, ws.get? e = some w → low ≤ w ∧ w ≤ high) ∧
    (∀ e e' d d' w w', D.edges.get? e = some d → D.edges.get? e' = some d' →
      ws.get? e = some w → ws.get? e' = some w' → |d.force| ≤ |d'.force| → w ≤ w') ∧
    (low < high → ∀ e e' d d' w w', D.edges.get? e = some d → D.edges.get? e' = some d' →
      ws.get? e = some w → ws.get? e' = some w' → |d.force| < |d'.force| → w < w') ∧
    (∃ e ∈ edges, ws.get? e = some high) ∧
    ((∃ e ∈ edges, ws.get? e = some low) ∨
      ∃ f, ∀ e ∈ edges, ws.get? e = some high ∧ ∃ d, D.edges.get? e = some d ∧ |d.force| = f) := by
  obtain ⟨fmin, fmax, hb, hmin, hmax, hw⟩ := rangeWidths_spec h
  have hmm : fmin ≤ fmax := by
    obtain ⟨e, he, d, hd, hf⟩ := hmin
    obtain ⟨d', hd', h1, h2⟩ := hb e he
    exact h1.trans h2
  have key : ∀ e w, ws.get? e = some w → e ∈ edges ∧ ∃ d, D.edges.get? e = some d ∧
      fmin ≤ |d.force| ∧ |d.force| ≤ fmax ∧ w = width low high fmin fmax |d.force| := by
    intro e w hew
    rw [hw] at hew
    split_ifs at hew with he
    obtain ⟨d, hd, h1, h2⟩ := hb e he
    rw [hd] at hew
    simp only [Option.map_some, Option.some.injEq] at hew
    exact ⟨he, d, hd, h1, h2, hew.symm⟩
  have val : ∀ e ∈ edges, ∀ d, D.edges.get? e = some d →
      ws.get? e = some (width low high fmin fmax |d.force|) := by
    intro e he d hd
    rw [hw, if_pos he, hd]; rfl
  refine ⟨?_, ?_, ?_, ?_, ?_, ?_⟩
  · intro e
    rw [← Dict.exists_get?_iff]
    constructor
    · rintro ⟨w, hew⟩; exact (key e w hew).1
    · intro he
      obtain ⟨d, hd, _⟩ := hb e he
      exact ⟨_, val e he d hd⟩
  · intro e w hew
    obtain ⟨_, d, _, h1, h2, rfl⟩ := key e w hew
    exact ⟨low_le_width hlh h1 h2, width_le_high hlh h1 h2⟩
  · intro e e' d d' w w' hd hd' hew hew' hf
    obtain ⟨_, d1, hd1, _, _, rfl⟩ := key e w hew
    obtain ⟨_, d2, hd2, _, _, rfl⟩ := key e' w' hew'
    rw [hd] at hd1; rw [hd'] at hd2
    cases hd1; cases hd2
    exact width_mono hlh hf hmm
  · intro hlt e e' d d' w w' hd hd' hew hew' hf
    obtain ⟨_, d1, hd1, h1, _, rfl⟩ := key e w hew
    obtain ⟨_, d2, hd2, _, h2, rfl⟩ := key e' w' hew'
    rw [hd] at hd1; rw [hd'] at hd2
    cases hd1; cases hd2
    exact width_strict hlt hf (lt_of_le_of_lt h1 (lt_of_lt_of_le hf h2))
  · obtain ⟨e, he, d, hd, hf⟩ := hmax
    exact ⟨e, he, by rw [val e he d hd, hf, width_max]⟩
  · rcases hmm.lt_or_eq with hlt | heq
    · obtain ⟨e, he, d, hd, hf⟩ := hmin
      exact Or.inl ⟨e, he, by rw [val e he d hd, hf, width_min hlt]⟩
    · refine Or.inr ⟨fmax, fun e he => ?_⟩
      obtain ⟨d, hd, h1, h2⟩ := hb e he
      have hf : |d.force| = fmax := le_antisymm h2 (heq ▸ h1)
      exact ⟨by rw [val e he d hd, hf, width_max], d, hd, hf⟩

/-- C51. Widths for a range exist exactly if there is at least one edge and every edge is
known; without edges `min` fails, an unknown edge raises `KeyError`. -/
theorem C51_defined (D : Diagram R) (edges : List (Int × Int)) (low high : R) :
    ((∃ ws, rangeWidths D edges low high = .ok ws) ↔ edges ≠ [] ∧ ∀ e ∈ edges, e ∈ D.edges.keys) ∧
    (edges = [] → rangeWidths D edges low high = .error .valueError) ∧
    ((∃ e ∈ edges, e ∉ D.edges.keys) → rangeWidths D edges low high = .error .keyError) := by
  have h2 : edges = [] → rangeWidths D edges low high = .error .valueError := by
    rintro rfl; rfl
  have h3 : (∃ e ∈ edges, e ∉ D.edges.keys) → rangeWidths D edges low high = .error .keyError := by
    rintro ⟨e, he, hn⟩
    have : mapE (forceSize D) edges = .error .keyError := by
      apply mapE_error_of
      · exact ⟨e, he, forceSize_error.2 hn⟩
      · intro a _ e' h
        unfold forceSize edgeForce at h
        cases hd : D.edges.get? a <;> simp [hd] at h
        exact h.symm
    unfold rangeWidths
    rw [this]
  refine ⟨⟨?_, ?_⟩, h2, h3⟩
  · rintro ⟨ws, h⟩
    refine ⟨fun h0 => ?_, fun e he => ?_⟩
    · rw [h2 h0] at h; simp at h
    · by_contra hn
      rw [h3 ⟨e, he, hn⟩] at h; simp at h
  · rintro ⟨hne, hk⟩
    have : ∃ fs, mapE (forceSize D) edges = .ok fs ∧ fs ≠ [] := by
      refine ⟨edges.map fun e => |((D.edges.get? e).map (·.force)).getD 0|, mapE_pure ?_, by simpa using hne⟩
      intro e he
      obtain ⟨d, hd⟩ := (Dict.exists_get?_iff _ _).2 (hk e he)
      exact forceSize_ok.2 ⟨d, hd, by simp [hd]⟩
    obtain ⟨fs, hfs, hne'⟩ := this
    obtain ⟨f, fs, rfl⟩ := List.exists_cons_of_ne_nil hne'
    obtain ⟨ws, hws⟩ := widthLoop_ok (low := low) (high := high)
      (fmin := fs.foldl (fun m x => if x < m then x else m) f)
      (fmax := fs.foldl (fun m x => if x > m then x else m) f) edges [] hk
    exact ⟨ws, by simp only [rangeWidths, hfs, pyMin, pyMax, hws]⟩

end

/-- Forces 1, -3 and 2 on three deviation edges. -/
def widthEx : Diagram ℚ := after key (nodes 4 ++
  [.addEdge (.deviation (.key 0) (.key 1) 1), .addEdge (.deviation (.key 1) (.key 2) (-3)),
   .addEdge (.deviation (.key 2) (.key 3) 2)])

example : rangeWidths widthEx widthEx.edgeList 1 5 =
    .ok [((0, 1), 1), ((1, 2), 5), ((2, 3), 3)] ∧
    rangeWidths widthEx [(1, 2)] 1 5 = .ok [((1, 2), 5)] ∧
    rangeWidths widthEx [] 1 5 = .error .valueError ∧
    rangeWidths widthEx [(0, 2)] 1 5 = .error .keyError := by decide +kernel

/-! ## What the two libraries do with the argument -/

section
variable [Field R] [LinearOrder R]

private theorem constantWidths_get? (edges : List (Int × Int)) (w : R) (e : Int × Int) :
    (constantWidths edges w).get? e = if e ∈ edges then some w else none := by
  unfold constantWidths
  have : ∀ (l : List (Int × Int)) (acc : Dict (Int × Int) R),
      (l.foldl (fun acc e => acc.set e w) acc).get? e = if e ∈ l then some w else acc.get? e := by
    intro l
    induction l with
    | nil => intro acc; simp
    | cons a l ih =>
      intro acc
      simp only [List.foldl_cons, ih, Dict.get?_set, List.mem_cons]
      by_cases h1 : e ∈ l
      · simp [h1]
      · by_cases h2 : e = a
        · simp [h2]
        · simp [h1, h2, Ne.symm h2]
  simpa using this edges []

/-- C51. A number gives every drawn edge that width, in the plotter and in the viewer. -/
theorem C51_number (D : Diagram R) (edges : List (Int × Int)) (hne : edges ≠ []) (w : R)
    (old : Option (Dict (Int × Int) R)) :
    ∃ ws, plotterWidths D edges (.number w) = .ok ws ∧
      viewerWidths D edges old (.number w) = .ok (some ws) ∧
      ∀ e, ws.get? e = if e ∈ edges then some w else none := by
  refine ⟨constantWidths edges w, ?_, rfl, constantWidths_get? edges w⟩
  cases h : constantWidths edges w with
  | nil =>
    obtain ⟨e, l, rfl⟩ := List.exists_cons_of_ne_nil hne
    have := constantWidths_get? (e :: l) w e
    rw [h] at this
    simp at this
  | cons p d => simp only [plotterWidths, h]

/-- C51. A form without edges cannot be plotted, whatever the width: the plotter takes the
empty dictionary it has just made for a missing one. The viewer accepts it. -/
theorem C51_no_edges (D : Diagram R) (w low high : R) (old : Option (Dict (Int × Int) R)) :
    plotterWidths D [] (.number w) = .error .typeError ∧
    plotterWidths D [] (.range low high) = .error .valueError ∧
    viewerWidths D [] old (.number w) = .ok (some []) ∧
    viewerWidths D [] old (.range low high) = .error .valueError := ⟨rfl, rfl, rfl, rfl⟩

/-- C51. The plotter and the viewer use the same widths for a range. -/
theorem C51_same_widths (D : Diagram R) (edges : List (Int × Int)) (low high : R)
    (old : Option (Dict (Int × Int) R)) (ws : Dict (Int × Int) R) :
    plotterWidths D edges (.range low high) = .ok ws ↔
    viewerWidths D edges old (.range low high) = .ok (some ws) := by
  simp only [plotterWidths, viewerWidths]
  cases rangeWidths D edges low high <;> simp

/-- C51. The plotter uses exactly the widths that the viewer makes of the same value, unless there
are none: it accepts no empty dictionary. -/
theorem C51_agree (D : Diagram R) (edges : List (Int × Int)) (w : WidthSpec R)
    (ws : Dict (Int × Int) R) :
    plotterWidths D edges w = .ok ws ↔
      viewerWidths D edges none w = .ok (some ws) ∧ ws ≠ [] := by
  cases w with
  | dict d => cases d <;> simp [plotterWidths, viewerWidths] <;> rintro rfl <;> simp
  | number x =>
    simp only [plotterWidths, viewerWidths]
    cases h : constantWidths edges x <;> simp <;> rintro rfl <;> simp
  | range low high =>
    rw [C51_same_widths D edges low high none ws]
    refine ⟨fun h => ⟨h, ?_⟩, And.left⟩
    rintro rfl
    rw [← C51_same_widths] at h
    obtain ⟨fmin, fmax, hb, ⟨e, he, -⟩, -, hw⟩ := rangeWidths_spec h
    obtain ⟨d, hd, -⟩ := hb e he
    have := hw e
    rw [if_pos he, hd] at this
    simp [Dict.get?] at this
  | other => simp [plotterWidths, viewerWidths]

/-- C51. The viewer raises only for a range, and then the plotter raises the same. A value of
another kind leaves the widths of the viewer as they were and is refused by the plotter. -/
theorem C51_refused (D : Diagram R) (edges : List (Int × Int)) (old : Option (Dict (Int × Int) R))
    (w : WidthSpec R) :
    (∀ err, viewerWidths D edges old w = .error err →
      (∃ low high, w = .range low high) ∧ plotterWidths D edges w = .error err) ∧
    (∀ x, viewerWidths D edges old w = .ok x →
      (∃ ws, x = some ws ∧ viewerWidths D edges none w = .ok (some ws)) ∨
      x = old ∧ plotterWidths D edges w = .error .typeError) := by
  cases w with
  | dict d => simp [viewerWidths]
  | number x => simp [viewerWidths]
  | range low high =>
    simp only [plotterWidths, viewerWidths]
    cases rangeWidths D edges low high <;> simp
  | other => simp [plotterWidths, viewerWidths]

end

example : plotterWidths widthEx widthEx.edgeList (.number 2) =
    .ok [((0, 1), 2), ((1, 2), 2), ((2, 3), 2)] ∧
    plotterWidths (Diagram.empty : Diagram ℚ) [] (.number 2) = .error .typeError := by
  decide +kernel

/-- An empty dictionary is accepted by the viewer only, and a value of another kind by none. -/
example : viewerWidths widthEx [(0, 1)] none (.dict []) = .ok (some []) ∧
    plotterWidths widthEx [(0, 1)] (.dict []) = .error .valueError ∧
    viewerWidths widthEx [(0, 1)] (some [((0, 1), 3)]) .other = .ok (some [((0, 1), 3)]) := by
  decide +kernel

end Props
end CEM
