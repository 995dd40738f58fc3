import Verif.Lemmas.Drawing
import Verif.Props.Equilibrium
import Verif.Props.Queries

/-!
# C54 and C55: what Grasshopper draws, and the settings of viewer objects
-/

set_option linter.unusedSectionVars false
set_option linter.unusedSimpArgs false

namespace CEM
namespace Props
open Diagram Spec Drawing TrailEx

variable {R : Type}

local instance selectSqrt : PySqrt ℚ := ⟨id⟩

/-! ## C54 -/

section
variable [Field R] [PySqrt R]

private theorem nodeXyz_ok {D : Diagram R} {n : Int} (h : n ∈ D.nodes.keys) :
    D.nodeXyz n = .ok (posOf D n) := by
  obtain ⟨d, hd⟩ := (Dict.exists_get?_iff _ _).2 h
  simp [nodeXyz, posOf, hd, Dict.getE]

private theorem mapE_nodeXyz {D : Diagram R} {l : List Int} (h : ∀ n ∈ l, n ∈ D.nodes.keys) :
    mapE D.nodeXyz l = .ok (l.map (posOf D)) := mapE_pure fun n hn => nodeXyz_ok (h n hn)

private theorem edgeCoordinates_ok {D : Diagram R} (w : WF D) {e : Int × Int}
    (h : e ∈ D.edges.keys) : edgeCoordinates D e = .ok (posOf D e.1, posOf D e.2) := by
  simp [edgeCoordinates, nodeXyz_ok (w.edge_left e h), nodeXyz_ok (w.edge_right e h)]

private theorem mapE_edges {D : Diagram R} (w : WF D) {l : List (Int × Int)}
    (h : ∀ e ∈ l, e ∈ D.edges.keys) :
    mapE (edgeCoordinates D) l = .ok (l.map fun e => (posOf D e.1, posOf D e.2)) :=
  mapE_pure fun e he => edgeCoordinates_ok w (h e he)

/-- C54. A selection of nodes or edges that is not empty is drawn in order, each node at its
position and each edge between the positions of its ends. Without a selection, and also with
an empty one, the whole diagram is drawn. -/
theorem C54_selection {D : Diagram R} (w : WF D) :
    (∀ n l, (∀ m ∈ n :: l, m ∈ D.nodes.keys) →
      ghNodes D (some (n :: l)) = .ok ((n :: l).map (posOf D))) ∧
    (∀ e l, (∀ m ∈ e :: l, m ∈ D.edges.keys) →
      ghEdges D (some (e :: l)) = .ok ((e :: l).map fun e => (posOf D e.1, posOf D e.2))) ∧
    (∀ s, s = none ∨ s = some [] → ghNodes D s = .ok (D.nodes.keys.map (posOf D))) ∧
    (∀ s, s = none ∨ s = some [] → ∃ es : List (Int × Int), es.Perm D.edges.keys ∧
      ghEdges D s = .ok (es.map fun e => (posOf D e.1, posOf D e.2))) := by
  refine ⟨fun n l h => mapE_nodeXyz h, fun e l h => mapE_edges w h, ?_, ?_⟩
  · rintro s (rfl | rfl) <;> exact mapE_nodeXyz fun _ h => h
  · have h : ∀ e ∈ D.edgeList, e ∈ D.edges.keys := fun e he => (edgeList_perm w).mem_iff.1 he
    rintro s (rfl | rfl) <;> exact ⟨D.edgeList, edgeList_perm w, mapE_edges w h⟩

private theorem collection_nodes {D : Diagram R} {t : NodeType} {p : Int → Except PyErr Bool}
    (hp : ∀ n d, D.nodes.get? n = some d → p n = .ok (d.type = t)) {s : Option (List Int)}
    (hs : ∀ l, s = some l → ∀ n ∈ l, n ∈ D.nodes.keys) :
    collectionKeys (D.nodes.keys.filter fun n => (D.nodes.get? n).map (·.type) = some t) p s =
      .ok ((s.getD D.nodes.keys).filter fun n => typeOf D n = some t) := by
  cases s with
  | none => rfl
  | some l =>
    apply filterE_pure
    intro n hn
    obtain ⟨d, hd⟩ := (Dict.exists_get?_iff _ _).2 (hs l rfl n hn)
    rw [hp n d hd]
    simp [typeOf, hd]

private theorem collection_edges {D : Diagram R} {t : EdgeType}
    {p : Int × Int → Except PyErr Bool}
    (hp : ∀ n d, D.edges.get? n = some d → p n = .ok (d.type = t)) {s : Option (List (Int × Int))}
    (hs : ∀ l, s = some l → ∀ n ∈ l, n ∈ D.edges.keys) :
    collectionKeys (D.edgeList.filter fun n => (D.edges.get? n).map (·.type) = some t) p s =
      .ok ((s.getD D.edgeList).filter fun e => (D.edges.get? e).map (·.type) = some t) := by
  cases s with
  | none => rfl
  | some l =>
    apply filterE_pure
    intro n hn
    obtain ⟨d, hd⟩ := (Dict.exists_get?_iff _ _).2 (hs l rfl n hn)
    rw [hp n d hd]
    simp [hd]

/-- C54. Drawing supports draws the supports among the nodes asked for (among all nodes by
default), provided there is one. -/
theorem C54_supports {D : Diagram R} {s : Option (List Int)}
    (hs : ∀ l, s = some l → ∀ n ∈ l, n ∈ D.nodes.keys)
    (h : ∃ n ∈ s.getD D.nodes.keys, typeOf D n = some .support) :
    ghNodesSupport D s =
      .ok (((s.getD D.nodes.keys).filter fun n => typeOf D n = some .support).map (posOf D)) := by
  unfold ghNodesSupport supportNodes
  rw [collection_nodes (t := .support) (fun n d hd => by simp [isNodeSupport, hd]) hs]
  have hk : ∀ n ∈ s.getD D.nodes.keys, n ∈ D.nodes.keys := by
    cases s with
    | none => exact fun _ h => h
    | some l => exact hs l rfl
  cases hf : (s.getD D.nodes.keys).filter fun n => typeOf D n = some .support with
  | nil =>
    obtain ⟨n, hn, ht⟩ := h
    have : n ∈ ([] : List Int) := by rw [← hf]; simp [hn, ht]
    simp at this
  | cons a l =>
    refine mapE_nodeXyz fun n hn => hk n ?_
    have hn' : n ∈ _ := hn
    simp only [orAll] at hn'
    rw [← hf] at hn'
    exact (List.mem_filter.1 hn').1

/-- C54. If there is no support among the nodes asked for, every node of the diagram is
drawn as a support. -/
theorem C54_no_supports {D : Diagram R} {s : Option (List Int)}
    (hs : ∀ l, s = some l → ∀ n ∈ l, n ∈ D.nodes.keys)
    (h : ∀ n ∈ s.getD D.nodes.keys, typeOf D n ≠ some .support) :
    ghNodesSupport D s = .ok (D.nodes.keys.map (posOf D)) := by
  unfold ghNodesSupport supportNodes
  rw [collection_nodes (t := .support) (fun n d hd => by simp [isNodeSupport, hd]) hs]
  have : (s.getD D.nodes.keys).filter (fun n => typeOf D n = some .support) = [] := by
    rw [List.filter_eq_nil_iff]
    intro n hn
    simpa using h n hn
  rw [this]
  exact mapE_nodeXyz fun _ h => h

private theorem unlessEmpty_ok {K A : Type} {draw : Option (List K) → Except PyErr (List A)}
    {l : List K} {g : K → A} (h : l ≠ [] → draw (some l) = .ok (l.map g)) :
    unlessEmpty draw (.ok l) = .ok (if l = [] then none else some (l.map g)) := by
  cases l with
  | nil => rfl
  | cons a l =>
    simp only [unlessEmpty, h (by simp : a :: l ≠ [])]
    simp

/-- C54. Origin nodes, trail edges and deviation edges are drawn as asked for, and nothing is
drawn if there are none. -/
theorem C54_kinds {D : Diagram R} (w : WF D) :
    (∀ s : Option (List Int), (∀ l, s = some l → ∀ n ∈ l, n ∈ D.nodes.keys) →
      ghNodesOrigin D s =
        let l := (s.getD D.nodes.keys).filter fun n => typeOf D n = some .origin
        .ok (if l = [] then none else some (l.map (posOf D)))) ∧
    (∀ s : Option (List (Int × Int)), (∀ l, s = some l → ∀ e ∈ l, e ∈ D.edges.keys) →
      ∃ all : List (Int × Int), all.Perm D.edges.keys ∧
      (ghEdgesTrail D s =
        let l := (s.getD all).filter fun e => (D.edges.get? e).map (·.type) = some .trail
        .ok (if l = [] then none else some (l.map fun e => (posOf D e.1, posOf D e.2)))) ∧
      ghEdgesDeviation D s =
        let l := (s.getD all).filter fun e => (D.edges.get? e).map (·.type) = some .deviation
        .ok (if l = [] then none else some (l.map fun e => (posOf D e.1, posOf D e.2)))) := by
  have hE : ∀ e ∈ D.edgeList, e ∈ D.edges.keys := fun e he => (edgeList_perm w).mem_iff.1 he
  constructor
  · intro s hs
    unfold ghNodesOrigin originNodes
    rw [collection_nodes (t := .origin) (fun n d hd => by simp [isNodeOrigin, hd]) hs]
    have hk : ∀ n ∈ s.getD D.nodes.keys, n ∈ D.nodes.keys := by
      cases s with
      | none => exact fun _ h => h
      | some l => exact hs l rfl
    apply unlessEmpty_ok
    intro hne
    cases hf : (s.getD D.nodes.keys).filter fun n => typeOf D n = some .origin with
    | nil => exact absurd hf hne
    | cons a l =>
      refine mapE_nodeXyz fun n hn => hk n ?_
      have hn' : n ∈ _ := hn
      simp only [orAll] at hn'
      rw [← hf] at hn'
      exact (List.mem_filter.1 hn').1
  · intro s hs
    have hk : ∀ n ∈ s.getD D.edgeList, n ∈ D.edges.keys := by
      cases s with
      | none => exact hE
      | some l => exact hs l rfl
    refine ⟨D.edgeList, edgeList_perm w, ?_, ?_⟩
    · unfold ghEdgesTrail trailEdges
      rw [collection_edges (t := .trail) (fun n d hd => by simp [isTrailEdge, hd]) hs]
      apply unlessEmpty_ok
      intro hne
      cases hf : (s.getD D.edgeList).filter fun e => (D.edges.get? e).map (·.type) = some .trail with
      | nil => exact absurd hf hne
      | cons a l =>
        refine mapE_edges w fun n hn => hk n ?_
        have hn' : n ∈ _ := hn
        simp only [orAll] at hn'
        rw [← hf] at hn'
        exact (List.mem_filter.1 hn').1
    · unfold ghEdgesDeviation deviationEdges
      rw [collection_edges (t := .deviation) (fun n d hd => by simp [isDeviationEdge, hd]) hs]
      apply unlessEmpty_ok
      intro hne
      cases hf : (s.getD D.edgeList).filter fun e => (D.edges.get? e).map (·.type) = some .deviation with
      | nil => exact absurd hf hne
      | cons a l =>
        refine mapE_edges w fun n hn => hk n ?_
        have hn' : n ∈ _ := hn
        simp only [orAll] at hn'
        rw [← hf] at hn'
        exact (List.mem_filter.1 hn').1

/-- C54. The trails of a diagram ready for form finding are drawn as polylines through the
positions of their nodes, each from its origin to its support; together they pass once
through every node. -/
theorem C54_trails {D : Diagram R} (I : ValidInput D) :
    ghTrails D = .ok (D.trails.map fun p => p.2.map (posOf D)) ∧
    (D.trails.flatMap fun p => p.2.map (posOf D)).Perm (D.nodes.keys.map (posOf D)) := by
  constructor
  · unfold ghTrails
    rw [mapE_pure (g := fun tr : List Int => tr.map (posOf D))]
    · simp [Dict.vals, Function.comp_def]
    · intro tr htr
      obtain ⟨p, hp, rfl⟩ := List.mem_map.1 htr
      refine mapE_nodeXyz fun n hn => ?_
      exact I.trails.partition.mem_iff.1 (List.mem_flatMap.2 ⟨p, hp, hn⟩)
  · have := I.trails.partition.map (posOf D)
    rwa [List.map_flatMap] at this

end

/-- A diagram without supports: all three nodes are drawn as supports. -/
example : ghNodesSupport (after key (nodes 3 ++ [trail 0 1])) none =
      .ok [⟨0, 0, 0⟩, ⟨1, 0, 0⟩, ⟨2, 0, 0⟩] ∧
    ghNodesOrigin (after key (nodes 3 ++ [trail 0 1])) none = .ok none := by decide +kernel

/-- Node 0 is not a support; asked for alone, all nodes are drawn. -/
example : ghNodesSupport two none = .ok [⟨2, 0, 0⟩, ⟨3, 0, 0⟩] ∧
    ghNodesSupport two (some [0, 3]) = .ok [⟨3, 0, 0⟩] ∧
    ghNodesSupport two (some [0]) =
      .ok [⟨0, 0, 0⟩, ⟨1, 0, 0⟩, ⟨2, 0, 0⟩, ⟨3, 0, 0⟩, ⟨4, 0, 0⟩] := by decide +kernel

example : ghTrails EqEx.directQ = .ok [[⟨0, 0, 0⟩, ⟨1, 0, 0⟩, ⟨2, 0, 0⟩], [⟨4, 0, 0⟩, ⟨3, 0, 0⟩]] ∧
    ghEdgesTrail EqEx.directQ (some [(0, 1), (0, 4)]) = .ok (some [(⟨0, 0, 0⟩, ⟨1, 0, 0⟩)]) ∧
    ghEdgesTrail EqEx.directQ (some [(0, 4)]) = .ok none := by decide +kernel

/-! ## C55 -/

/-- An assignment to `show_nodes` or `show_edges`. -/
inductive ShowWrite where
  | nodes (b : Bool) | edges (b : Bool)
  deriving DecidableEq

def ShowWrite.value : ShowWrite → Bool
  | .nodes b => b
  | .edges b => b

def ShowWrite.run (s : Settings R) : ShowWrite → Settings R
  | .nodes b => s.setShowNodes b
  | .edges b => s.setShowEdges b

/-- C55. After any assignments to `show_nodes` and `show_edges`, edges are shown if the last
assignment to either of them was true. `show_nodes` itself never changes. -/
theorem C55_last_write (s : Settings R) (ws : List ShowWrite) :
    (ws.foldl ShowWrite.run s).showEdges =
      ((ws.getLast?).map fun w => some w.value).getD s.showEdges ∧
    (ws.foldl ShowWrite.run s).showNodes = s.showNodes := by
  induction ws using List.reverseRecOn with
  | nil => simp
  | append_singleton l w ih =>
    rw [List.foldl_append]
    cases w <;> simp [ShowWrite.run, Settings.setShowNodes, Settings.setShowEdges, ih.2,
      ShowWrite.value]

/-- C55. The points and the lines of the object do follow the assignments meant for them. -/
theorem C55_points_lines (s : Settings R) (l : List ShowWrite) (b : Bool) (es : List Bool) :
    ((l ++ [ShowWrite.nodes b] ++ es.map ShowWrite.edges).foldl ShowWrite.run s).showPoints = some b ∧
    ((l ++ [ShowWrite.edges b] ++ es.map ShowWrite.nodes).foldl ShowWrite.run s).showLines = some b := by
  have h1 : ∀ (es : List Bool) (s : Settings R),
      ((es.map ShowWrite.edges).foldl ShowWrite.run s).showPoints = s.showPoints := by
    intro es
    induction es with
    | nil => intro s; rfl
    | cons a es ih => intro s; rw [List.map_cons, List.foldl_cons, ih]; rfl
  have h2 : ∀ (es : List Bool) (s : Settings R),
      ((es.map ShowWrite.nodes).foldl ShowWrite.run s).showLines = s.showLines := by
    intro es
    induction es with
    | nil => intro s; rfl
    | cons a es ih => intro s; rw [List.map_cons, List.foldl_cons, ih]; rfl
  rw [List.foldl_append, List.foldl_append, List.foldl_append, List.foldl_append, h1, h2]
  exact ⟨rfl, rfl⟩

/-- C55. Hiding the nodes of an object that shows its edges hides the edges, and the object
still does not know whether nodes are shown. -/
theorem C55_hiding_nodes (s : Settings R) (h : s.showNodes = none) :
    ((s.setShowEdges true).setShowNodes false).showEdges = some false ∧
    ((s.setShowEdges true).setShowNodes false).showNodes = none := by
  have := C55_last_write s [.edges true, .nodes false]
  exact ⟨this.1, this.2.trans h⟩

/-- C55. A scale, size or tolerance is used as given unless it is zero; zero is replaced by
the default. -/
theorem C55_zero [Zero R] [DecidableEq R] (default r : R) :
    (r ≠ 0 → fallback default (some r) = r) ∧ fallback default (some (0 : R)) = default ∧
    fallback default none = default := by
  refine ⟨fun h => ?_, ?_, rfl⟩
  · simp [fallback, h]
  · simp [fallback]

example : let s : Settings ℚ := ⟨none, none, none, none, none, none, none⟩
    ([ShowWrite.nodes true, .edges false].foldl ShowWrite.run s).showEdges = some false ∧
    ([ShowWrite.edges false, .nodes true].foldl ShowWrite.run s).showEdges = some true ∧
    fallback (1 / 1000 : ℚ) (some 0) = 1 / 1000 := by decide +kernel

end Props
end CEM
