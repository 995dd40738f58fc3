import Verif.Lemmas.Components
import Verif.Props.Construction
import Verif.Props.Trails
import Verif.Props.Sequences
import Verif.Props.Equilibrium

/-!
# Property C56: Grasshopper components
-/

set_option linter.unusedSectionVars false
set_option linter.unusedSimpArgs false

namespace CEM
namespace Props
open Diagram Spec TrailEx Component

local instance componentSqrt : PySqrt ℚ := ⟨id⟩

variable {R : Type}

/-! ## Assembling a diagram -/

section
variable [Field R] [DecidableEq R] [PySqrt R] (gkey : Vec R → String)

/-- C56. The component makes the calls for the connected edges, loads and supports that are not
`None`, in this order, and then the call that builds the trails, if there is one: it raises what
the first call that raises does, and returns the diagram after all calls if none does. -/
theorem C56_history (order : List Int → List Int) (P : Parts R) :
    (∀ err, assemble gkey order P = .error err ↔
      FirstFailure gkey err Diagram.empty (calls P ++ buildCall order P)) ∧
    (∀ D, assemble gkey order P = .ok D ↔ D = after gkey (calls P ++ buildCall order P) ∧
      ∀ err, ¬ FirstFailure gkey err Diagram.empty (calls P ++ buildCall order P)) :=
  performs_assemble gkey order P

/-- An edge between two points as a segment. -/
private def segOf (e : EdgeElem R) : SegKind R × Vec R × Vec R :=
  let pt : NodeRef R → Vec R := fun r => match r with
    | .point p => p
    | .key _ => 0
  match e with
  | .trail u v l pl => (.trail l pl, pt u, pt v)
  | .deviation u v f => (.deviation f, pt u, pt v)

private theorem segOf_edge {e : EdgeElem R} {p q : Vec R} (hu : e.u = .point p)
    (hv : e.v = .point q) : (segOf e).1.edge (segOf e).2.1 (segOf e).2.2 = e ∧
      (segOf e).2.1 = p ∧ (segOf e).2.2 = q := by
  cases e <;> simp only [EdgeElem.u, EdgeElem.v] at hu hv <;> subst hu hv <;>
    simp [segOf, SegKind.edge]

private theorem calls_split (P : Parts R) : calls P = (elems P).map .addEdge ++
    ((loadsOf P).map (fun l => .addLoad l.1 l.2) ++ (supportsOf P).map .addSupport) := by
  simp [calls, elems, loadsOf, supportsOf]

private theorem after_edges (es : List (EdgeElem R))
    (hp : ∀ e ∈ es, ∃ p q, e.u = .point p ∧ e.v = .point q) :
    after gkey (es.map .addEdge) = fromSegments gkey (es.map segOf) := by
  unfold fromSegments
  rw [List.map_map]
  congr 1
  refine List.map_congr_left fun e he => ?_
  obtain ⟨p, q, hu, hv⟩ := hp e he
  simp [(segOf_edge hu hv).1]

private theorem atEnd_iff {P : Parts R} (hP : OfPoints P) (g : String) :
    AtEnd gkey P g ↔ ∃ p ∈ endPoints ((elems P).map segOf), gkey p = g := by
  unfold AtEnd endPoints
  simp only [List.mem_flatMap, List.mem_map]
  constructor
  · rintro ⟨e, he, p, hp, hg⟩
    obtain ⟨p', q', hu, hv⟩ := hP.edge e he
    refine ⟨p, ⟨segOf e, ⟨e, he, rfl⟩, ?_⟩, hg⟩
    rw [(segOf_edge hu hv).2.1, (segOf_edge hu hv).2.2]
    rcases hp with hp | hp
    · rw [hu] at hp; cases hp; simp
    · rw [hv] at hp; cases hp; simp
  · rintro ⟨p, ⟨s, ⟨e, he, rfl⟩, hp⟩, hg⟩
    obtain ⟨p', q', hu, hv⟩ := hP.edge e he
    rw [(segOf_edge hu hv).2.1, (segOf_edge hu hv).2.2] at hp
    refine ⟨e, he, p, ?_, hg⟩
    simp only [List.mem_cons, List.not_mem_nil, or_false] at hp
    rcases hp with rfl | rfl
    · exact Or.inl hu
    · exact Or.inr hv

private theorem placed_edges {P : Parts R} (hP : OfPoints P) :
    Placed gkey (after gkey ((elems P).map .addEdge)) :=
  (Placed.empty gkey).run gkey (elems P) hP.edge

private theorem lookup_iff {P : Parts R} (hP : OfPoints P) (g : String) :
    (∃ n, (after gkey ((elems P).map .addEdge)).gkeyNode.get? g = some n) ↔ AtEnd gkey P g := by
  have hpl := placed_edges gkey hP
  rw [atEnd_iff gkey hP]
  obtain ⟨c1, c2, c3, c4⟩ := C04_segments gkey ((elems P).map segOf)
  rw [after_edges gkey _ hP.edge] at hpl ⊢
  constructor
  · rintro ⟨n, hn⟩
    -- the keys that are found are as many as the keys of the ends
    by_contra hc
    have hsub : (((endPoints ((elems P).map segOf)).map gkey).dedup ++ [g]).Subperm
        (fromSegments gkey ((elems P).map segOf)).gkeyNode.keys := by
      apply List.subperm_of_subset
      · rw [List.nodup_append]
        refine ⟨List.nodup_dedup _, by simp, ?_⟩
        rintro a ha b hb rfl
        simp only [List.mem_singleton] at hb
        subst hb
        rw [List.mem_dedup, List.mem_map] at ha
        exact hc ha
      · intro a ha
        rcases List.mem_append.1 ha with ha | ha
        · rw [List.mem_dedup, List.mem_map] at ha
          obtain ⟨p, hp, rfl⟩ := ha
          obtain ⟨m, _, hm⟩ := c1 p hp
          exact Dict.mem_keys_of_get? hm
        · simp only [List.mem_singleton] at ha
          subst ha
          exact Dict.mem_keys_of_get? hn
    have hle : (fromSegments gkey ((elems P).map segOf)).gkeyNode.keys.length ≤
        (fromSegments gkey ((elems P).map segOf)).nodes.keys.length := by
      -- different keys lead to different nodes
      let D := fromSegments gkey ((elems P).map segOf)
      have hinj : (D.gkeyNode.keys.map fun g => (D.gkeyNode.get? g).getD 0).Nodup := by
        refine List.Nodup.map_on ?_ hpl.wf.gkeysNodup
        intro a ha b hb hab
        obtain ⟨n, hn⟩ := (Dict.exists_get?_iff _ _).2 ha
        obtain ⟨m, hm⟩ := (Dict.exists_get?_iff _ _).2 hb
        simp only [hn, hm, Option.getD_some] at hab
        subst hab
        obtain ⟨d, hd, hda⟩ := (hpl.found a n).1 hn
        obtain ⟨d', hd', hdb⟩ := (hpl.found b n).1 hm
        rw [hd] at hd'; cases hd'
        exact hda.symm.trans hdb
      have hss : (D.gkeyNode.keys.map fun g => (D.gkeyNode.get? g).getD 0) ⊆ D.nodes.keys := by
        intro m hm
        obtain ⟨g', hg', rfl⟩ := List.mem_map.1 hm
        obtain ⟨n, hn⟩ := (Dict.exists_get?_iff _ _).2 hg'
        rw [hn]; exact hpl.wf.lookup_mem _ _ hn
      have := (List.subperm_of_subset hinj hss).length_le
      rwa [List.length_map] at this
    have h1 := hsub.length_le
    rw [List.length_append, List.length_singleton, ← c3] at h1
    rw [Dict.length_keys] at hle
    rw [Dict.length_keys] at h1 hle
    omega
  · rintro ⟨p, hp, rfl⟩
    obtain ⟨m, _, hm⟩ := c1 p hp
    exact ⟨m, hm⟩

/-- C56. With parts given by points, and loads and supports at ends of the edges (up to the
geometric key), everything is added.  There is one node for every geometric key of an end; it is
found by the search component, has the last load given at its key and is a support if one is
given at its key.  The edges are those between the ends of the given ones. -/
theorem C56_assembles {P : Parts R} (hP : OfPoints P)
    (hl : ∀ l ∈ loadsOf P, ∀ p, l.1 = .point p → AtEnd gkey P (gkey p))
    (hs : ∀ p, .point p ∈ supportsOf P → AtEnd gkey P (gkey p)) :
    ∃ D, assembleParts gkey P = .ok D ∧
      (∀ p, AtEnd gkey P (gkey p) → ∃ n d, searchNode gkey D p = .ok n ∧
        D.nodes.get? n = some d ∧ gkey d.pos = gkey p ∧
        d.load = (lastLoad gkey (gkey p) (loadsOf P)).getD 0 ∧
        ((∃ q, .point q ∈ supportsOf P ∧ gkey q = gkey p) → d.type = .support) ∧
        ((∀ q, .point q ∈ supportsOf P → gkey q ≠ gkey p) → d.type = .free)) ∧
      (∀ p, ¬ AtEnd gkey P (gkey p) → searchNode gkey D p = .error .keyError) ∧
      (∀ n d, D.nodes.get? n = some d → AtEnd gkey P (gkey d.pos) ∧ searchNode gkey D d.pos = .ok n) ∧
      (∀ e, e ∈ D.edges.keys ↔ ∃ el ∈ elems P, ∃ p q, el.u = .point p ∧ el.v = .point q ∧
        searchEdge gkey D p q = .ok [e]) := by
  classical
  have hD : after gkey (calls P) = run gkey (run gkey (after gkey ((elems P).map .addEdge))
      ((loadsOf P).map fun l => .addLoad l.1 l.2)) ((supportsOf P).map .addSupport) := by
    rw [calls_split]; simp [after, run]
  have hpl := placed_edges gkey hP
  have hlook := lookup_iff gkey hP
  obtain ⟨-, -, -, c4⟩ := C04_segments gkey ((elems P).map segOf)
  rw [← after_edges gkey _ hP.edge] at c4
  set D0 := after gkey ((elems P).map .addEdge) with hD0
  have hinj : ∀ g g' n, D0.gkeyNode.get? g = some n → D0.gkeyNode.get? g' = some n → g = g' := by
    intro g g' n hg hg'
    obtain ⟨d, hd, h1⟩ := (hpl.found g n).1 hg
    obtain ⟨d', hd', h2⟩ := (hpl.found g' n).1 hg'
    rw [hd] at hd'; cases hd'
    exact h1.symm.trans h2
  obtain ⟨l1, l2, l3, l4⟩ := run_loads gkey hpl.wf (loadsOf P) hP.load hinj
    (fun l hl' p hp => (hlook _).2 (hl l hl' p hp))
  set D1 := run gkey D0 ((loadsOf P).map fun l => .addLoad l.1 l.2) with hD1
  have hg1 : D1.gkeyNode = D0.gkeyNode := by rw [l2]
  have he1 : D1.edges = D0.edges := by rw [l2]
  have w1 : WF D1 := hpl.wf.run gkey _
  obtain ⟨s1, s2, s3, s4⟩ := run_supports gkey w1 (supportsOf P) hP.support
    (fun s hs' p hp => by rw [hg1]; exact (hlook _).2 (hs p (hp ▸ hs')))
  set D2 := run gkey D1 ((supportsOf P).map .addSupport) with hD2
  have hg2 : D2.gkeyNode = D0.gkeyNode := by rw [s2, ← hg1]
  have he2 : D2.edges = D0.edges := by rw [s2, ← he1]
  have hdata : ∀ g n d, D0.gkeyNode.get? g = some n → D0.nodes.get? n = some d →
      D2.nodes.get? n = some { d with
        load := (lastLoad gkey g (loadsOf P)).getD d.load
        type := if ∃ q, .point q ∈ supportsOf P ∧ gkey q = g then .support else d.type } := by
    intro g n d hg hd
    obtain ⟨a, b⟩ := s4 n _ (l4 g n d hg hd)
    by_cases hq : ∃ q, .point q ∈ supportsOf P ∧ gkey q = g
    · obtain ⟨q, hq1, hq2⟩ := hq
      rw [a ⟨q, hq1, by rw [hg1, hq2]; exact hg⟩, if_pos ⟨q, hq1, hq2⟩]
    · rw [b, if_neg hq]
      intro q hq1 hq2
      rw [hg1] at hq2
      exact hq ⟨q, hq1, hinj _ _ n hq2 hg⟩
  refine ⟨D2, ?_, ?_, ?_, ?_, ?_⟩
  · refine ((performs_parts gkey P).2 D2).2 ⟨by rw [← hD]; rfl, fun err h => ?_⟩
    rw [calls_split, firstFailure_append] at h
    rcases h with h | ⟨_, h⟩
    · exact edges_no_failure gkey WF.empty _ hP.edge err h
    · rw [firstFailure_append] at h
      rcases h with h | ⟨_, h⟩
      · exact l1 err h
      · exact s1 err h
  · intro p hp
    obtain ⟨n, hn⟩ := (hlook _).2 hp
    obtain ⟨d, hd, hdg⟩ := (hpl.found _ n).1 hn
    refine ⟨n, _, ?_, hdata _ n d hn hd, hdg, ?_, fun h => ?_, fun h => ?_⟩
    · simp only [searchNode, Dict.getE, hg2, hn]
    · rw [hpl.fresh n d hd]; rfl
    · dsimp only
      rw [if_pos h]
    · dsimp only
      rw [if_neg fun ⟨q, h1, h2⟩ => h q h1 h2, hpl.fresh n d hd]; rfl
  · intro p hp
    have : D0.gkeyNode.get? (gkey p) = none := by
      cases h : D0.gkeyNode.get? (gkey p) with
      | none => rfl
      | some n => exact absurd ((hlook _).1 ⟨n, h⟩) hp
    simp only [searchNode, Dict.getE, hg2, this]
  · intro n d hd
    have hk : n ∈ D0.nodes.keys := by
      rw [← l3, ← s3]; exact Dict.mem_keys_of_get? hd
    obtain ⟨d0, hd0⟩ := (Dict.exists_get?_iff _ _).2 hk
    have hg0 := (hpl.found (gkey d0.pos) n).2 ⟨d0, hd0, rfl⟩
    have := hdata _ n d0 hg0 hd0
    rw [hd] at this
    have hpos : d.pos = d0.pos := by rw [Option.some.inj this]
    rw [hpos]
    refine ⟨(hlook _).1 ⟨n, hg0⟩, ?_⟩
    simp only [searchNode, Dict.getE, hg2, hg0]
  · intro e
    rw [he2, c4 e]
    simp only [List.mem_map, nodeKey]
    constructor
    · rintro ⟨s, ⟨el, hel, rfl⟩, h1, h2⟩
      obtain ⟨p, q, hu, hv⟩ := hP.edge el hel
      rw [(segOf_edge hu hv).2.1] at h1
      rw [(segOf_edge hu hv).2.2] at h2
      refine ⟨el, hel, p, q, hu, hv, ?_⟩
      simp only [searchEdge, Dict.getE, hg2, h1, h2]
    · rintro ⟨el, hel, p, q, hu, hv, h⟩
      refine ⟨_, ⟨el, hel, rfl⟩, ?_⟩
      rw [(segOf_edge hu hv).2.1, (segOf_edge hu hv).2.2]
      simp only [searchEdge, Dict.getE, hg2] at h
      cases h1 : D0.gkeyNode.get? (gkey p) with
      | none => simp [h1] at h
      | some u =>
        cases h2 : D0.gkeyNode.get? (gkey q) with
        | none => simp [h1, h2] at h
        | some v =>
          simp only [h1, h2, Except.ok.injEq, List.cons.injEq, and_true] at h
          subst h
          exact ⟨rfl, rfl⟩

/-- C56. A load or a support at a point that is no end of an edge (up to the geometric key) makes
the component raise `ValueError`. -/
theorem C56_missing_node {P : Parts R} (hP : OfPoints P)
    (h : (∃ l ∈ loadsOf P, ∃ p, l.1 = .point p ∧ ¬ AtEnd gkey P (gkey p)) ∨
      ∃ p, .point p ∈ supportsOf P ∧ ¬ AtEnd gkey P (gkey p)) (order : List Int → List Int) :
    assemble gkey order P = .error .valueError := by
  have hlook := lookup_iff gkey hP
  have hnone : ∀ p, ¬ AtEnd gkey P (gkey p) →
      (after gkey ((elems P).map .addEdge)).gkeyNode.get? (gkey p) = none := by
    intro p hp
    cases hg : (after gkey ((elems P).map .addEdge)).gkeyNode.get? (gkey p) with
    | none => rfl
    | some n => exact absurd ((hlook _).1 ⟨n, hg⟩) hp
  rw [(C56_history gkey order P).1, calls_split, List.append_assoc, firstFailure_append]
  refine Or.inr ⟨edges_no_failure gkey WF.empty _ hP.edge, ?_⟩
  rw [firstFailure_append]
  refine Or.inl (firstFailure_missing gkey (WF.after gkey _) _ _ hP.load hP.support ?_)
  rcases h with ⟨l, hl, p, hp, hn⟩ | ⟨p, hp, hn⟩
  · exact Or.inl ⟨l, hl, p, hp, hnone p hn⟩
  · exact Or.inr ⟨p, hp, hnone p hn⟩

/-- C56. The components for edges, loads and supports only make parts given by points. -/
theorem C56_of_points (tr : List (Option (Vec R × Vec R) × Option R × Option (Vec R × Vec R)))
    (dev : List (Option (Vec R × Vec R) × Option R)) (ld : List (Option (Vec R) × Option (Vec R)))
    (sp : List (Option (Vec R))) (aux : Bool) :
    OfPoints (⟨some (tr.map fun t => trailEdge t.1 t.2.1 t.2.2),
      some (dev.map fun d => deviationEdge d.1 d.2), some (ld.map fun l => Component.nodeLoad l.1 l.2),
      some (sp.map nodeSupport), aux⟩ : Parts R) := by
  refine ⟨?_, ?_, ?_⟩
  · intro e he
    simp only [elems, Option.getD_some, List.filterMap_map, List.mem_append, List.mem_filterMap,
      Function.comp, id] at he
    rcases he with ⟨⟨line, len, pl⟩, _, h⟩ | ⟨⟨line, f⟩, _, h⟩
    · rcases line with _ | ⟨p, q⟩ <;> rcases len with _ | l <;> simp [trailEdge] at h
      subst h; exact ⟨p, q, rfl, rfl⟩
    · rcases line with _ | ⟨p, q⟩ <;> rcases f with _ | f <;> simp [deviationEdge] at h
      subst h; exact ⟨p, q, rfl, rfl⟩
  · intro l hl
    simp only [loadsOf, Option.getD_some, List.filterMap_map, List.mem_filterMap,
      Function.comp, id] at hl
    obtain ⟨⟨p, q⟩, _, h⟩ := hl
    rcases p with _ | p <;> rcases q with _ | q <;> simp [Component.nodeLoad] at h
    subst h; exact ⟨p, rfl⟩
  · intro s hs
    simp only [supportsOf, Option.getD_some, List.filterMap_map, List.mem_filterMap,
      Function.comp, id] at hs
    obtain ⟨p, _, h⟩ := hs
    rcases p with _ | p <;> simp [nodeSupport] at h
    subst h; exact ⟨p, rfl⟩

/-- What the trails change is not what the search components look at. -/
private theorem assembled_same {P : Parts R} (haux : P.aux = false) {order : List Int → List Int}
    {D : Diagram R} (h : assemble gkey order P = .ok D) :
    ∃ D0, assembleParts gkey P = .ok D0 ∧ D.gkeyNode = D0.gkeyNode ∧ D.edges = D0.edges ∧
      (D = D0 ∨ D = D0.buildTrails.1 ∧ D0.buildTrails.2 = .ok ()) := by
  unfold assemble at h
  cases hD : assembleParts gkey P with
  | error err => simp [hD] at h
  | ok D0 =>
    have hw : WF D0 := by
      have := (((performs_parts gkey P).2 D0).1 hD).1
      rw [this]; exact WF.after gkey _
    refine ⟨D0, rfl, ?_⟩
    simp only [hD] at h
    split_ifs at h with hc
    · simp only [build, haux, Bool.false_eq_true, if_false] at h
      cases hb : D0.buildTrails with
      | mk D' r =>
        cases r with
        | error err => simp [hb] at h
        | ok u =>
          simp only [hb, Except.ok.injEq] at h
          obtain ⟨_, _, _, _, f1, f2, _⟩ := C12_frame hw
          rw [hb] at f1 f2
          subst h
          exact ⟨f2, f1, Or.inr ⟨rfl, rfl⟩⟩
    · obtain rfl := Except.ok.inj h
      exact ⟨rfl, rfl, Or.inl rfl⟩

/-- C56. Without auxiliary trails, searching a diagram for the line of one of its edges finds the
edge. -/
theorem C56_search {P : Parts R} (hP : OfPoints P) (haux : P.aux = false)
    {order : List Int → List Int} {D : Diagram R} (h : assemble gkey order P = .ok D)
    {el : EdgeElem R} (hel : el ∈ elems P) {p q : Vec R} (hu : el.u = .point p)
    (hv : el.v = .point q) :
    ∃ u v, searchNode gkey D p = .ok u ∧ searchNode gkey D q = .ok v ∧
      searchEdge gkey D p q = .ok [(u, v)] ∧ (u, v) ∈ D.edges.keys := by
  have hok : ¬ ((∃ l ∈ loadsOf P, ∃ p, l.1 = .point p ∧ ¬ AtEnd gkey P (gkey p)) ∨
      ∃ p, .point p ∈ supportsOf P ∧ ¬ AtEnd gkey P (gkey p)) := by
    intro hc
    rw [C56_missing_node gkey hP hc order] at h
    simp at h
  obtain ⟨D0, hD0, hg, he, -⟩ := assembled_same gkey haux h
  obtain ⟨D1, hD1, a1, -, -, a4⟩ := C56_assembles gkey hP
    (fun l hl p hp => by_contra fun hc => hok (Or.inl ⟨l, hl, p, hp, hc⟩))
    (fun p hp => by_contra fun hc => hok (Or.inr ⟨p, hp, hc⟩))
  rw [hD0] at hD1
  obtain rfl := Except.ok.inj hD1
  obtain ⟨u, _, hu', -⟩ := a1 p ⟨el, hel, p, Or.inl hu, rfl⟩
  obtain ⟨v, _, hv', -⟩ := a1 q ⟨el, hel, q, Or.inr hv, rfl⟩
  have hse : searchEdge gkey D0 p q = .ok [(u, v)] := by
    unfold searchNode at hu' hv'
    simp only [searchEdge, hu', hv']
  have hmem := (a4 (u, v)).2 ⟨el, hel, p, q, hu, hv, hse⟩
  refine ⟨u, v, ?_, ?_, ?_, by rw [he]; exact hmem⟩
  · unfold searchNode at hu' ⊢; rw [hg]; exact hu'
  · unfold searchNode at hv' ⊢; rw [hg]; exact hv'
  · unfold searchEdge at hse ⊢; rw [hg]; exact hse

/-- C56. The edge that is found at the line of a component carries the data of this component, if no
later component has the same line (up to the geometric key): the length and the plane of a trail edge,
the force of a deviation edge. -/
theorem C56_edge_data {P : Parts R} (hP : OfPoints P) (haux : P.aux = false)
    {order : List Int → List Int} {D : Diagram R} (h : assemble gkey order P = .ok D)
    {l1 l2 : List (EdgeElem R)} {el : EdgeElem R} (hel : elems P = l1 ++ el :: l2) {p q : Vec R}
    (hu : el.u = .point p) (hv : el.v = .point q)
    (hlast : ∀ e ∈ l2, ∀ p' q', e.u = .point p' → e.v = .point q' → gkey p' = gkey p →
      gkey q' ≠ gkey q) :
    ∃ e d, searchEdge gkey D p q = .ok [e] ∧ D.edges.get? e = some d ∧
      (∀ line length plane, trailEdge (some line) (some length) plane = some el →
        d.type = .trail ∧ d.length = length ∧ d.plane = plane) ∧
      (∀ line force, deviationEdge (some line) (some force) = some el →
        d.type = .deviation ∧ d.force = force) := by
  obtain ⟨D0, hD0, hg, he, -⟩ := assembled_same gkey haux h
  have hcalls : D0 = after gkey (calls P) := (((performs_parts gkey P).2 D0).1 hD0).1
  have hD : after gkey (calls P) = run gkey (run gkey (after gkey ((elems P).map .addEdge))
      ((loadsOf P).map fun l => .addLoad l.1 l.2)) ((supportsOf P).map .addSupport) := by
    rw [calls_split]; simp [after, run]
  have keep : ∀ (E : Diagram R) (ops : List (Op R)),
      (∀ o ∈ ops, (∃ r x, o = .addLoad r x) ∨ ∃ r, o = .addSupport r) →
      (run gkey E ops).gkeyNode = E.gkeyNode ∧ (run gkey E ops).edges = E.edges := by
    intro E ops
    induction ops generalizing E with
    | nil => exact fun _ => ⟨rfl, rfl⟩
    | cons o ops ih =>
      intro ho
      have hs : (Spec.step gkey E o).gkeyNode = E.gkeyNode ∧
          (Spec.step gkey E o).edges = E.edges := by
        rcases ho o (by simp) with ⟨r, x, rfl⟩ | ⟨r, rfl⟩
        · simp only [Spec.step, addLoad]
          split <;> [exact ⟨rfl, rfl⟩; split <;> exact ⟨rfl, rfl⟩]
        · simp only [Spec.step, addSupport]
          split <;> [exact ⟨rfl, rfl⟩; split <;> exact ⟨rfl, rfl⟩]
      have := ih (Spec.step gkey E o) fun o' ho' => ho o' (by simp [ho'])
      exact ⟨this.1.trans hs.1, this.2.trans hs.2⟩
  obtain ⟨u, v, d, d1, d2, d3⟩ := run_edge_data gkey (Placed.empty gkey) l1 l2 el
    (hel ▸ hP.edge) hu hv hlast
  rw [← hel] at d1 d2 d3
  have k1 := keep (after gkey ((elems P).map .addEdge))
    ((loadsOf P).map fun l => .addLoad l.1 l.2) (by
      intro o ho
      obtain ⟨l, -, rfl⟩ := List.mem_map.1 ho
      exact Or.inl ⟨_, _, rfl⟩)
  have k2 := keep (run gkey (after gkey ((elems P).map .addEdge))
    ((loadsOf P).map fun l => .addLoad l.1 l.2)) ((supportsOf P).map .addSupport) (by simp)
  rw [hcalls, hD, k2.1, k1.1] at hg
  rw [hcalls, hD, k2.2, k1.2] at he
  refine ⟨(u, v), EdgeData.update d el, ?_, by rw [he]; exact d3, ?_, ?_⟩
  · unfold after at hg
    simp only [searchEdge, Dict.getE, hg, d1, d2]
  · intro line length plane hx
    obtain ⟨a, b⟩ := line
    simp only [trailEdge, Option.some.injEq] at hx
    subst hx
    exact ⟨rfl, rfl, rfl⟩
  · intro line force hx
    obtain ⟨a, b⟩ := line
    simp only [deviationEdge, Option.some.injEq] at hx
    subst hx
    exact ⟨rfl, rfl⟩

/-- C56. Searching for the same line in the other direction finds the reversed pair, which is no
edge of a simple graph: reading its results raises `KeyError`. -/
theorem C56_reversed {D : Diagram R} (g : SimpleGraph D) {p q : Vec R} {u v : Int}
    (h : searchEdge gkey D p q = .ok [(u, v)]) (he : (u, v) ∈ D.edges.keys) :
    searchEdge gkey D q p = .ok [(v, u)] ∧ (v, u) ∉ D.edges.keys ∧
    resultsEdges D [(v, u)] = .error .keyError := by
  have hn := g.noAnti u v he
  refine ⟨?_, hn, ?_⟩
  · unfold searchEdge at h ⊢
    cases h1 : D.gkeyNode.getE (gkey p) with
    | error err => simp [h1] at h
    | ok a =>
      cases h2 : D.gkeyNode.getE (gkey q) with
      | error err => simp [h1, h2] at h
      | ok b =>
        simp only [h1, h2, Except.ok.injEq, List.cons.injEq, Prod.mk.injEq, and_true] at h
        simp [h.1, h.2]
  · have := (Dict.get?_eq_none_iff D.edges (v, u)).2 hn
    simp [resultsEdges, mapE, edgeLength2, this]

/-- C56. An assembled diagram with trail edges and supports, without auxiliary trails, is ready for
form finding, if the trail edges can be split into supported trails; and then it is returned
exactly if every node is connected to a support by trail edges. -/
theorem C56_ready {P : Parts R} (haux : P.aux = false) (ht : P.trailEdges.getD [] ≠ [])
    (hs : P.supports.getD [] ≠ []) (order : List Int → List Int) {D0 : Diagram R}
    (h0 : assembleParts gkey P = .ok D0) (g : Regular D0) :
    (∀ D, assemble gkey order P = .ok D → ValidInput D) ∧
    ((∃ D, assemble gkey order P = .ok D) ↔ (∃ a b, IsTrail D0 a b) ∧ ∀ n ∈ D0.nodes.keys, Reached D0 n) ∧
    ((∀ D, assemble gkey order P ≠ .ok D) → assemble gkey order P = .error .assertionError) := by
  have hD0 : D0 = after gkey (calls P) := (((performs_parts gkey P).2 D0).1 h0).1
  have hw : WF D0 := by rw [hD0]; exact WF.after gkey _
  have hgiven : (given P.trailEdges && given P.supports) = true := by
    rw [given_iff, given_iff]
    cases hx : P.trailEdges.getD [] with
    | nil => exact absurd hx ht
    | cons a l =>
      cases hy : P.supports.getD [] with
      | nil => exact absurd hy hs
      | cons b m => rfl
  have hA : assemble gkey order P = match D0.buildTrails with
      | (_, .error err) => .error err
      | (D', .ok _) => .ok D' := by
    unfold assemble
    simp only [h0, hgiven, build, haux, Bool.true_or, if_true, Bool.false_eq_true, if_false]
    all_goals rcases D0.buildTrails with ⟨D', _ | _⟩ <;> rfl
  have hiff := C12_success_iff hw g
  have hterm := C08_build_trails_terminates hw
  have hval : ∀ D', D0.buildTrails = (D', .ok ()) → ValidInput D' := by
    intro D' hb
    have := C20_valid_of_history gkey (calls P) (by rw [← hD0]; exact g)
      (by rw [← hD0, hb]) [] (by simp)
    have hx : after gkey (calls P ++ [.buildTrails]) = D' := by
      unfold after at hD0 ⊢
      simp only [run, List.foldl_append, List.foldl_cons, List.foldl_nil] at hD0 ⊢
      rw [← hD0]; simp only [Spec.step, hb]
    simpa [hx] using this
  cases hb : D0.buildTrails with
  | mk D' r =>
    cases r with
    | error err =>
      have hne : assemble gkey order P = .error err := by rw [hA, hb]
      rw [hb] at hiff hterm
      have herr : err = .assertionError := by simpa using hterm
      subst herr
      refine ⟨fun D h => by rw [hne] at h; simp at h, ?_, fun _ => hne⟩
      rw [← hiff.1, hne]; simp
    | ok u =>
      have hne : assemble gkey order P = .ok D' := by rw [hA, hb]
      rw [hb] at hiff
      refine ⟨fun D h => ?_, ?_, fun h => absurd hne (h D')⟩
      · rw [hne] at h; obtain rfl := Except.ok.inj h; exact hval _ hb
      · rw [← hiff.1, hne]; simp

end

/-! ### Examples -/

namespace CompEx

/-- Points along x. -/
def pt (i : ℚ) : Vec ℚ := ⟨i, 0, 0⟩

/-- A key that tells the points 0 to 4 along x apart. -/
def key (p : Vec ℚ) : String :=
  if p.x < 1 then "a" else if p.x < 2 then "b" else if p.x < 3 then "c" else
    if p.x < 4 then "d" else "e"

/-- Two trails 0-1 and 2-3 joined by a deviation edge, supported at 1 and 3, with loads at 0; some
items are missing. -/
def parts : Parts ℚ where
  trailEdges := some [trailEdge (some (pt 0, pt 1)) (some (-1)) none, none,
    trailEdge (some (pt 2, pt 3)) (some (-1)) none]
  deviationEdges := some [deviationEdge (some (pt 0, pt 2)) (some 1)]
  loads := some [Component.nodeLoad (some (pt 0)) (some ⟨0, 0, -1⟩), Component.nodeLoad (some (pt 1)) none,
    Component.nodeLoad (some (pt (1 / 2))) (some ⟨0, 0, -2⟩)]
  supports := some [nodeSupport (some (pt 1)), nodeSupport (some (pt 3)), nodeSupport none]
  aux := false

/-- The assembled diagram. -/
def made : Diagram ℚ := after key (calls parts ++ [.buildTrails])

theorem made_eq : assemble key id parts = .ok made := by decide +kernel

theorem ofPoints_parts : OfPoints parts :=
  C56_of_points [(some (pt 0, pt 1), some (-1), none), (none, none, none), (some (pt 2, pt 3), some (-1), none)]
    [(some (pt 0, pt 2), some 1)]
    [(some (pt 0), some ⟨0, 0, -1⟩), (some (pt 1), none), (some (pt (1 / 2)), some ⟨0, 0, -2⟩)]
    [some (pt 1), some (pt 3), none] false

end CompEx

open CompEx in
/-- The parts are added: the last load at node 0 counts, and the nodes are found. -/
example : (∀ l ∈ loadsOf parts, ∀ p, l.1 = .point p → AtEnd CompEx.key parts (CompEx.key p)) ∧
    (∀ p, .point p ∈ supportsOf parts → AtEnd CompEx.key parts (CompEx.key p)) ∧
    lastLoad CompEx.key "a" (loadsOf parts) = some ⟨0, 0, -2⟩ ∧
    searchNode CompEx.key made (pt (7 / 3)) = .ok 2 ∧
    searchNode CompEx.key made (pt 9) = .error .keyError ∧
    searchEdge CompEx.key made (pt 0) (pt 2) = .ok [(0, 2)] := by
  have h0 : AtEnd CompEx.key parts "a" :=
    ⟨.trail (.point (pt 0)) (.point (pt 1)) (-1) none, by decide +kernel, pt 0, Or.inl rfl, by decide +kernel⟩
  have h1 : AtEnd CompEx.key parts "b" :=
    ⟨.trail (.point (pt 0)) (.point (pt 1)) (-1) none, by decide +kernel, pt 1, Or.inr rfl, by decide +kernel⟩
  have h3 : AtEnd CompEx.key parts "d" :=
    ⟨.trail (.point (pt 2)) (.point (pt 3)) (-1) none, by decide +kernel, pt 3, Or.inr rfl, by decide +kernel⟩
  have hL : loadsOf parts = [(.point (pt 0), ⟨0, 0, -1⟩), (.point (pt (1 / 2)), ⟨0, 0, -2⟩)] := by
    decide +kernel
  have hS : supportsOf parts = [.point (pt 1), .point (pt 3)] := by decide +kernel
  have k0 : CompEx.key (pt 0) = "a" := by decide +kernel
  have k0' : CompEx.key (pt (1 / 2)) = "a" := by decide +kernel
  have k1 : CompEx.key (pt 1) = "b" := by decide +kernel
  have k3 : CompEx.key (pt 3) = "d" := by decide +kernel
  refine ⟨?_, ?_, by decide +kernel, by decide +kernel, by decide +kernel, by decide +kernel⟩
  · rw [hL]
    intro l hl p hp
    simp only [List.mem_cons, List.not_mem_nil, or_false] at hl
    rcases hl with rfl | rfl <;> cases hp
    · rw [k0]; exact h0
    · rw [k0']; exact h0
  · rw [hS]
    intro p hp
    simp only [List.mem_cons, List.not_mem_nil, or_false, NodeRef.point.injEq] at hp
    rcases hp with rfl | rfl
    · rw [k1]; exact h1
    · rw [k3]; exact h3

open CompEx in
/-- The first trail edge given with a plane, and the deviation edge. -/
example : let P := { parts with trailEdges := some [trailEdge (some (pt 0, pt 1)) (some (-1)) none,
      trailEdge (some (pt 0, pt 1)) (some (-2)) (some (pt 1, pt 2)),
      trailEdge (some (pt 2, pt 3)) (some (-1)) none] }
    ∃ D, assemble CompEx.key id P = .ok D ∧
      (∃ d, searchEdge CompEx.key D (pt 0) (pt 1) = .ok [(0, 1)] ∧ D.edges.get? (0, 1) = some d ∧
        d.type = .trail ∧ d.length = -2 ∧ d.plane = some (pt 1, pt 2)) ∧
      ∃ d, searchEdge CompEx.key D (pt 0) (pt 2) = .ok [(0, 2)] ∧ D.edges.get? (0, 2) = some d ∧
        d.type = .deviation ∧ d.force = 1 := by
  intro P
  refine ⟨after CompEx.key (calls P ++ [.buildTrails]), by decide +kernel,
    ⟨⟨.trail, -2, 0, some (pt 1, pt 2)⟩, ?_⟩, ⟨.deviation, 0, 1, none⟩, ?_⟩ <;> decide +kernel

open CompEx in
/-- A support at point 4, which is no end of an edge. -/
example : assemble CompEx.key id { parts with supports := some [nodeSupport (some (pt 4))] } =
    .error .valueError := by decide +kernel

open CompEx in
/-- The search theorem, the reversed line, and that the diagram is ready for form finding. -/
example : ∃ u v, searchEdge CompEx.key made (pt 2) (pt 3) = .ok [(u, v)] ∧ (u, v) ∈ made.edges.keys ∧
    resultsEdges made [(v, u)] = .error .keyError ∧ ValidInput made := by
  have g : SimpleGraph made := by
    have hr : Regular made := RegularCheck.regular (WF.after _ _) (by decide +kernel)
    exact hr.toSimpleGraph
  obtain ⟨u, v, -, -, h1, h2⟩ := C56_search CompEx.key ofPoints_parts rfl made_eq
    (el := .trail (.point (pt 2)) (.point (pt 3)) (-1) none) (by decide +kernel) rfl rfl
  refine ⟨u, v, h1, h2, (C56_reversed CompEx.key g h1 h2).2.2, ?_⟩
  exact (C56_ready CompEx.key (P := parts) rfl (by decide +kernel) (by decide +kernel) id
    (D0 := after CompEx.key (calls parts)) (by decide +kernel)
    (RegularCheck.regular (WF.after _ _) (by decide +kernel))).1 _ made_eq

/-! ### Missing items -/

/-- C56. `None` items are skipped, but still count as items: with trail edges and only `None` for
supports the trails are built, which fails; without that input the diagram is returned. -/
theorem C56_none_items :
    (∀ (R : Type) [Field R] [DecidableEq R] [PySqrt R] (gkey : Vec R → String) (P Q : Parts R),
      elems P = elems Q → loadsOf P = loadsOf Q → supportsOf P = supportsOf Q →
      assembleParts gkey P = assembleParts gkey Q) ∧
    (∃ P : Parts ℚ, supportsOf P = [] ∧
      assemble CompEx.key id { P with supports := some [none] } = .error .assertionError ∧
      ∃ D, assemble CompEx.key id { P with supports := none } = .ok D ∧ D.edges.keys = [(0, 1)]) := by
  refine ⟨?_, ?_⟩
  · intro R _ _ _ gkey P Q he hl hs
    have hc : calls P = calls Q := by rw [calls_split, calls_split, he, hl, hs]
    have hp := performs_parts gkey P
    have hq := performs_parts gkey Q
    rw [hc] at hp
    cases h : assembleParts gkey P with
    | error err => exact ((hq.1 err).2 ((hp.1 err).1 h)).symm
    | ok D => exact ((hq.2 D).2 ((hp.2 D).1 h)).symm
  · refine ⟨⟨some [trailEdge (some (CompEx.pt 0, CompEx.pt 1)) (some (-1)) none], none, none, none, false⟩,
      rfl, by decide +kernel, after CompEx.key [.addEdge (.trail (.point (CompEx.pt 0))
        (.point (CompEx.pt 1)) (-1) none)], by decide +kernel, by decide +kernel⟩

end Props
end CEM
