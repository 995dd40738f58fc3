import Verif.Lemmas.Drawing
import Verif.Props.Equilibrium
import Verif.Props.Queries

/-!
# C53: colours of edges
-/

set_option linter.unusedSectionVars false
set_option linter.unusedSimpArgs false

namespace CEM
namespace Props
open Diagram Spec Drawing TrailEx

variable {R : Type}

local instance colourSqrt : PySqrt ℚ := ⟨id⟩

/-! ## What the colours should be -/

/-- The kind of an edge shown by its colour: auxiliary trail edge, trail edge, or deviation
edge, where those between nodes of different sequence are told apart once there are trails. -/
def kindShade (D : Diagram R) (e : Int × Int) (d : EdgeData R) : Shade :=
  if ∃ p ∈ D.auxTrails, p.2 = e then .auxiliary
  else if d.type = .trail then .trail
  else if D.trails = [] ∨ seqOf D e.1 = seqOf D e.2 then .deviation else .indirect

/-- Each edge is typed, and the ends of deviation edges have sequences once there are
trails. -/
structure Colourable (D : Diagram R) : Prop where
  typed : ∀ e d, D.edges.get? e = some d → d.type ≠ .untyped
  seq : D.trails ≠ [] → ∀ e d, D.edges.get? e = some d → d.type = .deviation →
    (∃ p ∈ D.auxTrails, p.2 = e) ∨ ((∃ k, seqOf D e.1 = some k) ∧ ∃ k, seqOf D e.2 = some k)

/-- Diagrams to which form finding applies are of this kind, and diagrams made by calls as
long as they have no trails. -/
theorem colourable_valid [Field R] [PySqrt R] {D : Diagram R} (I : ValidInput D) : Colourable D := by
  refine ⟨I.typed, fun _ e d hd _ => Or.inr ?_⟩
  have h : ∀ n ∈ D.nodes.keys, ∃ k, seqOf D n = some k := by
    intro n hn
    have := I.trails.partition.mem_iff.2 hn
    rw [List.mem_flatMap] at this
    obtain ⟨⟨key, tr⟩, htr, hmem⟩ := this
    obtain ⟨s, hs⟩ := I.trails.seq key tr htr
    obtain ⟨i, hi, rfl⟩ := List.mem_iff_getElem.1 hmem
    exact ⟨_, hs i hi⟩
  have hk := Dict.mem_keys_of_get? hd
  exact ⟨h _ (I.wf.edge_left _ hk), h _ (I.wf.edge_right _ hk)⟩

theorem colourable_no_trails [Field R] [DecidableEq R] [PySqrt R] (gkey : Vec R → String)
    (ops : List (Op R)) (h : (after gkey ops).trails = []) : Colourable (after gkey ops) :=
  ⟨(Plain.after gkey ops).typed, fun hne => absurd h hne⟩

private theorem auxiliary_iff (D : Diagram R) (e : Int × Int) :
    D.isAuxiliaryTrailEdge e = true ↔ ∃ p ∈ D.auxTrails, p.2 = e := by
  unfold isAuxiliaryTrailEdge Dict.vals
  rw [decide_eq_true_iff, List.mem_map]

private theorem hasTrails_iff (D : Diagram R) : D.hasTrails = true ↔ D.trails ≠ [] := by
  simp [hasTrails, numberOfTrails, Dict.vals, List.length_pos_iff]

private theorem nodeSequence_of {D : Diagram R} {n k : Int} (h : seqOf D n = some k) :
    D.nodeSequence n = .ok k := by
  unfold seqOf at h
  unfold nodeSequence
  cases hd : D.nodes.get? n with
  | none => rw [hd] at h; simp at h
  | some d =>
    rw [hd] at h
    simp only [Option.bind_some] at h
    simp [h]

private theorem typeShade_eq {D : Diagram R} (c : Colourable D) {e : Int × Int} {d : EdgeData R}
    (he : D.edges.get? e = some d) (old : Option Shade) :
    typeShade D old e = .ok (some (kindShade D e d)) := by
  unfold typeShade kindShade
  by_cases ha : ∃ p ∈ D.auxTrails, p.2 = e
  · rw [if_pos ((auxiliary_iff D e).2 ha), if_pos ha]
  · rw [if_neg (fun h => ha ((auxiliary_iff D e).1 h)), if_neg ha]
    cases ht : d.type with
    | untyped => exact absurd ht (c.typed e d he)
    | trail => simp [isTrailEdge, he, ht]
    | deviation =>
      by_cases h0 : D.trails = []
      · have : ¬ D.hasTrails = true := by rw [hasTrails_iff]; simp [h0]
        simp [isTrailEdge, he, ht, this, isDeviationEdge, h0]
      · have h1 : D.hasTrails = true := (hasTrails_iff D).2 h0
        obtain ⟨⟨k, hk⟩, l, hl⟩ := (c.seq h0 e d he ht).resolve_left ha
        have hs : D.edgeSequence e = .ok (k, l) := by
          simp [edgeSequence, nodeSequence_of hk, nodeSequence_of hl]
        by_cases hkl : k = l
        · simp [isTrailEdge, he, ht, h1, isDeviationEdge, h0, isDirectDeviationEdge,
            isDeviationEdgePredicate, hs, hk, hl, hkl]
        · simp [isTrailEdge, he, ht, h1, isDeviationEdge, h0, isDirectDeviationEdge,
            isIndirectDeviationEdge, isDeviationEdgePredicate, hs, hk, hl, hkl]

/-! ## By type -/

/-- C53. Colouring edges of the diagram by type succeeds, and the colour of each edge is that
of its own kind, whatever was coloured before. -/
theorem C53_type {D : Diagram R} (c : Colourable D) {es : List (Int × Int)}
    (hes : ∀ e ∈ es, e ∈ D.edges.keys) (old : Option Shade) (acc : Dict (Int × Int) Shade) :
    ∃ cs, typeColors D old es acc = .ok cs ∧
      (∀ e ∈ es, ∀ d, D.edges.get? e = some d → cs.get? e = some (kindShade D e d)) ∧
      ∀ e, e ∉ es → cs.get? e = acc.get? e := by
  induction es generalizing old acc with
  | nil => exact ⟨acc, rfl, by simp, by simp⟩
  | cons e l ih =>
    obtain ⟨d, hd⟩ := (Dict.exists_get?_iff _ _).2 (hes e (by simp))
    obtain ⟨cs, h1, h2, h3⟩ := ih (fun e' he' => hes e' (by simp [he'])) (some (kindShade D e d))
      (acc.set e (kindShade D e d))
    refine ⟨cs, ?_, ?_, ?_⟩
    · unfold typeColors
      simp only [typeShade_eq c hd, h1]
    · intro e' he' d' hd'
      by_cases hl : e' ∈ l
      · exact h2 e' hl d' hd'
      · obtain rfl := (List.mem_cons.1 he').resolve_right hl
        rw [hd] at hd'; cases hd'
        rw [h3 _ hl, Dict.get?_set_self]
    · intro e' he'
      simp only [List.mem_cons, not_or] at he'
      rw [h3 _ he'.2, Dict.get?_set_ne _ _ (Ne.symm he'.1)]

/-- C53. With trails, a deviation edge one end of which has no sequence makes colouring by
type fail with `ValueError`. -/
theorem C53_no_sequence {D : Diagram R} (w : WF D) {e : Int × Int} {d : EdgeData R}
    (he : D.edges.get? e = some d) (ht : d.type = .deviation)
    (ha : ¬ ∃ p ∈ D.auxTrails, p.2 = e) (h0 : D.trails ≠ [])
    (hk : seqOf D e.1 = none ∨ seqOf D e.2 = none) (old : Option Shade) (l : List (Int × Int))
    (acc : Dict (Int × Int) Shade) :
    typeColors D old (e :: l) acc = .error .valueError := by
  have hn : ∀ n ∈ D.nodes.keys, seqOf D n = none → D.nodeSequence n = .error .valueError := by
    intro n hn h
    obtain ⟨nd, hnd⟩ := (Dict.exists_get?_iff _ _).2 hn
    unfold seqOf at h
    rw [hnd] at h
    simp only [Option.bind_some] at h
    simp [nodeSequence, hnd, h]
  have hn' : ∀ n ∈ D.nodes.keys, (∃ k, D.nodeSequence n = .ok k) ∨
      D.nodeSequence n = .error .valueError := by
    intro n hn'
    cases h : seqOf D n with
    | none => exact Or.inr (hn n hn' h)
    | some k => exact Or.inl ⟨k, nodeSequence_of h⟩
  have hm := Dict.mem_keys_of_get? he
  have hs : D.edgeSequence e = .error .valueError := by
    unfold edgeSequence
    rcases hn' _ (w.edge_left _ hm) with ⟨k, h1⟩ | h1
    · rcases hk with hk | hk
      · rw [hn _ (w.edge_left _ hm) hk] at h1; simp at h1
      · simp [h1, hn _ (w.edge_right _ hm) hk]
    · simp [h1]
  have haux : ¬ D.isAuxiliaryTrailEdge e = true := fun h => ha ((auxiliary_iff D e).1 h)
  unfold typeColors typeShade
  simp [haux, isTrailEdge, he, ht, (hasTrails_iff D).2 h0, isDirectDeviationEdge,
    isDeviationEdgePredicate, isDeviationEdge, hs]

/-- C53. On an edge of no type the colour of the edge before is used again, and there is an
exception if there was none: the colour then depends on the order of the edges. -/
theorem C53_untyped :
    ∃ D : Diagram ℚ, typeColors D none [(0, 1), (1, 2)] [] =
        .ok [((0, 1), .trail), ((1, 2), .trail)] ∧
      typeColors D none [(1, 2), (0, 1)] [] = .error .unboundLocal ∧
      stateColors D none [(1, 2), (0, 1)] [] = .error .unboundLocal := by
  refine ⟨{ (after key (nodes 3 ++ [trail 0 1, dev 1 2])) with
    edges := (after key (nodes 3 ++ [trail 0 1, dev 1 2])).edges.modify
      (1, 2) fun d => { d with type := .untyped } }, ?_⟩
  decide +kernel

/-- The colours of a diagram with two trails and two deviation edges. -/
example : Colourable EqEx.indirectQ ∧
    typeColors EqEx.indirectQ none EqEx.indirectQ.edgeList [] =
      .ok [((0, 1), .trail), ((0, 4), .deviation), ((1, 4), .indirect), ((2, 1), .trail),
        ((3, 4), .trail)] :=
  ⟨colourable_valid EqEx.valid_indirectQ, by decide +kernel⟩

/-- Node 5 was added after the trails were built and has no sequence. -/
example : typeColors (run key EqEx.directQ [.addNode (some 5) ⟨5, 0, 0⟩, dev 0 5]) none [(0, 5)] [] =
    .error .valueError := by decide +kernel

/-! ## By state -/

section
variable [Field R] [LinearOrder R] [IsStrictOrderedRing R]

private theorem copysign_one (x : R) : copysign 1 x = -1 ↔ x < 0 := by
  unfold copysign
  split_ifs with h
  · simp [h]
  · simp only [abs_one, h, iff_false]
    intro h1
    have : (0 : R) < 1 := one_pos
    rw [h1] at this
    linarith

/-- C53. Colouring a topology diagram by state succeeds, and each edge shows its own sign:
the sign of the length of a trail edge and of the force of a deviation edge, zero as
tension. -/
theorem C53_state {D : Diagram R} (typed : ∀ e d, D.edges.get? e = some d → d.type ≠ .untyped)
    {es : List (Int × Int)} (hes : ∀ e ∈ es, e ∈ D.edges.keys) (name : Option Attr)
    (acc : Dict (Int × Int) Shade) :
    ∃ cs, stateColors D name es acc = .ok cs ∧
      (∀ e ∈ es, ∀ d, D.edges.get? e = some d → cs.get? e = some (
        if ∃ p ∈ D.auxTrails, p.2 = e then .auxiliary
        else if (if d.type = .trail then d.length else d.force) < 0 then .compression
        else .tension)) ∧
      ∀ e, e ∉ es → cs.get? e = acc.get? e := by
  induction es generalizing name acc with
  | nil => exact ⟨acc, rfl, by simp, by simp⟩
  | cons e l ih =>
    obtain ⟨d, hd⟩ := (Dict.exists_get?_iff _ _).2 (hes e (by simp))
    set c : Shade := if ∃ p ∈ D.auxTrails, p.2 = e then .auxiliary
        else if (if d.type = .trail then d.length else d.force) < 0 then .compression
        else .tension with hc
    obtain ⟨name', hstep⟩ : ∃ name', stateColors D name (e :: l) acc =
        stateColors D name' l (acc.set e c) := by
      by_cases ha : ∃ p ∈ D.auxTrails, p.2 = e
      · refine ⟨name, ?_⟩
        conv_lhs => unfold stateColors
        rw [if_pos ((auxiliary_iff D e).2 ha), hc, if_pos ha]
      · have ha' : ¬ D.isAuxiliaryTrailEdge e = true := fun h => ha ((auxiliary_iff D e).1 h)
        cases ht : d.type with
        | untyped => exact absurd ht (typed e d hd)
        | trail =>
          refine ⟨some .length, ?_⟩
          conv_lhs => unfold stateColors
          simp only [if_neg ha', hd, ht, if_true, hc, if_neg ha, Attr.read, copysign_one]
        | deviation =>
          refine ⟨some .force, ?_⟩
          conv_lhs => unfold stateColors
          simp only [if_neg ha', hd, ht, if_true, hc, if_neg ha, Attr.read, copysign_one]
          simp
    obtain ⟨cs, h1, h2, h3⟩ := ih (fun e' he' => hes e' (by simp [he'])) name' (acc.set e c)
    refine ⟨cs, by rw [hstep, h1], ?_, ?_⟩
    · intro e' he' d' hd'
      by_cases hl : e' ∈ l
      · exact h2 e' hl d' hd'
      · obtain rfl := (List.mem_cons.1 he').resolve_right hl
        rw [hd] at hd'; cases hd'
        rw [h3 _ hl, Dict.get?_set_self]
    · intro e' he'
      simp only [List.mem_cons, not_or] at he'
      rw [h3 _ he'.2, Dict.get?_set_ne _ _ (Ne.symm he'.1)]

/-- C53. A form is coloured by the sign of the forces. The plotter sets edges without force
apart, the viewer shows them in tension; on all other edges the two agree. -/
theorem C53_form {D : Diagram R} {es : List (Int × Int)} (hes : ∀ e ∈ es, e ∈ D.edges.keys) :
    ∃ cp cv, plotterFormColors D es [] = .ok cp ∧ viewerFormColors D es [] = .ok cv ∧
      ∀ e ∈ es, ∀ d, D.edges.get? e = some d →
        (d.force < 0 → cp.get? e = some .compression ∧ cv.get? e = some .compression) ∧
        (0 < d.force → cp.get? e = some .tension ∧ cv.get? e = some .tension) ∧
        (d.force = 0 → cp.get? e = some .edge ∧ cv.get? e = some .tension) := by
  have hp : ∀ (es : List (Int × Int)) (acc : Dict (Int × Int) Shade),
      (∀ e ∈ es, e ∈ D.edges.keys) → ∃ cs, plotterFormColors D es acc = .ok cs ∧
        (∀ e ∈ es, ∀ d, D.edges.get? e = some d → cs.get? e = some (plotterFormShade d.force)) ∧
        ∀ e, e ∉ es → cs.get? e = acc.get? e := by
    intro es
    induction es with
    | nil => intro acc _; exact ⟨acc, rfl, by simp, by simp⟩
    | cons e l ih =>
      intro acc hes
      obtain ⟨d, hd⟩ := (Dict.exists_get?_iff _ _).2 (hes e (by simp))
      obtain ⟨cs, h1, h2, h3⟩ := ih (acc.set e (plotterFormShade d.force))
        (fun e' he' => hes e' (by simp [he']))
      refine ⟨cs, by unfold plotterFormColors; simp [edgeForce, hd, h1], ?_, ?_⟩
      · intro e' he' d' hd'
        by_cases hl : e' ∈ l
        · exact h2 e' hl d' hd'
        · obtain rfl := (List.mem_cons.1 he').resolve_right hl
          rw [hd] at hd'; cases hd'
          rw [h3 _ hl, Dict.get?_set_self]
      · intro e' he'
        simp only [List.mem_cons, not_or] at he'
        rw [h3 _ he'.2, Dict.get?_set_ne _ _ (Ne.symm he'.1)]
  have hv : ∀ (es : List (Int × Int)) (acc : Dict (Int × Int) Shade),
      (∀ e ∈ es, e ∈ D.edges.keys) → ∃ cs, viewerFormColors D es acc = .ok cs ∧
        (∀ e ∈ es, ∀ d, D.edges.get? e = some d → cs.get? e = some (viewerFormShade d.force)) ∧
        ∀ e, e ∉ es → cs.get? e = acc.get? e := by
    intro es
    induction es with
    | nil => intro acc _; exact ⟨acc, rfl, by simp, by simp⟩
    | cons e l ih =>
      intro acc hes
      obtain ⟨d, hd⟩ := (Dict.exists_get?_iff _ _).2 (hes e (by simp))
      obtain ⟨cs, h1, h2, h3⟩ := ih (acc.set e (viewerFormShade d.force))
        (fun e' he' => hes e' (by simp [he']))
      refine ⟨cs, by unfold viewerFormColors; simp [edgeForce, hd, h1], ?_, ?_⟩
      · intro e' he' d' hd'
        by_cases hl : e' ∈ l
        · exact h2 e' hl d' hd'
        · obtain rfl := (List.mem_cons.1 he').resolve_right hl
          rw [hd] at hd'; cases hd'
          rw [h3 _ hl, Dict.get?_set_self]
      · intro e' he'
        simp only [List.mem_cons, not_or] at he'
        rw [h3 _ he'.2, Dict.get?_set_ne _ _ (Ne.symm he'.1)]
  obtain ⟨cp, p1, p2, -⟩ := hp es [] hes
  obtain ⟨cv, v1, v2, -⟩ := hv es [] hes
  refine ⟨cp, cv, p1, v1, fun e he d hd => ?_⟩
  rw [p2 e he d hd, v2 e he d hd]
  unfold plotterFormShade viewerFormShade
  refine ⟨fun h => ?_, fun h => ?_, fun h => ?_⟩
  · have h1 := h.ne
    have h2 := not_le.2 h
    simp [copysign_one, h, h1, h2]
  · have h1 := h.ne'
    have h2 := not_lt.2 h.le
    simp [copysign_one, h.le, h1, h2]
  · simp [h]

/-! ## Groups of edges in the viewer -/

private def Grouped (c : Int × Int → Shade) (g : Dict Shade (List (Int × Int))) : Prop :=
  ∀ p ∈ g, ∀ e ∈ p.2, c e = p.1

private theorem appendTo_nil (k : Shade) (e : Int × Int) : appendTo [] k e = [(k, [e])] := rfl

private theorem appendTo_cons (a k : Shade) (l : List (Int × Int))
    (g : Dict Shade (List (Int × Int))) (e : Int × Int) :
    appendTo ((a, l) :: g) k e =
      if a = k then (a, l ++ [e]) :: g else (a, l) :: appendTo g k e := by
  unfold appendTo
  by_cases h : a = k <;> simp [Dict.get?, Dict.set, h]

private theorem grouped_append {c : Int × Int → Shade} {g : Dict Shade (List (Int × Int))}
    (h : Grouped c g) (e : Int × Int) : Grouped c (appendTo g (c e) e) := by
  induction g with
  | nil => rw [appendTo_nil]; intro p hp e' he'; simp at hp; subst hp; simp at he'; simp [he']
  | cons q g ih =>
    obtain ⟨a, l⟩ := q
    rw [appendTo_cons]
    have hg : Grouped c g := fun p hp => h p (by simp [hp])
    have hq := h (a, l) (by simp)
    split_ifs with ha
    · intro p hp e' he'
      rcases List.mem_cons.1 hp with rfl | hp
      · simp only [List.mem_append, List.mem_singleton] at he'
        rcases he' with he' | rfl
        · exact hq e' he'
        · exact ha.symm
      · exact hg p hp e' he'
    · intro p hp e' he'
      rcases List.mem_cons.1 hp with rfl | hp
      · exact hq e' he'
      · exact ih hg p hp e' he'

private theorem appendTo_perm (g : Dict Shade (List (Int × Int))) (k : Shade) (e : Int × Int) :
    ((appendTo g k e).flatMap (·.2)).Perm (e :: g.flatMap (·.2)) := by
  induction g with
  | nil => rw [appendTo_nil]; simp
  | cons q g ih =>
    obtain ⟨a, l⟩ := q
    rw [appendTo_cons]
    split_ifs with ha
    · simp only [List.flatMap_cons, List.append_assoc]
      exact List.perm_middle
    · simp only [List.flatMap_cons]
      exact (ih.append_left l).trans List.perm_middle

private theorem drawGroups_spec {c : Int × Int → Shade} {colors : Dict (Int × Int) Shade}
    {g : Dict Shade (List (Int × Int))} (hg : Grouped c g)
    (hc : ∀ e ∈ g.flatMap (·.2), colors.get? e = some (c e)) :
    drawGroups colors g = .ok ((g.flatMap (·.2)).map fun e => (e, c e)) := by
  induction g with
  | nil => rfl
  | cons q g ih =>
    obtain ⟨a, l⟩ := q
    have ih' := ih (fun p hp => hg p (by simp [hp])) (fun e he => hc e (by
      simp only [List.flatMap_cons, List.mem_append]; exact Or.inr he))
    have hq := hg (a, l) (by simp)
    cases l with
    | nil => unfold drawGroups; rw [ih']; simp
    | cons e es =>
      have he := hc e (by simp)
      unfold drawGroups
      rw [Dict.getE_eq_ok_iff.2 he]
      simp only [ih', Except.ok.injEq, List.flatMap_cons, List.map_append]
      congr 1
      apply List.map_congr_left
      intro e' he'
      have h1 := hq e' he'
      have h2 := hq e (by simp)
      simp only at h1 h2
      rw [h1, h2]

/-- C53. The viewer draws the edges of a topology diagram in groups, each in the colour of
its first edge. Every edge is drawn once, in its own colour. -/
theorem C53_groups_topology {D : Diagram R} (c : Colourable D) {es : List (Int × Int)}
    (hes : ∀ e ∈ es, e ∈ D.edges.keys) :
    ∃ cs groups drawn, typeColors D none es [] = .ok cs ∧ groupsByType D es [] = .ok groups ∧
      drawGroups cs groups = .ok drawn ∧ (drawn.map (·.1)).Perm es ∧
      ∀ e s, (e, s) ∈ drawn → ∀ d, D.edges.get? e = some d → s = kindShade D e d := by
  classical
  let k : Int × Int → Shade := fun e =>
    match D.edges.get? e with
    | none => .node
    | some d => kindShade D e d
  have hk : ∀ e d, D.edges.get? e = some d → k e = kindShade D e d := by
    intro e d h; simp only [k, h]
  have key : ∀ (es : List (Int × Int)) (acc : Dict Shade (List (Int × Int))),
      (∀ e ∈ es, e ∈ D.edges.keys) → Grouped k acc → ∃ groups, groupsByType D es acc = .ok groups ∧
        Grouped k groups ∧ (groups.flatMap (·.2)).Perm (es ++ acc.flatMap (·.2)) := by
    intro es
    induction es with
    | nil => intro acc _ h; exact ⟨acc, rfl, h, by simp⟩
    | cons e l ih =>
      intro acc hes h
      obtain ⟨d, hd⟩ := (Dict.exists_get?_iff _ _).2 (hes e (by simp))
      obtain ⟨g, h1, h2, h3⟩ := ih (appendTo acc (k e) e) (fun e' he' => hes e' (by simp [he']))
        (grouped_append h e)
      refine ⟨g, ?_, h2, h3.trans ?_⟩
      · unfold groupsByType
        simp only [typeShade_eq c hd, ← hk e d hd, h1]
      · refine ((appendTo_perm acc (k e) e).append_left l).trans ?_
        simp
  obtain ⟨cs, h1, h2, -⟩ := C53_type c hes none []
  obtain ⟨g, g1, g2, g3⟩ := key es [] hes (by intro p hp; simp at hp)
  simp only [List.flatMap_nil, List.append_nil] at g3
  refine ⟨cs, g, _, h1, g1, drawGroups_spec g2 ?_, ?_, ?_⟩
  · intro e he
    have he' := g3.mem_iff.1 he
    obtain ⟨d, hd⟩ := (Dict.exists_get?_iff _ _).2 (hes e he')
    rw [h2 e he' d hd, hk e d hd]
  · rw [List.map_map]; simpa [Function.comp_def] using g3
  · intro e s hes d hd
    obtain ⟨e', _, he'⟩ := List.mem_map.1 hes
    simp only [Prod.mk.injEq] at he'
    obtain ⟨rfl, rfl⟩ := he'
    exact hk _ _ hd

/-- C53. The same for forms, whose groups are tension and compression. -/
theorem C53_groups_form {D : Diagram R} {es : List (Int × Int)}
    (hes : ∀ e ∈ es, e ∈ D.edges.keys) :
    ∃ cs groups drawn, viewerFormColors D es [] = .ok cs ∧ groupsByForce D es [] = .ok groups ∧
      drawGroups cs groups = .ok drawn ∧ (drawn.map (·.1)).Perm es ∧
      ∀ e s, (e, s) ∈ drawn → ∀ d, D.edges.get? e = some d →
        s = if d.force < 0 then .compression else .tension := by
  classical
  let k : Int × Int → Shade := fun e =>
    match D.edges.get? e with
    | none => .node
    | some d => if d.force < 0 then .compression else .tension
  have hk : ∀ e d, D.edges.get? e = some d →
      k e = if d.force < 0 then .compression else .tension := by
    intro e d h; simp only [k, h]
  have hv : ∀ f : R, viewerFormShade f = if f < 0 then .compression else .tension := by
    intro f
    unfold viewerFormShade
    by_cases h : f < 0
    · simp [h]
    · simp [h, not_lt.1 h]
  have key : ∀ (es : List (Int × Int)) (acc : Dict Shade (List (Int × Int))),
      (∀ e ∈ es, e ∈ D.edges.keys) → Grouped k acc → ∃ groups, groupsByForce D es acc = .ok groups ∧
        Grouped k groups ∧ (groups.flatMap (·.2)).Perm (es ++ acc.flatMap (·.2)) := by
    intro es
    induction es with
    | nil => intro acc _ h; exact ⟨acc, rfl, h, by simp⟩
    | cons e l ih =>
      intro acc hes h
      obtain ⟨d, hd⟩ := (Dict.exists_get?_iff _ _).2 (hes e (by simp))
      obtain ⟨g, h1, h2, h3⟩ := ih (appendTo acc (k e) e) (fun e' he' => hes e' (by simp [he']))
        (grouped_append h e)
      refine ⟨g, ?_, h2, h3.trans ?_⟩
      · unfold groupsByForce
        simp only [edgeForce, hd, hv, ← hk e d hd, h1]
      · refine ((appendTo_perm acc (k e) e).append_left l).trans ?_
        simp
  obtain ⟨cp, cs, -, h1, h2⟩ := C53_form hes
  obtain ⟨g, g1, g2, g3⟩ := key es [] hes (by intro p hp; simp at hp)
  simp only [List.flatMap_nil, List.append_nil] at g3
  refine ⟨cs, g, _, h1, g1, drawGroups_spec g2 ?_, ?_, ?_⟩
  · intro e he
    have he' := g3.mem_iff.1 he
    obtain ⟨d, hd⟩ := (Dict.exists_get?_iff _ _).2 (hes e he')
    obtain ⟨a1, a2, a3⟩ := h2 e he' d hd
    rw [hk e d hd]
    rcases lt_trichotomy d.force 0 with h | h | h
    · rw [(a1 h).2, if_pos h]
    · rw [(a3 h).2, if_neg (by rw [h]; exact lt_irrefl _)]
    · rw [(a2 h).2, if_neg (not_lt.2 h.le)]
  · rw [List.map_map]; simpa [Function.comp_def] using g3
  · intro e s hes d hd
    obtain ⟨e', _, he'⟩ := List.mem_map.1 hes
    simp only [Prod.mk.injEq] at he'
    obtain ⟨rfl, rfl⟩ := he'
    exact hk _ _ hd

end

private theorem mem_appendTo {g : Dict Shade (List (Int × Int))} {k s : Shade} {e e' : Int × Int}
    {l : List (Int × Int)} (h : (s, l) ∈ appendTo g k e) (he : e' ∈ l) :
    s = k ∧ e' = e ∨ ∃ l', (s, l') ∈ g ∧ e' ∈ l' := by
  induction g with
  | nil =>
    rw [appendTo_nil] at h
    simp only [List.mem_singleton, Prod.mk.injEq] at h
    obtain ⟨rfl, rfl⟩ := h
    exact Or.inl ⟨rfl, by simpa using he⟩
  | cons q g ih =>
    obtain ⟨a, m⟩ := q
    rw [appendTo_cons] at h
    split_ifs at h with ha
    · rcases List.mem_cons.1 h with h | h
      · obtain ⟨rfl, rfl⟩ := Prod.mk.inj h
        rcases List.mem_append.1 he with he | he
        · exact Or.inr ⟨m, by simp, he⟩
        · exact Or.inl ⟨ha, by simpa using he⟩
      · exact Or.inr ⟨l, by simp [h], he⟩
    · rcases List.mem_cons.1 h with h | h
      · exact Or.inr ⟨l, by simp [h], he⟩
      · rcases ih h with h | ⟨l', h1, h2⟩
        · exact Or.inl h
        · exact Or.inr ⟨l', by simp [h1], h2⟩

/-- C53. Whatever the diagram, the viewer puts an edge into the group of a kind only if the edge
is of this kind: auxiliary edges, trail edges, and deviation edges in the two other groups. An edge
without a type joins no group. -/
theorem C53_group_kinds {D : Diagram R} {es : List (Int × Int)}
    {groups : Dict Shade (List (Int × Int))} (h : groupsByType D es [] = .ok groups) {s : Shade}
    {l : List (Int × Int)} (hl : (s, l) ∈ groups) {e : Int × Int} (he : e ∈ l) :
    e ∈ es ∧ (s = .auxiliary ∧ (∃ p ∈ D.auxTrails, p.2 = e) ∨
      (¬ ∃ p ∈ D.auxTrails, p.2 = e) ∧ ∃ d, D.edges.get? e = some d ∧
        (s = .trail ∧ d.type = .trail ∨
          (s = .deviation ∨ s = .indirect) ∧ d.type = .deviation)) := by
  have kind : ∀ e s, typeShade D none e = .ok (some s) →
      (s = .auxiliary ∧ (∃ p ∈ D.auxTrails, p.2 = e) ∨
      (¬ ∃ p ∈ D.auxTrails, p.2 = e) ∧ ∃ d, D.edges.get? e = some d ∧
        (s = .trail ∧ d.type = .trail ∨
          (s = .deviation ∨ s = .indirect) ∧ d.type = .deviation)) := by
    intro e s h
    unfold typeShade at h
    by_cases ha : ∃ p ∈ D.auxTrails, p.2 = e
    · rw [if_pos ((auxiliary_iff D e).2 ha)] at h
      simp only [Except.ok.injEq, Option.some.injEq] at h
      exact Or.inl ⟨h.symm, ha⟩
    · rw [if_neg (fun h => ha ((auxiliary_iff D e).1 h))] at h
      refine Or.inr ⟨ha, ?_⟩
      cases hd : D.edges.get? e with
      | none => simp [isTrailEdge, hd] at h
      | some d =>
        refine ⟨d, rfl, ?_⟩
        cases ht : d.type with
        | untyped =>
          simp only [isTrailEdge, hd, ht, isDirectDeviationEdge, isIndirectDeviationEdge,
            isDeviationEdgePredicate, isDeviationEdge] at h
          split_ifs at h <;> simp at h
        | trail => simp [isTrailEdge, hd, ht] at h; simp [h]
        | deviation =>
          right
          refine ⟨?_, rfl⟩
          simp only [isTrailEdge, hd, ht, isDirectDeviationEdge, isIndirectDeviationEdge,
            isDeviationEdgePredicate, isDeviationEdge] at h
          cases hs : D.edgeSequence e with
          | error err => simp [hs] at h; split_ifs at h <;> simp_all
          | ok ab =>
            simp [hs] at h
            split_ifs at h <;> simp_all
            split at h <;> simp_all
  have key : ∀ (es : List (Int × Int)) (acc groups : Dict Shade (List (Int × Int))),
      groupsByType D es acc = .ok groups → ∀ s l, (s, l) ∈ groups → ∀ e ∈ l,
        (e ∈ es ∧ typeShade D none e = .ok (some s)) ∨ ∃ l', (s, l') ∈ acc ∧ e ∈ l' := by
    intro es
    induction es with
    | nil =>
      intro acc groups h s l hl e he
      simp only [groupsByType, Except.ok.injEq] at h
      subst h
      exact Or.inr ⟨l, hl, he⟩
    | cons a es ih =>
      intro acc groups h s l hl e he
      unfold groupsByType at h
      cases hs : typeShade D none a with
      | error err => simp [hs] at h
      | ok o =>
        cases o with
        | none =>
          simp only [hs] at h
          rcases ih _ _ h s l hl e he with ⟨h1, h2⟩ | h1
          · exact Or.inl ⟨by simp [h1], h2⟩
          · exact Or.inr h1
        | some c =>
          simp only [hs] at h
          rcases ih _ _ h s l hl e he with ⟨h1, h2⟩ | ⟨l', h1, h2⟩
          · exact Or.inl ⟨by simp [h1], h2⟩
          · rcases mem_appendTo h1 h2 with ⟨rfl, rfl⟩ | h3
            · exact Or.inl ⟨by simp, hs⟩
            · exact Or.inr h3
  rcases key es [] groups h s l hl e he with ⟨h1, h2⟩ | ⟨_, h1, _⟩
  · exact ⟨h1, kind e s h2⟩
  · simp at h1

/-- C53. Supports, origins and other nodes of a topology diagram have three different colours. A
form shows the same nodes as supports and draws all others alike. -/
theorem C53_nodes (D : Diagram R) :
    (∀ a b, topologyNodeShade a = topologyNodeShade b → a = b) ∧
    (∀ n d, D.nodes.get? n = some d →
      (formNodeShade D n = .ok .support ↔ topologyNodeShade d.type = .support) ∧
      (formNodeShade D n = .ok .node ↔ d.type ≠ .support) ∧
      (topologyNodeShade d.type = .origin ↔ d.type = .origin)) ∧
    ∀ n, n ∉ D.nodes.keys → formNodeShade D n = .error .keyError := by
  refine ⟨by intro a b; cases a <;> cases b <;> simp [topologyNodeShade], ?_, ?_⟩
  · intro n d hd
    cases ht : d.type <;> simp [formNodeShade, isNodeSupport, hd, ht, topologyNodeShade]
  · intro n hn
    have : D.nodes.get? n = none := by
      cases h : D.nodes.get? n with
      | none => rfl
      | some d => exact absurd (Dict.mem_keys_of_get? h) hn
    simp [formNodeShade, isNodeSupport, this]

/-- An edge that lost its type joins no group. -/
example : groupsByType { (after key (nodes 3 ++ [trail 0 1, dev 1 2])) with
    edges := (after key (nodes 3 ++ [trail 0 1, dev 1 2])).edges.modify
      (1, 2) fun d => { d with type := .untyped } } [(0, 1), (1, 2)] [] = .ok [(.trail, [(0, 1)])] := by
  decide +kernel

/-- A support, an origin and a node between them. -/
example : [2, 0, 1].map (formNodeShade EqEx.directQ) = [.ok .support, .ok .node, .ok .node] ∧
    [2, 0, 1].map (fun n => (EqEx.directQ.nodes.get? n).map fun d => topologyNodeShade d.type) =
      [some .support, some .origin, some .node] := by decide +kernel

example : ∃ groups, groupsByType EqEx.indirectQ EqEx.indirectQ.edgeList [] = .ok groups ∧
    drawGroups [((0, 1), .trail), ((0, 4), .deviation), ((1, 4), .indirect), ((2, 1), .trail),
      ((3, 4), .trail)] groups = .ok [((0, 1), .trail), ((2, 1), .trail), ((3, 4), .trail),
      ((0, 4), .deviation), ((1, 4), .indirect)] :=
  ⟨[(.trail, [(0, 1), (2, 1), (3, 4)]), (.deviation, [(0, 4)]), (.indirect, [(1, 4)])],
    by decide +kernel, by decide +kernel⟩

/-- Trail edges of negative length and deviation edges of positive force. -/
example : stateColors EqEx.indirectQ none EqEx.indirectQ.edgeList [] =
    .ok [((0, 1), .compression), ((0, 4), .tension), ((1, 4), .tension), ((2, 1), .compression),
      ((3, 4), .compression)] := by decide +kernel

/-- Trail edges of a topology diagram have no force yet. -/
example : plotterFormColors EqEx.indirectQ [(0, 1), (0, 4)] [] = .ok [((0, 1), .edge), ((0, 4), .tension)] ∧
    viewerFormColors EqEx.indirectQ [(0, 1), (0, 4)] [] = .ok [((0, 1), .tension), ((0, 4), .tension)] := by
  decide +kernel

end Props
end CEM
