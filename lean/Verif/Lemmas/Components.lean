import Verif.Spec.Components
import Verif.Lemmas.Placement
import Verif.Lemmas.Sequences

/-!
# Lemmas about the Grasshopper components
-/

set_option linter.unusedSectionVars false

namespace CEM
namespace Component
open Diagram Spec

variable {R : Type}

section
variable [Field R] [DecidableEq R] [PySqrt R] (gkey : Vec R → String)

/-- What is to be done for a list of calls: the effect, or the first exception. -/
def Performs (D : Diagram R) (ops : List (Op R)) (r : Except PyErr (Diagram R)) : Prop :=
  (∀ err, r = .error err ↔ FirstFailure gkey err D ops) ∧
  (∀ D', r = .ok D' ↔ D' = run gkey D ops ∧ ∀ err, ¬ FirstFailure gkey err D ops)

theorem performs_nil (D : Diagram R) : Performs gkey D [] (.ok D) := by
  refine ⟨by simp [FirstFailure], fun D' => ?_⟩
  simp [FirstFailure, run, eq_comm]

theorem fails_unique {D : Diagram R} {op : Op R} {a b : PyErr} (ha : Fails gkey D a op)
    (hb : Fails gkey D b op) : a = b := by
  cases op <;> simp only [Fails] at ha hb <;> simp_all

theorem performs_cons {D : Diagram R} {op : Op R} {ops : List (Op R)}
    {r : Except PyErr (Diagram R)} (hf : ∀ err, ¬ Fails gkey D err op)
    (h : Performs gkey (step gkey D op) ops r) : Performs gkey D (op :: ops) r := by
  refine ⟨fun err => ?_, fun D' => ?_⟩
  · rw [h.1 err]; simp [FirstFailure, hf]
  · rw [h.2 D']; simp [FirstFailure, hf, run]

theorem performs_fails {D : Diagram R} {op : Op R} {ops : List (Op R)} {err : PyErr}
    (hf : Fails gkey D err op) : Performs gkey D (op :: ops) (.error err) := by
  refine ⟨fun e => ?_, fun D' => ?_⟩
  · simp only [Except.error.injEq, FirstFailure]
    constructor
    · rintro rfl; exact Or.inl hf
    · rintro (h | ⟨h, _⟩)
      · exact fails_unique gkey hf h
      · exact absurd hf (h _)
  · simp only [reduceCtorEq, false_iff, not_and, not_forall, not_not]
    exact fun _ => ⟨err, Or.inl hf⟩

theorem firstFailure_append {D : Diagram R} {a b : List (Op R)} {err : PyErr} :
    FirstFailure gkey err D (a ++ b) ↔ FirstFailure gkey err D a ∨
      ((∀ e, ¬ FirstFailure gkey e D a) ∧ FirstFailure gkey err (run gkey D a) b) := by
  induction a generalizing D with
  | nil => simp [FirstFailure, run]
  | cons op a ih =>
    simp only [List.cons_append, FirstFailure, ih, run, List.foldl_cons]
    constructor
    · rintro (h | ⟨h, h' | ⟨h1, h2⟩⟩)
      · exact Or.inl (Or.inl h)
      · exact Or.inl (Or.inr ⟨h, h'⟩)
      · refine Or.inr ⟨fun e he => ?_, h2⟩
        rcases he with he | ⟨_, he⟩
        · exact h e he
        · exact h1 e he
    · rintro ((h | ⟨h, h'⟩) | ⟨h1, h2⟩)
      · exact Or.inl h
      · exact Or.inr ⟨h, Or.inl h'⟩
      · have hf : ∀ e, ¬ Fails gkey D e op := fun e he => h1 e (Or.inl he)
        exact Or.inr ⟨hf, Or.inr ⟨fun e he => h1 e (Or.inr ⟨hf, he⟩), h2⟩⟩

theorem performs_append_error {D : Diagram R} {a b : List (Op R)} {err : PyErr}
    (h : Performs gkey D a (.error err)) : Performs gkey D (a ++ b) (.error err) := by
  have hf : FirstFailure gkey err D a := (h.1 err).1 rfl
  refine ⟨fun e => ?_, fun D' => ?_⟩
  · rw [firstFailure_append, h.1 e]
    constructor
    · exact Or.inl
    · rintro (h' | ⟨h', _⟩)
      · exact h'
      · exact absurd hf (h' _)
  · simp only [reduceCtorEq, false_iff, not_and, not_forall, not_not]
    exact fun _ => ⟨err, (firstFailure_append gkey).2 (Or.inl hf)⟩

theorem performs_append_ok {D D1 : Diagram R} {a b : List (Op R)} {r : Except PyErr (Diagram R)}
    (h : Performs gkey D a (.ok D1)) (h' : Performs gkey D1 b r) : Performs gkey D (a ++ b) r := by
  obtain ⟨rfl, hn⟩ := (h.2 D1).1 rfl
  refine ⟨fun e => ?_, fun D' => ?_⟩
  · rw [firstFailure_append, h'.1 e]; simp [hn]
  · rw [h'.2 D']
    simp only [firstFailure_append, hn, not_false_eq_true, implies_true, true_and, false_or,
      run, List.foldl_append]

theorem performs_each {α β : Type} (f : Diagram R → α → Diagram R × Except PyErr β)
    (op : α → Op R) (hs : ∀ D a, step gkey D (op a) = (f D a).1)
    (hf : ∀ D a err, Fails gkey D err (op a) ↔ (f D a).2 = .error err) (l : List (Option α))
    (D : Diagram R) :
    Performs gkey D ((l.filterMap id).map op) (eachGiven f D l) := by
  induction l generalizing D with
  | nil => exact performs_nil gkey D
  | cons x l ih =>
    cases x with
    | none => exact ih D
    | some a =>
      simp only [List.filterMap_cons, id, List.map_cons, eachGiven]
      cases h : f D a with
      | mk D' r =>
        cases r with
        | error err =>
          exact performs_fails gkey ((hf D a err).2 (by rw [h]))
        | ok b =>
          refine performs_cons gkey (fun err => ?_) ?_
          · rw [hf, h]; simp
          · rw [hs, h]; exact ih D'

theorem given_iff {α : Type} (l : Option (List α)) : given l = !(l.getD []).isEmpty := by
  rcases l with _ | (_ | ⟨a, l⟩) <;> rfl

theorem performs_parts (P : Parts R) :
    Performs gkey Diagram.empty (calls P) (assembleParts gkey P) := by
  unfold calls assembleParts
  have h1 := performs_each gkey (fun D e => D.addEdge gkey e) .addEdge (fun _ _ => rfl)
    (fun _ _ _ => Iff.rfl) (P.trailEdges.getD []) Diagram.empty
  cases hD1 : eachGiven (fun D e => D.addEdge gkey e) Diagram.empty (P.trailEdges.getD []) with
  | error err => rw [hD1] at h1; exact performs_append_error gkey h1
  | ok D1 =>
    rw [hD1] at h1
    refine performs_append_ok gkey h1 ?_
    have h2 := performs_each gkey (fun D e => D.addEdge gkey e) .addEdge (fun _ _ => rfl)
      (fun _ _ _ => Iff.rfl) (P.deviationEdges.getD []) D1
    dsimp only
    cases hD2 : eachGiven (fun D e => D.addEdge gkey e) D1 (P.deviationEdges.getD []) with
    | error err => rw [hD2] at h2; exact performs_append_error gkey h2
    | ok D2 =>
      rw [hD2] at h2
      refine performs_append_ok gkey h2 ?_
      have h3 := performs_each gkey (fun D l => D.addLoad gkey l.1 l.2) (fun l => .addLoad l.1 l.2)
        (fun _ _ => rfl) (fun _ _ _ => Iff.rfl) (P.loads.getD []) D2
      dsimp only
      cases hD3 : eachGiven (fun D l => D.addLoad gkey l.1 l.2) D2 (P.loads.getD []) with
      | error err => rw [hD3] at h3; exact performs_append_error gkey h3
      | ok D3 =>
        rw [hD3] at h3
        refine performs_append_ok gkey h3 ?_
        exact performs_each gkey (fun D s => D.addSupport gkey s) .addSupport
          (fun _ _ => rfl) (fun _ _ _ => Iff.rfl) (P.supports.getD []) D3

theorem performs_assemble (order : List Int → List Int) (P : Parts R) :
    Performs gkey Diagram.empty (calls P ++ buildCall order P) (assemble gkey order P) := by
  have h := performs_parts gkey P
  unfold assemble
  cases hD : assembleParts gkey P with
  | error err => rw [hD] at h; exact performs_append_error gkey h
  | ok D =>
    rw [hD] at h
    refine performs_append_ok gkey h ?_
    unfold buildCall
    simp only [given_iff]
    split_ifs with h1 h2
    · unfold build
      rw [if_pos h2]
      cases hb : D.buildTrailsAux gkey order with
      | mk D' r =>
        cases r with
        | error err => exact performs_fails gkey (by simp [Fails, hb])
        | ok u =>
          refine performs_cons gkey (by simp [Fails, hb]) ?_
          simp only [step, hb]; exact performs_nil gkey D'
    · unfold build
      rw [if_neg h2]
      cases hb : D.buildTrails with
      | mk D' r =>
        cases r with
        | error err => exact performs_fails gkey (by simp [Fails, hb])
        | ok u =>
          refine performs_cons gkey (by simp [Fails, hb]) ?_
          simp only [step, hb]; exact performs_nil gkey D'
    · exact performs_nil gkey D

/-! ## What the assembled diagram contains -/

/-- Diagrams made of edges between points only: nodes have no data but a position, and every
node is found at its position. -/
structure Placed (D : Diagram R) : Prop where
  wf : WF D
  fresh : ∀ n d, D.nodes.get? n = some d → d = freshNode d.pos
  found : ∀ g n, D.gkeyNode.get? g = some n ↔ ∃ d, D.nodes.get? n = some d ∧ gkey d.pos = g

theorem Placed.empty : Placed gkey (Diagram.empty : Diagram R) :=
  ⟨WF.empty, by simp [Diagram.empty], by simp [Diagram.empty]⟩

theorem Placed.endKey {D : Diagram R} (h : Placed gkey D) (p : Vec R) :
    Placed gkey (D.endKey gkey (.point p)).1 := by
  cases hp : D.gkeyNode.get? (gkey p) with
  | some n =>
    have he : D.endKey gkey (.point p) = (D, n) := by simp [Diagram.endKey, nodeKey, hp]
    rw [he]; exact h
  | none =>
    have he : D.endKey gkey (.point p) = D.addNode gkey none p := by
      simp [Diagram.endKey, nodeKey, hp]
    have hfresh : D.nodes.get? (D.newKey none) = none := by
      rw [Dict.get?_eq_none_iff]
      intro hm; have := h.wf.le_max _ hm; simp only [newKey] at this; omega
    rw [he]
    refine ⟨h.wf.addNode gkey none p, ?_, ?_⟩
    · intro n d hd
      simp only [Diagram.addNode, Dict.get?_set] at hd
      split at hd
      · obtain rfl := Option.some.inj hd
        simp [placedNode, hfresh, freshNode]
      · exact h.fresh n d hd
    · intro g n
      simp only [Diagram.addNode, Dict.get?_set]
      by_cases hg : gkey p = g
      · subst hg
        simp only [if_true, Option.some.injEq]
        constructor
        · rintro rfl
          refine ⟨_, if_pos rfl, ?_⟩
          simp [placedNode, hfresh, freshNode]
        · rintro ⟨d, hd, hdg⟩
          split at hd
          · assumption
          · have := (h.found _ n).2 ⟨d, hd, hdg⟩
            rw [hp] at this; simp at this
      · rw [if_neg hg, h.found]
        constructor
        · rintro ⟨d, hd, hdg⟩
          refine ⟨d, ?_, hdg⟩
          rw [if_neg]
          · exact hd
          · rintro rfl; rw [hfresh] at hd; simp at hd
        · rintro ⟨d, hd, hdg⟩
          split at hd
          · obtain rfl := Option.some.inj hd
            simp only [placedNode, hfresh, freshNode] at hdg
            exact absurd hdg hg
          · exact ⟨d, hd, hdg⟩

theorem Placed.addEdge {D : Diagram R} (h : Placed gkey D) (e : EdgeElem R) {p q : Vec R}
    (hu : e.u = .point p) (hv : e.v = .point q) : Placed gkey (D.addEdge gkey e).1 := by
  have h2 := (h.endKey gkey p).endKey gkey q
  have hw := h.wf.addEdge gkey e
  rw [← hu, ← hv] at h2
  unfold Diagram.addEdge at hw ⊢
  dsimp only at hw ⊢
  split_ifs at hw ⊢
  · exact ⟨hw, h2.fresh, h2.found⟩
  · exact h2

theorem Placed.run {D : Diagram R} (h : Placed gkey D) (es : List (EdgeElem R))
    (hp : ∀ e ∈ es, ∃ p q, e.u = .point p ∧ e.v = .point q) :
    Placed gkey (Spec.run gkey D (es.map .addEdge)) := by
  induction es generalizing D with
  | nil => exact h
  | cons e es ih =>
    obtain ⟨p, q, hu, hv⟩ := hp e List.mem_cons_self
    exact ih (h.addEdge gkey e hu hv) fun e' he' => hp e' (List.mem_cons_of_mem _ he')

/-- An end given by a point is found afterwards, and what was found before still is. -/
theorem endKey_found (D : Diagram R) (p : Vec R) :
    (D.endKey gkey (.point p)).1.gkeyNode.get? (gkey p) = some (D.endKey gkey (.point p)).2 ∧
    (D.endKey gkey (.point p)).1.edges = D.edges ∧
    ∀ g n, D.gkeyNode.get? g = some n → (D.endKey gkey (.point p)).1.gkeyNode.get? g = some n := by
  cases hp : D.gkeyNode.get? (gkey p) with
  | some n =>
    have he : D.endKey gkey (.point p) = (D, n) := by simp [Diagram.endKey, nodeKey, hp]
    rw [he]; exact ⟨hp, rfl, fun _ _ h => h⟩
  | none =>
    have he : D.endKey gkey (.point p) = D.addNode gkey none p := by
      simp [Diagram.endKey, nodeKey, hp]
    rw [he]
    refine ⟨by simp [Diagram.addNode], rfl, fun g n h => ?_⟩
    simp only [Diagram.addNode, Dict.get?_set]
    rw [if_neg, h]
    rintro rfl; rw [hp] at h; simp at h

/-- Adding an edge between points stores it at the nodes that are found at its ends. -/
theorem addEdge_points {D : Diagram R} (h : Placed gkey D) (e : EdgeElem R) {p q : Vec R}
    (hu : e.u = .point p) (hv : e.v = .point q) :
    ∃ u v, (D.addEdge gkey e).1.gkeyNode.get? (gkey p) = some u ∧
      (D.addEdge gkey e).1.gkeyNode.get? (gkey q) = some v ∧
      (D.addEdge gkey e).1.edges =
        D.edges.set (u, v) (EdgeData.update ((D.edges.get? (u, v)).getD freshEdge) e) ∧
      ∀ g n, D.gkeyNode.get? g = some n → (D.addEdge gkey e).1.gkeyNode.get? g = some n := by
  obtain ⟨a1, a2, a3⟩ := endKey_found gkey D p
  obtain ⟨b1, b2, b3⟩ := endKey_found gkey (D.endKey gkey (.point p)).1 q
  have h2 := (h.endKey gkey p).endKey gkey q
  have a1' := b3 _ _ a1
  obtain ⟨du, hdu, -⟩ := (h2.found _ _).1 a1'
  obtain ⟨dv, hdv, -⟩ := (h2.found _ _).1 b1
  have hh : (((D.endKey gkey (.point p)).1.endKey gkey (.point q)).1.nodes.has
      (D.endKey gkey (.point p)).2 &&
      ((D.endKey gkey (.point p)).1.endKey gkey (.point q)).1.nodes.has
        ((D.endKey gkey (.point p)).1.endKey gkey (.point q)).2) = true := by
    simp [Dict.has_iff, Dict.mem_keys_of_get? hdu, Dict.mem_keys_of_get? hdv]
  refine ⟨(D.endKey gkey (.point p)).2, ((D.endKey gkey (.point p)).1.endKey gkey (.point q)).2,
    ?_, ?_, ?_, ?_⟩ <;> unfold Diagram.addEdge <;> simp only [hu, hv, hh, if_true]
  · exact a1'
  · exact b1
  · rw [b2, a2]
  · exact fun g n hg => b3 _ _ (a3 _ _ hg)

/-- The last edge that is given between two points is stored with its data. -/
theorem run_edge_data {D : Diagram R} (h : Placed gkey D) (l1 l2 : List (EdgeElem R))
    (el : EdgeElem R) (hp : ∀ e ∈ l1 ++ el :: l2, ∃ p q, e.u = .point p ∧ e.v = .point q)
    {p q : Vec R} (hu : el.u = .point p) (hv : el.v = .point q)
    (hlast : ∀ e ∈ l2, ∀ p' q', e.u = .point p' → e.v = .point q' → gkey p' = gkey p →
      gkey q' ≠ gkey q) :
    ∃ u v d, (Spec.run gkey D ((l1 ++ el :: l2).map .addEdge)).gkeyNode.get? (gkey p) = some u ∧
      (Spec.run gkey D ((l1 ++ el :: l2).map .addEdge)).gkeyNode.get? (gkey q) = some v ∧
      (Spec.run gkey D ((l1 ++ el :: l2).map .addEdge)).edges.get? (u, v) =
        some (EdgeData.update d el) := by
  have h1 := h.run gkey l1 fun e he => hp e (by simp [he])
  have hrun : Spec.run gkey D ((l1 ++ el :: l2).map .addEdge) =
      Spec.run gkey ((Spec.run gkey D (l1.map .addEdge)).addEdge gkey el).1 (l2.map .addEdge) := by
    simp [Spec.run, Spec.step]
  rw [hrun]
  set E := Spec.run gkey D (l1.map .addEdge) with hE
  obtain ⟨u, v, a1, a2, a3, -⟩ := addEdge_points gkey h1 el hu hv
  have hpl := h1.addEdge gkey el hu hv
  have hget : (E.addEdge gkey el).1.edges.get? (u, v) =
      some (EdgeData.update ((E.edges.get? (u, v)).getD freshEdge) el) := by
    rw [a3, Dict.get?_set_self]
  refine ⟨u, v, (E.edges.get? (u, v)).getD freshEdge, ?_⟩
  generalize (E.addEdge gkey el).1 = F at a1 a2 hpl hget
  have hp2 : ∀ e ∈ l2, ∃ p q, e.u = .point p ∧ e.v = .point q := fun e he => hp e (by simp [he])
  clear hp hrun a3
  induction l2 generalizing F with
  | nil => exact ⟨a1, a2, hget⟩
  | cons e l ih =>
    obtain ⟨p', q', hu', hv'⟩ := hp2 e (by simp)
    obtain ⟨u', v', b1, b2, b3, b4⟩ := addEdge_points gkey hpl e hu' hv'
    have hne : (u', v') ≠ (u, v) := by
      intro heq
      obtain ⟨rfl, rfl⟩ := Prod.mk.inj heq
      have hpl' := hpl.addEdge gkey e hu' hv'
      have hsame : ∀ g g' n, (F.addEdge gkey e).1.gkeyNode.get? g = some n →
          (F.addEdge gkey e).1.gkeyNode.get? g' = some n → g = g' := by
        intro g g' n hg hg'
        obtain ⟨d, hd, h1⟩ := (hpl'.found g n).1 hg
        obtain ⟨d', hd', h2⟩ := (hpl'.found g' n).1 hg'
        rw [hd] at hd'; cases hd'
        exact h1.symm.trans h2
      exact hlast e (by simp) p' q' hu' hv' (hsame _ _ _ b1 (b4 _ _ a1)) (hsame _ _ _ b2 (b4 _ _ a2))
    exact ih (fun e' he' => hlast e' (by simp [he'])) _ (b4 _ _ a1) (b4 _ _ a2)
      (hpl.addEdge gkey e hu' hv') (by simp only [Spec.step]; rw [b3, Dict.get?_set_ne _ _ hne, hget])
      (fun e' he' => hp2 e' (by simp [he']))

theorem addEdge_ok {D : Diagram R} (w : WF D) (e : EdgeElem R) {p q : Vec R}
    (hu : e.u = .point p) (hv : e.v = .point q) (err : PyErr) :
    (D.addEdge gkey e).2 ≠ .error err := by
  have key : ∀ (D : Diagram R) (_ : WF D) (p : Vec R),
      (D.endKey gkey (.point p)).2 ∈ (D.endKey gkey (.point p)).1.nodes.keys := by
    intro D w p
    cases hp : D.gkeyNode.get? (gkey p) with
    | some n =>
      have he : D.endKey gkey (.point p) = (D, n) := by simp [Diagram.endKey, nodeKey, hp]
      rw [he]; exact w.lookup_mem _ _ hp
    | none =>
      have he : D.endKey gkey (.point p) = D.addNode gkey none p := by
        simp [Diagram.endKey, nodeKey, hp]
      rw [he]; exact Dict.mem_keys_set.2 (Or.inl rfl)
  have mono : ∀ (D : Diagram R) (p : Vec R) (n : Int), n ∈ D.nodes.keys →
      n ∈ (D.endKey gkey (.point p)).1.nodes.keys := by
    intro D p n hn
    unfold Diagram.endKey
    split
    · exact hn
    · exact Dict.mem_keys_set.2 (Or.inr hn)
  have h1 := key D w p
  have h2 := key _ (w.endKey gkey (.point p)) q
  unfold Diagram.addEdge
  rw [hu, hv]
  dsimp only
  rw [if_pos]
  · simp
  · rw [Bool.and_eq_true, Dict.has_iff, Dict.has_iff]
    exact ⟨mono _ q _ h1, h2⟩

theorem edges_no_failure {D : Diagram R} (w : WF D) (es : List (EdgeElem R))
    (hp : ∀ e ∈ es, ∃ p q, e.u = .point p ∧ e.v = .point q) (err : PyErr) :
    ¬ FirstFailure gkey err D (es.map .addEdge) := by
  induction es generalizing D with
  | nil => exact id
  | cons e es ih =>
    obtain ⟨p, q, hu, hv⟩ := hp e List.mem_cons_self
    rintro (h | ⟨_, h⟩)
    · exact addEdge_ok gkey w e hu hv err h
    · exact ih (w.step gkey (.addEdge e)) (fun e' he' => hp e' (List.mem_cons_of_mem _ he')) h

/-- The effect of loads on a diagram. -/
theorem run_loads {D : Diagram R} (w : WF D) (ls : List (NodeRef R × Vec R))
    (hp : ∀ l ∈ ls, ∃ p, l.1 = .point p)
    (hinj : ∀ g g' n, D.gkeyNode.get? g = some n → D.gkeyNode.get? g' = some n → g = g')
    (hf : ∀ l ∈ ls, ∀ p, l.1 = .point p → ∃ n, D.gkeyNode.get? (gkey p) = some n) :
    let D' := Spec.run gkey D (ls.map fun l => .addLoad l.1 l.2)
    (∀ err, ¬ FirstFailure gkey err D (ls.map fun l => .addLoad l.1 l.2)) ∧
    D' = { D with nodes := D'.nodes } ∧ D'.nodes.keys = D.nodes.keys ∧
    (∀ g n d, D.gkeyNode.get? g = some n → D.nodes.get? n = some d →
      D'.nodes.get? n = some { d with load := (lastLoad gkey g ls).getD d.load }) := by
  induction ls generalizing D with
  | nil => exact ⟨fun _ => id, rfl, rfl, fun g n d _ hd => by simpa [lastLoad, Spec.run] using hd⟩
  | cons l ls ih =>
    obtain ⟨r, q⟩ := l
    obtain ⟨p, hr⟩ := hp _ List.mem_cons_self
    obtain rfl : r = .point p := hr
    obtain ⟨n, hn⟩ := hf _ List.mem_cons_self p rfl
    obtain ⟨d, hd⟩ := (Dict.exists_get?_iff _ _).2 (w.lookup_mem _ _ hn)
    have hE : D.addLoad gkey (.point p) q =
        ({ D with nodes := D.nodes.set n { d with load := q } }, .ok ()) := by
      simp [Diagram.addLoad, nodeKey, hn, hd]
    have hstep : Spec.step gkey D (.addLoad (.point p) q) =
        { D with nodes := D.nodes.set n { d with load := q } } := by
      simp only [Spec.step, hE]
    have hfail : ∀ err, ¬ Fails gkey D err (.addLoad (.point p) q) := by simp [Fails, hE]
    obtain ⟨i1, i2, i3, i4⟩ := ih (D := { D with nodes := D.nodes.set n { d with load := q } })
      (by rw [← hstep]; exact w.step gkey _)
      (fun l hl => hp l (List.mem_cons_of_mem _ hl)) hinj
      (fun l hl => hf l (List.mem_cons_of_mem _ hl))
    dsimp only at i1 i2 i3 i4
    simp only [List.map_cons, FirstFailure, Spec.run, List.foldl_cons, hstep]
    refine ⟨?_, ?_, ?_, ?_⟩
    · rintro err (h | ⟨_, h⟩)
      · exact hfail err h
      · exact i1 err h
    · exact i2
    · exact i3.trans (Dict.keys_set_of_mem _ (Dict.mem_keys_of_get? hd))
    · intro g m d' hg hm
      by_cases he : n = m
      · subst he
        obtain rfl := hinj _ _ n hn hg
        rw [hd] at hm; obtain rfl := Option.some.inj hm
        refine (i4 _ n { d with load := q } hn (Dict.get?_set_self _ _ _)).trans ?_
        simp only [lastLoad, if_true]
        cases lastLoad gkey (gkey p) ls <;> rfl
      · have hne : gkey p ≠ g := by
          rintro rfl; rw [hn] at hg; exact he (Option.some.inj hg)
        refine (i4 g m d' hg (by rw [Dict.get?_set_ne _ _ he]; exact hm)).trans ?_
        simp only [lastLoad, if_neg hne]
        cases lastLoad gkey g ls <;> rfl

/-- The effect of supports on a diagram. -/
theorem run_supports {D : Diagram R} (w : WF D) (ss : List (NodeRef R))
    (hp : ∀ s ∈ ss, ∃ p, s = .point p)
    (hf : ∀ s ∈ ss, ∀ p, s = .point p → ∃ n, D.gkeyNode.get? (gkey p) = some n) :
    let D' := Spec.run gkey D (ss.map .addSupport)
    (∀ err, ¬ FirstFailure gkey err D (ss.map .addSupport)) ∧
    D' = { D with nodes := D'.nodes } ∧ D'.nodes.keys = D.nodes.keys ∧
    (∀ n d, D.nodes.get? n = some d →
      ((∃ p, .point p ∈ ss ∧ D.gkeyNode.get? (gkey p) = some n) →
        D'.nodes.get? n = some { d with type := .support }) ∧
      ((∀ p, .point p ∈ ss → D.gkeyNode.get? (gkey p) ≠ some n) → D'.nodes.get? n = some d)) := by
  induction ss generalizing D with
  | nil =>
    refine ⟨fun _ => id, rfl, rfl, fun n d hd => ⟨?_, fun _ => hd⟩⟩
    rintro ⟨p, hp, _⟩; simp at hp
  | cons s ss ih =>
    obtain ⟨p, rfl⟩ := hp _ List.mem_cons_self
    obtain ⟨n, hn⟩ := hf _ List.mem_cons_self p rfl
    obtain ⟨d, hd⟩ := (Dict.exists_get?_iff _ _).2 (w.lookup_mem _ _ hn)
    have hE : D.addSupport gkey (.point p) =
        ({ D with nodes := D.nodes.set n { d with type := .support } }, .ok ()) := by
      simp [Diagram.addSupport, nodeKey, hn, hd]
    have hstep : Spec.step gkey D (.addSupport (.point p)) =
        { D with nodes := D.nodes.set n { d with type := .support } } := by
      simp only [Spec.step, hE]
    have hfail : ∀ err, ¬ Fails gkey D err (.addSupport (.point p)) := by simp [Fails, hE]
    obtain ⟨i1, i2, i3, i4⟩ := ih (D := { D with nodes := D.nodes.set n { d with type := .support } })
      (by rw [← hstep]; exact w.step gkey _)
      (fun l hl => hp l (List.mem_cons_of_mem _ hl))
      (fun l hl => hf l (List.mem_cons_of_mem _ hl))
    dsimp only at i1 i2 i3 i4
    simp only [List.map_cons, FirstFailure, Spec.run, List.foldl_cons, hstep]
    refine ⟨?_, i2, i3.trans (Dict.keys_set_of_mem _ (Dict.mem_keys_of_get? hd)), ?_⟩
    · rintro err (h | ⟨_, h⟩)
      · exact hfail err h
      · exact i1 err h
    · intro m d' hm
      by_cases he : n = m
      · subst he
        rw [hd] at hm; obtain rfl := Option.some.inj hm
        obtain ⟨a, b⟩ := i4 n { d with type := .support } (Dict.get?_set_self _ _ _)
        refine ⟨fun _ => ?_, fun h => absurd hn (h p List.mem_cons_self)⟩
        by_cases hx : ∃ p, .point p ∈ ss ∧ D.gkeyNode.get? (gkey p) = some n
        · exact a hx
        · exact b fun p hp hc => hx ⟨p, hp, hc⟩
      · obtain ⟨a, b⟩ := i4 m d' (by rw [Dict.get?_set_ne _ _ he]; exact hm)
        refine ⟨?_, fun h => b fun p hp => h p (List.mem_cons_of_mem _ hp)⟩
        rintro ⟨p', hp', hg⟩
        refine a ⟨p', ?_, hg⟩
        rcases List.mem_cons.1 hp' with h | h
        · cases h; rw [hn] at hg; exact absurd (Option.some.inj hg) he
        · exact h

/-- Loads and supports never change the lookup of points or the edges. -/
theorem firstFailure_missing {D : Diagram R} (w : WF D) (ls : List (NodeRef R × Vec R))
    (ss : List (NodeRef R)) (hpl : ∀ l ∈ ls, ∃ p, l.1 = .point p) (hps : ∀ s ∈ ss, ∃ p, s = .point p)
    (h : (∃ l ∈ ls, ∃ p, l.1 = .point p ∧ D.gkeyNode.get? (gkey p) = none) ∨
      ∃ p, .point p ∈ ss ∧ D.gkeyNode.get? (gkey p) = none) :
    FirstFailure gkey .valueError D ((ls.map fun l => .addLoad l.1 l.2) ++ ss.map .addSupport) := by
  induction ls generalizing D with
  | nil =>
    replace h : ∃ p, .point p ∈ ss ∧ D.gkeyNode.get? (gkey p) = none := by simpa using h
    simp only [List.map_nil, List.nil_append]
    clear hpl
    induction ss generalizing D with
    | nil => simp at h
    | cons s ss ih =>
      obtain ⟨p, rfl⟩ := hps _ List.mem_cons_self
      cases hn : D.gkeyNode.get? (gkey p) with
      | none => exact Or.inl (by simp [Fails, Diagram.addSupport, nodeKey, hn])
      | some n =>
        obtain ⟨d, hd⟩ := (Dict.exists_get?_iff _ _).2 (w.lookup_mem _ _ hn)
        have hE : D.addSupport gkey (.point p) =
            ({ D with nodes := D.nodes.set n { d with type := .support } }, .ok ()) := by
          simp [Diagram.addSupport, nodeKey, hn, hd]
        have hstep : Spec.step gkey D (.addSupport (.point p)) =
            { D with nodes := D.nodes.set n { d with type := .support } } := by
          simp only [Spec.step, hE]
        refine Or.inr ⟨by simp [Fails, hE], ih (fun s hs => hps s
          (List.mem_cons_of_mem _ hs)) (w.step gkey _) ?_⟩
        obtain ⟨p', hp', hg⟩ := h
        refine ⟨p', ?_, by rw [hstep]; exact hg⟩
        rcases List.mem_cons.1 hp' with hc | hc
        · cases hc; rw [hn] at hg; simp at hg
        · exact hc
  | cons l ls ih =>
    obtain ⟨r, q⟩ := l
    obtain ⟨p, hr⟩ := hpl _ List.mem_cons_self
    obtain rfl : r = .point p := hr
    cases hn : D.gkeyNode.get? (gkey p) with
    | none => exact Or.inl (by simp [Fails, Diagram.addLoad, nodeKey, hn])
    | some n =>
      obtain ⟨d, hd⟩ := (Dict.exists_get?_iff _ _).2 (w.lookup_mem _ _ hn)
      have hE : D.addLoad gkey (.point p) q =
          ({ D with nodes := D.nodes.set n { d with load := q } }, .ok ()) := by
        simp [Diagram.addLoad, nodeKey, hn, hd]
      have hstep : Spec.step gkey D (.addLoad (.point p) q) =
          { D with nodes := D.nodes.set n { d with load := q } } := by
        simp only [Spec.step, hE]
      refine Or.inr ⟨by simp [Fails, hE], ih (w.step gkey _) (fun s hs => hpl s
        (List.mem_cons_of_mem _ hs)) ?_⟩
      rw [hstep]
      rcases h with ⟨l, hl, p', hp', hg⟩ | h
      · refine Or.inl ⟨l, ?_, p', hp', hg⟩
        rcases List.mem_cons.1 hl with rfl | hc
        · cases hp'; rw [hn] at hg; simp at hg
        · exact hc
      · exact Or.inr h

end
end Component
end CEM
