import Verif.Model.Labels
import Verif.Props.TrailEdges
import Verif.Props.Queries

/-!
# Property C63: text labels
-/

set_option linter.unusedSectionVars false
set_option linter.unusedSimpArgs false

namespace CEM
namespace Props
open Diagram Spec Labels TrailEx

local instance labelSqrt : PySqrt ℚ := ⟨id⟩

variable {R : Type}

/-! ## The loop -/

section
variable {K : Type} [DecidableEq K]

private theorem labelLoop_ok {format : K → K → Except PyErr String} {text : K → String} {l : List K}
    (h : ∀ k ∈ l, format k k = .ok (text k)) (acc : Dict K String) :
    ∃ d, labelLoop format l acc = .ok d ∧
      ∀ k, d.get? k = if k ∈ l then some (text k) else acc.get? k := by
  induction l generalizing acc with
  | nil => exact ⟨acc, rfl, by simp⟩
  | cons a l ih =>
    obtain ⟨d, h1, h2⟩ := ih (fun k hk => h k (List.mem_cons_of_mem _ hk)) (acc.set a (text a))
    refine ⟨d, by simp only [labelLoop, h a List.mem_cons_self, h1], fun k => ?_⟩
    rw [h2]
    by_cases hk : k ∈ l
    · simp [hk]
    · by_cases ha : k = a
      · subst ha; simp [hk, Dict.get?_set]
      · simp [hk, ha, Dict.get?_set, Ne.symm ha]

private theorem labelLoop_error {format : K → K → Except PyErr String} {err : PyErr} {l : List K}
    {pre : List K} {a : K} {post : List K} (hl : l = pre ++ a :: post)
    (hpre : ∀ k ∈ pre, ∃ t, format k k = .ok t) (ha : format a a = .error err) (acc : Dict K String) :
    labelLoop format l acc = .error err := by
  subst hl
  induction pre generalizing acc with
  | nil => simp [labelLoop, ha]
  | cons b pre ih =>
    obtain ⟨t, ht⟩ := hpre b List.mem_cons_self
    simp only [List.cons_append, labelLoop, ht]
    exact ih (fun k hk => hpre k (List.mem_cons_of_mem _ hk)) _

/-- The labels are exactly the given texts of the given keys. -/
def LabelsAre (r : Except PyErr (Option (Dict K String))) (keys : List K) (text : K → String) : Prop :=
  ∃ d, r = .ok (some d) ∧ ∀ k t, d.get? k = some t ↔ k ∈ keys ∧ t = text k

private theorem labels_are {table : String → Option (K → K → Except PyErr String)} {tag : String}
    {keys : List K} {format : K → K → Except PyErr String} {text : K → String}
    (ht : table tag = some format) (h : ∀ k ∈ keys, format k k = .ok (text k)) :
    LabelsAre (labels table tag keys) keys text := by
  obtain ⟨d, h1, h2⟩ := labelLoop_ok h []
  refine ⟨d, by simp only [labels, ht, h1], fun k t => ?_⟩
  rw [h2]
  by_cases hk : k ∈ keys
  · simp [hk, eq_comm]
  · simp [hk, Dict.get?]

private theorem labels_error {table : String → Option (K → K → Except PyErr String)} {tag : String}
    {keys : List K} {format : K → K → Except PyErr String} {err : PyErr} {pre : List K} {a : K}
    {post : List K} (ht : table tag = some format) (hl : keys = pre ++ a :: post)
    (hpre : ∀ k ∈ pre, ∃ t, format k k = .ok t) (ha : format a a = .error err) :
    labels table tag keys = .error err := by
  simp only [labels, ht, labelLoop_error hl hpre ha []]

end

/-! ## Nodes -/

section
variable (geo : Vec R → String)

/-- C63. Both artists and the viewer can label the nodes with their positions, alone or after the
key; the labels are those of the drawn nodes and show their own positions. -/
theorem C63_positions [Field R] (D : Diagram R) {nodes : List Int} (hn : ∀ n ∈ nodes, n ∈ D.nodes.keys) :
    ∀ table ∈ [formNodeTable geo D, topologyNodeTable geo D, viewerNodeTable geo D],
      LabelsAre (labels table "xyz" nodes) nodes (fun n => geo (posOf D n)) ∧
      LabelsAre (labels table "keyxyz" nodes) nodes
        (fun n => toString n ++ "\n" ++ geo (posOf D n)) := by
  have hx : ∀ n ∈ nodes, xyzText geo D n = .ok (geo (posOf D n)) := by
    intro n h
    obtain ⟨d, hd⟩ := (Dict.exists_get?_iff _ _).2 (hn n h)
    simp [xyzText, nodeXyz, Dict.getE, hd, printed, posOf]
  have hk : ∀ n ∈ nodes, printed (keyed n) (xyzText geo D n) =
      .ok (toString n ++ "\n" ++ geo (posOf D n)) := by
    intro n h; rw [hx n h]; rfl
  intro table ht
  simp only [List.mem_cons, List.not_mem_nil, or_false] at ht
  rcases ht with rfl | rfl | rfl
  · exact ⟨labels_are (format := fun _ n => xyzText geo D n) rfl hx,
      labels_are (format := fun _ n => printed (keyed n) (xyzText geo D n)) rfl hk⟩
  · exact ⟨labels_are (format := fun _ n => xyzText geo D n) rfl hx,
      labels_are (format := fun _ n => printed (keyed n) (xyzText geo D n)) rfl hk⟩
  · exact ⟨labels_are (format := fun _ n => xyzText geo D n) rfl hx,
      labels_are (format := fun _ n => printed (keyed n) (xyzText geo D n)) rfl hk⟩

/-- C63. Labels with sequences: if all nodes have one they are shown, else `ValueError`. -/
theorem C63_sequences (D : Diagram R) :
    ((∀ n ∈ D.nodes.keys, ∃ k, seqOf D n = some k) →
      LabelsAre (labels (topologyNodeTable geo D) "sequence" D.nodes.keys) D.nodes.keys
        (fun n => toString ((seqOf D n).getD 0)) ∧
      LabelsAre (labels (topologyNodeTable geo D) "keysequence" D.nodes.keys) D.nodes.keys
        (fun n => toString n ++ "\n" ++ toString ((seqOf D n).getD 0))) ∧
    ((∃ n ∈ D.nodes.keys, seqOf D n = none) →
      labels (topologyNodeTable geo D) "sequence" D.nodes.keys = .error .valueError ∧
      labels (topologyNodeTable geo D) "keysequence" D.nodes.keys = .error .valueError) := by
  have hs : ∀ n ∈ D.nodes.keys, (∀ k, seqOf D n = some k → D.nodeSequence n = .ok k) ∧
      (seqOf D n = none → D.nodeSequence n = .error .valueError) := by
    intro n h
    obtain ⟨d, hd⟩ := (Dict.exists_get?_iff _ _).2 h
    cases hk : d.k <;> simp [seqOf, nodeSequence, hd, hk]
  constructor
  · intro h
    have h' : ∀ n ∈ D.nodes.keys, D.nodeSequence n = .ok ((seqOf D n).getD 0) := by
      intro n hn
      obtain ⟨k, hk⟩ := h n hn
      rw [(hs n hn).1 k hk, hk]; rfl
    exact ⟨labels_are (format := fun _ n => printed toString (D.nodeSequence n)) rfl
        fun n hn => by simp only [h' n hn, printed],
      labels_are (format := fun _ n => printed (keyed n) (printed toString (D.nodeSequence n))) rfl
        fun n hn => by simp only [h' n hn, printed, keyed]⟩
  · rintro ⟨n, hn, h0⟩
    obtain ⟨pre, a, post, hl, ha, hpre⟩ : ∃ pre a post, D.nodes.keys = pre ++ a :: post ∧
        seqOf D a = none ∧ ∀ k ∈ pre, seqOf D k ≠ none := by
      generalize D.nodes.keys = l at hn
      induction l with
      | nil => simp at hn
      | cons b l ih =>
        by_cases hb : seqOf D b = none
        · exact ⟨[], b, l, rfl, hb, by simp⟩
        · rcases List.mem_cons.1 hn with rfl | hn
          · exact absurd h0 hb
          · obtain ⟨pre, a, post, e, ha, hp⟩ := ih hn
            exact ⟨b :: pre, a, post, by rw [e]; rfl, ha, by
              intro k hk
              rcases List.mem_cons.1 hk with rfl | hk
              · exact hb
              · exact hp k hk⟩
    have hok : ∀ k ∈ pre, ∃ j, D.nodeSequence k = .ok j := by
      intro k hk
      obtain ⟨j, hj⟩ := Option.ne_none_iff_exists'.1 (hpre k hk)
      exact ⟨j, (hs k (by rw [hl]; simp [hk])).1 j hj⟩
    have herr := (hs a (by rw [hl]; simp)).2 ha
    constructor
    · refine labels_error (format := fun _ n => printed toString (D.nodeSequence n)) rfl hl ?_ ?_
      · intro k hk; obtain ⟨j, hj⟩ := hok k hk; exact ⟨_, by simp only [hj, printed]; rfl⟩
      · simp only [herr, printed]
    · refine labels_error
        (format := fun _ n => printed (keyed n) (printed toString (D.nodeSequence n))) rfl hl ?_ ?_
      · intro k hk; obtain ⟨j, hj⟩ := hok k hk; exact ⟨_, by simp only [hj, printed]; rfl⟩
      · simp only [herr, printed]

/-- C63. Node types are shown by the topology artist.  The viewer offers the same tag, but with it
raises `AttributeError` as soon as there is a node to draw. -/
theorem C63_node_types (D : Diagram R) :
    LabelsAre (labels (topologyNodeTable geo D) "type" D.nodes.keys) D.nodes.keys
      (fun n => match typeOf D n with
        | some .support => "support"
        | some .origin => "_origin"
        | _ => "None") ∧
    (∀ nodes ≠ [], labels (viewerNodeTable geo D) "type" nodes = .error .attributeError) := by
  constructor
  · refine labels_are (format := fun _ n => nodeTypeFormat D n) rfl fun n hn => ?_
    obtain ⟨d, hd⟩ := (Dict.exists_get?_iff _ _).2 hn
    cases ht : d.type <;> simp [nodeTypeFormat, typeOf, hd, ht, nodeTypeText]
  · intro nodes hne
    cases nodes with
    | nil => exact absurd rfl hne
    | cons n l => rfl

end

/-! ## Edges -/

section
variable [Field R] [LinearOrder R] [PySqrt R] (num : R → String)

/-- The number that decides on the state of an edge: the length of a trail edge, the force of any
other edge. -/
def stateNumber (d : EdgeData R) : R := if d.type = .trail then d.length else d.force

/-- C63. On topology diagrams the artist and the viewer show the size of force and length of every
edge, and its state: −1 if the number that decides on it is negative, else 1.  The state is that
of the edge itself, although it is read from a variable outside the formatter. -/
theorem C63_edges [IsStrictOrderedRing R] (D : Diagram R) {edges : List (Int × Int)} {data : Int × Int → EdgeData R}
    (he : ∀ e ∈ edges, D.edges.get? e = some (data e)) :
    let T := edgeTable num false D
    LabelsAre (labels T "force" edges) edges (fun e => num |(data e).force|) ∧
    LabelsAre (labels T "length" edges) edges (fun e => num |(data e).length|) ∧
    LabelsAre (labels T "state" edges) edges
      (fun e => num (if stateNumber (data e) < 0 then -1 else 1)) ∧
    LabelsAre (labels T "forcelength" edges) edges
      (fun e => "f: " ++ num |(data e).force| ++ "\nl: " ++ num |(data e).length|) ∧
    LabelsAre (labels T "forcelengthstate" edges) edges
      (fun e => "f: " ++ num |(data e).force| ++ "\nl: " ++ num |(data e).length| ++ "\ns: " ++
        num (if stateNumber (data e) < 0 then -1 else 1)) ∧
    LabelsAre (labels T "type" edges) edges
      (fun e => match (data e).type with
        | .trail => "trail" | .deviation => "deviation" | .untyped => "None") := by
  intro T
  have hf : ∀ e ∈ edges, D.edgeForce e = .ok (data e).force := fun e h => by
    simp only [edgeForce, he e h]
  have hl : ∀ e ∈ edges, D.edgeLength2 e = .ok (data e).length := fun e h => by
    simp only [edgeLength2, he e h]
  have hs : ∀ e ∈ edges, stateText num false D e e =
      .ok (num (if stateNumber (data e) < 0 then -1 else 1)) := by
    intro e h
    have hone : ∀ p : R, copysign 1 p = if p < 0 then -1 else 1 := by
      intro p; unfold copysign
      split_ifs <;> simp
    by_cases ht : (data e).type = .trail
    · simp [stateText, isTrailEdge, he e h, ht, hl e h, printed, stateNumber, hone]
    · simp [stateText, isTrailEdge, he e h, ht, hf e h, printed, stateNumber, hone]
  refine ⟨?_, ?_, ?_, ?_, ?_, ?_⟩
  · exact labels_are (format := fun _ e => printed (fun f => num |f|) (D.edgeForce e)) rfl
      fun e h => by simp only [hf e h, printed]
  · exact labels_are (format := fun _ e => printed (fun f => num |f|) (D.edgeLength2 e)) rfl
      fun e h => by simp only [hl e h, printed]
  · exact labels_are (format := fun x e => stateText num false D x e) rfl hs
  · exact labels_are (format := fun _ e => forceLength (printed (fun f => num |f|) (D.edgeForce e))
      (printed (fun f => num |f|) (D.edgeLength2 e))) rfl
      fun e h => by simp only [hf e h, hl e h, printed, forceLength]
  · exact labels_are (format := fun x e => forceLengthState (printed (fun f => num |f|) (D.edgeForce e))
      (printed (fun f => num |f|) (D.edgeLength2 e)) (stateText num false D x e)) rfl
      fun e h => by simp only [hf e h, hl e h, hs e h, printed, forceLength, forceLengthState]
  · refine labels_are (format := fun _ e => edgeTypeFormat D e) rfl fun e h => ?_
    simp only [edgeTypeFormat, he e h]
    cases (data e).type <;> rfl

/-- C63. The viewer cannot show states of a form: it raises `AttributeError` as soon as there is an
edge to draw. -/
theorem C63_form_states (D : Diagram R) {edges : List (Int × Int)} (hne : edges ≠ [])
    (he : ∀ e ∈ edges, e ∈ D.edges.keys) :
    labels (edgeTable num true D) "state" edges = .error .attributeError ∧
    labels (edgeTable num true D) "forcelengthstate" edges = .error .attributeError := by
  cases edges with
  | nil => exact absurd rfl hne
  | cons e l =>
    refine ⟨rfl, ?_⟩
    obtain ⟨d, hd⟩ := (Dict.exists_get?_iff _ _).2 (he e List.mem_cons_self)
    refine labels_error (pre := []) (a := e) (post := l)
      (format := fun x e => forceLengthState (printed (fun f => num |f|) (D.edgeForce e))
        (printed (fun f => num |f|) (D.edgeLength2 e)) (stateText num true D x e)) rfl rfl (by simp) ?_
    simp [edgeForce, edgeLength2, hd, printed, forceLength, forceLengthState, stateText]

/-- C63. A tag that is not offered gives no labels, and never raises. -/
theorem C63_unknown {K : Type} [DecidableEq K]
    (table : String → Option (K → K → Except PyErr String)) {tag : String} (h : table tag = none)
    (keys : List K) : labels table tag keys = .ok none := by
  simp only [labels, h]

end

/-- C63. On a form that form finding returned, the plotter (distance of the ends) and the viewer
(stored length) show the same lengths, and forces that differ at most in the sign. -/
theorem C63_agree {D : Diagram ℝ} (I : ValidInput D) {tmax : Nat} {eta : ℝ} {F : Diagram ℝ}
    (h : staticEquilibrium D none tmax eta false = .ok F) (num : ℝ → String) :
    ∃ length force : Int × Int → ℝ,
      LabelsAre (labels (formEdgeTable num F) "length" F.edgeList) F.edgeList (fun e => num (length e)) ∧
      LabelsAre (labels (edgeTable num true F) "length" F.edgeList) F.edgeList (fun e => num (length e)) ∧
      LabelsAre (labels (formEdgeTable num F) "force" F.edgeList) F.edgeList (fun e => num (force e)) ∧
      LabelsAre (labels (edgeTable num true F) "force" F.edgeList) F.edgeList (fun e => num |force e|) ∧
      (∀ e, length e = Vec.dist (posOf F e.1) (posOf F e.2)) ∧
      ∀ e d, F.edges.get? e = some d → force e = d.force := by
  obtain ⟨k1, k2, _, _⟩ := C25_keeps_data I h
  obtain ⟨ind, p, s, r, Q, rfl, S, _⟩ := returned_final I (by simp) h
  have w := I.wf
  have hmem : ∀ e ∈ (formOf D s).edgeList, e ∈ (formOf D s).edges.keys := by
    intro e he
    unfold edgeList at he
    rw [List.mem_flatMap] at he
    obtain ⟨u, _, hu⟩ := he
    exact (List.mem_filter.1 hu).1
  have hd : ∀ e ∈ (formOf D s).edgeList, ∃ d, (formOf D s).edges.get? e = some d := fun e he =>
    (Dict.exists_get?_iff _ _).2 (hmem e he)
  have hpos : ∀ n ∈ D.nodes.keys, (formOf D s).nodeXyz n = .ok (posOf (formOf D s) n) := by
    intro n hn
    rw [← k1] at hn
    obtain ⟨d, hd⟩ := (Dict.exists_get?_iff _ _).2 hn
    simp [nodeXyz, Dict.getE, hd, posOf]
  have hlen : ∀ e ∈ (formOf D s).edgeList, endDistance (formOf D s) e =
      .ok (Vec.dist (posOf (formOf D s) e.1) (posOf (formOf D s) e.2)) := by
    intro e he
    have hm : e ∈ D.edges.keys := by rw [← k2]; exact hmem e he
    simp only [endDistance, hpos _ (w.edge_left _ hm), hpos _ (w.edge_right _ hm)]
  refine ⟨fun e => Vec.dist (posOf (formOf D s) e.1) (posOf (formOf D s) e.2),
    fun e => (((formOf D s).edges.get? e).map (·.force)).getD 0, ?_, ?_, ?_, ?_, fun _ => rfl, ?_⟩
  · exact labels_are (format := fun _ e => printed num (endDistance (formOf D s) e)) rfl
      fun e he => by simp only [hlen e he, printed]
  · refine labels_are (format := fun _ e => printed (fun l => num |l|) ((formOf D s).edgeLength2 e)) rfl
      fun e he => ?_
    obtain ⟨d, hd⟩ := hd e he
    have hl := formOf_length w S hd
    have h0 : 0 ≤ Vec.dist (posOf (formOf D s) e.1) (posOf (formOf D s) e.2) := Vec.length_nonneg _
    have : |d.length| = Vec.dist (posOf (formOf D s) e.1) (posOf (formOf D s) e.2) := by
      rw [hl]; unfold copysign
      split_ifs <;> simp [abs_of_nonneg h0]
    simp only [edgeLength2, hd, printed, this]
  · refine labels_are (format := fun _ e => printed num ((formOf D s).edgeForce e)) rfl fun e he => ?_
    obtain ⟨d, hd⟩ := hd e he
    simp [edgeForce, hd, printed]
  · refine labels_are (format := fun _ e => printed (fun f => num |f|) ((formOf D s).edgeForce e)) rfl
      fun e he => ?_
    obtain ⟨d, hd⟩ := hd e he
    simp [edgeForce, hd, printed]
  · intro e d hd
    simp [hd]

/-! ## Drawing in the viewer -/

private theorem keyTexts_get {K : Type} [DecidableEq K] (f : K → String) (l : List K) (k : K) :
    (keyTexts f l).get? k = if k ∈ l then some (f k) else none := by
  have : ∀ acc : Dict K String, (l.foldl (fun acc k => acc.set k (f k)) acc).get? k =
      if k ∈ l then some (f k) else acc.get? k := by
    induction l with
    | nil => simp
    | cons a l ih =>
      intro acc
      rw [List.foldl_cons, ih]
      by_cases hk : k ∈ l
      · simp [hk]
      · by_cases ha : k = a
        · subst ha; simp [hk, Dict.get?_set]
        · simp [hk, ha, Dict.get?_set, Ne.symm ha]
  rw [keyTexts, this]; rfl

/-- C63. An edge of the diagram is drawn with its own key if no text, an unknown tag, the tag `key`
or an empty dictionary was assigned. -/
theorem C63_key_texts (table : String → Option (Int × Int → Int × Int → Except PyErr String))
    (all edges : List (Int × Int)) {spec : TextSpec (Int × Int)}
    (hs : spec = .other ∨ spec = .dict [] ∨ spec = .tag "key" ∨
      ∃ t, spec = .tag t ∧ table t = none) {e : Int × Int} (he : e ∈ all) :
    ∃ stored, setText edgeKeyText table all edges none spec = .ok stored ∧
      drawnEdgeText (getText edgeKeyText all stored) e =
        .text (toString e.1 ++ "-" ++ toString e.2) := by
  have hk : drawnEdgeText (keyTexts edgeKeyText all) e = .text (toString e.1 ++ "-" ++ toString e.2) := by
    simp [drawnEdgeText, keyTexts_get, he, edgeKeyText]
  have hkk : drawnEdgeText (getText edgeKeyText all (some (keyTexts edgeKeyText all))) e =
      .text (toString e.1 ++ "-" ++ toString e.2) := by
    unfold getText
    split
    · exact hk
    · exact hk
    · rename_i d _ h
      rw [← Option.some.inj h]; exact hk
  rcases hs with rfl | rfl | rfl | ⟨t, rfl, ht⟩
  · exact ⟨none, rfl, hk⟩
  · exact ⟨some [], rfl, hk⟩
  · exact ⟨_, rfl, hkk⟩
  · by_cases h : t = "key"
    · subst h; exact ⟨_, rfl, hkk⟩
    · exact ⟨none, by simp [setText, h, C63_unknown table ht], hk⟩

/-- What one would expect of a dictionary of texts: every drawn edge gets a text. -/
def C63_claim : Prop := ∀ (all : List (Int × Int)) (d : Dict (Int × Int) String) (e : Int × Int),
  ∃ t, drawnEdgeText (getText edgeKeyText all (some d)) e = .text t

/-- C63. With a non-empty dictionary an edge gets the text stored for exactly this direction; if
there is none, also if there is one for the other direction, it is labelled with the key of its
first node, which is no text. -/
theorem C63_dictionary (all : List (Int × Int)) {d : Dict (Int × Int) String} (hd : d ≠ [])
    (e : Int × Int) :
    (∀ t, d.get? e = some t → drawnEdgeText (getText edgeKeyText all (some d)) e = .text t) ∧
    (d.get? e = none → drawnEdgeText (getText edgeKeyText all (some d)) e = .node e.1) := by
  have : getText edgeKeyText all (some d) = d := by
    cases d with
    | nil => exact absurd rfl hd
    | cons p d => rfl
  rw [this]
  exact ⟨fun t h => by simp only [drawnEdgeText, h], fun h => by simp only [drawnEdgeText, h]⟩

/-- A text for the edge in the other direction. -/
theorem C63_claim_false : ¬ C63_claim := by
  intro H
  obtain ⟨t, ht⟩ := H [(0, 1)] [((1, 0), "edge")] (0, 1)
  rw [(C63_dictionary [(0, 1)] (d := [((1, 0), "edge")]) (by simp) (0, 1)).2 (by decide)] at ht
  simp at ht

/-! ## Examples -/

namespace LabelEx

def num (x : ℚ) : String := toString x
def geo (p : Vec ℚ) : String := toString p.x

/-- Two trails with two deviation edges, before and after building the trails. -/
def built : Diagram ℚ := two.buildTrails.1

end LabelEx

open LabelEx in
example : (∀ n ∈ built.nodes.keys, n ∈ built.nodes.keys) ∧
    labels (topologyNodeTable geo built) "keyxyz" built.nodes.keys =
      .ok (some (built.nodes.keys.map fun n => (n, toString n ++ "\n" ++ geo (posOf built n)))) ∧
    built.nodes.keys ≠ [] := by
  refine ⟨fun _ h => h, ?_, ?_⟩ <;> decide +kernel

/-- Sequences can be shown only after building the trails. -/
example : (∀ n ∈ LabelEx.built.nodes.keys, ∃ k, seqOf LabelEx.built n = some k) ∧
    (∃ n ∈ two.nodes.keys, seqOf two n = none) ∧
    labels (topologyNodeTable LabelEx.geo two) "sequence" two.nodes.keys = .error .valueError := by
  have h : ∃ n ∈ two.nodes.keys, seqOf two n = none := by decide +kernel
  refine ⟨?_, h, ((C63_sequences LabelEx.geo two).2 h).1⟩
  intro n hn
  exact Option.isSome_iff_exists.1 (by revert n; decide +kernel)

example : labels (topologyNodeTable LabelEx.geo LabelEx.built) "type" LabelEx.built.nodes.keys ≠
      .ok none ∧
    labels (viewerNodeTable LabelEx.geo LabelEx.built) "type" LabelEx.built.nodes.keys =
      .error .attributeError :=
  ⟨by decide +kernel, (C63_node_types LabelEx.geo LabelEx.built).2 _ (by decide +kernel)⟩

/-- Trail edges of negative length and deviation edges of positive force. -/
example : labels (edgeTable LabelEx.num false LabelEx.built) "state" LabelEx.built.trailEdges =
      .ok (some (LabelEx.built.trailEdges.map fun e => (e, LabelEx.num (-1)))) ∧
    labels (edgeTable LabelEx.num false LabelEx.built) "state" LabelEx.built.deviationEdges =
      .ok (some (LabelEx.built.deviationEdges.map fun e => (e, LabelEx.num 1))) ∧
    (∀ e ∈ LabelEx.built.edgeList, ∃ d, LabelEx.built.edges.get? e = some d) ∧
    LabelEx.built.trailEdges ≠ [] ∧ LabelEx.built.deviationEdges ≠ [] := by
  refine ⟨by decide +kernel, by decide +kernel, ?_, by decide +kernel, by decide +kernel⟩
  intro e he
  exact Option.isSome_iff_exists.1 (by revert e; decide +kernel)

example : labels (edgeTable LabelEx.num true LabelEx.built) "state" LabelEx.built.edgeList =
    .error .attributeError :=
  (C63_form_states LabelEx.num LabelEx.built (by decide +kernel) (by decide +kernel)).1

example : edgeTable LabelEx.num false LabelEx.built "forces" = none ∧
    labels (edgeTable LabelEx.num false LabelEx.built) "forces" LabelEx.built.edgeList = .ok none := by
  have h : edgeTable LabelEx.num false LabelEx.built "forces" = none := by decide +kernel
  exact ⟨h, C63_unknown _ h _⟩

/-- The form of a column has labelled edges. -/
example (num : ℝ → String) : ∃ F, staticEquilibrium (ColEx.col none) none 100 0 false = .ok F ∧
    ∃ length, LabelsAre (labels (formEdgeTable num F) "length" F.edgeList) F.edgeList length := by
  obtain ⟨F, h⟩ := ColEx.returns ColEx.colQ_none ColEx.valid_none
  obtain ⟨length, _, hl, _⟩ := C63_agree ColEx.valid_none h num
  exact ⟨F, h, _, hl⟩

/-- An unknown tag and a drawn edge. -/
example : ∃ stored, setText edgeKeyText (edgeTable LabelEx.num false LabelEx.built)
      LabelEx.built.edgeList LabelEx.built.edgeList none (.tag "forces") = .ok stored ∧
    drawnEdgeText (getText edgeKeyText LabelEx.built.edgeList stored) (0, 1) = .text "0-1" :=
  C63_key_texts _ _ _ (Or.inr (Or.inr (Or.inr ⟨"forces", rfl, by decide +kernel⟩))) (by decide +kernel)

example : drawnEdgeText (getText edgeKeyText [(0, 1)] (some [((0, 1), "edge")])) (0, 1) = .text "edge" :=
  (C63_dictionary _ (by simp) _).1 _ (by decide)

end Props
end CEM
