import Verif.Lemmas.Placement

/-!
# C01-C07: building diagrams

Properties of `add_node`, `add_edge`, `add_support`, `add_load`, `node_key`,
`node_exists` and `node_xyz`.
-/

set_option linter.unusedSectionVars false
set_option linter.unusedSimpArgs false

namespace CEM
namespace Props
open Diagram Spec

variable {R : Type} [Field R] [DecidableEq R] [PySqrt R] (gkey : Vec R → String)

/-! ## Concrete setting for the non-vacuity examples -/

/-- A square root for rational examples (never used by the combinatorial code). -/
local instance : PySqrt ℚ := ⟨id⟩

/-- A coarse geometric key: unit cells along x. -/
def exKey (p : Vec ℚ) : String := if p.x < 1 then "a" else if p.x < 2 then "b" else "c"

/-- A history with explicit keys, an automatic key, a move, a failing call and an edge. -/
def exOps : List (Op ℚ) :=
  [.addNode (some 7) ⟨0, 0, 0⟩, .addSupport (.key 99), .addNode none ⟨1, 0, 0⟩,
   .moveNode 7 ⟨2, 0, 0⟩, .addEdge (.trail (.point ⟨2, 0, 0⟩) (.key 8) (-1) none)]

/-! ## C01 -/

/-- C01. After any history of calls, `add_node` without a key returns a key that
no node has, the new node has the given coordinates and default attributes, and
nothing else changes. -/
theorem C01_fresh_key (ops : List (Op R)) (p : Vec R) :
    let D := after gkey ops
    let D' := (D.addNode gkey none p).1
    let n := (D.addNode gkey none p).2
    n ∉ D.nodes.keys ∧
    D'.nodes.get? n = some ⟨p, 0, 0, none, .free⟩ ∧
    (∀ m, m ≠ n → D'.nodes.get? m = D.nodes.get? m) ∧
    D'.nodes.keys = D.nodes.keys ++ [n] ∧
    D'.edges = D.edges ∧ D'.trails = D.trails ∧
    (∀ q, D'.nodeKey gkey (.point q) =
      if gkey p = gkey q then some n else D.nodeKey gkey (.point q)) := by
  intro D D' n
  have w : WF D := WF.after gkey ops
  have hn : n ∉ D.nodes.keys := by
    intro h; have := w.le_max n h; simp only [n, Diagram.addNode, newKey] at this; omega
  refine ⟨hn, ?_, ?_, ?_, rfl, rfl, ?_⟩
  · have h0 : D.nodes.get? n = none := (Dict.get?_eq_none_iff _ _).2 hn
    show Dict.get? (Dict.set D.nodes n (D.placedNode n p)) n = _
    rw [Dict.get?_set_self, placedNode, h0]
    rfl
  · intro m hm
    show Dict.get? (Dict.set D.nodes n (D.placedNode n p)) m = _
    rw [Dict.get?_set_ne _ _ (Ne.symm hm)]
  · show Dict.keys (Dict.set D.nodes n (D.placedNode n p)) = _
    exact Dict.keys_set_of_not_mem _ hn
  · intro q
    show Dict.get? (Dict.set D.gkeyNode (gkey p) n) (gkey q) = _
    rw [Dict.get?_set]; rfl

/-- The history `exOps` has two nodes; the next automatic key is 9. -/
example : ((after exKey exOps).nodes.keys = [7, 8]) ∧
    ((after exKey exOps).addNode exKey none ⟨0, 0, 0⟩).2 = 9 := by decide

/-- C01, explicit keys: adding a node under an existing key moves that node and keeps
all its other data; nothing else changes, and no node is created. -/
theorem C01_readd_keeps_data (D : Diagram R) (n : Int) (d : NodeData R) (p : Vec R)
    (hd : D.nodes.get? n = some d) :
    let D' := (D.addNode gkey (some n) p).1
    (D.addNode gkey (some n) p).2 = n ∧
    D'.nodes.get? n = some { d with pos := p } ∧
    (∀ m, m ≠ n → D'.nodes.get? m = D.nodes.get? m) ∧
    D'.nodes.keys = D.nodes.keys ∧ D'.edges = D.edges ∧ D'.trails = D.trails := by
  intro D'
  refine ⟨rfl, ?_, ?_, ?_, rfl, rfl⟩
  · show Dict.get? (Dict.set D.nodes n (D.placedNode n p)) n = _
    rw [Dict.get?_set_self, placedNode, hd]
  · intro m hm
    show Dict.get? (Dict.set D.nodes n (D.placedNode n p)) m = _
    rw [Dict.get?_set_ne _ _ (Ne.symm hm)]
  · show Dict.keys (Dict.set D.nodes n (D.placedNode n p)) = _
    exact Dict.keys_set_of_mem _ ((Dict.exists_get?_iff _ _).1 ⟨_, hd⟩)

/-- Re-adding the loaded support 7 elsewhere keeps its load and type. -/
example : (run exKey (after exKey exOps) [.addLoad (.key 7) ⟨1, 2, 3⟩, .addSupport (.key 7),
    .addNode (some 7) ⟨5, 5, 5⟩]).nodes.get? 7 = some ⟨⟨5, 5, 5⟩, ⟨1, 2, 3⟩, 0, none, .support⟩ := by
  decide

/-- C01, successive calls: keys returned by automatic additions are pairwise
different, whatever happens in between. -/
theorem C01_fresh_keys_distinct (ops mid : List (Op R)) (p q : Vec R) :
    let D := after gkey ops
    let D1 := (D.addNode gkey none p).1
    let D2 := run gkey D1 mid
    (D.addNode gkey none p).2 ≠ (D2.addNode gkey none q).2 := by
  intro D D1 D2
  have w1 : WF D1 := (WF.after gkey ops).addNode gkey none p
  have hmono : ∀ (ops : List (Op R)) (E : Diagram R), WF E →
      ∀ n, n ∈ E.nodes.keys → n ∈ (run gkey E ops).nodes.keys := by
    intro ops
    induction ops with
    | nil => intro E _ n h; exact h
    | cons op ops ih =>
      intro E wE n h
      refine ih _ (wE.step gkey op) n ?_
      have hAdd : ∀ (E : Diagram R) key p, n ∈ E.nodes.keys →
          n ∈ (E.addNode gkey key p).1.nodes.keys :=
        fun E key p h => Dict.mem_keys_set.2 (Or.inr h)
      have hEnd : ∀ (E : Diagram R) r, n ∈ E.nodes.keys → n ∈ (E.endKey gkey r).1.nodes.keys := by
        intro E r h
        unfold endKey
        split
        · exact h
        · cases r with
          | key m => exact h
          | point p => exact hAdd _ _ _ h
      have hEdge : ∀ (E : Diagram R) e, n ∈ E.nodes.keys → n ∈ (E.addEdge gkey e).1.nodes.keys := by
        intro E e h
        unfold addEdge
        dsimp only
        have h2 := hEnd _ e.v (hEnd _ e.u h)
        split_ifs <;> exact h2
      have hSup : ∀ (E : Diagram R) r, n ∈ E.nodes.keys →
          n ∈ (E.addSupport gkey r).1.nodes.keys := by
        intro E r h
        unfold addSupport
        split
        · exact h
        · split
          · exact h
          · exact Dict.mem_keys_set.2 (Or.inr h)
      have hBuild : ∀ (E : Diagram R), n ∈ E.nodes.keys → n ∈ E.buildTrails.1.nodes.keys := by
        intro E h
        unfold buildTrails
        split
        · exact h
        · rename_i s hs
          have := (sameBase_searchTrails hs).keys
          split_ifs <;> simpa [this] using h
      cases op with
      | addNode key p => exact hAdd _ _ _ h
      | addEdge e => exact hEdge _ _ h
      | addSupport r => exact hSup _ _ h
      | addLoad r q =>
        simp only [Spec.step]
        unfold addLoad
        split
        · exact h
        · split
          · exact h
          · exact Dict.mem_keys_set.2 (Or.inr h)
      | moveNode m p =>
        simp only [Spec.step]
        unfold setNodeXyz updateNodeXyz
        dsimp only
        split_ifs <;> exact hAdd _ _ _ h
      | buildTrails => exact hBuild _ h
      | shiftTrail key s =>
        simp only [Spec.step]
        unfold Diagram.shiftTrail
        split
        · exact h
        · exact h
        · split_ifs
          · exact h
          · split
            · exact h
            · rw [(sameBase_assignSequences _ _ _).keys]; exact h
      | buildTrailsAux order =>
        simp only [Spec.step]
        unfold buildTrailsAux
        split
        · exact h
        · rename_i s hs
          have hl : ∀ (l : List Int) (E : Diagram R) (aux : Dict Int (Int × Int)),
              n ∈ E.nodes.keys → n ∈ (addAuxTrails gkey E aux l).1.nodes.keys := by
            intro l
            induction l with
            | nil => intro E aux h; exact h
            | cons m l ih =>
              intro E aux h
              have h1 : n ∈ (E.addAuxTrail gkey m).1.nodes.keys := by
                unfold addAuxTrail
                split
                · exact h
                · rename_i d hd
                  dsimp only
                  have h2 := hSup _ (.key (E.addNode gkey none
                    (d.pos + E.auxLength • E.auxVector.normalize)).2)
                    (hAdd E none (d.pos + E.auxLength • E.auxVector.normalize) h)
                  split
                  · rename_i hh; rw [hh] at h2; exact h2
                  · rename_i hh; rw [hh] at h2; exact hEdge _ _ h2
              unfold addAuxTrails
              split
              · rename_i hh; rw [hh] at h1; exact h1
              · rename_i hh; rw [hh] at h1; exact ih _ _ h1
          have h1 := hl (order (unassigned s)) s.D []
            (by rw [(sameBase_searchTrails hs).keys]; exact h)
          split
          · rename_i hh; rw [hh] at h1; exact h1
          · rename_i hh; rw [hh] at h1
            exact hBuild _ h1
  have h1 : (D.addNode gkey none p).2 ∈ D1.nodes.keys := Dict.mem_keys_set.2 (Or.inl rfl)
  have h2 := hmono mid D1 w1 _ h1
  have w2 : WF D2 := w1.run gkey mid
  intro heq
  have := w2.le_max _ h2
  rw [heq] at this
  simp only [Diagram.addNode, newKey] at this
  omega

/-- Non-vacuity: there is a history in between that adds nodes with larger keys. -/
example : (run exKey ((after exKey exOps).addNode exKey none ⟨0, 0, 0⟩).1
    [.addNode (some 40) ⟨5, 0, 0⟩]).nodes.keys = [7, 8, 9, 40] := by decide

/-! ## C02 -/

/-- C02. After any history (without auxiliary trails) looking up a point returns
the node most recently placed at that geometric key, the coordinates of a node are
those of its most recent placement, and a lookup never returns a missing node. -/
theorem C02_lookup_last_writer (ops : List (Op R)) (ha : ∀ op ∈ ops, op.noAux) :
    let D := after gkey ops
    let log := placements gkey ops
    (∀ p, D.nodeKey gkey (.point p) = log.lastAt gkey (gkey p)) ∧
    (∀ n, D.nodeXyz n = match log.lastOf n with
      | some p => .ok p
      | none => .error .keyError) ∧
    (∀ p n, D.nodeKey gkey (.point p) = some n → n ∈ D.nodes.keys) := by
  intro D log
  have h : Agrees gkey D log := agrees_after gkey ops ha
  refine ⟨fun p => h.lookup _, ?_, fun p n hp => (WF.after gkey ops).lookup_mem _ n hp⟩
  intro n
  rw [← h.pos n]
  unfold nodeXyz Dict.getE
  cases D.nodes.get? n <;> rfl

example : (∀ op ∈ exOps, op.noAux) ∧
    placements exKey exOps = [(⟨2, 0, 0⟩, 7), (⟨1, 0, 0⟩, 8), (⟨0, 0, 0⟩, 7)] ∧
    (after exKey exOps).nodeKey exKey (.point ⟨5, 1, 1⟩) = some 7 := by
  refine ⟨?_, by decide, by decide⟩
  simp [exOps, Op.noAux]

/-! ## C03 -/

/-- C03, full claim: moving a node releases the old position.  (Not a theorem: see
`C03_moved_node_still_found`.) -/
def C03_claim (gkey : Vec R → String) : Prop :=
  ∀ (ops : List (Op R)) (n : Int) (p q : Vec R),
    (after gkey ops).nodeKey gkey (.point p) = some n → gkey p ≠ gkey q →
    ((after gkey ops).setNodeXyz gkey n q).nodeKey gkey (.point p) ≠ some n

/-- C03, the code violates the claim in *every* case: after moving node `n` away
from `p` to a point with another geometric key, `node_key(p)` still returns `n`. -/
theorem C03_moved_node_still_found (D : Diagram R) (w : WF D) (n : Int) (p q : Vec R)
    (hp : D.nodeKey gkey (.point p) = some n) (hne : gkey p ≠ gkey q) :
    (D.setNodeXyz gkey n q).nodeKey gkey (.point p) = some n := by
  simp only [nodeKey] at hp ⊢
  unfold setNodeXyz updateNodeXyz
  dsimp only
  split_ifs
  · simp only [Diagram.addNode, newKey, Dict.get?_set, if_neg (Ne.symm hne),
      Dict.get?_erase w.gkeysNodup]
    exact hp
  · simp only [Diagram.addNode, newKey, Dict.get?_set, if_neg (Ne.symm hne)]
    exact hp

/-- The claim is false for the concrete key function `exKey`. -/
theorem C03_claim_false : ¬ C03_claim exKey := by
  intro h
  exact h [.addNode (some 7) ⟨0, 0, 0⟩] 7 ⟨0, 0, 0⟩ ⟨2, 0, 0⟩ (by decide) (by decide) (by decide)

/-- C03, what holds (`_partial`: the old entry is not released): the moved node has
the new coordinates, is found at the new position, keeps its other attributes, and
other lookups and other nodes are unchanged. -/
theorem C03_move_partial (D : Diagram R) (w : WF D) (n : Int) (d : NodeData R)
    (hd : D.nodes.get? n = some d) (q : Vec R) :
    let D' := D.setNodeXyz gkey n q
    D'.nodes.get? n = some { d with pos := q } ∧
    (∀ m, m ≠ n → D'.nodes.get? m = D.nodes.get? m) ∧
    D'.nodes.keys = D.nodes.keys ∧ D'.edges = D.edges ∧ D'.trails = D.trails ∧
    (∀ p, D'.nodeKey gkey (.point p) =
      if gkey q = gkey p then some n else D.nodeKey gkey (.point p)) := by
  have key : ∀ E : Diagram R, E.nodes = D.nodes → E.edges = D.edges → E.trails = D.trails →
      (∀ g, g ≠ gkey q → E.gkeyNode.get? g = D.gkeyNode.get? g) →
      let D' := (E.addNode gkey (some n) q).1
      D'.nodes.get? n = some { d with pos := q } ∧
      (∀ m, m ≠ n → D'.nodes.get? m = D.nodes.get? m) ∧
      D'.nodes.keys = D.nodes.keys ∧ D'.edges = D.edges ∧ D'.trails = D.trails ∧
      (∀ p, D'.nodeKey gkey (.point p) =
        if gkey q = gkey p then some n else D.nodeKey gkey (.point p)) := by
    intro E h1 h2 h3 h4
    refine ⟨?_, ?_, ?_, h2, h3, ?_⟩
    · simp [Diagram.addNode, newKey, placedNode, h1, hd]
    · intro m hm; simp [Diagram.addNode, newKey, Dict.get?_set, h1, Ne.symm hm]
    · simp only [Diagram.addNode, newKey, h1]
      exact Dict.keys_set_of_mem _ (Dict.mem_keys_of_get? hd)
    · intro p
      simp only [nodeKey, Diagram.addNode, newKey, Dict.get?_set]
      split
      · rfl
      · rename_i h; exact h4 _ (Ne.symm h)
  unfold setNodeXyz updateNodeXyz
  dsimp only
  split_ifs
  · refine key { D with gkeyNode := D.gkeyNode.erase (gkey q) } rfl rfl rfl ?_
    intro g hg
    simp only [Dict.get?_erase w.gkeysNodup, if_neg (Ne.symm hg)]
  · exact key D rfl rfl rfl fun _ _ => rfl

example : (after exKey exOps).nodes.get? 8 = some (freshNode ⟨1, 0, 0⟩) ∧
    ((after exKey exOps).setNodeXyz exKey 8 ⟨0, 5, 0⟩).nodeKey exKey (.point ⟨1, 0, 0⟩) = some 8 ∧
    ((after exKey exOps).setNodeXyz exKey 8 ⟨0, 5, 0⟩).nodeKey exKey (.point ⟨0, 0, 0⟩) = some 8 := by
  decide

/-! ## C05 -/

/-- What an edge element asks to be stored, on top of what was stored before. -/
def storedBy (old : Option (EdgeData R)) (e : EdgeElem R) (d : EdgeData R) : Prop :=
  match e with
  | .trail _ _ length plane =>
    d.type = .trail ∧ d.length = length ∧ d.plane = plane ∧
      d.force = (old.map (·.force)).getD 0
  | .deviation _ _ force =>
    d.type = .deviation ∧ d.force = force ∧
      d.length = (old.map (·.length)).getD 0 ∧ d.plane = (old.map (·.plane)).getD none

/-- C05. `add_edge` between designated existing nodes stores exactly the requested
attributes under `(u, v)` and changes no other edge, no node and no lookup. -/
theorem C05_add_edge (D : Diagram R) (e : EdgeElem R) (u v : Int)
    (hu : D.nodeKey gkey e.u = some u) (hv : D.nodeKey gkey e.v = some v)
    (hu' : u ∈ D.nodes.keys) (hv' : v ∈ D.nodes.keys) :
    let D' := (D.addEdge gkey e).1
    (D.addEdge gkey e).2 = .ok (u, v) ∧
    (∃ d, D'.edges.get? (u, v) = some d ∧ storedBy (D.edges.get? (u, v)) e d) ∧
    (∀ e', e' ≠ (u, v) → D'.edges.get? e' = D.edges.get? e') ∧
    D'.edges.keys = (if (u, v) ∈ D.edges.keys then D.edges.keys else D.edges.keys ++ [(u, v)]) ∧
    D'.nodes = D.nodes ∧ D'.gkeyNode = D.gkeyNode ∧ D'.trails = D.trails ∧
    D'.maxNode = D.maxNode := by
  have h1 : D.endKey gkey e.u = (D, u) := by simp [endKey, hu]
  have h2 : D.endKey gkey e.v = (D, v) := by simp [endKey, hv]
  have hh : (D.nodes.has u && D.nodes.has v) = true := by
    simp [Dict.has_iff, hu', hv']
  unfold addEdge
  simp only [h1, h2, hh, if_true]
  refine ⟨trivial, ⟨_, Dict.get?_set_self _ _ _, ?_⟩, ?_, ?_, trivial, trivial,
    trivial, trivial⟩
  · cases e <;> cases D.edges.get? (u, v) <;> simp [storedBy, EdgeData.update, freshEdge]
  · intro e' he'; exact Dict.get?_set_ne _ _ (Ne.symm he')
  · rw [Dict.keys_set]; split <;> rename_i h <;> simp [h]

/-- C05, re-adding: adding an edge that is already stored keeps the number of edges. -/
theorem C05_readd_keeps_count (D : Diagram R) (e : EdgeElem R) (u v : Int)
    (hu : D.nodeKey gkey e.u = some u) (hv : D.nodeKey gkey e.v = some v)
    (hu' : u ∈ D.nodes.keys) (hv' : v ∈ D.nodes.keys) (hm : (u, v) ∈ D.edges.keys) :
    (D.addEdge gkey e).1.edges.length = D.edges.length := by
  have h := (C05_add_edge gkey D e u v hu hv hu' hv').2.2.2.1
  rw [if_pos hm] at h
  rw [← Dict.length_keys, h, Dict.length_keys]

/-- C05, error: an end given as an integer key without a node makes `add_edge` raise
`AttributeError`, and no edge is added. -/
theorem C05_unknown_key_raises (D : Diagram R) (e : EdgeElem R) (n : Int)
    (he : e.u = .key n ∨ e.v = .key n)
    (hn : n ∉ ((D.endKey gkey e.u).1.endKey gkey e.v).1.nodes.keys) :
    (D.addEdge gkey e).2 = .error .attributeError ∧ (D.addEdge gkey e).1.edges = D.edges := by
  have hedges : ∀ (E : Diagram R) r, (E.endKey gkey r).1.edges = E.edges := by
    intro E r
    unfold endKey
    split
    · rfl
    · cases r <;> rfl
  have hcond : ¬ (((D.endKey gkey e.u).1.endKey gkey e.v).1.nodes.has (D.endKey gkey e.u).2 &&
      ((D.endKey gkey e.u).1.endKey gkey e.v).1.nodes.has
        ((D.endKey gkey e.u).1.endKey gkey e.v).2) = true := by
    simp only [Bool.and_eq_true, Dict.has_iff, not_and_or]
    rcases he with he | he
    · left; simpa [he, endKey, nodeKey] using hn
    · right; simpa [he, endKey, nodeKey] using hn
  unfold addEdge
  simp only [hcond]
  exact ⟨rfl, by simp [hedges]⟩

example :
    let D := after exKey exOps
    D.nodeKey exKey (.point ⟨5, 5, 5⟩) = some 7 ∧ 7 ∈ D.nodes.keys ∧ 8 ∈ D.nodes.keys ∧
    ((D.addEdge exKey (.deviation (.point ⟨5, 5, 5⟩) (.key 8) 3)).1.edges.get? (7, 8)) =
      some ⟨.deviation, -1, 3, none⟩ ∧
    (D.addEdge exKey (.deviation (.point ⟨5, 5, 5⟩) (.key 99) 3)).2 = .error .attributeError := by
  decide

/-! ## C06 -/

/-- C06. `add_support` on a designated existing node changes exactly its type. -/
theorem C06_add_support (D : Diagram R) (r : NodeRef R) (n : Int) (d : NodeData R)
    (hr : D.nodeKey gkey r = some n) (hd : D.nodes.get? n = some d) :
    let D' := (D.addSupport gkey r).1
    (D.addSupport gkey r).2 = .ok () ∧
    D'.nodes.get? n = some { d with type := .support } ∧
    (∀ m, m ≠ n → D'.nodes.get? m = D.nodes.get? m) ∧
    D'.nodes.keys = D.nodes.keys ∧ D' = { D with nodes := D'.nodes } := by
  unfold addSupport
  simp only [hr, hd]
  exact ⟨trivial, Dict.get?_set_self _ _ _, fun m hm => Dict.get?_set_ne _ _ (Ne.symm hm),
    Dict.keys_set_of_mem _ (Dict.mem_keys_of_get? hd), trivial⟩

/-- C06. `add_load` on a designated existing node replaces exactly its load. -/
theorem C06_add_load (D : Diagram R) (r : NodeRef R) (n : Int) (d : NodeData R) (q : Vec R)
    (hr : D.nodeKey gkey r = some n) (hd : D.nodes.get? n = some d) :
    let D' := (D.addLoad gkey r q).1
    (D.addLoad gkey r q).2 = .ok () ∧
    D'.nodes.get? n = some { d with load := q } ∧
    (∀ m, m ≠ n → D'.nodes.get? m = D.nodes.get? m) ∧
    D'.nodes.keys = D.nodes.keys ∧ D' = { D with nodes := D'.nodes } := by
  unfold addLoad
  simp only [hr, hd]
  exact ⟨trivial, Dict.get?_set_self _ _ _, fun m hm => Dict.get?_set_ne _ _ (Ne.symm hm),
    Dict.keys_set_of_mem _ (Dict.mem_keys_of_get? hd), trivial⟩

/-- C06. Loads are replaced, not accumulated: a second load on the same node leaves
the same diagram as the second load alone. -/
theorem C06_load_replaces (D : Diagram R) (r : NodeRef R) (q q' : Vec R) :
    ((D.addLoad gkey r q).1.addLoad gkey r q').1 = (D.addLoad gkey r q').1 := by
  cases hr : D.nodeKey gkey r with
  | none => simp [addLoad, hr]
  | some n =>
    cases hd : D.nodes.get? n with
    | none => simp [addLoad, hr, hd]
    | some d =>
      have h1 : (D.addLoad gkey r q).1 = { D with nodes := D.nodes.set n { d with load := q } } := by
        simp [addLoad, hr, hd]
      have h2 : (D.addLoad gkey r q).1.nodeKey gkey r = some n := by
        rw [h1, ← hr]; cases r <;> rfl
      rw [addLoad, h2, h1]
      simp [addLoad, hr, hd, Dict.set_set]

/-- C06, errors: a point where no node was placed raises `ValueError`, an unknown
integer key raises `KeyError`; the diagram is unchanged in both cases, for supports
and loads. -/
theorem C06_errors (D : Diagram R) (r : NodeRef R) (q : Vec R) :
    (D.nodeKey gkey r = none →
      D.addSupport gkey r = (D, .error .valueError) ∧
      D.addLoad gkey r q = (D, .error .valueError)) ∧
    (∀ n, D.nodeKey gkey r = some n → n ∉ D.nodes.keys →
      D.addSupport gkey r = (D, .error .keyError) ∧
      D.addLoad gkey r q = (D, .error .keyError)) := by
  refine ⟨fun h => by simp [addSupport, addLoad, h], fun n h hn => ?_⟩
  have := (Dict.get?_eq_none_iff D.nodes n).2 hn
  simp [addSupport, addLoad, h, this]

example :
    let D := after exKey exOps
    D.nodeKey exKey (.point ⟨3, 0, 0⟩) = some 7 ∧
    D.nodes.get? 7 = some (freshNode ⟨2, 0, 0⟩) ∧
    (D.addSupport exKey (.key 99)).2 = .error .keyError ∧
    ((Diagram.empty : Diagram ℚ).addLoad exKey (.point ⟨3, 0, 0⟩) 0).2 = .error .valueError := by
  decide

/-! ## C07 -/

/-- C07, full claim: `node_exists` is true exactly for nodes of the diagram. -/
def C07_claim (gkey : Vec R → String) : Prop :=
  ∀ (ops : List (Op R)) (r : NodeRef R),
    (after gkey ops).nodeExists gkey r = true ↔
      ∃ n ∈ (after gkey ops).nodes.keys, (after gkey ops).nodeKey gkey r = some n

/-- C07 fails for integer keys: `node_exists(n)` is always true. -/
theorem C07_exists_int_always_true (D : Diagram R) (n : Int) :
    D.nodeExists gkey (.key n) = true := rfl

/-- The claim is false, for every geometric key function. -/
theorem C07_claim_false : ¬ C07_claim gkey := by
  intro h
  obtain ⟨n, hn, _⟩ := (h [] (.key 0)).1 rfl
  simp [after, run, Diagram.empty] at hn

/-- C07 holds for points (`_partial`: integer keys are not checked). -/
theorem C07_exists_point_partial (ops : List (Op R)) (p : Vec R) :
    (after gkey ops).nodeExists gkey (.point p) = true ↔
      ∃ n ∈ (after gkey ops).nodes.keys,
        (after gkey ops).nodeKey gkey (.point p) = some n := by
  unfold nodeExists
  rw [Option.isSome_iff_exists]
  constructor
  · rintro ⟨n, hn⟩; exact ⟨n, (WF.after gkey ops).lookup_mem _ n hn, hn⟩
  · rintro ⟨n, _, hn⟩; exact ⟨n, hn⟩

example : (after exKey exOps).nodeExists exKey (.point ⟨9, 9, 9⟩) = true ∧
    (Diagram.empty : Diagram ℚ).nodeExists exKey (.point ⟨9, 9, 9⟩) = false := by decide

/-! ## C04 -/

/-- The attributes of an edge, apart from its ends. -/
inductive SegKind (R : Type) where
  | trail (length : R) (plane : Option (Vec R × Vec R))
  | deviation (force : R)

/-- An edge element between two points. -/
def SegKind.edge : SegKind R → Vec R → Vec R → EdgeElem R
  | .trail l pl, p, q => .trail (.point p) (.point q) l pl
  | .deviation f, p, q => .deviation (.point p) (.point q) f

/-- Adding all the segments of a list to a new diagram. -/
def fromSegments (gkey : Vec R → String) (segs : List (SegKind R × Vec R × Vec R)) : Diagram R :=
  after gkey (segs.map fun s => .addEdge (s.1.edge s.2.1 s.2.2))

/-- The end points of a list of segments. -/
def endPoints (segs : List (SegKind R × Vec R × Vec R)) : List (Vec R) :=
  segs.flatMap fun s => [s.2.1, s.2.2]

/-- Invariant for C04. -/
private structure SegInv (D : Diagram R) (ps : List (Vec R)) : Prop where
  wf : WF D
  len : D.nodes.length = D.gkeyNode.length
  inj : ∀ g g' n, D.gkeyNode.get? g = some n → D.gkeyNode.get? g' = some n → g = g'
  used : ∀ g, g ∈ D.gkeyNode.keys ↔ g ∈ ps.map gkey

private theorem segInv_end {D : Diagram R} {ps : List (Vec R)} (h : SegInv gkey D ps) (p : Vec R) :
    SegInv gkey (D.endKey gkey (.point p)).1 (ps ++ [p]) ∧
    (D.endKey gkey (.point p)).1.gkeyNode.get? (gkey p) = some (D.endKey gkey (.point p)).2 ∧
    (∀ g n, D.gkeyNode.get? g = some n →
      (D.endKey gkey (.point p)).1.gkeyNode.get? g = some n) ∧
    (D.endKey gkey (.point p)).1.edges = D.edges := by
  cases hp : D.gkeyNode.get? (gkey p) with
  | some n =>
    have he : D.endKey gkey (.point p) = (D, n) := by simp [endKey, nodeKey, hp]
    rw [he]
    refine ⟨⟨h.wf, h.len, h.inj, ?_⟩, hp, fun _ _ hg => hg, rfl⟩
    intro g
    rw [h.used]
    simp only [List.map_append, List.mem_append, List.map_cons, List.map_nil, List.mem_singleton]
    constructor
    · exact Or.inl
    · rintro (hg | rfl)
      · exact hg
      · exact (h.used _).1 (Dict.mem_keys_of_get? hp)
  | none =>
    have he : D.endKey gkey (.point p) = D.addNode gkey none p := by simp [endKey, nodeKey, hp]
    rw [he]
    have hfresh : D.newKey none ∉ D.nodes.keys := by
      intro hm; have := h.wf.le_max _ hm; simp only [newKey] at this; omega
    have hg0 : gkey p ∉ D.gkeyNode.keys := (Dict.get?_eq_none_iff _ _).1 hp
    refine ⟨⟨h.wf.addNode gkey none p, ?_, ?_, ?_⟩, ?_, ?_, rfl⟩
    · simp only [Diagram.addNode]
      rw [Dict.set_of_not_mem _ hfresh, Dict.set_of_not_mem _ hg0]
      simp [h.len]
    · intro g g' n hg hg'
      simp only [Diagram.addNode, Dict.get?_set] at hg hg'
      split at hg <;> split at hg'
      · rename_i a b; exact a.symm.trans b
      · simp only [Option.some.injEq] at hg; subst hg
        exact absurd (h.wf.lookup_mem _ _ hg') hfresh
      · simp only [Option.some.injEq] at hg'; subst hg'
        exact absurd (h.wf.lookup_mem _ _ hg) hfresh
      · exact h.inj g g' n hg hg'
    · intro g
      simp only [Diagram.addNode, Dict.mem_keys_set, h.used, List.map_append, List.mem_append,
        List.map_cons, List.map_nil, List.mem_singleton]
      tauto
    · simp only [Diagram.addNode, Dict.get?_set_self]
    · intro g n hg
      simp only [Diagram.addNode]
      rw [Dict.get?_set_ne]
      · exact hg
      · rintro rfl; rw [hp] at hg; simp at hg

private theorem segInv_addEdge {D : Diagram R} {ps : List (Vec R)} (h : SegInv gkey D ps)
    (k : SegKind R) (p q : Vec R) :
    ∃ u v, (D.addEdge gkey (k.edge p q)).2 = .ok (u, v) ∧
      SegInv gkey (D.addEdge gkey (k.edge p q)).1 (ps ++ [p, q]) ∧
      (D.addEdge gkey (k.edge p q)).1.gkeyNode.get? (gkey p) = some u ∧
      (D.addEdge gkey (k.edge p q)).1.gkeyNode.get? (gkey q) = some v ∧
      (∀ g n, D.gkeyNode.get? g = some n →
        (D.addEdge gkey (k.edge p q)).1.gkeyNode.get? g = some n) ∧
      (∀ e, e ∈ (D.addEdge gkey (k.edge p q)).1.edges.keys ↔ e = (u, v) ∨ e ∈ D.edges.keys) := by
  have hu : (k.edge p q).u = .point p := by cases k <;> rfl
  have hv : (k.edge p q).v = .point q := by cases k <;> rfl
  obtain ⟨i1, g1, m1, e1⟩ := segInv_end gkey h p
  obtain ⟨i2, g2, m2, e2⟩ := segInv_end gkey i1 q
  have hD : D.addEdge gkey (k.edge p q) =
      ({ ((D.endKey gkey (.point p)).1.endKey gkey (.point q)).1 with
          edges := Dict.set ((D.endKey gkey (.point p)).1.endKey gkey (.point q)).1.edges
            ((D.endKey gkey (.point p)).2, ((D.endKey gkey (.point p)).1.endKey gkey (.point q)).2)
            (EdgeData.update ((((D.endKey gkey (.point p)).1.endKey gkey (.point q)).1.edges.get?
              ((D.endKey gkey (.point p)).2,
                ((D.endKey gkey (.point p)).1.endKey gkey (.point q)).2)).getD freshEdge)
              (k.edge p q)) },
        .ok ((D.endKey gkey (.point p)).2, ((D.endKey gkey (.point p)).1.endKey gkey (.point q)).2)) := by
    unfold addEdge
    rw [hu, hv]
    dsimp only
    rw [if_pos]
    simp only [Bool.and_eq_true, Dict.has_iff]
    exact ⟨i2.wf.lookup_mem _ _ (m2 _ _ g1), i2.wf.lookup_mem _ _ g2⟩
  rw [hD]
  refine ⟨_, _, rfl, ⟨i2.wf.setEdge _ (i2.wf.lookup_mem _ _ (m2 _ _ g1))
    (i2.wf.lookup_mem _ _ g2), i2.len, i2.inj, ?_⟩, m2 _ _ g1, g2, fun g n hg => m2 _ _ (m1 _ _ hg), ?_⟩
  · intro g
    have := i2.used g
    simpa [List.append_assoc] using this
  · intro e
    simp only [Dict.mem_keys_set, e2, e1]

private theorem segInv_from (segs : List (SegKind R × Vec R × Vec R)) :
    ∀ (D : Diagram R) (ps : List (Vec R)), SegInv gkey D ps →
    let D' := run gkey D (segs.map fun s => .addEdge (s.1.edge s.2.1 s.2.2))
    SegInv gkey D' (ps ++ endPoints segs) ∧
    (∀ g n, D.gkeyNode.get? g = some n → D'.gkeyNode.get? g = some n) ∧
    (∀ e, e ∈ D'.edges.keys ↔ e ∈ D.edges.keys ∨ ∃ s ∈ segs,
      D'.gkeyNode.get? (gkey s.2.1) = some e.1 ∧ D'.gkeyNode.get? (gkey s.2.2) = some e.2) := by
  induction segs with
  | nil => intro D ps h; simpa [run, endPoints] using h
  | cons s segs ih =>
    intro D ps h
    obtain ⟨u, v, hok, hinv, hu, hv, hmono, hedges⟩ := segInv_addEdge gkey h s.1 s.2.1 s.2.2
    obtain ⟨j1, j2, j3⟩ := ih _ _ hinv
    refine ⟨?_, fun g n hg => j2 _ _ (hmono _ _ hg), ?_⟩
    · have : ps ++ endPoints (s :: segs) = ps ++ [s.2.1, s.2.2] ++ endPoints segs := by
        simp [endPoints]
      rw [this]; exact j1
    · intro e
      have := j3 e
      simp only [List.map_cons, List.exists_mem_cons_iff]
      refine this.trans ?_
      rw [hedges]
      have hu' := j2 _ _ hu
      have hv' := j2 _ _ hv
      constructor
      · rintro ((rfl | h1) | h2)
        · exact Or.inr (Or.inl ⟨hu', hv'⟩)
        · exact Or.inl h1
        · exact Or.inr (Or.inr h2)
      · rintro (h1 | h2 | h3)
        · exact Or.inl (Or.inr h1)
        · left; left
          have a : some u = some e.1 := hu'.symm.trans h2.1
          have b : some v = some e.2 := hv'.symm.trans h2.2
          simp only [Option.some.injEq] at a b
          rw [a, b]
        · exact Or.inr h3

/-- C04. A diagram built from segments given by end points: every end point is found;
two end points designate the same node exactly if their geometric keys agree; the
number of nodes is the number of distinct geometric keys; the edges are exactly the
segments. -/
theorem C04_segments (segs : List (SegKind R × Vec R × Vec R)) :
    let D := fromSegments gkey segs
    (∀ p ∈ endPoints segs, ∃ n ∈ D.nodes.keys, D.nodeKey gkey (.point p) = some n) ∧
    (∀ p ∈ endPoints segs, ∀ q ∈ endPoints segs,
      D.nodeKey gkey (.point p) = D.nodeKey gkey (.point q) ↔ gkey p = gkey q) ∧
    D.nodes.length = ((endPoints segs).map gkey).dedup.length ∧
    (∀ e, e ∈ D.edges.keys ↔ ∃ s ∈ segs, D.nodeKey gkey (.point s.2.1) = some e.1 ∧
      D.nodeKey gkey (.point s.2.2) = some e.2) := by
  intro D
  have h0 : SegInv gkey (Diagram.empty : Diagram R) [] := by
    refine ⟨WF.empty, rfl, ?_, ?_⟩ <;> simp [Diagram.empty]
  obtain ⟨j1, _, j3⟩ := segInv_from gkey segs _ _ h0
  have j1' : SegInv gkey D (endPoints segs) := by
    simpa [D, fromSegments, after] using j1
  have hfound : ∀ p ∈ endPoints segs, ∃ n, D.gkeyNode.get? (gkey p) = some n := by
    intro p hp
    rw [Dict.exists_get?_iff]
    exact (j1'.used _).2 (List.mem_map_of_mem hp)
  refine ⟨?_, ?_, ?_, ?_⟩
  · intro p hp
    obtain ⟨n, hn⟩ := hfound p hp
    exact ⟨n, j1'.wf.lookup_mem _ _ hn, hn⟩
  · intro p hp q hq
    obtain ⟨n, hn⟩ := hfound p hp
    constructor
    · intro h
      have h' : D.gkeyNode.get? (gkey p) = D.gkeyNode.get? (gkey q) := h
      rw [hn] at h'
      exact j1'.inj _ _ n hn h'.symm
    · intro h; simp only [nodeKey, h]
  · rw [j1'.len, ← Dict.length_keys]
    apply List.Perm.length_eq
    rw [List.perm_ext_iff_of_nodup j1'.wf.gkeysNodup (List.nodup_dedup _)]
    intro g
    rw [List.mem_dedup]
    exact j1'.used g
  · intro e
    refine (j3 e).trans ?_
    simp [Diagram.empty, nodeKey, D, fromSegments, after]

/-- Two segments sharing a point up to the rounding of `exKey`: three nodes. -/
example :
    let segs : List (SegKind ℚ × Vec ℚ × Vec ℚ) :=
      [(.trail (-1) none, ⟨0, 0, 0⟩, ⟨1, 0, 0⟩), (.deviation 2, ⟨1, 5, 0⟩, ⟨2, 0, 0⟩)]
    (fromSegments exKey segs).nodes.keys = [0, 1, 2] ∧
    (fromSegments exKey segs).edges.keys = [(0, 1), (1, 2)] := by decide

end Props
end CEM
