import Verif.Lemmas.Queries
import Verif.Props.Sequences

/-!
# C50: counters and queries
-/

set_option linter.unusedSectionVars false
set_option linter.unusedSimpArgs false

namespace CEM
namespace Props
open Diagram Spec TrailEx

variable {R : Type}

local instance qrySqrt : PySqrt ℚ := ⟨id⟩

private theorem simple_congr {D D' : Diagram R} (h : D'.edges.keys = D.edges.keys)
    (g : SimpleGraph D) : SimpleGraph D' :=
  ⟨fun n => h ▸ g.noLoop n, fun a b => h ▸ g.noAnti a b⟩

/-! ## Edges -/

/-- C50. Whatever was called before, the numbers of edges reported are the numbers of
stored edges of each type, and every edge is counted as a trail edge or as a deviation
edge. -/
theorem C50_edges [Field R] [DecidableEq R] [PySqrt R] (gkey : Vec R → String) (ops : List (Op R)) :
    let D := after gkey ops
    D.numberOfEdges = D.edges.length ∧ D.numberOfNodes = D.nodes.length ∧
    D.numberOfTrailEdges = (D.edges.filter fun p => p.2.type = .trail).length ∧
    D.numberOfDeviationEdges = (D.edges.filter fun p => p.2.type = .deviation).length ∧
    D.numberOfEdges = D.numberOfTrailEdges + D.numberOfDeviationEdges := by
  intro D
  have w : WF D := WF.after gkey ops
  have h1 : D.numberOfEdges = D.edges.length := by
    unfold numberOfEdges
    rw [(edgeList_perm w).length_eq, Dict.length_keys]
  have h2 : D.numberOfTrailEdges = (D.edges.filter fun p => p.2.type = .trail).length :=
    numberOf_type w .trail
  have h3 : D.numberOfDeviationEdges = (D.edges.filter fun p => p.2.type = .deviation).length :=
    numberOf_type w .deviation
  refine ⟨h1, Dict.length_keys _, h2, h3, ?_⟩
  rw [h1, h2, h3]
  have hty : ∀ p ∈ D.edges, p.2.type ≠ .untyped := fun p hp =>
    (Plain.after gkey ops).typed p.1 p.2 (Dict.get?_of_mem w.edgesNodup hp)
  have : ∀ l : List ((Int × Int) × EdgeData R), (∀ p ∈ l, p.2.type ≠ .untyped) →
      l.length = (l.filter fun p => p.2.type = .trail).length +
        (l.filter fun p => p.2.type = .deviation).length := by
    intro l
    induction l with
    | nil => intro _; rfl
    | cons p l ih =>
      intro h
      have i := ih fun q hq => h q (by simp [hq])
      have hp := h p (by simp)
      cases ht : p.2.type with
      | untyped => exact absurd ht hp
      | trail => simp [List.filter_cons, ht]; omega
      | deviation => simp [List.filter_cons, ht]; omega
  exact this _ hty

example : two.numberOfEdges = 5 ∧ two.numberOfTrailEdges = 3 ∧ two.numberOfDeviationEdges = 2 ∧
    two.numberOfNodes = 5 := by decide +kernel

/-! ## Trails -/

/-- C50. With valid trails there are as many supports as trails, every trail starts in
an origin of its own, and the trail edges are one fewer than the nodes for each trail.
So the numbers of nodes, trails and trail edges determine each other. -/
theorem C50_trails {D : Diagram R} (w : WF D) (V : ValidTrails D) (g : SimpleGraph D) :
    D.numberOfTrailEdges + D.numberOfTrails = D.numberOfNodes ∧
    D.numberOfSupportNodes = D.numberOfTrails ∧
    D.numberOfTrails ≤ D.originNodes.length ∧
    2 * D.numberOfTrails ≤ D.numberOfNodes := by
  have hne : ∀ p ∈ D.trails, p.2 ≠ [] := by
    rintro ⟨k, tr⟩ hp
    obtain ⟨rest, h⟩ := V.head k tr hp
    simp [h]
  have h1 : D.numberOfTrailEdges + D.numberOfTrails = D.numberOfNodes := by
    unfold numberOfTrailEdges numberOfTrails numberOfNodes
    rw [← (trailEdges_perm w V g).length_eq, List.length_map, ← V.partition.length_eq,
      ← length_trailPairs D.trails hne]
    simp [trailPairs, Dict.vals]
  have h2 : D.numberOfSupportNodes = D.numberOfTrails := by
    unfold numberOfSupportNodes numberOfTrails
    rw [← (supportNodes_perm w V).length_eq]
    have : ∀ t : List (Int × List Int), (∀ p ∈ t, p.2 ≠ []) →
        (t.filterMap fun p => p.2.getLast?).length = t.length := by
      intro t
      induction t with
      | nil => intro _; rfl
      | cons p t ih =>
        intro h
        have hp := h p (by simp)
        obtain ⟨x, hx⟩ : ∃ x, p.2.getLast? = some x := ⟨_, List.getLast?_eq_some_getLast hp⟩
        rw [List.filterMap_cons, hx]
        simp [ih fun q hq => h q (by simp [hq])]
    rw [this _ hne]; simp [Dict.vals]
  have h3 : D.numberOfTrails ≤ D.originNodes.length := by
    have hsub : D.trails.keys ⊆ D.originNodes := by
      intro k hk
      obtain ⟨tr, hm⟩ := Dict.mem_keys_iff.1 hk
      have := V.origin k tr hm
      unfold originNodes
      rw [List.mem_filter]
      exact ⟨typeOf_isSome_mem this, by simpa [typeOf] using this⟩
    have := (List.subperm_of_subset (V.keys_nodup w) hsub).length_le
    simpa [numberOfTrails, Dict.vals, Dict.length_keys] using this
  refine ⟨h1, h2, h3, ?_⟩
  have h4 : D.numberOfTrails ≤ D.numberOfTrailEdges := by
    unfold numberOfTrailEdges numberOfTrails
    rw [← (trailEdges_perm w V g).length_eq, List.length_map]
    have hl : ∀ t : List (Int × List Int), (∀ p ∈ t, 2 ≤ p.2.length) →
        t.length ≤ (t.flatMap fun p => pairsOf p.2).length := by
      intro t
      induction t with
      | nil => intro _; simp
      | cons p t ih =>
        intro h
        have hp := h p (by simp)
        have i := ih fun q hq => h q (by simp [hq])
        have := length_pairsOf p.2 (by intro h0; simp [h0] at hp)
        simp only [List.flatMap_cons, List.length_append, List.length_cons]
        omega
    have : ∀ p ∈ D.trails, 2 ≤ p.2.length := by
      rintro ⟨k, tr⟩ hp
      obtain ⟨rest, rfl⟩ := V.head k tr hp
      cases rest with
      | nil =>
        have h1 := (V.support k [k] hp k (by simp)).2 rfl
        have h2 := V.origin k [k] hp
        rw [h1] at h2; cases h2
      | cons a l => simp
    simpa [trailPairs, Dict.vals] using hl _ this
  omega

/-- Two trails on five nodes: three trail edges, two supports. -/
example : let D := two.buildTrails.1
    (WF D ∧ ValidTrails D ∧ SimpleGraph D) ∧
    D.numberOfTrailEdges = 3 ∧ D.numberOfTrails = 2 ∧ D.numberOfSupportNodes = 2 :=
  ⟨⟨wf_two.buildTrails, buildTrails_valid wf_two regular_two (by decide +kernel),
    simple_congr (by decide +kernel) regular_two.toSimpleGraph⟩, by decide +kernel⟩

/-- A trail that is extended and built again: its former first node stays an origin, so
there may be more origins than trails. -/
theorem C50_stale_origin : let D := (run key two.buildTrails.1
      [.addNode none ⟨5, 0, 0⟩, trail 5 4]).buildTrails
    D.2 = .ok () ∧ D.1.numberOfTrails = 2 ∧ D.1.originNodes = [0, 4, 5] ∧
    D.1.trails.get? 5 = some [5, 4, 3] := by decide +kernel

/-! ## Connected edges -/

/-- C50. On a simple graph with typed edges the connected edges of a node are the stored
edges at that node, without repetition; they are split into the connected trail edges
and the connected deviation edges; and over all nodes every edge is reported twice. -/
theorem C50_connected {D : Diagram R} (w : WF D) (g : SimpleGraph D)
    (ht : ∀ e d, D.edges.get? e = some d → d.type ≠ .untyped) :
    (∀ n, ∃ tr dv, D.connectedTrailEdges n = .ok tr ∧ D.connectedDeviationEdges n = .ok dv ∧
      (tr ++ dv).Perm (D.connectedEdges n) ∧ (D.connectedEdges n).Nodup ∧
      (∀ e, e ∈ D.connectedEdges n ↔ e ∈ D.edges.keys ∧ (e.1 = n ∨ e.2 = n)) ∧
      (∀ a b, (a, b) ∈ tr ↔ IsTrail D a b ∧ (a = n ∨ b = n))) ∧
    (D.nodes.keys.map fun n => (D.connectedEdges n).length).sum = 2 * D.numberOfEdges := by
  refine ⟨fun n => ?_, ?_⟩
  · let q : EdgeType → Int × Int → Bool := fun t e => (D.edges.get? e).map (·.type) = some t
    have hstored : ∀ e ∈ D.connectedEdges n, ∃ d, D.edges.get? e = some d := fun e he =>
      (Dict.exists_get?_iff _ _).2 ((mem_connectedEdges g).1 he).1
    have h1 : D.connectedTrailEdges n = .ok ((D.connectedEdges n).filter (q .trail)) := by
      unfold connectedTrailEdges
      apply filterE_pure
      intro e he
      obtain ⟨d, hd⟩ := hstored e he
      simp [isTrailEdge, q, hd]
    have h2 : D.connectedDeviationEdges n = .ok ((D.connectedEdges n).filter (q .deviation)) := by
      unfold connectedDeviationEdges
      apply filterE_pure
      intro e he
      obtain ⟨d, hd⟩ := hstored e he
      simp [isDeviationEdge, q, hd]
    refine ⟨_, _, h1, h2, ?_, nodup_connectedEdges n, fun e => mem_connectedEdges g, ?_⟩
    · have : (D.connectedEdges n).filter (q .deviation) =
          (D.connectedEdges n).filter fun e => !q .trail e := by
        apply List.filter_congr
        intro e he
        obtain ⟨d, hd⟩ := hstored e he
        have := ht e d hd
        cases hty : d.type <;> simp [q, hd, hty] at this ⊢
      rw [this]
      exact List.filter_append_perm (q .trail) _
    · intro a b
      rw [List.mem_filter, mem_connectedEdges g]
      constructor
      · rintro ⟨⟨hk, hn⟩, h⟩
        obtain ⟨d, hd⟩ := (Dict.exists_get?_iff _ _).2 hk
        refine ⟨⟨d, hd, ?_⟩, hn⟩
        simpa [q, hd] using h
      · rintro ⟨⟨d, hd, hty⟩, hn⟩
        exact ⟨⟨Dict.mem_keys_of_get? hd, hn⟩, by simp [q, hd, hty]⟩
  · unfold connectedEdges numberOfEdges
    simp only [List.length_map]
    rw [sum_neighbors_edges w g, (edgeList_perm w).length_eq, Dict.length_keys]

example : SimpleGraph two ∧ (∀ e d, two.edges.get? e = some d → d.type ≠ .untyped) ∧
    two.connectedTrailEdges 1 = .ok [(0, 1), (2, 1)] ∧
    two.connectedDeviationEdges 1 = .ok [(1, 4)] :=
  ⟨regular_two.toSimpleGraph, (Plain.after key _).typed, by decide +kernel,
    by decide +kernel⟩

/-- With edges in both directions between two nodes the graph is not simple, and the edge
found depends on the node asked: `(1, 0)` is not among the connected edges of node 0. -/
theorem C50_both_directions : let D := after key (nodes 2 ++ [trail 0 1, dev 1 0])
    D.numberOfEdges = 2 ∧ D.connectedEdges 0 = [(0, 1)] ∧ D.connectedEdges 1 = [(1, 0)] := by
  decide +kernel

theorem snd_pairsOf : ∀ l : List Int, (pairsOf l).map (·.2) = l.tail
  | [] => rfl
  | [_] => rfl
  | a :: b :: l => by
    have := snd_pairsOf (b :: l)
    simp only [pairsOf, List.map_cons, this, List.tail_cons]

private theorem length_filter_or {α : Type} (p q : α → Bool) (l : List α)
    (h : ∀ a ∈ l, ¬ (p a = true ∧ q a = true)) :
    (l.filter fun a => p a || q a).length = (l.filter p).length + (l.filter q).length := by
  induction l with
  | nil => rfl
  | cons a l ih =>
    have i := ih fun b hb => h b (by simp [hb])
    have ha := h a (by simp)
    cases hp : p a <;> cases hq : q a <;> simp [List.filter_cons, hp, hq, i] at ha ⊢ <;> omega

private theorem length_filter_eq (l : List (Int × Int)) (f : Int × Int → Int) (n : Int) :
    (l.filter fun p => decide (f p = n)).length = (l.map f).count n := by
  induction l with
  | nil => rfl
  | cons a l ih =>
    by_cases h : f a = n
    · simp [List.filter_cons, h, ih]
    · simp [List.filter_cons, h, ih, List.count_cons]

/-- C50. On a diagram with valid trails a node has one connected trail edge if it is an
end of its trail and two otherwise. -/
theorem C50_trail_degree {D : Diagram R} (w : WF D) (V : ValidTrails D) (g : SimpleGraph D)
    {key n : Int} {tr : List Int} (ht : (key, tr) ∈ D.trails) (hn : n ∈ tr) :
    ∃ l, D.connectedTrailEdges n = .ok l ∧
      l.length = (if n = key then 0 else 1) + (if tr.getLast? = some n then 0 else 1) := by
  let q : Int × Int → Bool := fun e => (D.edges.get? e).map (·.type) = some .trail
  have h1 : D.connectedTrailEdges n = .ok ((D.connectedEdges n).filter q) := by
    unfold connectedTrailEdges
    apply filterE_pure
    intro e he
    obtain ⟨d, hd⟩ := (Dict.exists_get?_iff _ _).2 ((mem_connectedEdges g).1 he).1
    simp [isTrailEdge, q, hd]
  refine ⟨_, h1, ?_⟩
  have hp : ((D.connectedEdges n).filter q).Perm
      (((trailPairs D).filter fun p => decide (p.1 = n) || decide (p.2 = n)).map (storedPair D)) := by
    refine (List.perm_ext_iff_of_nodup ((nodup_connectedEdges n).filter _)
      ((nodup_storedPairs w V).sublist ((List.filter_sublist).map _))).2 ?_
    rintro ⟨a, b⟩
    have hmem : (a, b) ∈ (D.connectedEdges n).filter q ↔ IsTrail D a b ∧ (a = n ∨ b = n) := by
      rw [List.mem_filter, mem_connectedEdges g]
      constructor
      · rintro ⟨⟨hk, hn⟩, h⟩
        obtain ⟨d, hd⟩ := (Dict.exists_get?_iff _ _).2 hk
        exact ⟨⟨d, hd, by simpa [q, hd] using h⟩, hn⟩
      · rintro ⟨⟨d, hd, hty⟩, hn⟩
        exact ⟨⟨Dict.mem_keys_of_get? hd, hn⟩, by simp [q, hd, hty]⟩
    have hpm : ∀ x y, (x, y) ∈ D.trailEdges ↔
        (x, y) ∈ (trailPairs D).map (storedPair D) := fun x y => (trailEdges_perm w V g).mem_iff.symm
    rw [hmem, ← mem_trailEdges w, hpm, List.mem_map, List.mem_map]
    constructor
    · rintro ⟨⟨⟨x, y⟩, hm, he⟩, hn⟩
      refine ⟨(x, y), List.mem_filter.2 ⟨hm, ?_⟩, he⟩
      rcases storedPair_cases D (x, y) with e | e <;> rw [e] at he <;>
        simp only [Prod.swap_prod_mk, Prod.mk.injEq] at he <;> obtain ⟨rfl, rfl⟩ := he <;>
        simpa [or_comm] using hn
    · rintro ⟨⟨x, y⟩, hm, he⟩
      rw [List.mem_filter] at hm
      obtain ⟨hm, hn⟩ := hm
      refine ⟨⟨(x, y), hm, he⟩, ?_⟩
      rcases storedPair_cases D (x, y) with e | e <;> rw [e] at he <;>
        simp only [Prod.swap_prod_mk, Prod.mk.injEq] at he <;> obtain ⟨rfl, rfl⟩ := he <;>
        simpa [or_comm] using hn
  rw [hp.length_eq, List.length_map, length_filter_or, length_filter_eq _ (·.1),
    length_filter_eq _ (·.2)]
  · have hnd := V.flat_nodup w
    have e1 : (trailPairs D).map (·.1) = D.trails.flatMap fun t => t.2.dropLast := by
      unfold trailPairs
      rw [List.map_flatMap]
      congr 1; funext t; exact fst_pairsOf t.2
    have e2 : (trailPairs D).map (·.2) = D.trails.flatMap fun t => t.2.tail := by
      unfold trailPairs
      rw [List.map_flatMap]
      congr 1; funext t; exact snd_pairsOf t.2
    have n1 : (D.trails.flatMap fun t => t.2.dropLast).Nodup :=
      hnd.sublist (List.Sublist.flatMap_right _ fun t _ => List.dropLast_sublist _)
    have n2 : (D.trails.flatMap fun t => t.2.tail).Nodup :=
      hnd.sublist (List.Sublist.flatMap_right _ fun t _ => List.tail_sublist _)
    have htn := V.trail_nodup w ht
    obtain ⟨rest, htr⟩ := V.head key tr ht
    have m1 : (n ∈ D.trails.flatMap fun t => t.2.dropLast) ↔ tr.getLast? ≠ some n := by
      rw [List.mem_flatMap]
      constructor
      · rintro ⟨⟨k', tr'⟩, ht', hm⟩ hl
        obtain ⟨-, rfl⟩ := Prod.mk.injEq .. ▸
          (V.unique w ht ht' hn (List.mem_of_mem_dropLast hm))
        rw [List.getLast?_eq_some_iff] at hl
        obtain ⟨ys, rfl⟩ := hl
        rw [List.dropLast_concat] at hm
        exact (List.disjoint_of_nodup_append htn) hm (by simp)
      · intro hl
        refine ⟨(key, tr), ht, ?_⟩
        obtain ⟨ys, y, rfl⟩ : ∃ ys y, tr = ys ++ [y] :=
          ⟨_, _, (List.dropLast_append_getLast (List.ne_nil_of_mem hn)).symm⟩
        rw [List.dropLast_concat]
        rcases List.mem_append.1 hn with h | h
        · exact h
        · simp at h hl; exact absurd h.symm hl
    have m2 : (n ∈ D.trails.flatMap fun t => t.2.tail) ↔ n ≠ key := by
      rw [List.mem_flatMap]
      constructor
      · rintro ⟨⟨k', tr'⟩, ht', hm⟩ rfl
        obtain ⟨-, rfl⟩ := Prod.mk.injEq .. ▸ (V.unique w ht ht' hn (List.mem_of_mem_tail hm))
        rw [htr] at hm htn
        exact (List.nodup_cons.1 htn).1 hm
      · intro h
        refine ⟨(key, tr), ht, ?_⟩
        rw [htr] at hn ⊢
        exact (List.mem_cons.1 hn).resolve_left h
    rw [e1, e2, n1.count, n2.count]
    simp only [m1, m2, ne_eq, ite_not]
    omega
  · rintro ⟨a, b⟩ hm ⟨h1, h2⟩
    simp only [decide_eq_true_eq] at h1 h2
    subst h1; subst h2
    exact trailPairs_antisymm w V hm hm

example : let D := two.buildTrails.1
    (0, [0, 1, 2]) ∈ D.trails ∧ D.connectedTrailEdges 0 = .ok [(0, 1)] ∧
    D.connectedTrailEdges 1 = .ok [(0, 1), (2, 1)] ∧ D.connectedTrailEdges 2 = .ok [(2, 1)] := by
  decide +kernel

/-! ## Loads and supports -/

/-- C50. The loaded nodes are the nodes whose load is longer than the threshold, in the
order of the nodes; counting them never fails, and a higher threshold reports fewer. -/
theorem C50_loaded [Field R] [LinearOrder R] [PySqrt R] (D : Diagram R) (m : R) :
    ∃ l, D.loadedNodes m = .ok l ∧ l.Sublist D.nodes.keys ∧
      (∀ n, n ∈ l ↔ ∃ d, D.nodes.get? n = some d ∧ Vec.length d.load > m) ∧
      ∀ m', m ≤ m' → ∃ l', D.loadedNodes m' = .ok l' ∧ l'.Sublist l := by
  let q : R → Int → Bool := fun m n => ((D.nodes.get? n).map fun d => decide (Vec.length d.load > m)).getD false
  have h : ∀ m, D.loadedNodes m = .ok (D.nodes.keys.filter (q m)) := by
    intro m
    unfold loadedNodes
    apply filterE_pure
    intro n hn
    obtain ⟨d, hd⟩ := (Dict.exists_get?_iff _ _).2 hn
    simp [isNodeLoaded, nodeLoad, q, hd]
  refine ⟨_, h m, List.filter_sublist, ?_, ?_⟩
  · intro n
    rw [List.mem_filter]
    constructor
    · rintro ⟨hn, hq⟩
      obtain ⟨d, hd⟩ := (Dict.exists_get?_iff _ _).2 hn
      exact ⟨d, hd, by simpa [q, hd] using hq⟩
    · rintro ⟨d, hd, hl⟩
      exact ⟨Dict.mem_keys_of_get? hd, by simpa [q, hd] using hl⟩
  · intro m' hm
    refine ⟨_, h m', ?_⟩
    have : D.nodes.keys.filter (q m') = (D.nodes.keys.filter (q m)).filter (q m') := by
      rw [List.filter_filter]
      apply List.filter_congr
      intro n _
      cases hd : D.nodes.get? n with
      | none => simp [q, hd]
      | some d =>
        simp only [q, hd, Option.map_some, Option.getD_some]
        rw [Bool.eq_iff_iff]
        simp only [Bool.and_eq_true, decide_eq_true_eq]
        exact ⟨fun h => ⟨h, lt_of_le_of_lt hm h⟩, fun h => h.1⟩
    rw [this]
    exact List.filter_sublist

/-- C50. After `add_load` a node is reported as loaded exactly when the new load is longer
than the threshold; the answer for the other nodes does not change. -/
theorem C50_add_load [Field R] [LinearOrder R] [PySqrt R] (gkey : Vec R → String) {D : Diagram R}
    {n : Int} (hn : n ∈ D.nodes.keys) (q : Vec R) (m : R) :
    let D' := (D.addLoad gkey (.key n) q).1
    D'.isNodeLoaded m n = .ok (decide (Vec.length q > m)) ∧
    ∀ n' ≠ n, D'.isNodeLoaded m n' = D.isNodeLoaded m n' := by
  obtain ⟨d, hd⟩ := (Dict.exists_get?_iff _ _).2 hn
  have hD : (D.addLoad gkey (.key n) q).1 = { D with nodes := D.nodes.set n { d with load := q } } := by
    simp [addLoad, nodeKey, hd]
  rw [hD]
  refine ⟨?_, fun n' h => ?_⟩
  · simp [isNodeLoaded, nodeLoad, Dict.get?_set]
  · simp [isNodeLoaded, nodeLoad, Dict.get?_set_ne _ _ (Ne.symm h)]

example : let D := run key two [.addLoad (.key 1) ⟨0, 0, -2⟩, .addLoad (.key 3) ⟨0, 0, 0⟩]
    D.loadedNodes 0 = .ok [1] ∧ D.loadedNodes 5 = .ok [] ∧ D.numberOfLoadedNodes = .ok 1 := by
  decide +kernel

/-- C50. An edge of the diagram is supported exactly if one of its ends is a support. -/
theorem C50_supported {D : Diagram R} (w : WF D) {a b : Int} (h : (a, b) ∈ D.edges.keys) :
    ∃ s, D.isEdgeSupported (a, b) = .ok s ∧
      (s = true ↔ typeOf D a = some .support ∨ typeOf D b = some .support) := by
  obtain ⟨d, hd⟩ := (Dict.exists_get?_iff _ _).2 (w.edge_left _ h)
  obtain ⟨d', hd'⟩ := (Dict.exists_get?_iff _ _).2 (w.edge_right _ h)
  refine ⟨decide (d.type = .support) || decide (d'.type = .support), ?_, ?_⟩
  · simp [isEdgeSupported, isNodeSupport, hd, hd']
  · simp [typeOf, hd, hd']

/-- C50. Along a valid trail exactly the last edge is supported. -/
theorem C50_last_edge {D : Diagram R} (w : WF D) (V : ValidTrails D) {key a b : Int}
    {tr : List Int} (ht : (key, tr) ∈ D.trails) (hc : Consecutive tr a b) :
    (typeOf D a = some .support ∨ typeOf D b = some .support) ↔ tr.getLast? = some b := by
  rw [V.support key tr ht a hc.mem_left, V.support key tr ht b hc.mem_right]
  constructor
  · rintro (h | h)
    · exfalso
      obtain ⟨p, s, e⟩ := hc
      have hn := V.trail_nodup w ht
      rw [List.getLast?_eq_some_iff] at h
      obtain ⟨ys, h⟩ := h
      have h' : tr = ys ++ a :: [] := h
      obtain ⟨_, h2⟩ := split_unique hn e h'
      simp at h2
    · exact h
  · exact Or.inr

example : let D := two.buildTrails.1
    D.isEdgeSupported (2, 1) = .ok true ∧ D.isEdgeSupported (0, 1) = .ok false ∧
    D.isEdgeSupported (0, 7) = .error .keyError := by decide +kernel

/-! ## Auxiliary trails -/

private theorem vals_auxDict [Field R] [DecidableEq R] [PySqrt R] (D : Diagram R) (l : List Int) (k : Int) :
    (auxDict l k).vals = (auxEdges D l k).keys := by
  induction l generalizing k with
  | nil => rfl
  | cons n l ih => simp [auxDict, auxEdges, ih]

private theorem filter_auxEdges [Field R] [DecidableEq R] [PySqrt R] (D : Diagram R) (l : List Int) (k : Int) :
    (auxEdges D l k).filter (fun p => p.2.type = .trail) = auxEdges D l k := by
  rw [List.filter_eq_self]
  rintro ⟨e, d⟩ h
  simp [(mem_auxEdges.1 h).2, auxEdge]

/-- C50. After `build_trails(auxiliary_trails=True)` the auxiliary trail edges are stored
trail edges, `auxiliary_trail_edges()` yields exactly these, and their number is the number
of nodes and the number of trail edges added. No deviation edge is added. -/
theorem C50_auxiliary [Field R] [DecidableEq R] [PySqrt R] (gkey : Vec R → String)
    {D : Diagram R} (w : WF D) (order : List Int → List Int) (ho : ∀ l, (order l).Perm l) :
    let D' := (D.buildTrailsAux gkey order).1
    D'.auxiliaryTrailEdges.Perm D'.auxTrails.vals ∧
    (∀ a b, (a, b) ∈ D'.auxTrails.vals → IsTrail D' a b) ∧
    D'.numberOfNodes = D.numberOfNodes + D'.numberOfAuxiliaryTrails ∧
    D'.numberOfTrailEdges = D.numberOfTrailEdges + D'.numberOfAuxiliaryTrails ∧
    D'.numberOfEdges = D.numberOfEdges + D'.numberOfAuxiliaryTrails := by
  intro D'
  have w' : WF D' := WF.buildTrailsAux gkey w order
  obtain ⟨s, hs⟩ := searchTrails_terminates w
  have hb := (GenInv.search w hs).base
  obtain ⟨E, hE, wE, hn, he, ha, _⟩ := buildTrailsAux_extended gkey w hs order ho
  set U := order (unassigned s) with hU
  have hD' : D' = E.buildTrails.1 := by simp only [D', hE]
  obtain ⟨_, f1, f2, _, f4, _, _, f7, _, _⟩ := C12_frame wE
  rw [← hD'] at f1 f2 f4 f7
  have hv : D'.auxTrails.vals = (auxEdges D U (D.maxNode + 1)).keys := by
    rw [f7, ha, vals_auxDict D]
  have hk : D'.edges.keys = D.edges.keys ++ D'.auxTrails.vals := by
    rw [f4, he, keys_append, hv]
  have hvn : D'.auxTrails.vals.Nodup :=
    (hk ▸ w'.edgesNodup : (D.edges.keys ++ D'.auxTrails.vals).Nodup).of_append_right
  refine ⟨?_, ?_, ?_, ?_, ?_⟩
  · refine (List.perm_ext_iff_of_nodup ((nodup_edgeList w').filter _) hvn).2 fun e => ?_
    rw [List.mem_filter, (edgeList_perm w').mem_iff, hk, List.mem_append]
    simp only [isAuxiliaryTrailEdge, decide_eq_true_eq]
    tauto
  · intro a b h
    rw [hv, Dict.mem_keys_iff] at h
    obtain ⟨d, hd⟩ := h
    refine ⟨d, ?_, by simp [(mem_auxEdges.1 hd).2, auxEdge]⟩
    refine Dict.get?_of_mem w'.edgesNodup ?_
    rw [f4, he]
    exact List.mem_append_right _ hd
  · unfold numberOfNodes numberOfAuxiliaryTrails
    rw [f1, hn, keys_append, hb.keys, keys_auxNodes, hv]
    simp only [List.length_append, List.length_map, List.length_range, Nat.add_left_cancel_iff]
    rw [← vals_auxDict D]
    have := congrArg List.length (keys_auxDict U (D.maxNode + 1))
    simpa [Dict.vals, Dict.keys] using this.symm
  · unfold numberOfAuxiliaryTrails
    have h1 : D'.numberOfTrailEdges = (D'.edges.filter fun p => p.2.type = .trail).length :=
      numberOf_type w' .trail
    have h2 : D.numberOfTrailEdges = (D.edges.filter fun p => p.2.type = .trail).length :=
      numberOf_type w .trail
    rw [h1, h2, hv, f4, he, List.filter_append, filter_auxEdges, List.length_append,
      Dict.length_keys]
  · unfold numberOfEdges numberOfAuxiliaryTrails
    rw [(edgeList_perm w').length_eq, (edgeList_perm w).length_eq, hk, List.length_append]

example : let D := (partialD.buildTrailsAux key id).1
    D.auxiliaryTrailEdges ≠ [] ∧ D.numberOfAuxiliaryTrails + partialD.numberOfNodes = D.numberOfNodes := by
  decide +kernel

/-! ## Direct and indirect deviation edges -/

/-- C50. On a diagram with sequences the direct and the indirect deviation edges add up to
the deviation edges. -/
theorem C50_direct_indirect {D : Diagram R} (w : WF D) (hs : AllSequenced D) :
    ∃ a b, D.numberOfDirectDeviationEdges = .ok a ∧ D.numberOfIndirectDeviationEdges = .ok b ∧
      a + b = D.numberOfDeviationEdges := by
  obtain ⟨dir, ind, h1, h2, _, _, h3, _⟩ := C17_partition w hs
  exact ⟨dir.length, ind.length, by rw [numberOfDirectDeviationEdges, h1],
    by rw [numberOfIndirectDeviationEdges, h2], h3.symm⟩

/-- Two deviation edges, one within a sequence and one between two sequences. -/
example : let D := two.buildTrails.1
    D.numberOfDirectDeviationEdges = .ok 1 ∧ D.numberOfIndirectDeviationEdges = .ok 1 ∧
    D.numberOfDeviationEdges = 2 := by decide +kernel

/-! ## All numbers -/

/-- C50. The text of a diagram can always be made, whatever was called before, and shows in this
order how many edges, trail edges, deviation edges, nodes, supports, loaded nodes, trails and
auxiliary trails are stored. -/
theorem C50_text [Field R] [LinearOrder R] [PySqrt R] {D : Diagram R} (w : WF D) :
    ∃ l : List Int, D.reprNumbers = .ok [D.edges.length,
        (D.edges.filter fun p => p.2.type = .trail).length,
        (D.edges.filter fun p => p.2.type = .deviation).length, D.nodes.length,
        (D.nodes.keys.filter fun n => typeOf D n = some .support).length, l.length,
        D.trails.length, D.auxTrails.length] ∧
      l.Sublist D.nodes.keys ∧
      ∀ n, n ∈ l ↔ ∃ d, D.nodes.get? n = some d ∧ Vec.length d.load > 1 / 1000000 := by
  obtain ⟨l, hl, hsub, hmem, _⟩ := C50_loaded D defaultMinForce
  refine ⟨l, ?_, hsub, hmem⟩
  have h1 : D.numberOfEdges = D.edges.length := by
    unfold numberOfEdges; rw [(edgeList_perm w).length_eq, Dict.length_keys]
  have h2 : D.numberOfTrailEdges = (D.edges.filter fun p => p.2.type = .trail).length :=
    numberOf_type w .trail
  have h3 : D.numberOfDeviationEdges = (D.edges.filter fun p => p.2.type = .deviation).length :=
    numberOf_type w .deviation
  have h4 : D.numberOfNodes = D.nodes.length := by
    unfold numberOfNodes; rw [Dict.length_keys]
  have h5 : D.numberOfSupportNodes =
      (D.nodes.keys.filter fun n => typeOf D n = some .support).length := by
    unfold numberOfSupportNodes supportNodes; rfl
  have h6 : D.numberOfTrails = D.trails.length := by simp [numberOfTrails, Dict.vals]
  have h7 : D.numberOfAuxiliaryTrails = D.auxTrails.length := by
    simp [numberOfAuxiliaryTrails, auxiliaryTrailEdges, Dict.vals]
  simp only [reprNumbers, numberOfLoadedNodes, hl, h1, h2, h3, h4, h5, h6, h7]

example : two.buildTrails.1.reprNumbers = .ok [5, 3, 2, 5, 2, 0, 2, 0] := by decide +kernel

end Props
end CEM
