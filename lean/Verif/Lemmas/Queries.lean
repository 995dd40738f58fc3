import Verif.Lemmas.History
import Verif.Lemmas.Statics
import Verif.Model.Queries

/-!
# Counting edges, trails and neighbours
-/

set_option linter.unusedSectionVars false

namespace CEM
open Diagram Spec

variable {R : Type}

/-! ## Edges -/

theorem nodup_edgeList {D : Diagram R} (w : WF D) : D.edgeList.Nodup := by
  unfold edgeList
  rw [List.nodup_flatMap]
  refine ⟨fun u _ => w.edgesNodup.filter _, ?_⟩
  refine w.nodesNodup.imp ?_
  intro u v huv
  simp only [Function.onFun]
  rw [List.disjoint_left]
  intro e h1 h2
  simp only [List.mem_filter, decide_eq_true_eq] at h1 h2
  exact huv (h1.2.symm.trans h2.2)

theorem edgeList_perm {D : Diagram R} (w : WF D) : D.edgeList.Perm D.edges.keys :=
  (List.perm_ext_iff_of_nodup (nodup_edgeList w) w.edgesNodup).2 fun _ => mem_edgeList w

theorem keys_filter_type {D : Diagram R} (w : WF D) (t : EdgeType) :
    (D.edges.keys.filter fun e => ((D.edges.get? e).map (·.type)) = some t).length =
      (D.edges.filter fun p => p.2.type = t).length := by
  have h : ∀ p ∈ D.edges, D.edges.get? p.1 = some p.2 := fun p hp =>
    Dict.get?_of_mem w.edgesNodup hp
  unfold Dict.keys
  rw [List.filter_map, List.length_map]
  congr 1
  apply List.filter_congr
  intro p hp
  simp [Function.comp, h p hp]

theorem numberOf_type {D : Diagram R} (w : WF D) (t : EdgeType) :
    (D.edgeList.filter fun e => ((D.edges.get? e).map (·.type)) = some t).length =
      (D.edges.filter fun p => p.2.type = t).length := by
  rw [← keys_filter_type w t]
  exact ((edgeList_perm w).filter _).length_eq

/-! ## Consecutive nodes of a list -/

/-- The pairs of consecutive entries. -/
def pairsOf : List Int → List (Int × Int)
  | [] => []
  | [_] => []
  | a :: b :: l => (a, b) :: pairsOf (b :: l)

theorem length_pairsOf : ∀ l : List Int, l ≠ [] → (pairsOf l).length + 1 = l.length
  | [], h => absurd rfl h
  | [_], _ => rfl
  | a :: b :: l, _ => by
    have := length_pairsOf (b :: l) (by simp)
    simp only [pairsOf, List.length_cons] at this ⊢
    omega

theorem mem_pairsOf : ∀ {l : List Int} {a b : Int}, (a, b) ∈ pairsOf l ↔ Consecutive l a b
  | [], a, b => by
    simp only [pairsOf, List.not_mem_nil, false_iff]
    rintro ⟨p, s, h⟩
    simp at h
  | [x], a, b => by
    simp only [pairsOf, List.not_mem_nil, false_iff]
    rintro ⟨p, s, h⟩
    cases p with
    | nil => simp at h
    | cons y p => simp at h
  | x :: y :: l, a, b => by
    simp only [pairsOf, List.mem_cons]
    rw [mem_pairsOf (l := y :: l)]
    constructor
    · rintro (h | ⟨p, s, h⟩)
      · simp only [Prod.mk.injEq] at h
        obtain ⟨rfl, rfl⟩ := h
        exact ⟨[], l, rfl⟩
      · exact ⟨x :: p, s, by rw [h]; rfl⟩
    · rintro ⟨p, s, h⟩
      cases p with
      | nil => simp only [List.nil_append, List.cons.injEq] at h; left; simp [h.1, h.2.1]
      | cons z p =>
        simp only [List.cons_append, List.cons.injEq] at h
        right; exact ⟨p, s, h.2⟩

theorem fst_pairsOf : ∀ l : List Int, (pairsOf l).map (·.1) = l.dropLast
  | [] => rfl
  | [_] => rfl
  | a :: b :: l => by
    have := fst_pairsOf (b :: l)
    simp only [pairsOf, List.map_cons, this, List.dropLast_cons_cons]

theorem consecutive_antisymm {l : List Int} (hn : l.Nodup) {a b : Int} (h : Consecutive l a b)
    (h' : Consecutive l b a) : False := by
  obtain ⟨p, s, h⟩ := h
  obtain ⟨p', s', h'⟩ := h'
  have e1 : l = (p ++ [a]) ++ b :: s := by rw [h]; simp
  obtain ⟨h1, h2⟩ := split_unique hn e1 h'
  have : a ∈ s := by rw [h2]; simp
  rw [h] at hn
  have hn' := (List.nodup_append.1 hn).2.1
  rw [List.nodup_cons] at hn'
  exact hn'.1 (List.mem_cons_of_mem _ this)

/-! ## Trail edges and trails -/

/-- All pairs of consecutive nodes of trails. -/
def trailPairs (D : Diagram R) : List (Int × Int) := D.trails.flatMap fun t => pairsOf t.2

theorem mem_trailPairs {D : Diagram R} {a b : Int} :
    (a, b) ∈ trailPairs D ↔ ∃ key tr, (key, tr) ∈ D.trails ∧ Consecutive tr a b := by
  unfold trailPairs
  rw [List.mem_flatMap]
  constructor
  · rintro ⟨⟨key, tr⟩, h, h'⟩
    exact ⟨key, tr, h, mem_pairsOf.1 h'⟩
  · rintro ⟨key, tr, h, h'⟩
    exact ⟨(key, tr), h, mem_pairsOf.2 h'⟩

theorem nodup_trailPairs {D : Diagram R} (w : WF D) (V : ValidTrails D) : (trailPairs D).Nodup := by
  apply List.Nodup.of_map (·.1)
  have : (trailPairs D).map (·.1) = D.trails.flatMap fun t => t.2.dropLast := by
    unfold trailPairs
    rw [List.map_flatMap]
    congr 1
    funext t
    exact fst_pairsOf t.2
  rw [this]
  refine (V.flat_nodup w).sublist ?_
  apply List.Sublist.flatMap_right
  intro t _
  exact List.dropLast_sublist _

/-- The stored direction of a pair of consecutive nodes. -/
def storedPair (D : Diagram R) (p : Int × Int) : Int × Int := if p ∈ D.edges.keys then p else p.swap

theorem storedPair_cases (D : Diagram R) (p : Int × Int) :
    storedPair D p = p ∨ storedPair D p = p.swap := by
  unfold storedPair; split_ifs <;> simp

theorem trailPairs_antisymm {D : Diagram R} (w : WF D) (V : ValidTrails D) {a b : Int}
    (h : (a, b) ∈ trailPairs D) (h' : (b, a) ∈ trailPairs D) : False := by
  obtain ⟨k, tr, ht, hc⟩ := mem_trailPairs.1 h
  obtain ⟨k', tr', ht', hc'⟩ := mem_trailPairs.1 h'
  obtain ⟨-, rfl⟩ := Prod.mk.injEq .. ▸ (V.unique w ht ht' hc.mem_left hc'.mem_right)
  exact consecutive_antisymm (V.trail_nodup w ht) hc hc'

theorem nodup_storedPairs {D : Diagram R} (w : WF D) (V : ValidTrails D) :
    ((trailPairs D).map (storedPair D)).Nodup := by
  refine (List.nodup_map_iff_inj_on (nodup_trailPairs w V)).2 ?_
  rintro ⟨a, b⟩ h1 ⟨c, d⟩ h2 h
  rcases storedPair_cases D (a, b) with e1 | e1 <;> rcases storedPair_cases D (c, d) with e2 | e2 <;>
    rw [e1, e2] at h
  · exact h
  · simp only [Prod.swap_prod_mk, Prod.mk.injEq] at h
    obtain ⟨rfl, rfl⟩ := h
    exact (trailPairs_antisymm w V h1 h2).elim
  · simp only [Prod.swap_prod_mk, Prod.mk.injEq] at h
    obtain ⟨rfl, rfl⟩ := h
    exact (trailPairs_antisymm w V h1 h2).elim
  · simp only [Prod.swap_prod_mk, Prod.mk.injEq] at h
    obtain ⟨rfl, rfl⟩ := h
    rfl

theorem isTrail_of_storedPair {D : Diagram R} (g : SimpleGraph D) {a b : Int} (h : TrailAdj D a b) :
    IsTrail D (storedPair D (a, b)).1 (storedPair D (a, b)).2 := by
  unfold storedPair
  split_ifs with hm
  · rcases h with h | ⟨d, hd, _⟩
    · exact h
    · exact absurd (Dict.mem_keys_of_get? hd) (g.noAnti a b hm)
  · rcases h with ⟨d, hd, _⟩ | h
    · exact absurd (Dict.mem_keys_of_get? hd) hm
    · exact h

theorem trailEdges_perm {D : Diagram R} (w : WF D) (V : ValidTrails D) (g : SimpleGraph D) :
    ((trailPairs D).map (storedPair D)).Perm D.trailEdges := by
  refine (List.perm_ext_iff_of_nodup (nodup_storedPairs w V) ((nodup_edgeList w).filter _)).2 ?_
  rintro ⟨x, y⟩
  have hm : (x, y) ∈ D.edgeList.filter (fun e => ((D.edges.get? e).map (·.type)) = some .trail) ↔
      IsTrail D x y := mem_trailEdges w
  rw [hm, List.mem_map]
  constructor
  · rintro ⟨⟨a, b⟩, h, he⟩
    obtain ⟨k, tr, ht, hc⟩ := mem_trailPairs.1 h
    have := isTrail_of_storedPair g ((isChain_iff_consecutive tr).1 (V.chain k tr ht) a b hc)
    rw [he] at this
    exact this
  · intro h
    have hk : (x, y) ∈ D.edges.keys := by obtain ⟨d, hd, _⟩ := h; exact Dict.mem_keys_of_get? hd
    obtain ⟨k, tr, ht, hc | hc⟩ := V.complete x y (Or.inl h)
    · exact ⟨(x, y), mem_trailPairs.2 ⟨k, tr, ht, hc⟩, if_pos hk⟩
    · exact ⟨(y, x), mem_trailPairs.2 ⟨k, tr, ht, hc⟩, if_neg (g.noAnti x y hk)⟩

theorem length_trailPairs (t : List (Int × List Int)) (h : ∀ p ∈ t, p.2 ≠ []) :
    (t.flatMap fun p => pairsOf p.2).length + t.length = (t.flatMap (·.2)).length := by
  induction t with
  | nil => rfl
  | cons p t ih =>
    have := length_pairsOf p.2 (h p (by simp))
    have := ih fun q hq => h q (by simp [hq])
    simp only [List.flatMap_cons, List.length_append, List.length_cons] at *
    omega

/-- The supports are the last nodes of the trails. -/
theorem supportNodes_perm {D : Diagram R} (w : WF D) (V : ValidTrails D) :
    (D.trails.filterMap fun t => t.2.getLast?).Perm D.supportNodes := by
  have hnd : (D.trails.filterMap fun t => t.2.getLast?).Nodup := by
    have hs : (D.trails.filterMap fun t => t.2.getLast?) =
        D.trails.flatMap fun t => t.2.getLast?.toList := by
      rw [List.filterMap_eq_flatMap_toList]
    rw [hs]
    refine (V.flat_nodup w).sublist ?_
    apply List.Sublist.flatMap_right
    intro t _
    cases h : t.2.getLast? with
    | none => simp
    | some x => simpa using List.mem_of_getLast? h
  refine (List.perm_ext_iff_of_nodup hnd (w.nodesNodup.filter _)).2 ?_
  intro n
  have hm : n ∈ D.nodes.keys.filter (fun n => (D.nodes.get? n).map (·.type) = some .support) ↔
      typeOf D n = some .support := mem_supportNodes
  rw [hm, List.mem_filterMap]
  constructor
  · rintro ⟨⟨k, tr⟩, ht, hl⟩
    exact (V.support k tr ht n (List.mem_of_getLast? hl)).2 hl
  · intro h
    have hn : n ∈ D.trails.flatMap (·.2) := V.partition.mem_iff.2 (typeOf_isSome_mem h)
    obtain ⟨⟨k, tr⟩, ht, hm⟩ := List.mem_flatMap.1 hn
    exact ⟨(k, tr), ht, (V.support k tr ht n hm).1 h⟩

/-! ## Neighbours -/

theorem neighbors_perm_edges {D : Diagram R} (w : WF D) (g : SimpleGraph D) (n : Int) :
    (D.neighbors n).Perm ((D.edges.keys.filter fun e => e.1 = n).map (·.2) ++
      (D.edges.keys.filter fun e => e.2 = n).map (·.1)) := by
  refine (List.perm_ext_iff_of_nodup (nodup_neighbors D n) ?_).2 ?_
  · rw [List.nodup_append]
    refine ⟨?_, ?_, ?_⟩
    · refine (List.nodup_map_iff_inj_on (w.edgesNodup.filter _)).2 ?_
      rintro ⟨a, b⟩ h1 ⟨c, d⟩ h2 h
      simp only [List.mem_filter, decide_eq_true_eq] at h1 h2 h
      rw [Prod.mk.injEq]; exact ⟨h1.2.trans h2.2.symm, h⟩
    · refine (List.nodup_map_iff_inj_on (w.edgesNodup.filter _)).2 ?_
      rintro ⟨a, b⟩ h1 ⟨c, d⟩ h2 h
      simp only [List.mem_filter, decide_eq_true_eq] at h1 h2 h
      rw [Prod.mk.injEq]; exact ⟨h, h1.2.trans h2.2.symm⟩
    · intro x hx y hy hxy
      subst hxy
      obtain ⟨⟨a, b⟩, h1, rfl⟩ := List.mem_map.1 hx
      obtain ⟨⟨c, d⟩, h2, h⟩ := List.mem_map.1 hy
      simp only [List.mem_filter, decide_eq_true_eq] at h1 h2 h
      obtain ⟨h1, rfl⟩ := h1
      obtain ⟨h2, rfl⟩ := h2
      subst h
      exact g.noAnti _ _ h1 h2
  · intro x
    rw [mem_neighbors, List.mem_append, List.mem_map, List.mem_map]
    constructor
    · rintro (h | h)
      · exact Or.inl ⟨(n, x), List.mem_filter.2 ⟨h, by simp⟩, rfl⟩
      · exact Or.inr ⟨(x, n), List.mem_filter.2 ⟨h, by simp⟩, rfl⟩
    · rintro (⟨⟨a, b⟩, h, rfl⟩ | ⟨⟨a, b⟩, h, rfl⟩)
      · simp only [List.mem_filter, decide_eq_true_eq] at h
        obtain ⟨h, rfl⟩ := h; exact Or.inl h
      · simp only [List.mem_filter, decide_eq_true_eq] at h
        obtain ⟨h, rfl⟩ := h; exact Or.inr h

theorem sum_filter_length {l : List Int} (hn : l.Nodup) (es : List (Int × Int))
    (f : Int × Int → Int) (h : ∀ e ∈ es, f e ∈ l) :
    (l.map fun n => (es.filter fun e => f e = n).length).sum = es.length := by
  have h1 : ∀ n, (es.filter fun e => f e = n).length = (es.map fun e => if f e = n then 1 else 0).sum := by
    intro n
    induction es with
    | nil => rfl
    | cons e es ih =>
      have := ih fun e' he' => h e' (by simp [he'])
      by_cases he : f e = n
      · simp [he, this, Nat.add_comm]
      · simp [he, this]
  simp only [h1]
  rw [list_sum_comm]
  have h2 : (es.map fun e => (l.map fun n => if f e = n then 1 else 0).sum) = es.map fun _ => 1 := by
    apply List.map_congr_left
    intro e he
    exact list_sum_ite hn (h e he) fun _ => 1
  rw [h2]; simp

theorem sum_neighbors_edges {D : Diagram R} (w : WF D) (g : SimpleGraph D) :
    (D.nodes.keys.map fun n => (D.neighbors n).length).sum = 2 * D.edges.length := by
  have h : ∀ n, (D.neighbors n).length = (D.edges.keys.filter fun e => e.1 = n).length +
      (D.edges.keys.filter fun e => e.2 = n).length := by
    intro n
    rw [(neighbors_perm_edges w g n).length_eq]; simp
  simp only [h]
  rw [list_sum_map_add, sum_filter_length w.nodesNodup _ (·.1) w.edge_left,
    sum_filter_length w.nodesNodup _ (·.2) w.edge_right, Dict.length_keys]
  omega

/-- On a simple graph `connected_edges(n)` are the stored edges at `n`. -/
theorem mem_connectedEdges {D : Diagram R} (g : SimpleGraph D) {n : Int} {e : Int × Int} :
    e ∈ D.connectedEdges n ↔ e ∈ D.edges.keys ∧ (e.1 = n ∨ e.2 = n) := by
  unfold connectedEdges
  rw [List.mem_map]
  constructor
  · rintro ⟨x, hx, rfl⟩
    rw [mem_neighbors] at hx
    split_ifs with h
    · exact ⟨(Dict.has_iff _ _).1 h, Or.inl rfl⟩
    · rcases hx with hx | hx
      · exact absurd ((Dict.has_iff _ _).2 hx) h
      · exact ⟨hx, Or.inr rfl⟩
  · obtain ⟨a, b⟩ := e
    rintro ⟨h, rfl | rfl⟩
    · exact ⟨b, mem_neighbors.2 (Or.inl h), if_pos ((Dict.has_iff _ _).2 h)⟩
    · refine ⟨a, mem_neighbors.2 (Or.inr h), if_neg ?_⟩
      intro h'
      exact g.noAnti _ _ h ((Dict.has_iff _ _).1 h')

theorem nodup_connectedEdges {D : Diagram R} (n : Int) : (D.connectedEdges n).Nodup := by
  unfold connectedEdges
  refine (List.nodup_map_iff_inj_on (nodup_neighbors D n)).2 ?_
  intro x hx y hy h
  split_ifs at h with h1 h2 h2
  · exact (Prod.mk.inj h).2
  · obtain ⟨rfl, rfl⟩ := Prod.mk.inj h; rfl
  · obtain ⟨rfl, rfl⟩ := Prod.mk.inj h; rfl
  · exact (Prod.mk.inj h).1

end CEM
