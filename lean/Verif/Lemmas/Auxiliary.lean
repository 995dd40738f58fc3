import Verif.Lemmas.Paths

/-! # Auxiliary trails -/

set_option linter.unusedSectionVars false
set_option linter.unusedSimpArgs false

namespace CEM
namespace Diagram
open Spec
variable {R : Type} [Field R] [DecidableEq R] [PySqrt R] (gkey : Vec R → String)

/-- The vector from a node to its auxiliary node. -/
def auxOffset (D : Diagram R) : Vec R := D.auxLength • Vec.normalize D.auxVector

/-- Attributes of an auxiliary node at `p`. -/
def auxNode (p : Vec R) : NodeData R := ⟨p, 0, 0, none, .support⟩

/-- Attributes of an auxiliary trail edge. -/
def auxEdge (len : R) : EdgeData R := ⟨.trail, len, 0, none⟩

/-- The nodes added for the list `l`, keys from `k` on. -/
def auxNodes (D : Diagram R) : List Int → Int → Dict Int (NodeData R)
  | [], _ => []
  | n :: l, k => (k, auxNode (((D.nodes.get? n).map (·.pos)).getD 0 + D.auxOffset)) :: auxNodes D l (k + 1)

/-- The edges added for the list `l`. -/
def auxEdges (D : Diagram R) : List Int → Int → Dict (Int × Int) (EdgeData R)
  | [], _ => []
  | n :: l, k => ((n, k), auxEdge D.auxLength) :: auxEdges D l (k + 1)

/-- The reported auxiliary trails for the list `l`. -/
def auxDict : List Int → Int → Dict Int (Int × Int)
  | [], _ => []
  | n :: l, k => (n, (n, k)) :: auxDict l (k + 1)

theorem addAuxTrail_eq {D : Diagram R} (w : WF D) {n : Int} {d : NodeData R}
    (hn : D.nodes.get? n = some d) :
    ∃ gk, D.addAuxTrail gkey n =
      ({ D with nodes := D.nodes ++ [(D.maxNode + 1, auxNode (d.pos + D.auxOffset))]
                edges := D.edges ++ [((n, D.maxNode + 1), auxEdge D.auxLength)]
                maxNode := D.maxNode + 1
                gkeyNode := gk }, .ok (n, D.maxNode + 1)) := by
  have hk : D.maxNode + 1 ∉ D.nodes.keys := fun h => by have := w.le_max _ h; omega
  have hk0 : D.nodes.get? (D.maxNode + 1) = none := (Dict.get?_eq_none_iff _ _).2 hk
  have he : (n, D.maxNode + 1) ∉ D.edges.keys := fun h => hk (w.edge_right _ h)
  have he0 : D.edges.get? (n, D.maxNode + 1) = none := (Dict.get?_eq_none_iff _ _).2 he
  have hnk : n ∈ D.nodes.keys := Dict.mem_keys_of_get? hn
  refine ⟨D.gkeyNode.set (gkey (d.pos + D.auxOffset)) (D.maxNode + 1), ?_⟩
  have hkey : D.newKey none = D.maxNode + 1 := rfl
  have hmax : max D.maxNode (D.maxNode + 1) = D.maxNode + 1 := max_eq_right (by omega)
  have hset : ∀ a b : NodeData R, (D.nodes.set (D.maxNode + 1) a).set (D.maxNode + 1) b
      = D.nodes ++ [(D.maxNode + 1, b)] := by
    intro a b; rw [Dict.set_set, Dict.set_of_not_mem _ hk]
  have hhas1 : Dict.has (D.nodes ++ [(D.maxNode + 1, auxNode (d.pos + D.auxOffset))]) n = true := by
    rw [Dict.has_iff, Dict.mem_keys_iff]
    exact ⟨d, List.mem_append_left _ (Dict.mem_of_get? hn)⟩
  have hhas2 : Dict.has (D.nodes ++ [(D.maxNode + 1, auxNode (d.pos + D.auxOffset))])
      (D.maxNode + 1) = true := by
    rw [Dict.has_iff, Dict.mem_keys_iff]
    exact ⟨_, List.mem_append_right _ (List.mem_singleton.2 rfl)⟩
  simp only [addAuxTrail, hn, addNode, hkey, hmax, placedNode, hk0, addSupport, nodeKey,
    Dict.get?_set_self, hset, freshNode]
  change (addEdge gkey _ _) = _
  have : (⟨d.pos + D.auxLength • D.auxVector.normalize, 0, 0, none, .support⟩ : NodeData R)
      = auxNode (d.pos + D.auxOffset) := rfl
  rw [this]
  simp only [addEdge, endKey, EdgeElem.u, EdgeElem.v, nodeKey, hhas1, hhas2, Bool.and_self, if_true,
    he0, Option.getD_none, EdgeData.update, freshEdge, Dict.set_of_not_mem _ he]
  rfl

theorem addAuxTrails_eq {D : Diagram R} (w : WF D) (aux : Dict Int (Int × Int)) (l : List Int)
    (hl : ∀ n ∈ l, n ∈ D.nodes.keys) (hnd : l.Nodup) (hdis : ∀ n ∈ l, n ∉ aux.keys) :
    ∃ gk, D.addAuxTrails gkey aux l =
      ({ D with nodes := D.nodes ++ auxNodes D l (D.maxNode + 1)
                edges := D.edges ++ auxEdges D l (D.maxNode + 1)
                maxNode := D.maxNode + l.length
                gkeyNode := gk }, .ok (aux ++ auxDict l (D.maxNode + 1))) := by
  induction l generalizing D aux with
  | nil => exact ⟨D.gkeyNode, by simp [addAuxTrails, auxNodes, auxEdges, auxDict]⟩
  | cons n l ih =>
    obtain ⟨d, hd⟩ := (Dict.exists_get?_iff _ _).2 (hl n (by simp))
    obtain ⟨gk, hg⟩ := addAuxTrail_eq gkey w hd
    have w1 := w.addAuxTrail gkey n
    rw [hg] at w1
    set D1 : Diagram R :=
      { D with nodes := D.nodes ++ [(D.maxNode + 1, auxNode (d.pos + D.auxOffset))]
               edges := D.edges ++ [((n, D.maxNode + 1), auxEdge D.auxLength)]
               maxNode := D.maxNode + 1
               gkeyNode := gk } with hD1
    rw [List.nodup_cons] at hnd
    obtain ⟨gk2, h2⟩ := ih w1 (aux.set n (n, D.maxNode + 1))
      (by intro x hx
          have := hl x (by simp [hx])
          obtain ⟨v, hv⟩ := Dict.mem_keys_iff.1 this
          exact Dict.mem_keys_iff.2 ⟨v, List.mem_append_left _ hv⟩) hnd.2
      (by intro x hx hk
          rcases Dict.mem_keys_set.1 hk with rfl | hk
          · exact hnd.1 hx
          · exact hdis x (by simp [hx]) hk)
    refine ⟨gk2, ?_⟩
    have hnodes : ∀ (m : List Int) (k : Int), (∀ x ∈ m, x ∈ D.nodes.keys) →
        auxNodes D1 m k = auxNodes D m k := by
      intro m
      induction m with
      | nil => intro k _; rfl
      | cons x m ihm =>
        intro k hm
        have hx : D1.nodes.get? x = D.nodes.get? x := by
          obtain ⟨v, hv⟩ := (Dict.exists_get?_iff _ _).2 (hm x (by simp))
          rw [hD1]; simp only [Dict.get?_append, hv, Option.some_or]
        simp only [auxNodes, hx, ihm (k + 1) (fun y hy => hm y (by simp [hy]))]
        rfl
    have hedges : ∀ (m : List Int) (k : Int), auxEdges D1 m k = auxEdges D m k := by
      intro m
      induction m with
      | nil => intro k; rfl
      | cons x m ihm => intro k; simp only [auxEdges, ihm]; rfl
    simp only [addAuxTrails, hg]
    rw [h2, hnodes l _ (fun x hx => hl x (by simp [hx])), hedges]
    rw [Dict.set_of_not_mem _ (hdis n (by simp))]
    simp only [hD1, auxNodes, auxEdges, auxDict, hd, Option.map_some, Option.getD_some,
      List.append_assoc, List.singleton_append, List.length_cons]
    congr 2
    push_cast; ring

theorem keys_append {K V : Type} [DecidableEq K] (d d' : Dict K V) :
    Dict.keys (d ++ d') = Dict.keys d ++ Dict.keys d' := by simp [Dict.keys]

theorem keys_auxNodes (D : Diagram R) (l : List Int) (k : Int) :
    (auxNodes D l k).keys = (List.range l.length).map fun (i : Nat) => k + (i : Int) := by
  induction l generalizing k with
  | nil => rfl
  | cons n l ih =>
    simp only [auxNodes, Dict.keys_cons, ih, List.length_cons, List.range_succ_eq_map,
      List.map_cons, List.map_map]
    refine List.cons_eq_cons.2 ⟨by simp, ?_⟩
    apply List.map_congr_left
    intro i _
    simp; ring

theorem keys_auxDict (l : List Int) (k : Int) : (auxDict l k).keys = l := by
  induction l generalizing k with
  | nil => rfl
  | cons n l ih => simp [auxDict, ih]

theorem mem_auxDict {l : List Int} {k : Int} {n : Int} {e : Int × Int} :
    (n, e) ∈ auxDict l k ↔ ∃ (i : Nat) (h : i < l.length), n = l[i] ∧ e = (l[i], k + i) := by
  induction l generalizing k with
  | nil => simp [auxDict]
  | cons x l ih =>
    simp only [auxDict, List.mem_cons, ih, Prod.mk.injEq]
    constructor
    · rintro (⟨rfl, rfl⟩ | ⟨i, h, rfl, rfl⟩)
      · exact ⟨0, by simp, by simp, by simp⟩
      · exact ⟨i + 1, by simpa using h, by simp, by simp; ring⟩
    · rintro ⟨i, h, h1, h2⟩
      cases i with
      | zero => exact Or.inl (by simp_all)
      | succ i =>
        refine Or.inr ⟨i, by simpa using h, by simpa using h1, ?_⟩
        rw [h2]; simp; ring

theorem mem_auxEdges {D : Diagram R} {l : List Int} {k : Int} {e : Int × Int} {d : EdgeData R} :
    (e, d) ∈ auxEdges D l k ↔ (∃ (i : Nat) (h : i < l.length), e = (l[i], k + i)) ∧
      d = auxEdge D.auxLength := by
  induction l generalizing k with
  | nil => simp [auxEdges]
  | cons x l ih =>
    simp only [auxEdges, List.mem_cons, ih, Prod.mk.injEq]
    constructor
    · rintro (⟨rfl, rfl⟩ | ⟨⟨i, h, rfl⟩, rfl⟩)
      · exact ⟨⟨0, by simp, by simp⟩, rfl⟩
      · exact ⟨⟨i + 1, by simpa using h, by simp; ring⟩, rfl⟩
    · rintro ⟨⟨i, h, h1⟩, h2⟩
      cases i with
      | zero => exact Or.inl ⟨by simpa using h1, h2⟩
      | succ i =>
        refine Or.inr ⟨⟨i, by simpa using h, ?_⟩, h2⟩
        rw [h1]; simp; ring

theorem mem_auxNodes {D : Diagram R} {l : List Int} {k : Int} {n : Int} {d : NodeData R} :
    (n, d) ∈ auxNodes D l k ↔ ∃ (i : Nat) (h : i < l.length), n = k + i ∧
      d = auxNode (((D.nodes.get? l[i]).map (·.pos)).getD 0 + D.auxOffset) := by
  induction l generalizing k with
  | nil => simp [auxNodes]
  | cons x l ih =>
    simp only [auxNodes, List.mem_cons, ih, Prod.mk.injEq]
    constructor
    · rintro (⟨rfl, rfl⟩ | ⟨i, h, rfl, rfl⟩)
      · exact ⟨0, by simp, by simp, by simp⟩
      · exact ⟨i + 1, by simpa using h, by simp; ring, by simp⟩
    · rintro ⟨i, h, h1, h2⟩
      cases i with
      | zero => exact Or.inl ⟨by simpa using h1, by simpa using h2⟩
      | succ i =>
        refine Or.inr ⟨i, by simpa using h, ?_, by simpa using h2⟩
        rw [h1]; simp; ring

/-! ## The diagram after the auxiliary trails were added -/

/-- Base data of the extended diagram in terms of `D`. -/
theorem buildTrailsAux_extended {D : Diagram R} (w : WF D) {s : BuildState R}
    (hs : D.searchTrails = some s) (order : List Int → List Int) (ho : ∀ l, (order l).Perm l) :
    ∃ E : Diagram R, D.buildTrailsAux gkey order = E.buildTrails ∧ WF E ∧
      E.nodes = s.D.nodes ++ auxNodes s.D (order (unassigned s)) (D.maxNode + 1) ∧
      E.edges = D.edges ++ auxEdges D (order (unassigned s)) (D.maxNode + 1) ∧
      E.auxTrails = auxDict (order (unassigned s)) (D.maxNode + 1) ∧
      E.maxNode = D.maxNode + (unassigned s).length ∧
      E.trails = D.trails ∧ E.auxLength = D.auxLength ∧ E.auxVector = D.auxVector := by
  have hb := sameBase_searchTrails hs
  have w' := w.of_sameBase hb
  have hU : ∀ n ∈ order (unassigned s), n ∈ s.D.nodes.keys := by
    intro n hn
    have := (ho _).mem_iff.1 hn
    exact (List.mem_filter.1 this).1
  have hnd : (order (unassigned s)).Nodup :=
    (ho _).nodup_iff.2 (w'.nodesNodup.filter _)
  obtain ⟨gk, hg⟩ := addAuxTrails_eq gkey w' [] _ hU hnd (by simp)
  have w2 := w'.addAuxTrails gkey [] (order (unassigned s))
  rw [hg] at w2
  refine ⟨_, ?_, w2.setAux (auxDict (order (unassigned s)) (D.maxNode + 1)), ?_, ?_, rfl, ?_, hb.trails,
    hb.auxLength, hb.auxVector⟩
  · unfold buildTrailsAux
    simp only [hs, hg, List.nil_append, hb.maxNode]
  · simp [hb.maxNode]
  · have : ∀ (l : List Int) (k : Int), auxEdges s.D l k = auxEdges D l k := by
      intro l
      induction l with
      | nil => intro k; rfl
      | cons x l ih => intro k; simp only [auxEdges, ih, hb.auxLength]
    simp [hb.edges, hb.maxNode, this]
  · simp [hb.maxNode, (ho _).length_eq]

end Diagram
end CEM
