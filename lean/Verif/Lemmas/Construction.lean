import Verif.Lemmas.Dict
import Verif.Spec.WellFormed
import Verif.Spec.History

/-! # Invariants of diagram construction -/

set_option linter.unusedSectionVars false

namespace CEM
namespace Diagram
variable {R : Type}

/-- `D'` differs from `D` at most in node types and sequences. -/
structure SameBase (D D' : Diagram R) : Prop where
  edges : D'.edges = D.edges
  maxNode : D'.maxNode = D.maxNode
  gkeyNode : D'.gkeyNode = D.gkeyNode
  trails : D'.trails = D.trails
  auxTrails : D'.auxTrails = D.auxTrails
  auxLength : D'.auxLength = D.auxLength
  auxVector : D'.auxVector = D.auxVector
  keys : D'.nodes.keys = D.nodes.keys
  attrs : ∀ n, (D'.nodes.get? n).map (fun d => (d.pos, d.load, d.reaction)) =
    (D.nodes.get? n).map (fun d => (d.pos, d.load, d.reaction))

theorem SameBase.refl (D : Diagram R) : SameBase D D := ⟨rfl, rfl, rfl, rfl, rfl, rfl, rfl, rfl, fun _ => rfl⟩

theorem SameBase.trans {D D' D'' : Diagram R} (h : SameBase D D') (h' : SameBase D' D'') :
    SameBase D D'' :=
  ⟨h'.edges.trans h.edges, h'.maxNode.trans h.maxNode, h'.gkeyNode.trans h.gkeyNode,
   h'.trails.trans h.trails, h'.auxTrails.trans h.auxTrails, h'.auxLength.trans h.auxLength,
   h'.auxVector.trans h.auxVector, h'.keys.trans h.keys, fun n => (h'.attrs n).trans (h.attrs n)⟩

theorem sameBase_setK (D : Diagram R) (n k : Int) : SameBase D (D.setK n k) := by
  refine ⟨rfl, rfl, rfl, rfl, rfl, rfl, rfl, ?_, ?_⟩
  · simp [setK]
  · intro m
    simp only [setK, Dict.get?_modify]
    split
    · rename_i h; subst h; cases D.nodes.get? n <;> simp
    · rfl

theorem sameBase_setOrigin (D : Diagram R) (n : Int) : SameBase D (D.setOrigin n) := by
  refine ⟨rfl, rfl, rfl, rfl, rfl, rfl, rfl, ?_, ?_⟩
  · simp [setOrigin]
  · intro m
    simp only [setOrigin, Dict.get?_modify]
    split
    · rename_i h; subst h; cases D.nodes.get? n <;> simp
    · rfl

theorem sameBase_assignSequences (D : Diagram R) (l : List Int) (k : Int) :
    SameBase D (D.assignSequences l k) := by
  induction l generalizing D k with
  | nil => exact SameBase.refl D
  | cons n l ih => exact (sameBase_setK D n k).trans (ih _ _)

theorem sameBase_buildStep {fuel : Nat} {s s' : BuildState R} {n : Int}
    (h : buildStep fuel s n = some s') : SameBase s.D s'.D := by
  unfold buildStep at h
  split at h
  · simp at h
  · simp at h
  · simp only [Option.some.injEq] at h
    subst h
    exact (sameBase_setOrigin _ _).trans (sameBase_assignSequences _ _ _)

theorem sameBase_buildLoop {fuel : Nat} {l : List Int} {s s' : BuildState R}
    (h : buildLoop fuel l s = some s') : SameBase s.D s'.D := by
  induction l generalizing s with
  | nil => simp [buildLoop] at h; subst h; exact SameBase.refl _
  | cons n l ih =>
    simp only [buildLoop] at h
    split at h
    · split at h
      · split at h
        · simp at h
        · rename_i hs; exact (sameBase_buildStep hs).trans (ih h)
      · exact ih h
    · exact ih h

theorem sameBase_searchTrails {D : Diagram R} {s : BuildState R}
    (h : D.searchTrails = some s) : SameBase D s.D := sameBase_buildLoop h

theorem WF.of_sameBase {D D' : Diagram R} (h : SameBase D D') (w : WF D) : WF D' := by
  obtain ⟨h1, h2, h3, _, _, _, _, h8, _⟩ := h
  constructor
  · rw [h8]; exact w.nodesNodup
  · rw [h1]; exact w.edgesNodup
  · rw [h3]; exact w.gkeysNodup
  · rw [h8, h2]; exact w.le_max
  · rw [h2]; exact w.max_ge
  · rw [h3, h8]; exact w.lookup_mem
  · rw [h1, h8]; exact w.edge_left
  · rw [h1, h8]; exact w.edge_right

theorem WF.setTrails {D : Diagram R} (w : WF D) (t : Dict Int (List Int)) :
    WF { D with trails := t } := ⟨w.1, w.2, w.3, w.4, w.5, w.6, w.7, w.8⟩

theorem WF.setAux {D : Diagram R} (w : WF D) (t : Dict Int (Int × Int)) :
    WF { D with auxTrails := t } := ⟨w.1, w.2, w.3, w.4, w.5, w.6, w.7, w.8⟩

theorem WF.buildTrails {D : Diagram R} (w : WF D) : WF D.buildTrails.1 := by
  unfold Diagram.buildTrails
  split
  · exact w
  · rename_i s hs
    have w' := w.of_sameBase (sameBase_searchTrails hs)
    split_ifs
    · exact w'
    · exact w'
    · exact w'
    · exact w'.setTrails _

theorem WF.shiftTrail {D : Diagram R} (w : WF D) (key s : Int) : WF (D.shiftTrail key s).1 := by
  unfold Diagram.shiftTrail
  split
  · exact w
  · exact w
  · split_ifs
    · exact w
    · split
      · exact w
      · exact w.of_sameBase (sameBase_assignSequences _ _ _)

section
variable [Field R] (gkey : Vec R → String)

theorem WF.empty : WF (Diagram.empty : Diagram R) := by
  constructor <;> simp [Diagram.empty]

theorem WF.addNode {D : Diagram R} (w : WF D) (key : Option Int) (p : Vec R) :
    WF (D.addNode gkey key p).1 := by
  unfold Diagram.addNode
  generalize D.newKey key = n
  have hmem : ∀ m, m ∈ D.nodes.keys → ∀ d, m ∈ Dict.keys (Dict.set D.nodes n d) :=
    fun m hm d => Dict.mem_keys_set.2 (Or.inr hm)
  constructor
  · exact Dict.nodup_keys_set w.nodesNodup
  · exact w.edgesNodup
  · exact Dict.nodup_keys_set w.gkeysNodup
  · intro m hm
    rcases Dict.mem_keys_set.1 hm with rfl | hm
    · exact le_max_right _ _
    · exact (w.le_max m hm).trans (le_max_left _ _)
  · exact w.max_ge.trans (le_max_left _ _)
  · intro g m hg
    simp only [Dict.get?_set] at hg
    split at hg
    · simp only [Option.some.injEq] at hg; subst hg; exact Dict.mem_keys_set.2 (Or.inl rfl)
    · exact hmem _ (w.lookup_mem g m hg) _
  · intro e he; exact hmem _ (w.edge_left e he) _
  · intro e he; exact hmem _ (w.edge_right e he) _

theorem WF.eraseGkey {D : Diagram R} (w : WF D) (g : String) :
    WF { D with gkeyNode := D.gkeyNode.erase g } := by
  refine ⟨w.1, w.2, Dict.nodup_keys_erase w.3, w.4, w.5, ?_, w.7, w.8⟩
  intro g' n h
  rw [Dict.get?_erase w.3] at h
  split at h
  · simp at h
  · exact w.lookup_mem g' n h

theorem WF.setNodeXyz {D : Diagram R} (w : WF D) (n : Int) (p : Vec R) :
    WF (D.setNodeXyz gkey n p) := by
  unfold Diagram.setNodeXyz Diagram.updateNodeXyz
  dsimp only
  split_ifs
  · exact (w.eraseGkey _).addNode gkey _ _
  · exact w.addNode gkey _ _

theorem WF.endKey {D : Diagram R} (w : WF D) (r : NodeRef R) : WF (D.endKey gkey r).1 := by
  unfold Diagram.endKey
  split
  · exact w
  · cases r with
    | key n => exact w
    | point p => exact w.addNode gkey _ _

theorem WF.setEdge {D : Diagram R} (w : WF D) {e : Int × Int} (d : EdgeData R)
    (h1 : e.1 ∈ D.nodes.keys) (h2 : e.2 ∈ D.nodes.keys) :
    WF { D with edges := D.edges.set e d } := by
  refine ⟨w.1, Dict.nodup_keys_set w.2, w.3, w.4, w.5, w.6, ?_, ?_⟩
  · intro e' he; rcases Dict.mem_keys_set.1 he with rfl | he
    · exact h1
    · exact w.7 _ he
  · intro e' he; rcases Dict.mem_keys_set.1 he with rfl | he
    · exact h2
    · exact w.8 _ he

theorem WF.addEdge {D : Diagram R} (w : WF D) (e : EdgeElem R) : WF (D.addEdge gkey e).1 := by
  unfold Diagram.addEdge
  dsimp only
  have w2 := (w.endKey gkey e.u).endKey gkey e.v
  split_ifs with h
  · simp only [Bool.and_eq_true, Dict.has_iff] at h
    exact w2.setEdge _ h.1 h.2
  · exact w2

theorem WF.setNode {D : Diagram R} (w : WF D) {n : Int} {d : NodeData R}
    (h : n ∈ D.nodes.keys) : WF { D with nodes := D.nodes.set n d } := by
  have hk : Dict.keys (Dict.set D.nodes n d) = D.nodes.keys := Dict.keys_set_of_mem _ h
  constructor
  · rw [hk]; exact w.1
  · exact w.2
  · exact w.3
  · rw [hk]; exact w.4
  · exact w.5
  · rw [hk]; exact w.6
  · rw [hk]; exact w.7
  · rw [hk]; exact w.8

theorem WF.addSupport {D : Diagram R} (w : WF D) (r : NodeRef R) :
    WF (D.addSupport gkey r).1 := by
  unfold Diagram.addSupport
  split
  · exact w
  · split
    · exact w
    · rename_i h; exact w.setNode (Dict.mem_keys_of_get? h)

theorem WF.addLoad {D : Diagram R} (w : WF D) (r : NodeRef R) (q : Vec R) :
    WF (D.addLoad gkey r q).1 := by
  unfold Diagram.addLoad
  split
  · exact w
  · split
    · exact w
    · rename_i h; exact w.setNode (Dict.mem_keys_of_get? h)

variable [DecidableEq R] [PySqrt R]

theorem WF.addAuxTrail {D : Diagram R} (w : WF D) (n : Int) : WF (D.addAuxTrail gkey n).1 := by
  unfold Diagram.addAuxTrail
  split
  · exact w
  · rename_i d hd
    dsimp only
    have w1 := w.addNode gkey none (d.pos + D.auxLength • D.auxVector.normalize)
    have w2 := w1.addSupport gkey (.key (D.addNode gkey none (d.pos + D.auxLength • D.auxVector.normalize)).2)
    split
    · rename_i h; rw [h] at w2; exact w2
    · rename_i h; rw [h] at w2; exact w2.addEdge gkey _

theorem WF.addAuxTrails {D : Diagram R} (w : WF D) (aux : Dict Int (Int × Int)) (l : List Int) :
    WF (addAuxTrails gkey D aux l).1 := by
  induction l generalizing D aux with
  | nil => exact w
  | cons n l ih =>
    unfold Diagram.addAuxTrails
    have w1 := w.addAuxTrail gkey n
    split
    · rename_i h; rw [h] at w1; exact w1
    · rename_i h; rw [h] at w1; exact ih w1 _

theorem WF.buildTrailsAux {D : Diagram R} (w : WF D) (order : List Int → List Int) :
    WF (D.buildTrailsAux gkey order).1 := by
  unfold Diagram.buildTrailsAux
  split
  · exact w
  · rename_i s hs
    have w1 := (w.of_sameBase (sameBase_searchTrails hs)).addAuxTrails gkey [] (order (unassigned s))
    split
    · rename_i h; rw [h] at w1; exact w1
    · rename_i h; rw [h] at w1; exact (w1.setAux _).buildTrails

theorem WF.step {D : Diagram R} (w : WF D) (op : Spec.Op R) : WF (Spec.step gkey D op) := by
  cases op with
  | addNode key p => exact w.addNode gkey _ _
  | addEdge e => exact w.addEdge gkey _
  | addSupport r => exact w.addSupport gkey _
  | addLoad r q => exact w.addLoad gkey _ _
  | moveNode n p => exact w.setNodeXyz gkey _ _
  | buildTrails => exact w.buildTrails
  | buildTrailsAux order => exact w.buildTrailsAux gkey _
  | shiftTrail key s => exact w.shiftTrail _ _

theorem WF.run {D : Diagram R} (w : WF D) (ops : List (Spec.Op R)) : WF (Spec.run gkey D ops) := by
  induction ops generalizing D with
  | nil => exact w
  | cons op ops ih => exact ih (w.step gkey op)

theorem WF.after (ops : List (Spec.Op R)) : WF (Spec.after gkey ops) := WF.empty.run gkey ops

end
end Diagram
end CEM
