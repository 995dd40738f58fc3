import Verif.Lemmas.Trails2
import Verif.Lemmas.Sequences
import Verif.Spec.ValidInput

/-!
# Diagrams built through the API are valid input of form finding
-/

namespace CEM
open Diagram Spec

variable {R : Type} [Field R]

/-- No reactions yet, and every edge has a type. -/
structure Plain (D : Diagram R) : Prop where
  reaction : ∀ n d, D.nodes.get? n = some d → d.reaction = 0
  typed : ∀ e d, D.edges.get? e = some d → d.type ≠ .untyped

theorem Plain.of_sameBase {D D' : Diagram R} (h : SameBase D D') (w : Plain D) : Plain D' := by
  refine ⟨?_, ?_⟩
  · intro n d hd
    have := h.attrs n
    rw [hd] at this
    cases hn : D.nodes.get? n with
    | none => rw [hn] at this; simp at this
    | some d' =>
      rw [hn] at this
      simp only [Option.map_some, Option.some.injEq, Prod.mk.injEq] at this
      rw [this.2.2]; exact w.reaction n d' hn
  · rw [h.edges]; exact w.typed

theorem Plain.setTrails {D : Diagram R} (w : Plain D) (t : Dict Int (List Int)) :
    Plain { D with trails := t } := ⟨w.1, w.2⟩

theorem Plain.setAux {D : Diagram R} (w : Plain D) (t : Dict Int (Int × Int)) :
    Plain { D with auxTrails := t } := ⟨w.1, w.2⟩

theorem Plain.buildTrails {D : Diagram R} (w : Plain D) : Plain D.buildTrails.1 := by
  unfold Diagram.buildTrails
  split
  · exact w
  · rename_i s hs
    have w' := w.of_sameBase (sameBase_searchTrails hs)
    split_ifs
    · exact w'
    · exact w'
    · exact w'
    · exact w'.setTrails _

theorem Plain.shiftTrail {D : Diagram R} (w : Plain D) (key s : Int) :
    Plain (D.shiftTrail key s).1 := by
  unfold Diagram.shiftTrail
  split
  · exact w
  · exact w
  · split_ifs
    · exact w
    · split
      · exact w
      · exact w.of_sameBase (sameBase_assignSequences _ _ _)

variable (gkey : Vec R → String)

theorem Plain.empty : Plain (Diagram.empty : Diagram R) := by
  constructor <;> simp [Diagram.empty]

theorem Plain.setNode {D : Diagram R} (w : Plain D) {n : Int} {d : NodeData R}
    (h : d.reaction = 0) : Plain { D with nodes := D.nodes.set n d } := by
  refine ⟨?_, w.2⟩
  intro m d' hm
  simp only [Dict.get?_set] at hm
  split at hm
  · obtain rfl := Option.some.inj hm; exact h
  · exact w.1 m d' hm

theorem Plain.addNode {D : Diagram R} (w : Plain D) (key : Option Int) (p : Vec R) :
    Plain (D.addNode gkey key p).1 := by
  have : (D.placedNode (D.newKey key) p).reaction = 0 := by
    unfold Diagram.placedNode
    split
    · rename_i d hd; exact w.1 _ d hd
    · rfl
  have w' := w.setNode (n := D.newKey key) this
  exact ⟨w'.1, w'.2⟩

theorem Plain.setNodeXyz {D : Diagram R} (w : Plain D) (n : Int) (p : Vec R) :
    Plain (D.setNodeXyz gkey n p) := by
  unfold Diagram.setNodeXyz Diagram.updateNodeXyz
  dsimp only
  split_ifs
  · have w' : Plain { D with gkeyNode := D.gkeyNode.erase (gkey p) } := ⟨w.1, w.2⟩
    exact w'.addNode gkey _ _
  · exact w.addNode gkey _ _

theorem Plain.endKey {D : Diagram R} (w : Plain D) (r : NodeRef R) : Plain (D.endKey gkey r).1 := by
  unfold Diagram.endKey
  split
  · exact w
  · cases r with
    | key n => exact w
    | point p => exact w.addNode gkey _ _

theorem Plain.addEdge {D : Diagram R} (w : Plain D) (e : EdgeElem R) :
    Plain (D.addEdge gkey e).1 := by
  unfold Diagram.addEdge
  dsimp only
  have w2 := (w.endKey gkey e.u).endKey gkey e.v
  split_ifs with h
  · refine ⟨w2.1, ?_⟩
    intro e' d' hm
    simp only [Dict.get?_set] at hm
    split at hm
    · obtain rfl := Option.some.inj hm
      cases e <;> simp [EdgeData.update]
    · exact w2.2 e' d' hm
  · exact w2

theorem Plain.addSupport {D : Diagram R} (w : Plain D) (r : NodeRef R) :
    Plain (D.addSupport gkey r).1 := by
  unfold Diagram.addSupport
  split
  · exact w
  · split
    · exact w
    · rename_i d h; exact w.setNode (d := { d with type := .support }) (w.1 _ d h)

theorem Plain.addLoad {D : Diagram R} (w : Plain D) (r : NodeRef R) (q : Vec R) :
    Plain (D.addLoad gkey r q).1 := by
  unfold Diagram.addLoad
  split
  · exact w
  · split
    · exact w
    · rename_i d h; exact w.setNode (d := { d with load := q }) (w.1 _ d h)

variable [DecidableEq R] [PySqrt R]

theorem Plain.addAuxTrail {D : Diagram R} (w : Plain D) (n : Int) :
    Plain (D.addAuxTrail gkey n).1 := by
  unfold Diagram.addAuxTrail
  split
  · exact w
  · rename_i d hd
    dsimp only
    have w1 := w.addNode gkey none (d.pos + D.auxLength • D.auxVector.normalize)
    have w2 := w1.addSupport gkey (.key (D.addNode gkey none (d.pos + D.auxLength • D.auxVector.normalize)).2)
    split
    · rename_i h; rw [h] at w2; exact w2
    · rename_i h; rw [h] at w2; exact w2.addEdge gkey _

theorem Plain.addAuxTrails {D : Diagram R} (w : Plain D) (aux : Dict Int (Int × Int)) (l : List Int) :
    Plain (Diagram.addAuxTrails gkey D aux l).1 := by
  induction l generalizing D aux with
  | nil => exact w
  | cons n l ih =>
    unfold Diagram.addAuxTrails
    have w1 := w.addAuxTrail gkey n
    split
    · rename_i h; rw [h] at w1; exact w1
    · rename_i h; rw [h] at w1; exact ih w1 _

theorem Plain.buildTrailsAux {D : Diagram R} (w : Plain D) (order : List Int → List Int) :
    Plain (D.buildTrailsAux gkey order).1 := by
  unfold Diagram.buildTrailsAux
  split
  · exact w
  · rename_i s hs
    have w1 := (w.of_sameBase (sameBase_searchTrails hs)).addAuxTrails gkey [] (order (unassigned s))
    split
    · rename_i h; rw [h] at w1; exact w1
    · rename_i h; rw [h] at w1; exact (w1.setAux _).buildTrails

theorem Plain.step {D : Diagram R} (w : Plain D) (op : Op R) : Plain (Spec.step gkey D op) := by
  cases op with
  | addNode key p => exact w.addNode gkey _ _
  | addEdge e => exact w.addEdge gkey _
  | addSupport r => exact w.addSupport gkey _
  | addLoad r q => exact w.addLoad gkey _ _
  | moveNode n p => exact w.setNodeXyz gkey _ _
  | buildTrails => exact w.buildTrails
  | buildTrailsAux order => exact w.buildTrailsAux gkey _
  | shiftTrail key s => exact w.shiftTrail _ _

theorem Plain.run {D : Diagram R} (w : Plain D) (ops : List (Op R)) : Plain (run gkey D ops) := by
  induction ops generalizing D with
  | nil => exact w
  | cons op ops ih => exact ih (w.step gkey op)

theorem Plain.after (ops : List (Op R)) : Plain (after gkey ops) := Plain.empty.run gkey ops

omit [Field R] [DecidableEq R] [PySqrt R] gkey in
/-- A successful `build_trails` finds at least one trail. -/
theorem trails_ne_nil {D : Diagram R} (w : WF D) (g : Regular D)
    (h : D.buildTrails.2 = .ok ()) : D.buildTrails.1.trails ≠ [] := by
  have V := buildTrails_valid w g h
  have hex : ∃ a b, TrailAdj D a b := by
    unfold Diagram.buildTrails at h
    split at h
    · simp at h
    · rename_i s hs
      split_ifs at h with h1
      have w' := w.of_sameBase (sameBase_searchTrails hs)
      obtain ⟨a, b, hab⟩ := (trailEdges_length_ne w').1 h1
      exact ⟨a, b, (trailAdj_congr (sameBase_searchTrails hs).edges a b).1 (Or.inl hab)⟩
  obtain ⟨a, b, hab⟩ := hex
  have hE : D.buildTrails.1.edges = D.edges := by
    unfold Diagram.buildTrails
    split
    · rfl
    · rename_i s hs
      split_ifs <;> exact (sameBase_searchTrails hs).edges
  have := V.complete a b ((trailAdj_congr hE a b).2 hab)
  obtain ⟨key, tr, hm, _⟩ := this
  exact List.ne_nil_of_mem hm

/-- A diagram built through the API whose trails were found is valid input. -/
theorem validInput_of_history (ops : List (Op R)) (g : Regular (after gkey ops))
    (h : (after gkey ops).buildTrails.2 = .ok ()) :
    ValidInput (after gkey (ops ++ [.buildTrails])) := by
  have e : after gkey (ops ++ [.buildTrails]) = (after gkey ops).buildTrails.1 := by
    simp [after, run, Spec.step]
  rw [e]
  have w : WF (after gkey ops) := WF.after gkey ops
  have P := (Plain.after gkey ops).buildTrails
  have hE : (after gkey ops).buildTrails.1.edges = (after gkey ops).edges := by
    unfold Diagram.buildTrails
    split
    · rfl
    · rename_i s hs
      split_ifs <;> exact (sameBase_searchTrails hs).edges
  refine ⟨w.buildTrails, ⟨?_, ?_⟩, buildTrails_valid w g h, trails_ne_nil w g h, P.1, P.2⟩
  · rw [hE]; exact g.noLoop
  · rw [hE]; exact g.noAnti

omit [DecidableEq R] [PySqrt R] in
/-- Validity is preserved by `shift_trail` to a non-negative sequence. -/
theorem _root_.CEM.Spec.ValidInput.shift {D : Diagram R} (I : ValidInput D) (key s : Int) (hs : 0 ≤ s) :
    ValidInput (D.shiftTrail key s).1 := by
  unfold Diagram.shiftTrail
  split
  · exact I
  · exact I
  · split_ifs
    · exact I
    · split
      · exact I
      · rename_i tr htr
        obtain ⟨i, rfl⟩ := Int.eq_ofNat_of_zero_le hs
        have hb := sameBase_assignSequences D tr i
        have P := Plain.of_sameBase hb ⟨I.reaction, I.typed⟩
        refine ⟨I.wf.of_sameBase hb, ⟨?_, ?_⟩,
          assign_valid I.wf I.trails (Dict.mem_of_get? htr) i, ?_, P.1, P.2⟩
        · rw [hb.edges]; exact I.simple.noLoop
        · rw [hb.edges]; exact I.simple.noAnti
        · rw [hb.trails]; exact I.nonempty

end CEM
