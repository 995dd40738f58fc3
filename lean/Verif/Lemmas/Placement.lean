import Verif.Lemmas.Construction
import Verif.Spec.Placement

/-! # The diagram refines its list of placements -/

set_option linter.unusedSectionVars false

namespace CEM
open Diagram Spec
variable {R : Type} [Field R] [DecidableEq R] [PySqrt R] (gkey : Vec R → String)

theorem Log.lastAt_cons (p : Vec R) (n : Int) (l : Log R) (g : String) :
    Log.lastAt gkey ((p, n) :: l) g = if gkey p = g then some n else Log.lastAt gkey l g := by
  unfold Log.lastAt
  by_cases h : gkey p = g <;> simp [h]

theorem Log.lastOf_cons (p : Vec R) (n : Int) (l : Log R) (m : Int) :
    Log.lastOf ((p, n) :: l) m = if n = m then some p else Log.lastOf l m := by
  unfold Log.lastOf
  by_cases h : n = m <;> simp [h]

/-- The diagram agrees with a list of placements. -/
structure Agrees (D : Diagram R) (l : Log R) : Prop where
  lookup : ∀ g, D.gkeyNode.get? g = l.lastAt gkey g
  pos : ∀ n, (D.nodes.get? n).map (·.pos) = l.lastOf n
  max : D.maxNode = l.maxKey

theorem Agrees.empty : Agrees gkey (Diagram.empty : Diagram R) [] :=
  ⟨fun _ => rfl, fun _ => rfl, rfl⟩

theorem Agrees.addNode {D : Diagram R} {l : Log R} (h : Agrees gkey D l) (key : Option Int)
    (p : Vec R) : Agrees gkey (D.addNode gkey key p).1 ((p, D.newKey key) :: l) := by
  unfold Diagram.addNode
  generalize D.newKey key = n
  refine ⟨?_, ?_, ?_⟩
  · intro g; simp only [Dict.get?_set, Log.lastAt_cons, h.lookup]
  · intro m; simp only [Dict.get?_set, Log.lastOf_cons, ← h.pos]
    split
    · simp only [Option.map_some, Option.some.injEq]; unfold placedNode; split <;> rfl
    · rfl
  · simp only [h.max, Log.maxKey]

theorem Agrees.of_sameBase {D D' : Diagram R} {l : Log R} (h : Agrees gkey D l)
    (b : SameBase D D') : Agrees gkey D' l := by
  refine ⟨?_, ?_, ?_⟩
  · rw [b.gkeyNode]; exact h.lookup
  · intro n
    have := congrArg (Option.map (fun t : Vec R × Vec R × Vec R => t.1)) (b.attrs n)
    rw [Option.map_map, Option.map_map] at this
    rw [← h.pos n]; exact this
  · rw [b.maxNode]; exact h.max

theorem Agrees.setNodeXyz {D : Diagram R} (w : WF D) {l : Log R} (h : Agrees gkey D l) (n : Int)
    (p : Vec R) : Agrees gkey (D.setNodeXyz gkey n p) ((p, n) :: l) := by
  unfold Diagram.setNodeXyz Diagram.updateNodeXyz
  dsimp only
  split_ifs
  · refine ⟨?_, ?_, ?_⟩
    · intro g
      simp only [Diagram.addNode, newKey, Dict.get?_set, Log.lastAt_cons]
      split
      · rfl
      · rename_i hg; rw [Dict.get?_erase w.gkeysNodup, if_neg hg, h.lookup]
    · exact (h.addNode gkey (some n) p).pos
    · exact (h.addNode gkey (some n) p).max
  · exact h.addNode gkey (some n) p

theorem Agrees.endKey {D : Diagram R} {l : Log R} (h : Agrees gkey D l) (r : NodeRef R) :
    Agrees gkey (D.endKey gkey r).1 (l.addEnd gkey r) := by
  unfold Diagram.endKey Log.addEnd
  cases r with
  | key n => exact h
  | point p =>
    simp only [nodeKey, h.lookup]
    cases l.lastAt gkey (gkey p) with
    | some n => exact h
    | none =>
      have := h.addNode gkey none p
      rwa [newKey, h.max] at this

theorem Agrees.setEdges {D : Diagram R} {l : Log R} (h : Agrees gkey D l)
    (es : Dict (Int × Int) (EdgeData R)) : Agrees gkey { D with edges := es } l :=
  ⟨h.lookup, h.pos, h.max⟩

theorem Agrees.setTrails {D : Diagram R} {l : Log R} (h : Agrees gkey D l)
    (t : Dict Int (List Int)) : Agrees gkey { D with trails := t } l :=
  ⟨h.lookup, h.pos, h.max⟩

theorem Agrees.addEdge {D : Diagram R} {l : Log R} (h : Agrees gkey D l) (e : EdgeElem R) :
    Agrees gkey (D.addEdge gkey e).1 ((l.addEnd gkey e.u).addEnd gkey e.v) := by
  unfold Diagram.addEdge
  dsimp only
  have h2 := (h.endKey gkey e.u).endKey gkey e.v
  split_ifs
  · exact h2.setEdges gkey _
  · exact h2

theorem Agrees.setNode {D : Diagram R} {l : Log R} (h : Agrees gkey D l) {n : Int}
    {d d' : NodeData R} (hd : D.nodes.get? n = some d) (hp : d'.pos = d.pos) :
    Agrees gkey { D with nodes := D.nodes.set n d' } l := by
  refine ⟨h.lookup, ?_, h.max⟩
  intro m
  rw [← h.pos m]
  simp only [Dict.get?_set]
  split
  · rename_i hm; subst hm; simp [hd, hp]
  · rfl

theorem Agrees.addSupport {D : Diagram R} {l : Log R} (h : Agrees gkey D l) (r : NodeRef R) :
    Agrees gkey (D.addSupport gkey r).1 l := by
  unfold Diagram.addSupport
  split
  · exact h
  · split
    · exact h
    · rename_i hd; exact h.setNode gkey hd rfl

theorem Agrees.addLoad {D : Diagram R} {l : Log R} (h : Agrees gkey D l) (r : NodeRef R)
    (q : Vec R) : Agrees gkey (D.addLoad gkey r q).1 l := by
  unfold Diagram.addLoad
  split
  · exact h
  · split
    · exact h
    · rename_i hd; exact h.setNode gkey hd rfl

theorem Agrees.buildTrails {D : Diagram R} {l : Log R} (h : Agrees gkey D l) :
    Agrees gkey D.buildTrails.1 l := by
  unfold Diagram.buildTrails
  split
  · exact h
  · rename_i s hs
    have h' := h.of_sameBase gkey (sameBase_searchTrails hs)
    split_ifs
    · exact h'
    · exact h'
    · exact h'
    · exact h'.setTrails gkey _

theorem Agrees.shiftTrail {D : Diagram R} {l : Log R} (h : Agrees gkey D l) (key s : Int) :
    Agrees gkey (D.shiftTrail key s).1 l := by
  unfold Diagram.shiftTrail
  split
  · exact h
  · exact h
  · split_ifs
    · exact h
    · split
      · exact h
      · exact h.of_sameBase gkey (sameBase_assignSequences _ _ _)

theorem Agrees.step {D : Diagram R} (w : WF D) {l : Log R} (h : Agrees gkey D l) (op : Op R)
    (ha : op.noAux) : Agrees gkey (Spec.step gkey D op) (l.step gkey op) := by
  cases op with
  | addNode key p =>
    have := h.addNode gkey key p
    cases key with
    | none => rw [newKey, h.max] at this; exact this
    | some k => exact this
  | addEdge e => exact h.addEdge gkey e
  | addSupport r => exact h.addSupport gkey r
  | addLoad r q => exact h.addLoad gkey r q
  | moveNode n p => exact h.setNodeXyz gkey w n p
  | buildTrails => exact h.buildTrails gkey
  | buildTrailsAux order => exact ha.elim
  | shiftTrail key s => exact h.shiftTrail gkey key s

theorem agrees_run {D : Diagram R} (w : WF D) {l : Log R} (h : Agrees gkey D l)
    (ops : List (Op R)) (ha : ∀ op ∈ ops, op.noAux) :
    Agrees gkey (run gkey D ops) (ops.foldl (Log.step gkey) l) := by
  induction ops generalizing D l with
  | nil => exact h
  | cons op ops ih =>
    exact ih (w.step gkey op) (h.step gkey w op (ha op (by simp)))
      fun o ho => ha o (by simp [ho])

theorem agrees_after (ops : List (Op R)) (ha : ∀ op ∈ ops, op.noAux) :
    Agrees gkey (after gkey ops) (placements gkey ops) :=
  agrees_run gkey WF.empty (Agrees.empty gkey) ops ha

end CEM
