import Verif.Lemmas.Rounded
import Verif.Lemmas.RoundedError
import Verif.Lemmas.Returned

/-!
# The form found with any arithmetic

As in `Lemmas/Form` and `Lemmas/Nodal`, for the functions of `Model/Rounded`.
-/

set_option linter.unusedSectionVars false
set_option linter.unusedSimpArgs false

namespace CEM
open Diagram Spec

section
variable {R : Type} [Field R] [LinearOrder R] [PySqrt R] {A : Arith R}

theorem fl_formEdges_keys (F : Diagram R) (s : EqState R) :
    (flFormUpdate A F s).edges.keys = F.edges.keys := by
  unfold flFormUpdate updateForces
  dsimp only
  rw [keys_map_key _ (fun e d => flSignedLength A _ e d),
    keys_foldl_modify (fun w (d : EdgeData R) => { d with force := w })]

/-- Edge attributes of the form. -/
theorem fl_formEdges_get? (F : Diagram R) (s : EqState R) (hf : s.trailForces.keys.Nodup)
    (e : Int × Int) :
    (flFormUpdate A F s).edges.get? e = (F.edges.get? e).map fun d =>
      flSignedLength A (flFormUpdate A F s).nodes e
        { d with force := (s.trailForces.get? e).getD d.force } := by
  show Dict.get? (List.map _ (updateForces F.edges s.trailForces)) e = _
  rw [get?_map_key _ (fun e d => flSignedLength A (updateReactions (updateCoords F.nodes s.xyz) s.reactions) e d)]
  unfold updateForces
  rw [get?_foldl_modify (fun w (d : EdgeData R) => { d with force := w }) _ hf]
  cases F.edges.get? e <;> cases s.trailForces.get? e <;> rfl

theorem fl_signedLength_force (nodes : Dict Int (NodeData R)) (e : Int × Int) (d : EdgeData R) :
    (flSignedLength A nodes e d).force = d.force ∧ (flSignedLength A nodes e d).type = d.type ∧
      (flSignedLength A nodes e d).plane = d.plane := by
  unfold flSignedLength
  split <;> simp

/-- The form made from a final state. -/
abbrev flFormOf (A : Arith R) (D : Diagram R) (s : EqState R) : Diagram R := flFormUpdate A (formFromTopology D) s

theorem fl_formOf_get? {D : Diagram R} (w : WF D) {kmax : Option Int} {ind : Bool} {p s : EqState R}
    {r : Int → Vec R} {Q : Int → Int → Vec R} (S : FlFinalSpec A D kmax ind p s r Q) (n : Int) :
    (flFormOf A D s).nodes.get? n = (D.nodes.get? n).map fun d =>
      { d with pos := s.pos n, reaction := (s.reactions.get? n).getD d.reaction } :=
  formNodes_get? _ s S.keys.1 w.nodesNodup S.reactNodup n

theorem fl_posOf_form {D : Diagram R} (w : WF D) {kmax : Option Int} {ind : Bool} {p s : EqState R}
    {r : Int → Vec R} {Q : Int → Int → Vec R} (S : FlFinalSpec A D kmax ind p s r Q) (n : Int) :
    posOf (flFormOf A D s) n = s.pos n := by
  unfold posOf
  rw [fl_formOf_get? w S]
  cases h : D.nodes.get? n with
  | none =>
    have : n ∉ s.xyz.keys := by rw [S.keys.1, ← Dict.get?_eq_none_iff]; exact h
    rw [← Dict.get?_eq_none_iff] at this
    simp [EqState.pos, this]
  | some d => rfl

theorem fl_loadAt_form {D : Diagram R} (w : WF D) {kmax : Option Int} {ind : Bool} {p s : EqState R}
    {r : Int → Vec R} {Q : Int → Int → Vec R} (S : FlFinalSpec A D kmax ind p s r Q) (n : Int) :
    loadAt (flFormOf A D s) n = loadOf D n := by
  unfold loadAt loadOf
  rw [fl_formOf_get? w S]
  cases D.nodes.get? n <;> rfl

theorem fl_seqOf_form {D : Diagram R} (w : WF D) {kmax : Option Int} {ind : Bool} {p s : EqState R}
    {r : Int → Vec R} {Q : Int → Int → Vec R} (S : FlFinalSpec A D kmax ind p s r Q) (n : Int) :
    seqOf (flFormOf A D s) n = seqOf D n ∧ typeOf (flFormOf A D s) n = typeOf D n := by
  unfold seqOf typeOf
  rw [fl_formOf_get? w S]
  cases D.nodes.get? n <;> exact ⟨rfl, rfl⟩

theorem fl_reactionAt_form {D : Diagram R} (w : WF D) {kmax : Option Int} {ind : Bool}
    {p s : EqState R} {r : Int → Vec R} {Q : Int → Int → Vec R} (S : FlFinalSpec A D kmax ind p s r Q)
    (hr : ∀ n d, D.nodes.get? n = some d → d.reaction = 0) {n : Int} (hn : n ∈ D.nodes.keys) :
    reactionAt (flFormOf A D s) n = if nxtK D kmax n = none then r n else 0 := by
  obtain ⟨d, hd⟩ := (Dict.exists_get?_iff _ _).2 hn
  unfold reactionAt
  rw [fl_formOf_get? w S, hd, S.react n]
  by_cases h : nxtK D kmax n = none
  · simp [hn, h]
  · simp [hn, h, hr n d hd]

theorem fl_formOf_edge {D : Diagram R} {kmax : Option Int} {ind : Bool} {p s : EqState R}
    {r : Int → Vec R} {Q : Int → Int → Vec R} (S : FlFinalSpec A D kmax ind p s r Q) (e : Int × Int) :
    (flFormOf A D s).edges.get? e = (D.edges.get? e).map fun d =>
      flSignedLength A (flFormOf A D s).nodes e { d with force := (s.trailForces.get? e).getD d.force } :=
  fl_formEdges_get? _ s S.forceNodup e

/-- All edge forces at a node as a sum over its neighbours. -/
theorem fl_sum_pull {D : Diagram R} (w : WF D) (g : SimpleGraph D) {kmax : Option Int} {ind : Bool}
    {p s : EqState R} {r : Int → Vec R} {Q : Int → Int → Vec R} (S : FlFinalSpec A D kmax ind p s r Q)
    (n : Int) :
    ((flFormOf A D s).edges.map (pull (flFormOf A D s) n)).sum =
      ((D.neighbors n).map fun m => formForce D s n m • unit (s.pos m - s.pos n)).sum := by
  rw [sum_neighbors w g]
  have hk : (flFormOf A D s).edges.keys = D.edges.keys := fl_formEdges_keys _ _
  rw [← hk]
  unfold Dict.keys
  rw [List.map_map]
  congr 1
  apply List.map_congr_left
  rintro ⟨⟨a, b⟩, d⟩ hm
  have hnd : (flFormOf A D s).edges.keys.Nodup := by rw [hk]; exact w.edgesNodup
  have hget := Dict.get?_of_mem hnd hm
  rw [fl_formOf_edge S] at hget
  cases hd : D.edges.get? (a, b) with
  | none => rw [hd] at hget; simp at hget
  | some d0 =>
    rw [hd] at hget
    have hdd := (Option.some.inj hget).symm
    have hforce : d.force = (s.trailForces.get? (a, b)).getD d0.force := by
      rw [hdd]; exact (fl_signedLength_force _ _ _).1
    have hmem := Dict.mem_keys_of_get? hd
    obtain ⟨k1, k2⟩ := edgeKey_of_mem g hmem
    have e1 : formForce D s a b = d.force := by
      unfold formForce edgeData; rw [k1, hd, hforce]; rfl
    have e2 : formForce D s b a = d.force := by
      unfold formForce edgeData; rw [k2, hd, hforce]; rfl
    simp only [pull, Function.comp, fl_posOf_form w S]
    congr 1
    · split_ifs with h
      · subst h; rw [e1]
      · rfl
    · split_ifs with h
      · subst h; rw [e2]
      · rfl

/-- Deviation edges keep their force. -/
theorem fl_formForce_dev {D : Diagram R} (w : WF D) (V : ValidTrails D) (g : SimpleGraph D)
    {kmax : Option Int} {ind : Bool}
    {p s : EqState R} {r : Int → Vec R} {Q : Int → Int → Vec R} (S : FlFinalSpec A D kmax ind p s r Q)
    {n m : Int} (ht : (edgeData D n m).type = .deviation) :
    formForce D s n m = (edgeData D n m).force := by
  unfold formForce
  rw [S.force]
  · rfl
  · intro a _ b hab he
    have hadj := trailNext_adj w V (nxtK_trail hab)
    have := (mem_trlNbrs g).2 hadj
    unfold trlNbrs at this
    have h2 := (List.mem_filter.1 this).2
    simp only [decide_eq_true_eq] at h2
    unfold edgeData at h2 ht
    rw [he, ht] at h2
    simp at h2

end

variable {A : Arith ℝ}

/-- The bound in terms of neighbours is the bound in terms of the form's edges. -/
theorem fl_nodalBound_eq {D : Diagram ℝ} (I : ValidInput D) {kmax : Option Int} {ind : Bool}
    {p s : EqState ℝ} {r : Int → Vec ℝ} {Q : Int → Int → Vec ℝ}
    (S : FlFinalSpec A D kmax ind p s r Q) (eta : ℝ) (n : Int) :
    nodalBound (flFormOf A D s) eta n = ((indNbrs D n).map fun m => |(edgeData D n m).force| *
        slack eta (Vec.length (s.pos m - s.pos n))).sum := by
  have w := I.wf
  have g := I.simple
  unfold indNbrs
  have hfil : ∀ (l : List Int) (c : Int → Prop) [DecidablePred c] (f : Int → ℝ),
      ((l.filter fun m => decide (c m)).map f).sum = (l.map fun m => if c m then f m else 0).sum := by
    intro l c _ f
    induction l with
    | nil => rfl
    | cons a l ih => by_cases h : c a <;> simp [List.filter_cons, h, ih]
  rw [hfil, sum_neighbors w g]
  have hk : (flFormOf A D s).edges.keys = D.edges.keys := fl_formEdges_keys _ _
  rw [← hk]
  unfold Dict.keys nodalBound
  rw [List.map_map]
  congr 1
  apply List.map_congr_left
  rintro ⟨⟨a, b⟩, d⟩ hm
  have hnd : (flFormOf A D s).edges.keys.Nodup := by rw [hk]; exact w.edgesNodup
  have hget := Dict.get?_of_mem hnd hm
  rw [fl_formOf_edge S] at hget
  cases hd : D.edges.get? (a, b) with
  | none => rw [hd] at hget; simp at hget
  | some d0 =>
    rw [hd] at hget
    have hdd := (Option.some.inj hget).symm
    have hty : d.type = d0.type := by rw [hdd]; exact (fl_signedLength_force _ _ _).2.1
    have hforce : d.force = (s.trailForces.get? (a, b)).getD d0.force := by
      rw [hdd]; exact (fl_signedLength_force _ _ _).1
    have hmem := Dict.mem_keys_of_get? hd
    obtain ⟨k1, k2⟩ := edgeKey_of_mem g hmem
    have e1 : edgeData D a b = d0 := by unfold edgeData; rw [k1, hd]; rfl
    have e2 : edgeData D b a = d0 := by unfold edgeData; rw [k2, hd]; rfl
    have hf : d0.type = .deviation → d.force = d0.force := by
      intro ht
      have := fl_formForce_dev w I.trails g S (n := a) (m := b) (by rw [e1]; exact ht)
      unfold formForce at this
      rw [e1, k1] at this
      rw [hforce, this]
    have hab : a ≠ b := by rintro rfl; exact g.noLoop _ hmem
    simp only [Function.comp, fl_posOf_form w S, (fl_seqOf_form w S _).1, hty]
    by_cases ht : d0.type = .deviation
    · rw [hf ht]
      by_cases h1 : a = n
      · subst h1
        have h2 : b ≠ a := fun h => hab h.symm
        simp [h2, e1, ht]
      · by_cases h2 : b = n
        · subst h2
          simp only [h1, or_true, true_and, if_false, if_true, zero_add, e2, ht, ne_eq]
          rw [Vec.length_sub_comm]
          by_cases hs : seqOf D a = seqOf D b
          · simp [hs]
          · have : ¬ seqOf D b = seqOf D a := fun h => hs h.symm
            simp [hs, this]
        · simp [h1, h2]
    · by_cases h1 : a = n
      · subst h1
        have h2 : b ≠ a := fun h => hab h.symm
        simp [h2, e1, ht]
      · by_cases h2 : b = n
        · subst h2; simp [h1, e2, ht]
        · simp [h1, h2]

end CEM
