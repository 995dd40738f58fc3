import Verif.Props.Equilibrium

/-!
# Properties C26 to C28: lengths, signs and planes of trail edges in the form
-/

set_option linter.unusedSectionVars false

namespace CEM
open Diagram Spec

/-- A trail edge of the form in terms of the residual vector at its first node. -/
theorem trail_form {D : Diagram ℝ} (I : ValidInput D) {ind : Bool} {p s : EqState ℝ}
    {r : Int → Vec ℝ} {Q : Int → Int → Vec ℝ} (S : FinalSpec D none ind p s r Q)
    {key : Int} {tr : List Int} (htr : (key, tr) ∈ D.trails) {a b : Int} (hc : Consecutive tr a b)
    {e : Int × Int} (he : e = (a, b) ∨ e = (b, a)) {d0 d : EdgeData ℝ}
    (h0 : D.edges.get? e = some d0) (h : (formOf D s).edges.get? e = some d) :
    posOf (formOf D s) b = posOf (formOf D s) a +
      effectiveLength d0 (posOf (formOf D s) a) (r a) • unit (r a) ∧
    d.force = copysign (Vec.length (r a)) (effectiveLength d0 (posOf (formOf D s) a) (r a)) ∧
    d.type = d0.type := by
  have w := I.wf
  have V := I.trails
  have hkey : edgeKey D a b = e := by
    have hm := Dict.mem_keys_of_get? h0
    rcases he with rfl | rfl
    · exact (edgeKey_of_mem I.simple hm).1
    · exact (edgeKey_of_mem I.simple hm).2
  have hed : edgeData D a b = d0 := by unfold edgeData; rw [hkey, h0]; rfl
  have hnx : nxtK D none a = some b := by
    rw [nxtK_none w V]; exact (trailNext_iff w V).2 ⟨key, tr, htr, hc⟩
  obtain ⟨h1, _, h3, _⟩ := S.next a (V.mem_keys htr hc.mem_left) b hnx
  rw [hed] at h1 h3
  rw [hkey] at h3
  rw [formOf_edge S, h0] at h
  have hd := (Option.some.inj h).symm
  rw [posOf_form w S, posOf_form w S]
  refine ⟨by rw [h1, normalize_eq_unit], ?_, ?_⟩
  · rw [hd, (signedLength_type _ _ _).2.2, h3]; rfl
  · rw [hd, (signedLength_type _ _ _).1]

theorem length_smul_unit_of_ne {r : Vec ℝ} (h : r ≠ 0) (l : ℝ) : Vec.length (l • unit r) = |l| := by
  rw [Vec.length_smul, length_unit h, mul_one]

theorem copysign_ne_zero {r : Vec ℝ} {l : ℝ} (h : copysign (Vec.length r) l ≠ 0) : r ≠ 0 := by
  rintro rfl
  apply h
  simp [copysign]

theorem copysign_sign {r : Vec ℝ} {l : ℝ} (h : copysign (Vec.length r) l ≠ 0) :
    (0 < l → 0 < copysign (Vec.length r) l) ∧ (l < 0 → copysign (Vec.length r) l < 0) := by
  have hp := Vec.length_pos (copysign_ne_zero h)
  unfold copysign
  rw [abs_of_pos hp]
  constructor
  · intro hl; rw [if_neg (not_lt.2 hl.le)]; exact hp
  · intro hl; rw [if_pos hl]; linarith

/-- The stored edge of the form has the signed distance of its ends as length. -/
theorem formOf_length {D : Diagram ℝ} (w : WF D) {kmax : Option Int} {ind : Bool}
    {p s : EqState ℝ} {r : Int → Vec ℝ} {Q : Int → Int → Vec ℝ}
    (S : FinalSpec D kmax ind p s r Q) {e : Int × Int} {d : EdgeData ℝ}
    (h : (formOf D s).edges.get? e = some d) :
    d.length = copysign (Vec.dist (posOf (formOf D s) e.1) (posOf (formOf D s) e.2)) d.force := by
  have hm : e ∈ D.edges.keys := by
    rw [← show (formOf D s).edges.keys = D.edges.keys from formEdges_keys _ _]
    exact Dict.mem_keys_of_get? h
  have hk : (formOf D s).nodes.keys = D.nodes.keys := formNodes_keys _ _
  obtain ⟨n1, h1⟩ := (Dict.exists_get?_iff (formOf D s).nodes e.1).2 (by rw [hk]; exact w.edge_left e hm)
  obtain ⟨n2, h2⟩ := (Dict.exists_get?_iff (formOf D s).nodes e.2).2 (by rw [hk]; exact w.edge_right e hm)
  rw [formOf_edge S] at h
  obtain ⟨d0, _, rfl⟩ := Option.map_eq_some_iff.1 h
  unfold posOf signedLength
  rw [h1, h2]
  rfl

/-- Without deviation edges the residual vector is the sum of the loads before. -/
theorem out_no_deviation {R : Type} [Field R] [LinearOrder R] [PySqrt R] {D : Diagram R}
    (hnd : ∀ e d, D.edges.get? e = some d → d.type ≠ .deviation) {kmax : Option Int} {ind : Bool}
    {p s : EqState R} {r : Int → Vec R} {Q : Int → Int → Vec R} (S : FinalSpec D kmax ind p s r Q)
    {n : Int} (hn : n ∈ D.nodes.keys) : r n = s.res n - loadOf D n := by
  have h1 : ∀ (c : Int → Bool), (D.neighbors n).filter
      (fun m => decide ((edgeData D n m).type = .deviation) && c m) = [] := by
    intro c
    rw [List.filter_eq_nil_iff]
    intro m hm hc
    simp only [Bool.and_eq_true, decide_eq_true_eq] at hc
    exact hnd _ _ (edgeKey_mem hm) hc.1
  have h2 : dirNbrs D n = [] := by
    have := h1 fun m => decide (seqOf D n = seqOf D m)
    unfold dirNbrs
    rw [← this]
    apply List.filter_congr
    intro m _
    simp
  have h3 : indNbrs D n = [] := by
    have := h1 fun m => decide (seqOf D n ≠ seqOf D m)
    unfold indNbrs
    rw [← this]
    apply List.filter_congr
    intro m _
    simp
  rw [S.out n hn]
  unfold outVec
  rw [h2, h3]
  simp only [devSum, List.map_nil, List.sum_nil, ite_self]
  abel

namespace Props
open TrailEx EqEx

local instance teSqrt : PySqrt ℚ := ⟨id⟩

namespace ColEx

/-- A column: origin 0 at the origin with a load of 1 downwards, support 1, and a trail
edge of prescribed length -1 (compression), with or without plane. -/
def colOps (pl : Option (Vec ℚ × Vec ℚ)) : List (Op ℚ) :=
  nodes 2 ++ [.addEdge (.trail (.key 0) (.key 1) (-1) pl), sup 1, load 0 ⟨0, 0, -1⟩]

def colQ (pl : Option (Vec ℚ × Vec ℚ)) : Diagram ℚ := after key (colOps pl ++ [.buildTrails])

noncomputable def col (pl : Option (Vec ℚ × Vec ℚ)) : Diagram ℝ := (colQ pl).real

/-- The data of the column after `build_trails`. -/
def colLit (pl : Option (Vec ℚ × Vec ℚ)) : Diagram ℚ where
  nodes := [(0, ⟨⟨0, 0, 0⟩, ⟨0, 0, -1⟩, ⟨0, 0, 0⟩, some 0, .origin⟩),
    (1, ⟨⟨1, 0, 0⟩, ⟨0, 0, 0⟩, ⟨0, 0, 0⟩, some 1, .support⟩)]
  edges := [((0, 1), ⟨.trail, -1, 0, pl⟩)]
  maxNode := 1
  gkeyNode := [("0", 0), ("1", 1)]
  trails := [(0, [0, 1])]
  auxTrails := []
  auxLength := -1
  auxVector := ⟨1, 1, 1⟩

/-- Plane above the load, plane below the load, plane parallel to the edge. -/
def above : Vec ℚ × Vec ℚ := (⟨0, 0, 1⟩, ⟨0, 0, 1⟩)
def below : Vec ℚ × Vec ℚ := (⟨0, 0, -2⟩, ⟨0, 0, 1⟩)
def beside : Vec ℚ × Vec ℚ := (⟨5, 0, 0⟩, ⟨1, 0, 0⟩)

theorem colQ_none : colQ none = colLit none := by decide +kernel
theorem colQ_above : colQ (some above) = colLit (some above) := by decide +kernel
theorem colQ_below : colQ (some below) = colLit (some below) := by decide +kernel
theorem colQ_beside : colQ (some beside) = colLit (some beside) := by decide +kernel

theorem valid_colQ {pl : Option (Vec ℚ × Vec ℚ)}
    (hb : (after key (colOps pl)).buildTrails.2 = .ok ())
    (hr : RegularCheck (after key (colOps pl))) :
    ValidInput (col pl) := by
  have := validInput_of_history key (colOps pl) (RegularCheck.regular (WF.after _ _) hr) hb
  exact validInput_real this

theorem valid_none : ValidInput (col none) :=
  valid_colQ (by decide +kernel) (by decide +kernel)
theorem valid_above : ValidInput (col (some above)) :=
  valid_colQ (by decide +kernel) (by decide +kernel)
theorem valid_below : ValidInput (col (some below)) :=
  valid_colQ (by decide +kernel) (by decide +kernel)
theorem valid_beside : ValidInput (col (some beside)) :=
  valid_colQ (by decide +kernel) (by decide +kernel)

attribute [irreducible] colQ

/-- The edge data of the column over the reals. -/
noncomputable def colEdge (pl : Option (Vec ℚ × Vec ℚ)) : EdgeData ℝ :=
  ⟨.trail, -1, 0, pl.map fun p => (p.1.map (fun q : ℚ => (q : ℝ)), p.2.map (fun q : ℚ => (q : ℝ)))⟩

theorem col_edges {pl : Option (Vec ℚ × Vec ℚ)} (h : colQ pl = colLit pl) (e : Int × Int) :
    (col pl).edges.get? e = if e = (0, 1) then some (colEdge pl) else none := by
  unfold col Diagram.real
  rw [map_edges_get?, h]
  unfold colLit
  simp only [Dict.get?]
  by_cases he : e = (0, 1)
  · rw [if_pos he.symm, if_pos he]; simp [EdgeData.map, colEdge]
  · rw [if_neg (fun h => he h.symm), if_neg he]; rfl

/-- The form of the column. -/
theorem col_form {pl : Option (Vec ℚ × Vec ℚ)} (h : colQ pl = colLit pl)
    (I : ValidInput (col pl)) {tmax : Nat} {eta : ℝ} {verbose : Bool} {F : Diagram ℝ}
    (hF : staticEquilibrium (col pl) none tmax eta verbose = .ok F) :
    ∃ d, F.edges.get? (0, 1) = some d ∧
      posOf F 0 = 0 ∧ posOf F 1 = ⟨0, 0, effectiveLength (colEdge pl) 0 ⟨0, 0, 1⟩⟩ ∧
      d.force = copysign 1 (effectiveLength (colEdge pl) 0 ⟨0, 0, 1⟩) := by
  obtain ⟨ind, p, s, r, Q, rfl, S, _⟩ := returned_final I (by simp) hF
  have hk : (0 : Int) ∈ (col pl).nodes.keys := by
    unfold col Diagram.real; rw [map_nodes_keys, h]; simp [colLit, Dict.keys]
  have htr : ((0 : Int), ([0, 1] : List Int)) ∈ (col pl).trails := by
    unfold col Diagram.real; rw [map_trails, h]; simp [colLit]
  have hcon : Consecutive [0, 1] 0 1 := ⟨[], [], rfl⟩
  have hnode : (col pl).nodes.get? 0 = some ⟨⟨0, 0, 0⟩, ⟨0, 0, -1⟩, ⟨0, 0, 0⟩, some 0, .origin⟩ := by
    unfold col Diagram.real
    rw [map_nodes_get?, h]
    simp [colLit, Dict.get?, NodeData.map, Vec.map]
  have hstart := S.start 0 (fun a _ ha => head_not_next I.wf I.trails htr a (nxtK_trail ha))
  have hr : r 0 = ⟨0, 0, 1⟩ := by
    rw [out_no_deviation _ S hk, hstart.2]
    · unfold EqState.res initState loadOf
      rw [get?_map_val (col pl).nodes (fun d => d.reaction), hnode]
      ext <;> simp
    · intro e d hd
      rw [col_edges h] at hd
      split_ifs at hd
      rw [← Option.some.inj hd]
      simp [colEdge]
  have hpos : s.pos 0 = 0 := by
    rw [hstart.1]
    unfold EqState.pos initState
    rw [get?_map_val (col pl).nodes (fun d => d.pos), hnode]
    rfl
  have h01 := col_edges h (0, 1)
  rw [if_pos rfl] at h01
  have hd := formOf_edge S (0, 1)
  rw [h01] at hd
  refine ⟨_, hd, ?_, ?_, ?_⟩
  · rw [posOf_form I.wf S, hpos]
  · obtain ⟨h1, _⟩ := trail_form I S htr hcon (Or.inl rfl) h01 hd
    rw [h1, posOf_form I.wf S, hpos, hr]
    have : unit (⟨0, 0, 1⟩ : Vec ℝ) = ⟨0, 0, 1⟩ := by
      unfold unit
      have : Vec.length (⟨0, 0, 1⟩ : Vec ℝ) = 1 := by simp [Vec.length_def, Vec.dot]
      rw [this]; simp
    rw [this]
    ext <;> simp
  · obtain ⟨_, h2, _⟩ := trail_form I S htr hcon (Or.inl rfl) h01 hd
    have : Vec.length (⟨0, 0, 1⟩ : Vec ℝ) = 1 := by simp [Vec.length_def, Vec.dot]
    rw [h2, posOf_form I.wf S, hpos, hr, this]

theorem directOnly_col {pl : Option (Vec ℚ × Vec ℚ)} (h : colQ pl = colLit pl) :
    DirectOnly (col pl) := by
  intro a b d hd ht
  rw [col_edges h] at hd
  split_ifs at hd
  rw [← Option.some.inj hd] at ht
  simp [colEdge] at ht

theorem returns {pl : Option (Vec ℚ × Vec ℚ)} (h : colQ pl = colLit pl)
    (I : ValidInput (col pl)) : ∃ F, staticEquilibrium (col pl) none 100 0 false = .ok F :=
  C20_returns_without_indirect I (directOnly_col h) (by norm_num) le_rfl

theorem unit_up : unit (⟨0, 0, 1⟩ : Vec ℝ) = ⟨0, 0, 1⟩ := by
  unfold unit
  have : Vec.length (⟨0, 0, 1⟩ : Vec ℝ) = 1 := by simp [Vec.length_def, Vec.dot]
  rw [this]; simp

theorem len_none : effectiveLength (colEdge none) 0 ⟨0, 0, 1⟩ = -1 := rfl

theorem len_above : effectiveLength (colEdge (some above)) 0 ⟨0, 0, 1⟩ = 1 := by
  simp only [effectiveLength, colEdge, Option.map_some, planeLength, normalize_eq_unit, unit_up]
  norm_num [above, Vec.map, Vec.dot, planeTol]

theorem len_below : effectiveLength (colEdge (some below)) 0 ⟨0, 0, 1⟩ = -2 := by
  simp only [effectiveLength, colEdge, Option.map_some, planeLength, normalize_eq_unit, unit_up]
  norm_num [below, Vec.map, Vec.dot, planeTol]

theorem len_beside : effectiveLength (colEdge (some beside)) 0 ⟨0, 0, 1⟩ = -1 := by
  simp only [effectiveLength, colEdge, Option.map_some, planeLength, normalize_eq_unit, unit_up]
  norm_num [beside, Vec.map, Vec.dot, planeTol]

end ColEx
open ColEx

/-! ## C26 -/

theorem computed_trail_length_sign {D : Diagram ℝ} (I : ValidInput D) {F : Diagram ℝ}
    (h : Computed D F)
    {e : Int × Int} {d0 d : EdgeData ℝ} (h0 : D.edges.get? e = some d0)
    (ht : d0.type = .trail) (hp : d0.plane = none) (hd : F.edges.get? e = some d)
    (hf : d.force ≠ 0) :
    Vec.dist (posOf F e.1) (posOf F e.2) = |d0.length| ∧
    (0 < d0.length → 0 < d.force) ∧ (d0.length < 0 → d.force < 0) ∧ d.length = d0.length := by
  obtain ⟨ind, p, s, r, Q, rfl, S⟩ := h
  have hlen := formOf_length I.wf S hd
  obtain ⟨a, b⟩ := e
  obtain ⟨key, tr, htr, hc⟩ := I.trails.complete a b (Or.inl ⟨d0, h0, ht⟩)
  have key : Vec.dist (posOf (formOf D s) a) (posOf (formOf D s) b) = |d0.length| ∧
      (0 < d0.length → 0 < d.force) ∧ (d0.length < 0 → d.force < 0) := by
    rcases hc with hc | hc
    · obtain ⟨h1, h2, _⟩ := trail_form I S htr hc (Or.inl rfl) h0 hd
      have he : ∀ q v, effectiveLength d0 q v = d0.length := by
        intro q v; unfold effectiveLength; rw [hp]
      rw [he] at h1 h2
      rw [h2] at hf
      refine ⟨?_, by rw [h2]; exact (copysign_sign hf).1, by rw [h2]; exact (copysign_sign hf).2⟩
      rw [Vec.dist, Vec.length_sub_comm, h1, add_sub_cancel_left,
        length_smul_unit_of_ne (copysign_ne_zero hf)]
    · obtain ⟨h1, h2, _⟩ := trail_form I S htr hc (Or.inr rfl) h0 hd
      have he : ∀ q v, effectiveLength d0 q v = d0.length := by
        intro q v; unfold effectiveLength; rw [hp]
      rw [he] at h1 h2
      rw [h2] at hf
      refine ⟨?_, by rw [h2]; exact (copysign_sign hf).1, by rw [h2]; exact (copysign_sign hf).2⟩
      rw [Vec.dist, h1, add_sub_cancel_left, length_smul_unit_of_ne (copysign_ne_zero hf)]
  refine ⟨key.1, key.2.1, key.2.2, ?_⟩
  simp only at hlen
  rw [hlen, key.1]
  unfold copysign
  rw [abs_abs]
  rcases lt_trichotomy d0.length 0 with hl | hl | hl
  · rw [if_pos (key.2.2 hl), abs_of_neg hl, neg_neg]
  · rw [hl]; simp
  · rw [if_neg (not_lt.2 (key.2.1 hl).le), abs_of_pos hl]

/-- C26. A trail edge without plane and with non-zero force has the prescribed length
and the prescribed force state; its length attribute is the prescribed one. -/
theorem C26_trail_length_sign {D : Diagram ℝ} (I : ValidInput D) {tmax : Nat} {eta : ℝ}
    {verbose : Bool} {F : Diagram ℝ} (h : staticEquilibrium D none tmax eta verbose = .ok F)
    {e : Int × Int} {d0 d : EdgeData ℝ} (h0 : D.edges.get? e = some d0)
    (ht : d0.type = .trail) (hp : d0.plane = none) (hd : F.edges.get? e = some d)
    (hf : d.force ≠ 0) :
    Vec.dist (posOf F e.1) (posOf F e.2) = |d0.length| ∧
    (0 < d0.length → 0 < d.force) ∧ (d0.length < 0 → d.force < 0) ∧ d.length = d0.length :=
  computed_trail_length_sign I (computed_of_returned I h) h0 ht hp hd hf

/-- The column: compression as prescribed, with length 1. -/
example : ∃ F d0 d, staticEquilibrium (col none) none 100 0 false = .ok F ∧
    (col none).edges.get? (0, 1) = some d0 ∧ d0.type = .trail ∧ d0.plane = none ∧
    F.edges.get? (0, 1) = some d ∧ d.force ≠ 0 ∧ d.length = -1 := by
  obtain ⟨F, h⟩ := returns colQ_none valid_none
  obtain ⟨d, hd, _, _, hf⟩ := col_form colQ_none valid_none h
  have h0 := col_edges colQ_none (0, 1)
  rw [if_pos rfl] at h0
  have hf' : d.force ≠ 0 := by rw [hf, len_none]; norm_num [copysign]
  refine ⟨F, _, d, h, h0, rfl, rfl, hd, hf', ?_⟩
  rw [(C26_trail_length_sign valid_none h h0 rfl rfl hd hf').2.2.2]
  rfl

/-- C26. A trail edge with force zero has collapsed: its ends coincide. -/
theorem C26_zero_force {D : Diagram ℝ} (I : ValidInput D) {tmax : Nat} {eta : ℝ}
    {verbose : Bool} {F : Diagram ℝ} (h : staticEquilibrium D none tmax eta verbose = .ok F)
    {e : Int × Int} {d0 d : EdgeData ℝ} (h0 : D.edges.get? e = some d0)
    (ht : d0.type = .trail) (hd : F.edges.get? e = some d) (hf : d.force = 0) :
    posOf F e.1 = posOf F e.2 := by
  obtain ⟨ind, p, s, r, Q, rfl, S, _⟩ := returned_final I (by simp) h
  obtain ⟨a, b⟩ := e
  obtain ⟨key, tr, htr, hc⟩ := I.trails.complete a b (Or.inl ⟨d0, h0, ht⟩)
  have hz : ∀ (v : Vec ℝ) l, copysign (Vec.length v) l = 0 → v = 0 := by
    intro v l hv
    apply Vec.length_eq_zero.1
    unfold copysign at hv
    split_ifs at hv
    · rw [neg_eq_zero, abs_eq_zero] at hv; exact hv
    · rw [abs_eq_zero] at hv; exact hv
  rcases hc with hc | hc
  · obtain ⟨h1, h2, _⟩ := trail_form I S htr hc (Or.inl rfl) h0 hd
    rw [hf] at h2
    rw [hz _ _ h2.symm, unit_zero, smul_zero, add_zero] at h1
    exact h1.symm
  · obtain ⟨h1, h2, _⟩ := trail_form I S htr hc (Or.inr rfl) h0 hd
    rw [hf] at h2
    rw [hz _ _ h2.symm, unit_zero, smul_zero, add_zero] at h1
    exact h1

/-- A column without load (all data zero): the edge has force zero. -/
example : ∃ (D F : Diagram ℝ) (d0 d : EdgeData ℝ), ValidInput D ∧
    staticEquilibrium D none 100 0 false = .ok F ∧ D.edges.get? (0, 1) = some d0 ∧
    d0.type = .trail ∧ F.edges.get? (0, 1) = some d ∧ d.force = 0 := by
  have I : ValidInput ((colQ none).map fun _ => (0 : ℝ)) := by
    refine map_validInput rfl ?_
    unfold colQ
    exact validInput_of_history key _
      (RegularCheck.regular (WF.after _ _) (by decide +kernel)) (by decide +kernel)
  have h0 : ((colQ none).map fun _ => (0 : ℝ)).edges.get? (0, 1) = some ⟨.trail, 0, 0, none⟩ := by
    rw [map_edges_get?, colQ_none]; rfl
  have hed : ∀ e d, ((colQ none).map fun _ => (0 : ℝ)).edges.get? e = some d → d.type = .trail := by
    intro e d hd
    rw [map_edges_get?, colQ_none] at hd
    simp only [colLit, Dict.get?] at hd
    split_ifs at hd
    · obtain rfl := Option.some.inj hd; rfl
    · simp at hd
  obtain ⟨F, hF⟩ := C20_returns_without_indirect I
    (fun a b d hd ht => by rw [hed _ _ hd] at ht; simp at ht) (show 1 ≤ 100 by norm_num) le_rfl
  have hF' := hF
  obtain ⟨ind, p, s, r, Q, rfl, S, _⟩ := returned_final I (by simp) hF
  have hd := formOf_edge S (0, 1)
  rw [h0] at hd
  refine ⟨_, _, _, _, I, hF', h0, rfl, hd, ?_⟩
  have htr : ((0 : Int), ([0, 1] : List Int)) ∈ ((colQ none).map fun _ => (0 : ℝ)).trails := by
    rw [map_trails, colQ_none]; simp [colLit]
  have hk := I.trails.mem_keys htr (show (0 : Int) ∈ [0, 1] by simp)
  have hr : r 0 = 0 := by
    rw [out_no_deviation _ S hk,
      (S.start 0 (fun a _ ha => head_not_next I.wf I.trails htr a (nxtK_trail ha))).2]
    · unfold EqState.res initState loadOf
      rw [get?_map_val _ (fun d : NodeData ℝ => d.reaction), map_nodes_get?, colQ_none]
      ext <;> simp [colLit, Dict.get?, NodeData.map, Vec.map]
    · intro e d hd; rw [hed e d hd]; simp
  rw [(trail_form I S htr ⟨[], [], rfl⟩ (Or.inl rfl) h0 hd).2.1, hr]
  simp [copysign]

/-! ## C27 -/

theorem computed_plane {D : Diagram ℝ} (I : ValidInput D) {F : Diagram ℝ}
    (h : Computed D F)
    {key : Int} {tr : List Int} (htr : (key, tr) ∈ D.trails) {a b : Int} (hc : Consecutive tr a b)
    {e : Int × Int} (he : e = (a, b) ∨ e = (b, a)) {d0 d : EdgeData ℝ}
    (h0 : D.edges.get? e = some d0) (hd : F.edges.get? e = some d)
    {o N : Vec ℝ} (hp : d0.plane = some (o, N)) :
    (1 / 1000000 ≤ |Vec.dot N (unit (posOf F b - posOf F a))| →
      Vec.dot N (posOf F a - o) ≠ 0 → Vec.dot N (posOf F b - o) = 0) ∧
    (|Vec.dot N (unit (posOf F b - posOf F a))| < 1 / 1000000 ∨
      Vec.dot N (posOf F a - o) = 0 → d.force ≠ 0 →
      Vec.dist (posOf F a) (posOf F b) = |d0.length| ∧
      (0 < d0.length → 0 < d.force) ∧ (d0.length < 0 → d.force < 0)) := by
  obtain ⟨ind, p, s, r, Q, rfl, S⟩ := h
  obtain ⟨h1, h2, _⟩ := trail_form I S htr hc he h0 hd
  set A := posOf (formOf D s) a
  set B := posOf (formOf D s) b
  set c := Vec.dot N (unit (r a)) with hcdef
  have hlen : effectiveLength d0 A (r a) = if |c| < 1 / 1000000 then d0.length else
      if Vec.dot N (o - A) / c = 0 then d0.length else Vec.dot N (o - A) / c := by
    unfold effectiveLength planeLength planeTol
    rw [hp]
    simp only [normalize_eq_unit]
    rw [← hcdef]
    by_cases hx : |c| < 1 / 1000000
    · rw [if_pos hx, if_pos hx]
    · rw [if_neg hx, if_neg hx]
  have hdot : Vec.dot N (o - A) = - Vec.dot N (A - o) := by
    simp only [Vec.dot, Vec.sub_x, Vec.sub_y, Vec.sub_z]; ring
  have hdot0 : Vec.dot N (o - A) = 0 ↔ Vec.dot N (A - o) = 0 := by rw [hdot, neg_eq_zero]
  set l := effectiveLength d0 A (r a)
  have hBA : B - A = l • unit (r a) := by rw [h1, add_sub_cancel_left]
  have habs : l ≠ 0 → |Vec.dot N (unit (B - A))| = |c| := by
    intro hl
    rw [hBA]
    have hd1 : ∀ v : Vec ℝ, Vec.dot N (-v) = - Vec.dot N v := by
      intro v; simp only [Vec.dot, Vec.neg_x, Vec.neg_y, Vec.neg_z]; ring
    rcases lt_or_gt_of_ne hl with hl | hl
    · rw [unit_smul_neg hl, unit_unit, hd1, abs_neg]
    · rw [unit_smul_pos hl, unit_unit]
  have habs0 : l = 0 → |Vec.dot N (unit (B - A))| = 0 := by
    intro hl
    rw [hBA, hl, zero_smul, unit_zero]; simp [Vec.dot]
  refine ⟨?_, ?_⟩
  · intro ht hn
    have hl : l ≠ 0 := by
      intro hl; rw [habs0 hl] at ht; norm_num at ht
    rw [habs hl] at ht
    have hc0 : c ≠ 0 := by rintro hc0; rw [hc0] at ht; norm_num at ht
    have hq : Vec.dot N (o - A) / c ≠ 0 := div_ne_zero (fun h => hn (hdot0.1 h)) hc0
    rw [if_neg (not_lt.2 ht), if_neg hq] at hlen
    have : Vec.dot N (B - o) = Vec.dot N (A - o) + l * c := by
      rw [h1, hcdef]
      simp only [Vec.dot, Vec.sub_x, Vec.sub_y, Vec.sub_z, Vec.add_x, Vec.add_y, Vec.add_z,
        Vec.smul_x, Vec.smul_y, Vec.smul_z]
      ring
    rw [this, hlen, div_mul_cancel₀ _ hc0, hdot, add_neg_cancel]
  · intro hor hf
    have hl0 : l = d0.length := by
      by_cases hl : l = 0
      · rw [hl]
        rw [hl] at hlen
        split_ifs at hlen with x1 x2
        · exact hlen
        · exact hlen
        · exact absurd hlen.symm x2
      · rw [habs hl, ← hdot0] at hor
        rw [hlen]
        split_ifs with x1 x2
        · rfl
        · rfl
        · rcases hor with hor | hor
          · exact absurd hor x1
          · rw [hor, zero_div] at x2; exact absurd rfl x2
    rw [hl0] at h2
    rw [h2] at hf
    refine ⟨?_, by rw [h2]; exact (copysign_sign hf).1, by rw [h2]; exact (copysign_sign hf).2⟩
    rw [Vec.dist, Vec.length_sub_comm, hBA, length_smul_unit_of_ne (copysign_ne_zero hf), hl0]

/-- C27. Unless the trail edge is parallel to the plane within tolerance or starts on
it, its second node lies on the plane; otherwise the prescribed length is used. -/
theorem C27_plane {D : Diagram ℝ} (I : ValidInput D) {tmax : Nat} {eta : ℝ}
    {verbose : Bool} {F : Diagram ℝ} (h : staticEquilibrium D none tmax eta verbose = .ok F)
    {key : Int} {tr : List Int} (htr : (key, tr) ∈ D.trails) {a b : Int} (hc : Consecutive tr a b)
    {e : Int × Int} (he : e = (a, b) ∨ e = (b, a)) {d0 d : EdgeData ℝ}
    (h0 : D.edges.get? e = some d0) (hd : F.edges.get? e = some d)
    {o N : Vec ℝ} (hp : d0.plane = some (o, N)) :
    (1 / 1000000 ≤ |Vec.dot N (unit (posOf F b - posOf F a))| →
      Vec.dot N (posOf F a - o) ≠ 0 → Vec.dot N (posOf F b - o) = 0) ∧
    (|Vec.dot N (unit (posOf F b - posOf F a))| < 1 / 1000000 ∨
      Vec.dot N (posOf F a - o) = 0 → d.force ≠ 0 →
      Vec.dist (posOf F a) (posOf F b) = |d0.length| ∧
      (0 < d0.length → 0 < d.force) ∧ (d0.length < 0 → d.force < 0)) :=
  computed_plane I (computed_of_returned I h) htr hc he h0 hd hp

/-- The column with a plane below: the support is on the plane. -/
example : ∃ F, staticEquilibrium (col (some below)) none 100 0 false = .ok F ∧
    posOf F 1 = ⟨0, 0, -2⟩ ∧ Vec.dot (⟨0, 0, 1⟩ : Vec ℝ) (posOf F 1 - ⟨0, 0, -2⟩) = 0 ∧
    1 / 1000000 ≤ |Vec.dot (⟨0, 0, 1⟩ : Vec ℝ) (unit (posOf F 1 - posOf F 0))| ∧
    Vec.dot (⟨0, 0, 1⟩ : Vec ℝ) (posOf F 0 - ⟨0, 0, -2⟩) ≠ 0 := by
  obtain ⟨F, h⟩ := returns colQ_below valid_below
  obtain ⟨d, hd, h0, h1, hf⟩ := col_form colQ_below valid_below h
  rw [len_below] at h1
  refine ⟨F, h, h1, by rw [h1]; simp [Vec.dot], ?_, by rw [h0]; norm_num [Vec.dot]⟩
  have : posOf F 1 - posOf F 0 = (-2 : ℝ) • (⟨0, 0, 1⟩ : Vec ℝ) := by
    rw [h0, h1]; ext <;> simp
  rw [this, unit_smul_neg (by norm_num), unit_up]
  norm_num [Vec.dot]

/-- The column with a parallel plane: the prescribed length is used. -/
example : ∃ F, staticEquilibrium (col (some beside)) none 100 0 false = .ok F ∧
    posOf F 1 = ⟨0, 0, -1⟩ ∧
    |Vec.dot (⟨1, 0, 0⟩ : Vec ℝ) (unit (posOf F 1 - posOf F 0))| < 1 / 1000000 := by
  obtain ⟨F, h⟩ := returns colQ_beside valid_beside
  obtain ⟨d, hd, h0, h1, hf⟩ := col_form colQ_beside valid_beside h
  rw [len_beside] at h1
  refine ⟨F, h, h1, ?_⟩
  have : posOf F 1 - posOf F 0 = (-1 : ℝ) • (⟨0, 0, 1⟩ : Vec ℝ) := by
    rw [h0, h1]; ext <;> simp
  rw [this, unit_smul_neg (by norm_num), unit_up]
  norm_num [Vec.dot]

/-! ## C28 -/

/-- C28 is violated: a compression edge (prescribed length -1) with a plane on the other
side of its first node becomes a tension edge. -/
theorem C28_sign_not_preserved : ∃ (D F : Diagram ℝ) (d0 d : EdgeData ℝ),
    ValidInput D ∧ staticEquilibrium D none 100 0 false = .ok F ∧
    D.edges.get? (0, 1) = some d0 ∧ d0.type = .trail ∧ d0.plane.isSome ∧ d0.length < 0 ∧
    F.edges.get? (0, 1) = some d ∧ 0 < d.force := by
  obtain ⟨F, h⟩ := returns colQ_above valid_above
  obtain ⟨d, hd, _, _, hf⟩ := col_form colQ_above valid_above h
  have h0 := col_edges colQ_above (0, 1)
  rw [if_pos rfl] at h0
  refine ⟨_, F, _, d, valid_above, h, h0, rfl, rfl, by simp [colEdge], hd, ?_⟩
  rw [hf, len_above]
  norm_num [copysign]

/-- C28, the part that holds: the force state is preserved when the plane is not used
(parallel to the edge within tolerance, or through the first node).  The full claim,
without this condition, is false, see `C28_sign_not_preserved`. -/
theorem C28_sign_preserved_partial {D : Diagram ℝ} (I : ValidInput D) {tmax : Nat} {eta : ℝ}
    {verbose : Bool} {F : Diagram ℝ} (h : staticEquilibrium D none tmax eta verbose = .ok F)
    {key : Int} {tr : List Int} (htr : (key, tr) ∈ D.trails) {a b : Int} (hc : Consecutive tr a b)
    {e : Int × Int} (he : e = (a, b) ∨ e = (b, a)) {d0 d : EdgeData ℝ}
    (h0 : D.edges.get? e = some d0) (hd : F.edges.get? e = some d)
    {o N : Vec ℝ} (hp : d0.plane = some (o, N)) (hf : d.force ≠ 0)
    (hu : |Vec.dot N (unit (posOf F b - posOf F a))| < 1 / 1000000 ∨
      Vec.dot N (posOf F a - o) = 0) :
    (0 < d0.length → 0 < d.force) ∧ (d0.length < 0 → d.force < 0) :=
  ((C27_plane I h htr hc he h0 hd hp).2 hu hf).2

/-- The column with a parallel plane stays in compression. -/
example : ∃ F d, staticEquilibrium (col (some beside)) none 100 0 false = .ok F ∧
    F.edges.get? (0, 1) = some d ∧ d.force = -1 := by
  obtain ⟨F, h⟩ := returns colQ_beside valid_beside
  obtain ⟨d, hd, _, _, hf⟩ := col_form colQ_beside valid_beside h
  refine ⟨F, d, h, hd, ?_⟩
  rw [hf, len_beside]
  norm_num [copysign]

end Props
end CEM
