import Verif.Lemmas.Backward
import Verif.Props.RoundedLimit

/-!
# Property C75: a rounded form is the exact form of a problem next to the given one
-/

set_option linter.unusedSectionVars false
set_option linter.unusedSimpArgs false

namespace CEM
namespace Props
open Diagram Spec EqEx

/-- The problem that a rounded form solves exactly. -/
theorem near_of_rounded {A : Arith ℝ} {u : ℝ} (H : Precise A u) (hu : u ≤ 1 / 100) {D : Diagram ℝ}
    (I : ValidInput D) {ind : Bool} {p s : EqState ℝ} {r : Int → Vec ℝ} {Q : Int → Int → Vec ℝ}
    (S : FlFinalSpec A D none ind p s r Q) (P : ProperTrails (flFormOf A D s)) {q : Int → ℝ}
    (hq : ∀ n ∈ (flFormOf A D s).nodes.keys, Vec.length (imbalance (flFormOf A D s) n) ≤ q n) :
    ∃ E G, NearProblem u q (flFormOf A D s) D E ∧ SameShape D E ∧ NonzeroTrails E ∧
      EquilibriumOf E G ∧ EqualForms (flFormOf A D s) G := by
  set F := flFormOf A D s with hF
  have K : KeepsData D F := fl_keepsData I S
  have hne : ∀ key tr a b e d d', (key, tr) ∈ D.trails → Consecutive tr a b →
      (e = (a, b) ∨ e = (b, a)) → D.edges.get? e = some d → F.edges.get? e = some d' →
      d'.force ≠ 0 ∧ posOf F a ≠ posOf F b := by
    intro key tr a b e d d' htr hc he h0 h1
    have ht := consecutive_type I htr hc he h0
    obtain ⟨d2, h2, e1, _⟩ := K.edge e d h0
    rw [h1] at h2
    obtain rfl := Option.some.inj h2
    obtain ⟨p1, p2⟩ := P e d' h1 (e1.trans ht)
    rcases he with rfl | rfl
    · exact ⟨p1, p2⟩
    · exact ⟨p1, p2.symm⟩
  have hB := backward I K (fun e d h1 h2 => (P e d h1 h2).1) (fitEdge u D F)
    (fun e d => (fitEdge_type u D F e d).1) (fun e d => (fitEdge_type u D F e d).2)
    (fun key tr a b e d d' htr hc he h0 h1 => by
      obtain ⟨p1, p2⟩ := hne key tr a b e d d' htr hc he h0 h1
      exact fitEdge_prescribed I htr hc he h0 h1 p1 p2)
  obtain ⟨hS, hE⟩ := hB
  have hee : ∀ e, (reedge (reload D (imbalance F)) (fitEdge u D F)).edges.get? e =
      (D.edges.get? e).map (fitEdge u D F e) := fun e => reedge_get? D _ e
  refine ⟨_, _, ⟨hS.nodeKeys, hS.edgeKeys, ?_, ?_, ?_, rfl, rfl, rfl, rfl, rfl, rfl⟩, hS, ?_, hE, ?_⟩
  · intro n d d' hd hd'
    have hn : (reedge (reload D (imbalance F)) (fitEdge u D F)).nodes.get? n =
      (D.nodes.get? n).map fun d => { d with load := d.load - imbalance F n } := reload_get? D _ n
    rw [hn, hd] at hd'
    obtain rfl := Option.some.inj hd'
    refine ⟨rfl, rfl, rfl, rfl, ?_⟩
    have e : d.load - imbalance F n - d.load = -imbalance F n := by abel
    simp only [e, Vec.length_neg]
    exact hq n (by rw [K.nodeKeys]; exact Dict.mem_keys_of_get? hd)
  · intro e d hd ht
    rw [hee, hd]
    simp [fitEdge, ht]
  · intro key tr a b e d d' htr hc he h0 h1
    rw [hee, h0] at h1
    obtain rfl := Option.some.inj h1
    obtain ⟨d2, h2, _⟩ := K.edge e d h0
    exact fitEdge_near H hu I S htr hc he h0 h2 (hne key tr a b e d d2 htr hc he h0 h2).1
  · intro e d' hd' ht
    rw [hee] at hd'
    obtain ⟨d, hd, rfl⟩ := Option.map_eq_some_iff.1 hd'
    rw [(fitEdge_type u D F e d).1] at ht
    obtain ⟨d2, h2, e1, _⟩ := K.edge e d hd
    obtain ⟨a, b⟩ := e
    obtain ⟨key, tr, htr, hc⟩ := I.trails.complete a b (Or.inl ⟨d, hd, ht⟩)
    have hpos : ∃ x y, (x, y) = trailEnds D (a, b) ∧ d2.force ≠ 0 ∧ posOf F x ≠ posOf F y := by
      rcases hc with hc | hc
      · exact ⟨a, b, (trailEnds_eq I htr hc (Or.inl rfl)).symm, hne key tr a b _ d d2 htr hc (Or.inl rfl) hd h2⟩
      · exact ⟨b, a, (trailEnds_eq I htr hc (Or.inr rfl)).symm, hne key tr b a _ d d2 htr hc (Or.inr rfl) hd h2⟩
    obtain ⟨x, y, e2, hf, hxy⟩ := hpos
    have hl := (byLength_copysign hf hxy).2
    unfold fitEdge
    rw [if_pos ht]
    simp only [← e2, h2, Option.map_some, Option.getD_some]
    exact right_ne_zero_of_mul hl.ne'
  · refine ⟨fun n => by rw [reload_keys], fun e => Iff.rfl, fun n _ => ?_, fun e d d' h1 h2 => ?_⟩
    · exact ⟨(reload_pos F _ n).1.symm, (reload_pos F _ n).2.symm⟩
    · have h2' : F.edges.get? e = some d' := h2
      rw [h1] at h2'
      rw [Option.some.inj h2']

theorem EqualForms.trans {F G H : Diagram ℝ} (h : EqualForms F G) (g : EqualForms G H) : EqualForms F H := by
  refine ⟨fun n => (h.nodeKeys n).trans (g.nodeKeys n), fun e => (h.edgeKeys e).trans (g.edgeKeys e),
    fun n hn => ?_, fun e d d' h1 h2 => ?_⟩
  · have h1 := h.node n hn
    have h2 := g.node n ((h.nodeKeys n).1 hn)
    exact ⟨h1.1.trans h2.1, h1.2.trans h2.2⟩
  · obtain ⟨d1, h3⟩ := (Dict.exists_get?_iff G.edges e).2 ((h.edgeKeys e).1 (Dict.mem_keys_of_get? h1))
    exact (h.edge e d d1 h1 h3).trans (g.edge e d1 d' h3 h2)

/-! ## Example: a column -/

open ColEx in
/-- The trail edge of the column carries a force and does not shrink to a point, however the
operations round. -/
theorem col_proper {A : Arith ℝ} {u : ℝ} (H : Precise A u) (hu : u ≤ 1 / 1000) {tmax : Nat} {eta : ℝ}
    {verbose : Bool} {F : Diagram ℝ}
    (h : flStaticEquilibrium A (col none) none tmax eta verbose = .ok F) : ProperTrails F := by
  have I := valid_none
  have hQ := colQ_none
  have h0 := H.nonneg
  have hu' : u ≤ 1 / 100 := by linarith
  obtain ⟨ind, p, s, r, Q, rfl, S, _⟩ := fl_returned I (by simp) h
  have hk : (0 : Int) ∈ (col none).nodes.keys := by
    unfold col Diagram.real; rw [map_nodes_keys, hQ]; simp [colLit, Dict.keys]
  have htr : ((0 : Int), ([0, 1] : List Int)) ∈ (col none).trails := by
    unfold col Diagram.real; rw [map_trails, hQ]; simp [colLit]
  have hnode : (col none).nodes.get? 0 = some ⟨⟨0, 0, 0⟩, ⟨0, 0, -1⟩, ⟨0, 0, 0⟩, some 0, .origin⟩ := by
    unfold col Diagram.real
    rw [map_nodes_get?, hQ]
    simp [colLit, Dict.get?, NodeData.map, Vec.map]
  have hstart := S.start 0 (fun a _ ha => head_not_next I.wf I.trails htr a (nxtK_trail ha))
  have hres : s.res 0 = 0 := by
    rw [hstart.2]
    unfold EqState.res initState
    rw [get?_map_val (col none).nodes (fun d => d.reaction), hnode]
    rfl
  have hpos : s.pos 0 = 0 := by
    rw [hstart.1]
    unfold EqState.pos initState
    rw [get?_map_val (col none).nodes (fun d => d.pos), hnode]
    rfl
  have hdev : ∀ e d, (col none).edges.get? e = some d → d.type = .trail := by
    intro e d hd
    rw [col_edges hQ] at hd
    split_ifs at hd
    rw [← Option.some.inj hd]
    rfl
  have hdir : dirNbrs (col none) 0 = [] := by
    unfold dirNbrs
    rw [List.filter_eq_nil_iff]
    intro m hm hc
    simp only [decide_eq_true_eq] at hc
    rw [hdev _ _ (edgeKey_mem hm)] at hc
    exact absurd hc.1 (by simp)
  have hind := indNbrs_direct (directOnly_col hQ) 0
  have hload : loadOf (col none) 0 = ⟨0, 0, -1⟩ := by unfold loadOf; rw [hnode]; rfl
  have hr : r 0 ≠ 0 := by
    intro hz
    have hn := near_out H hu' (col none) ind (Q 0) (s.res 0) 0
    rw [← S.out 0 hk, hz, hdir, hind, hres, hload] at hn
    have hl1 : Vec.length (⟨0, 0, -1⟩ : Vec ℝ) = 1 := by simp [Vec.length_def, Vec.dot]
    have ho : outVec (col none) ind (Q 0) 0 0 = ⟨0, 0, 1⟩ := by
      unfold outVec
      rw [hdir, hind, hload]
      cases ind <;> ext <;> simp [devSum]
    have hl2 : Vec.length (0 - ⟨0, 0, 1⟩ : Vec ℝ) = 1 := by
      rw [zero_sub, Vec.length_neg]; simp [Vec.length_def, Vec.dot]
    have h3 := hn.2
    rw [ho, hl2, hl1] at h3
    simp only [List.length_nil, List.map_nil, List.sum_nil, Vec.length_zero] at h3
    have h4 : (1 + u) ^ 14 ≤ (1 + 1 / 1000) ^ 14 := pow_le_pow_left₀ (by linarith) (by linarith) 14
    norm_num at h3 h4
    linarith
  intro e d hd _
  have he : e = (0, 1) := by
    have hm : e ∈ (col none).edges.keys := by
      rw [← show (flFormOf A (col none) s).edges.keys = (col none).edges.keys from fl_formEdges_keys _ _]
      exact Dict.mem_keys_of_get? hd
    obtain ⟨d0, h1⟩ := (Dict.exists_get?_iff _ _).2 hm
    rw [col_edges hQ] at h1
    split_ifs at h1 with h2
    exact h2
  subst he
  have h01 := col_edges hQ (0, 1)
  rw [if_pos rfl] at h01
  obtain ⟨e1, e2⟩ := fl_trail_form I S htr (a := 0) (b := 1) ⟨[], [], rfl⟩ (Or.inl rfl) h01 hd
  have hp0 : posOf (flFormOf A (col none) s) 0 = 0 := by rw [fl_posOf_form I.wf S, hpos]
  have hel : flEffectiveLength A (colEdge none) (posOf (flFormOf A (col none) s) 0) (r 0) = -1 := rfl
  rw [hel] at e1 e2
  refine ⟨?_, ?_⟩
  · rw [e2]
    have := vlength_eq_zero H hu' (a := r 0)
    have h1 : A.vlength (r 0) ≠ 0 := fun h => hr (this.1 h)
    unfold copysign
    simpa using h1
  · intro hc
    have h1 := length_error H hu' (posOf (flFormOf A (col none) s) 0) (r 0) (-1) hr
    rw [← e1] at h1
    have hc' : posOf (flFormOf A (col none) s) 1 = 0 := by rw [← hp0]; exact hc.symm
    rw [hc', hp0] at h1
    simp [Vec.dist] at h1
    linarith

theorem double_tiny : ((2 : ℝ) ^ 53)⁻¹ ≤ 1 / 1000 := by norm_num

/-! ## The theorems -/

/-- C75. Whatever the operations with relative error `u` compute, a returned form is the exact
equilibrium of a problem next to the given one: the load of a node differs by the bound of its
imbalance, trail lengths and planes differ by rounding errors of the coordinates, and all else is
the same. -/
theorem C75_backward {A : Arith ℝ} {u : ℝ} (H : Precise A u) (hu : u ≤ 1 / 100) {D : Diagram ℝ}
    (I : ValidInput D) {tmax : Nat} (ht : 2 ≤ tmax) {eta : ℝ} {verbose : Bool} {F : Diagram ℝ}
    (h : flStaticEquilibrium A D none tmax eta verbose = .ok F) (P : ProperTrails F) :
    ∃ E G, NearProblem u (fun n => nodalBound F (eta / (1 - u) ^ (F.nodes.length + 4)) n +
        roundingBound F u n) F D E ∧ ValidInput E ∧ NonzeroTrails E ∧
      EquilibriumOf E G ∧ EqualForms F G := by
  have hq := C72_nodal H hu I ht h
  obtain ⟨ind, p, s, r, Q, rfl, S, _⟩ := fl_returned I (by simp) h
  obtain ⟨E, G, h1, h2, h3⟩ := near_of_rounded H hu I S P hq
  exact ⟨E, G, h1, h2.valid I, h3⟩

open ColEx in
/-- A column with double precision: the trail edge of the problem solved exactly has nearly the
prescribed length `-1`. -/
example : ∃ F E G, flStaticEquilibrium (binaryArith 53) (col none) none 100 0 false = .ok F ∧
    ProperTrails F ∧ ValidInput E ∧ EquilibriumOf E G ∧ EqualForms F G ∧
    ∀ d, E.edges.get? (0, 1) = some d → d.plane = none ∧ |d.length - -1| ≤
      11 * ((2 : ℝ) ^ 53)⁻¹ * (Vec.length (posOf F 0) + Vec.length (posOf F 1)) := by
  obtain ⟨F, h⟩ := C72_returns_direct (C72_binary 53) double_small valid_none (directOnly_col colQ_none)
    (show 1 ≤ 100 by norm_num) (le_refl (0 : ℝ))
  have P := col_proper (C72_binary 53) double_tiny h
  obtain ⟨E, G, h1, h2, _, h3, h4⟩ := C75_backward (C72_binary 53) double_small valid_none (by norm_num) h P
  refine ⟨F, E, G, h, P, h2, h3, h4, fun d hd => ?_⟩
  have htr : ((0 : Int), ([0, 1] : List Int)) ∈ (col none).trails := by
    unfold col Diagram.real; rw [map_trails, colQ_none]; simp [colLit]
  have h01 := col_edges colQ_none (0, 1)
  rw [if_pos rfl] at h01
  obtain ⟨_, _, h5 | ⟨o, _, N, h5, _⟩⟩ := h1.trail 0 [0, 1] 0 1 _ _ d htr ⟨[], [], rfl⟩ (Or.inl rfl) h01 hd
  · refine ⟨h5.1, ?_⟩
    have e : (colEdge none).length = -1 := rfl
    rw [← e]
    exact h5.2.1
  · exact absurd h5 (by simp [colEdge])

/-- C75. Without indirect deviation edges the exact algorithm applied to the problem next to the
given one returns the rounded form, with any number of iterations and any threshold. -/
theorem C75_direct {A : Arith ℝ} {u : ℝ} (H : Precise A u) (hu : u ≤ 1 / 100) {D : Diagram ℝ}
    (I : ValidInput D) (hd : DirectOnly D) {tmax : Nat} {eta : ℝ} {verbose : Bool} {F : Diagram ℝ}
    (h : flStaticEquilibrium A D none tmax eta verbose = .ok F) (P : ProperTrails F) :
    ∃ E, NearProblem u (roundingBound F u) F D E ∧ ValidInput E ∧ DirectOnly E ∧
      ∀ t, 1 ≤ t → ∀ delta, 0 ≤ delta →
        ∃ F', staticEquilibrium E none t delta false = .ok F' ∧ EqualForms F F' := by
  have hq := C72_direct H hu I hd h
  obtain ⟨ind, p, s, r, Q, rfl, S, _⟩ := fl_returned I (by simp) h
  obtain ⟨E, G, h1, h2, h3, h4, h5⟩ := near_of_rounded H hu I S P hq
  refine ⟨E, h1, h2.valid I, h2.direct hd, fun t ht delta hdel => ?_⟩
  obtain ⟨F', hF'⟩ := C20_returns_without_indirect (h2.valid I) (h2.direct hd) ht hdel
  obtain ⟨k1, k2, _, _⟩ := C25_keeps_data (h2.valid I) hF'
  obtain ⟨u1, u2⟩ := C58_unique (h2.valid I) (h2.direct hd) hF' h4
  refine ⟨F', hF', EqualForms.trans h5 ⟨fun n => ?_, fun e => ?_, fun n hn => ?_, fun e d d' d1 d2 => ?_⟩⟩
  · rw [k1]; exact h4.nodes.mem_iff
  · rw [k2]; exact h4.edges.mem_iff
  · obtain ⟨v1, v2⟩ := u1 n (h4.nodes.mem_iff.1 hn)
    exact ⟨v1.symm, v2.symm⟩
  · exact (u2 e d' d d2 d1).symm

open ColEx in
example : ∃ F E, flStaticEquilibrium (binaryArith 53) (col none) none 1 0 false = .ok F ∧
    ProperTrails F ∧ ValidInput E ∧ ∃ F', staticEquilibrium E none 7 0 false = .ok F' ∧ EqualForms F F' := by
  obtain ⟨F, h⟩ := C72_returns_direct (C72_binary 53) double_small valid_none (directOnly_col colQ_none)
    (le_refl 1) (le_refl (0 : ℝ))
  have P := col_proper (C72_binary 53) double_tiny h
  obtain ⟨E, _, h2, _, h3⟩ := C75_direct (C72_binary 53) double_small valid_none (directOnly_col colQ_none) h P
  exact ⟨F, E, h, P, h2, h3 7 (by norm_num) 0 le_rfl⟩

/-- C75. Without feedback the exact algorithm with threshold zero applied to the problem next to the
given one returns the form found with rounding and threshold zero. -/
theorem C75_acyclic {A : Arith ℝ} {u : ℝ} (H : Precise A u) (hu : u ≤ 1 / 100) {D : Diagram ℝ}
    (I : ValidInput D) (hA : Acyclic D) {tmax : Nat} (ht : 2 ≤ tmax) {eta : ℝ} (he : eta ≤ 0)
    {verbose : Bool} {F : Diagram ℝ} (h : flStaticEquilibrium A D none tmax eta verbose = .ok F)
    (P : ProperTrails F) :
    ∃ E, NearProblem u (roundingBound F u) F D E ∧ ValidInput E ∧ Acyclic E ∧
      ∀ t, D.nodes.length < t →
        ∃ F', staticEquilibrium E none t 0 false = .ok F' ∧ EqualForms F F' := by
  have hq := C72_zero H hu I ht he h
  obtain ⟨ind, p, s, r, Q, rfl, S, _⟩ := fl_returned I (by simp) h
  obtain ⟨E, G, h1, h2, h3, h4, h5⟩ := near_of_rounded H hu I S P hq
  refine ⟨E, h1, h2.valid I, h2.acyclic hA, fun t ht => ?_⟩
  have hlen : E.nodes.length = D.nodes.length := by
    have := congrArg List.length h2.nodeKeys
    simpa [Dict.keys] using this
  obtain ⟨F', hF', _, _, hu'⟩ := C65_acyclic (h2.valid I) h3 (h2.acyclic hA) (tmax := t) (by omega) false
  obtain ⟨k1, k2, _, _⟩ := C25_keeps_data (h2.valid I) hF'
  obtain ⟨u1, u2⟩ := hu' G h4
  refine ⟨F', hF', EqualForms.trans h5 ⟨fun n => ?_, fun e => ?_, fun n hn => ?_, fun e d d' d1 d2 => ?_⟩⟩
  · rw [k1]; exact h4.nodes.mem_iff
  · rw [k2]; exact h4.edges.mem_iff
  · obtain ⟨v1, v2⟩ := u1 n (h4.nodes.mem_iff.1 hn)
    exact ⟨v1.symm, v2.symm⟩
  · exact (u2 e d' d d2 d1).symm

open ColEx in
example : ∃ F E, flStaticEquilibrium (binaryArith 53) (col none) none 100 0 false = .ok F ∧
    ProperTrails F ∧ Acyclic E ∧ ∃ t F', staticEquilibrium E none t 0 false = .ok F' ∧ EqualForms F F' := by
  obtain ⟨F, h⟩ := C72_returns_direct (C72_binary 53) double_small valid_none (directOnly_col colQ_none)
    (show 1 ≤ 100 by norm_num) (le_refl (0 : ℝ))
  have P := col_proper (C72_binary 53) double_tiny h
  obtain ⟨E, _, _, h2, h3⟩ := C75_acyclic (C72_binary 53) double_small valid_none
    (acyclic_of_direct valid_none (directOnly_col colQ_none)) (by norm_num) le_rfl h P
  exact ⟨F, E, h, P, h2, _, h3 _ (Nat.lt_succ_self _)⟩

/-- The number at a component of the load of a node. -/
def IsLoad : Slot → Prop
  | .node _ .qx => True
  | .node _ .qy => True
  | .node _ .qz => True
  | _ => False

/-- C75. With exact operations only the loads have to change, by at most the bound that the
threshold sets for the imbalance of the node. -/
theorem C75_threshold {D : Diagram ℝ} (I : ValidInput D) (hl : NonzeroTrails D) {tmax : Nat}
    (ht : 2 ≤ tmax) {eta : ℝ} {verbose : Bool} {F : Diagram ℝ}
    (h : staticEquilibrium D none tmax eta verbose = .ok F) (hf : TrailsCarry F) :
    ∃ E G, SameExcept IsLoad D E ∧
      (∀ n ∈ D.nodes.keys, Vec.length (loadAt E n - loadAt D n) ≤ nodalBound F eta n) ∧
      ValidInput E ∧ EquilibriumOf E G ∧ EqualForms F G := by
  have hc := computed_of_returned I h
  obtain ⟨k1, k2, k3, k4⟩ := computed_keeps_data I hc
  have K : KeepsData D F := by
    refine ⟨k1, k2, fun n d hd => ?_, fun e d hd => ?_⟩
    · obtain ⟨d', h1, h2, _, _, h5, h6⟩ := k3 n d hd
      exact ⟨d', h1, h2, h5, h6⟩
    · obtain ⟨d', h1, h2, _, h4⟩ := k4 e d hd
      exact ⟨d', h1, h2, h4⟩
  obtain ⟨hS, hE⟩ := backward I K hf (fun _ d => d) (fun _ _ => rfl) (fun _ _ => rfl)
    (fun key tr a b e d d' htr hcon he h0 h1 => by
      have ht := consecutive_type I htr hcon he h0
      obtain ⟨d2, h2, e1, _⟩ := K.edge e d h0
      rw [h1] at h2
      obtain rfl := Option.some.inj h2
      have hne := hf e d' h1 (e1.trans ht)
      exact computed_prescribed I hl hc htr hcon he h0 h1 hne)
  have hget : ∀ n, (reedge (reload D (imbalance F)) fun _ d => d).nodes.get? n =
      (D.nodes.get? n).map fun d => { d with load := d.load - imbalance F n } :=
    fun n => reload_get? D _ n
  refine ⟨_, _, ⟨hS.nodeKeys, hS.edgeKeys, ?_, ?_, rfl, rfl, rfl, rfl, rfl, rfl⟩, ?_, hS.valid I, hE, ?_⟩
  · intro n d d' hd hd'
    rw [hget, hd] at hd'
    obtain rfl := Option.some.inj hd'
    refine ⟨rfl, rfl, rfl, fun _ => rfl, fun _ => rfl, fun _ => rfl, ?_, ?_, ?_⟩ <;>
      exact fun hn => absurd trivial hn
  · intro e d d' hd hd'
    rw [reedge_get? (reload D (imbalance F)) (fun _ d => d) e] at hd'
    have : (reload D (imbalance F)).edges.get? e = some d := hd
    rw [this] at hd'
    obtain rfl := Option.some.inj hd'
    exact ⟨rfl, rfl, fun _ => rfl, fun _ => rfl⟩
  · intro n hn
    have e : loadAt (reedge (reload D (imbalance F)) fun _ d => d) n = loadAt D n - imbalance F n :=
      reload_load D _ hn
    rw [e, sub_sub_cancel_left, Vec.length_neg]
    exact C21_nodal_equilibrium I hl ht h n (by rw [k1]; exact hn)
  · refine ⟨fun n => by rw [reload_keys], fun e => Iff.rfl, fun n _ => ?_, fun e d d' h1 h2 => ?_⟩
    · exact ⟨(reload_pos F _ n).1.symm, (reload_pos F _ n).2.symm⟩
    · have h2' : F.edges.get? e = some d' := h2
      rw [h1] at h2'
      rw [Option.some.inj h2']

open TieEx in
/-- Two trails with an indirect deviation edge. -/
example : ∃ F E G, staticEquilibrium (tie 3 3 4) none 5 0 false = .ok F ∧ TrailsCarry F ∧
    SameExcept IsLoad (tie 3 3 4) E ∧ EquilibriumOf E G ∧ EqualForms F G := by
  obtain ⟨F, hF, hc, _⟩ := tie_found
  obtain ⟨E, G, h1, _, _, h2, h3⟩ := C75_threshold (valid_tie 3 4 (Or.inr rfl)) (nonzero_tie 3 4)
    (by norm_num) (hF (3, 4)) hc
  exact ⟨_, E, G, hF (3, 4), hc, h1, h2, h3⟩

end Props
end CEM
