import Verif.Props.Limit
import Verif.Lemmas.Staged

/-!
# Forms with indirect edges that are found exactly (C21, C58)
-/

set_option linter.unusedSectionVars false
set_option linter.unusedSimpArgs false

namespace CEM
namespace Props
open Diagram Spec EqEx Filter Topology

/-- With a threshold that is not positive, form finding returns a state that reproduces itself. -/
theorem returned_fixed {D : Diagram ℝ} (I : ValidInput D) {tmax : Nat} (ht : 2 ≤ tmax) {eta : ℝ}
    (he : eta ≤ 0) {verbose : Bool} {F : Diagram ℝ}
    (h : staticEquilibrium D none tmax eta verbose = .ok F) :
    ∃ p s r Q, F = formOf D s ∧ FinalSpec D none true p s r Q ∧
      ∀ n ∈ D.nodes.keys, p.pos n = s.pos n := by
  obtain ⟨ind, p, s, r, Q, hF, S, hr⟩ := returned_final I (by simp) h
  obtain ⟨rfl, hres⟩ := hr ht
  exact ⟨p, s, r, Q, hF, S, positions_of_residual S.keys (hres.trans he)⟩

/-- C21. If the positions were found to be repeated (the threshold is zero), every node is exactly
balanced. -/
theorem C21_exact {D : Diagram ℝ} (I : ValidInput D) (hl : NonzeroTrails D) {tmax : Nat}
    (ht : 2 ≤ tmax) {eta : ℝ} (he : eta ≤ 0) {verbose : Bool} {F : Diagram ℝ}
    (h : staticEquilibrium D none tmax eta verbose = .ok F) :
    ∀ n ∈ F.nodes.keys, imbalance F n = 0 := by
  intro n hn
  rw [(C25_keeps_data I h).1] at hn
  obtain ⟨p, s, r, Q, rfl, S, hp⟩ := returned_fixed I ht he h
  have hQ : ∀ m ∈ D.nodes.keys, Q n m = s.pos m := by
    intro m hm
    rcases S.seen_any n hn m with e | e
    · rw [e, hp m hm]
    · exact e
  rw [imbalance_eq I hl S hn, if_pos rfl,
    devSum_congr (l := indNbrs D n) (hQ n hn) fun m hm =>
      hQ m (mem_keys_of_nbr I.wf (List.mem_filter.1 hm).1).1, sub_self]

/-- C58. A form found with threshold zero is an equilibrium of the problem also with indirect
deviation edges, if its trail edges carry forces. -/
theorem C58_exact {D : Diagram ℝ} (I : ValidInput D) (hl : NonzeroTrails D) {tmax : Nat}
    (ht : 2 ≤ tmax) {eta : ℝ} (he : eta ≤ 0) {verbose : Bool} {F : Diagram ℝ}
    (h : staticEquilibrium D none tmax eta verbose = .ok F)
    (hf : ∀ e d, F.edges.get? e = some d → d.type = .trail → d.force ≠ 0) : EquilibriumOf D F :=
  equilibriumOf_of_balanced I hl h hf (C21_exact I hl ht he h)

/-! ## Example: two trails on a line, joined by an indirect deviation edge -/

namespace AxisEx
open TrailEx

local instance axisSqrt : PySqrt ℚ := ⟨id⟩

/-- Trails `0-1` and `2-3` along the x axis with loads along it, and the indirect deviation edge
`(1, 2)` in compression. -/
def axisOps : List (Op ℚ) := nodes 4 ++ [trail 0 1, trail 2 3,
  .addEdge (.deviation (.key 1) (.key 2) (-1)), sup 1, sup 3, load 0 ⟨1, 0, 0⟩, load 2 ⟨1, 0, 0⟩]

def axisQ : Diagram ℚ := after key (axisOps ++ [.buildTrails])

def axisLit : Diagram ℚ where
  nodes := [(0, ⟨⟨0, 0, 0⟩, ⟨1, 0, 0⟩, ⟨0, 0, 0⟩, some 0, .origin⟩),
    (1, ⟨⟨1, 0, 0⟩, ⟨0, 0, 0⟩, ⟨0, 0, 0⟩, some 1, .support⟩),
    (2, ⟨⟨2, 0, 0⟩, ⟨1, 0, 0⟩, ⟨0, 0, 0⟩, some 0, .origin⟩),
    (3, ⟨⟨3, 0, 0⟩, ⟨0, 0, 0⟩, ⟨0, 0, 0⟩, some 1, .support⟩)]
  edges := [((0, 1), ⟨.trail, -1, 0, none⟩), ((2, 3), ⟨.trail, -1, 0, none⟩),
    ((1, 2), ⟨.deviation, 0, -1, none⟩)]
  maxNode := 3
  gkeyNode := [("0", 0), ("1", 1), ("2", 2), ("3", 3)]
  trails := [(0, [0, 1]), (2, [2, 3])]
  auxTrails := []
  auxLength := -1
  auxVector := ⟨1, 1, 1⟩

theorem axisQ_eq : axisQ = axisLit := by decide +kernel

theorem valid_axisQ : ValidInput axisQ :=
  validInput_of_history key axisOps (RegularCheck.regular (WF.after _ _) (by decide +kernel))
    (by decide +kernel)

noncomputable def axis : Diagram ℝ := axisLit.real

theorem valid_axis : ValidInput axis := by
  have := validInput_real valid_axisQ
  rwa [axisQ_eq] at this

theorem nonzero_axis : NonzeroTrails axis := NonzeroCheck.nonzero (D := axisLit) (by decide +kernel)

theorem axis_nodes (n : Int) : axis.nodes.get? n =
    if n = 0 then some ⟨⟨0, 0, 0⟩, ⟨1, 0, 0⟩, ⟨0, 0, 0⟩, some 0, .origin⟩
    else if n = 1 then some ⟨⟨1, 0, 0⟩, ⟨0, 0, 0⟩, ⟨0, 0, 0⟩, some 1, .support⟩
    else if n = 2 then some ⟨⟨2, 0, 0⟩, ⟨1, 0, 0⟩, ⟨0, 0, 0⟩, some 0, .origin⟩
    else if n = 3 then some ⟨⟨3, 0, 0⟩, ⟨0, 0, 0⟩, ⟨0, 0, 0⟩, some 1, .support⟩ else none := by
  unfold axis Diagram.real
  rw [map_nodes_get?]
  simp only [axisLit, Dict.get?, eq_comm (b := n)]
  split_ifs <;> simp [NodeData.map, Vec.map]

theorem axis_edges (e : Int × Int) : axis.edges.get? e =
    if e = (0, 1) then some ⟨.trail, -1, 0, none⟩ else if e = (2, 3) then some ⟨.trail, -1, 0, none⟩
    else if e = (1, 2) then some ⟨.deviation, 0, -1, none⟩ else none := by
  unfold axis Diagram.real
  rw [map_edges_get?]
  simp only [axisLit, Dict.get?, eq_comm (b := e)]
  split_ifs <;> simp [EdgeData.map]

theorem axis_keys : axis.nodes.keys = [0, 1, 2, 3] := by
  unfold axis Diagram.real; rw [map_nodes_keys]; decide +kernel

theorem axis_edge_keys : axis.edges.keys = [(0, 1), (2, 3), (1, 2)] := by
  unfold axis Diagram.real; rw [map_edges_keys]; decide +kernel

theorem axis_next : trailNext axis 0 = some 1 ∧ trailNext axis 2 = some 3 ∧
    (∀ a, trailNext axis a ≠ some 0) ∧ (∀ a, trailNext axis a ≠ some 2) := by
  have w := valid_axis.wf
  have V := valid_axis.trails
  have ht : axis.trails = [(0, [0, 1]), (2, [2, 3])] := rfl
  have hc : ∀ u v a b : Int, Consecutive [u, v] a b → a = u ∧ b = v := by
    rintro u v a b ⟨l1, l2, h⟩
    rcases l1 with _ | ⟨x, _ | ⟨y, l1⟩⟩ <;> simp at h
    exact ⟨h.1.symm, h.2.1.symm⟩
  refine ⟨(trailNext_iff w V).2 ⟨0, [0, 1], by rw [ht]; simp, ⟨[], [], rfl⟩⟩,
    (trailNext_iff w V).2 ⟨2, [2, 3], by rw [ht]; simp, ⟨[], [], rfl⟩⟩, ?_, ?_⟩ <;>
  · intro a ha
    obtain ⟨key, tr, hm, hcon⟩ := (trailNext_iff w V).1 ha
    rw [ht] at hm
    simp only [List.mem_cons, Prod.mk.injEq, List.not_mem_nil, or_false] at hm
    rcases hm with ⟨_, rfl⟩ | ⟨_, rfl⟩ <;> have := (hc _ _ _ _ hcon).2 <;> omega

theorem axis_data : edgeData axis 0 1 = ⟨.trail, -1, 0, none⟩ ∧
    edgeData axis 2 3 = ⟨.trail, -1, 0, none⟩ ∧ edgeData axis 2 1 = ⟨.deviation, 0, -1, none⟩ := by
  have hh : ∀ e, axis.edges.has e = decide (e ∈ axis.edges.keys) := by
    intro e
    rw [Bool.eq_iff_iff, Dict.has_iff, decide_eq_true_iff]
  unfold edgeData edgeKey
  simp only [hh, axis_edge_keys, axis_edges]
  simp

theorem axis_nbrs : axis.neighbors 0 = [1] ∧ axis.neighbors 2 = [3, 1] := by
  unfold Diagram.neighbors
  rw [axis_edge_keys]
  decide +kernel

theorem axis_dir : dirNbrs axis 0 = [] ∧ dirNbrs axis 2 = [] ∧ indNbrs axis 0 = [] ∧
    indNbrs axis 2 = [1] := by
  obtain ⟨n0, n2⟩ := axis_nbrs
  obtain ⟨d0, d2, d3⟩ := axis_data
  have s : seqOf axis 1 = some 1 ∧ seqOf axis 2 = some 0 := by
    unfold seqOf; rw [axis_nodes, axis_nodes]; simp
  unfold dirNbrs indNbrs
  rw [n0, n2]
  simp [d0, d2, d3, s]

theorem unit_x (a : ℝ) (ha : 0 < a) : Vec.normalize (⟨-a, 0, 0⟩ : Vec ℝ) = ⟨-1, 0, 0⟩ := by
  have h1 : (⟨-a, 0, 0⟩ : Vec ℝ) = (-a) • ⟨1, 0, 0⟩ := by ext <;> simp
  have h2 : Vec.length (⟨1, 0, 0⟩ : Vec ℝ) = 1 := by simp [Vec.length_def, Vec.dot]
  rw [normalize_eq_unit, h1, unit]
  rw [Vec.length_smul, h2, abs_neg, abs_of_pos ha]
  ext <;> simp
  field_simp

/-- All iterates have the positions of the diagram. -/
theorem axis_iter {L : List Int} (G : GoodSched axis none L) (m : Nat) :
    ∀ n ∈ axis.nodes.keys, (iter axis none L m).pos n = posOf axis n := by
  have w := valid_axis.wf
  have V := valid_axis.trails
  obtain ⟨x0, x2, y0, y2⟩ := axis_next
  obtain ⟨d0, d2, d3⟩ := axis_data
  obtain ⟨e0, e2, f0, f2⟩ := axis_dir
  have hnx : ∀ a, nxtK axis none a = trailNext axis a := nxtK_none w V
  have hp : posOf axis 0 = ⟨0, 0, 0⟩ ∧ posOf axis 1 = ⟨1, 0, 0⟩ ∧ posOf axis 2 = ⟨2, 0, 0⟩ ∧
      posOf axis 3 = ⟨3, 0, 0⟩ := by
    unfold posOf; simp [axis_nodes]
  obtain ⟨p0, p1, p2, p3⟩ := hp
  have hq : loadOf axis 0 = ⟨1, 0, 0⟩ ∧ loadOf axis 2 = ⟨1, 0, 0⟩ := by
    unfold loadOf; simp [axis_nodes]
  have hres : ∀ n, (initState axis).res n = 0 := by
    intro n
    unfold EqState.res initState
    rw [get?_map_val axis.nodes (fun d => d.reaction), axis_nodes]
    split_ifs <;> rfl
  induction m with
  | zero => intro n _; exact posOf_init n
  | succ m ih =>
    obtain ⟨r, Q, S⟩ := finalSpec w V G m
    have k : ∀ n : Int, n = 0 ∨ n = 1 ∨ n = 2 ∨ n = 3 → n ∈ axis.nodes.keys := by
      intro n hn; rw [axis_keys]; simp; omega
    obtain ⟨s0, t0⟩ := S.start 0 fun a _ => by rw [hnx]; exact y0 a
    obtain ⟨s2, t2⟩ := S.start 2 fun a _ => by rw [hnx]; exact y2 a
    rw [posOf_init, p0] at s0
    rw [posOf_init, p2] at s2
    rw [hres] at t0 t2
    have r0 : r 0 = ⟨-1, 0, 0⟩ := by
      rw [S.out 0 (k 0 (by simp)), outVec, t0, hq.1, e0, f0]
      simp only [devSum, List.map_nil, List.sum_nil, ite_self]
      ext <;> simp
    have q1 : (iter axis none L (m + 1)).pos 1 = ⟨1, 0, 0⟩ := by
      rw [(S.next 0 (k 0 (by simp)) 1 (by rw [hnx]; exact x0)).1, s0, r0, d0, unit_x 1 one_pos]
      ext <;> simp [effectiveLength]
    have r2 : ∃ a : ℝ, 0 < a ∧ r 2 = ⟨-a, 0, 0⟩ := by
      have hQ1 : Q 2 1 = ⟨1, 0, 0⟩ := by
        rcases S.seen_any 2 (k 2 (by simp)) 1 with h | h
        · rw [h, ih 1 (k 1 (by simp)), p1]
        · rw [h, q1]
      have hQ2 : Q 2 2 = ⟨2, 0, 0⟩ := by
        rw [S.seen 2 (k 2 (by simp)) 2 le_rfl, s2]
      have hd : devSum axis (Q 2) 2 [1] = ⟨1, 0, 0⟩ := by
        have : (⟨1, 0, 0⟩ : Vec ℝ) - ⟨2, 0, 0⟩ = ⟨-1, 0, 0⟩ := by ext <;> simp <;> norm_num
        simp only [devSum, devTerm, List.map_cons, List.map_nil, List.sum_cons, List.sum_nil, d3, hQ1,
          hQ2, this, unit_x 1 one_pos]
        ext <;> simp
      rw [S.out 2 (k 2 (by simp)), outVec, t2, hq.2, e2, f2, hd]
      by_cases hm : m ≠ 0
      · refine ⟨2, by norm_num, ?_⟩
        simp only [hm, devSum, List.map_nil, List.sum_nil]
        ext <;> simp [hm] <;> norm_num
      · refine ⟨1, by norm_num, ?_⟩
        simp only [hm, devSum, List.map_nil, List.sum_nil]
        ext <;> simp [hm]
    obtain ⟨a, ha, r2⟩ := r2
    have q3 : (iter axis none L (m + 1)).pos 3 = ⟨3, 0, 0⟩ := by
      rw [(S.next 2 (k 2 (by simp)) 3 (by rw [hnx]; exact x2)).1, s2, r2, d2, unit_x a ha]
      ext <;> simp [effectiveLength] <;> norm_num
    intro n hn
    rw [axis_keys] at hn
    simp only [List.mem_cons, List.not_mem_nil, or_false] at hn
    rcases hn with rfl | rfl | rfl | rfl
    · rw [s0, p0]
    · rw [q1, p1]
    · rw [s2, p2]
    · rw [q3, p3]

/-- Form finding returns with any threshold that is not negative, and keeps the positions. -/
theorem axis_returns {tmax : Nat} (ht : 2 ≤ tmax) {eta : ℝ} (he : 0 ≤ eta) :
    ∃ F, staticEquilibrium axis none tmax eta false = .ok F ∧
      ∀ n ∈ axis.nodes.keys, posOf F n = posOf axis n := by
  obtain ⟨L, G, _, _, h2⟩ := equilibriumState_cases valid_axis (kmax := none) (by simp) tmax eta false
  obtain ⟨m, hm, _, _, _, hr⟩ := h2 ht
  unfold staticEquilibrium
  have hz : residualDistance (iter axis none L (m - 1)).xyz (iter axis none L m).xyz = 0 := by
    rw [residualDistance_eq]
    apply List.sum_eq_zero
    intro x hx
    obtain ⟨⟨n, v⟩, hmem, rfl⟩ := List.mem_map.1 hx
    have g2 := goodState_iter valid_axis.wf valid_axis.trails none L m
    have hk : n ∈ axis.nodes.keys := by
      rw [← g2.1]; exact List.mem_map.2 ⟨_, hmem, rfl⟩
    have hget := Dict.get?_of_mem (by rw [g2.1]; exact valid_axis.wf.nodesNodup) hmem
    have a1 := axis_iter G (m - 1) n hk
    have a2 := axis_iter G m n hk
    have hv : (iter axis none L m).pos n = v := by unfold EqState.pos; rw [hget]; rfl
    rw [hv] at a2
    unfold EqState.pos at a1
    simp only
    rw [a1, a2]
    unfold Vec.dist
    rw [sub_self, Vec.length_zero]
  rw [hr, hz, if_neg (not_lt.2 he)]
  obtain ⟨k, rfl⟩ : ∃ k, m = k + 1 := ⟨m - 1, by omega⟩
  obtain ⟨r, Q, S⟩ := finalSpec valid_axis.wf valid_axis.trails G k
  exact ⟨_, rfl, fun n hn => (posOf_form valid_axis.wf S n).trans (axis_iter G (k + 1) n hn)⟩

theorem axis_pos : ∀ e ∈ axis.edges.keys, posOf axis e.1 ≠ posOf axis e.2 := by
  intro e he
  rw [axis_edge_keys] at he
  simp only [List.mem_cons, List.not_mem_nil, or_false] at he
  rcases he with rfl | rfl | rfl <;> · unfold posOf; simp [axis_nodes]

/-- All edges of the returned form have a length, and its trail edges carry forces. -/
theorem axis_form {F : Diagram ℝ} {tmax : Nat} {eta : ℝ}
    (h : staticEquilibrium axis none tmax eta false = .ok F)
    (hp : ∀ n ∈ axis.nodes.keys, posOf F n = posOf axis n) :
    (∀ e d, F.edges.get? e = some d → posOf F e.1 ≠ posOf F e.2) ∧
    (∀ e d, F.edges.get? e = some d → d.type = .trail → d.force ≠ 0) := by
  obtain ⟨k1, k2, _, k4⟩ := C25_keeps_data valid_axis h
  have w := valid_axis.wf
  have h1 : ∀ e d, F.edges.get? e = some d → posOf F e.1 ≠ posOf F e.2 := by
    intro e d hd
    have hm : e ∈ axis.edges.keys := by rw [← k2]; exact Dict.mem_keys_of_get? hd
    rw [hp _ (w.edge_left _ hm), hp _ (w.edge_right _ hm)]
    exact axis_pos e hm
  refine ⟨h1, fun e d hd ht hf => ?_⟩
  have hm : e ∈ axis.edges.keys := by rw [← k2]; exact Dict.mem_keys_of_get? hd
  obtain ⟨d0, h0⟩ := (Dict.exists_get?_iff _ _).2 hm
  obtain ⟨d', hd', e1, _⟩ := k4 e d0 h0
  rw [hd] at hd'
  obtain rfl := Option.some.inj hd'
  exact h1 e d hd (C26_zero_force valid_axis h h0 (by rw [← e1]; exact ht) hd hf)

/-- It has an indirect edge that carries a force, and an exact equilibrium is found. -/
example : ¬ DirectOnly axis ∧ ∃ F, staticEquilibrium axis none 100 0 false = .ok F ∧
    (∀ n ∈ F.nodes.keys, imbalance F n = 0) ∧ EquilibriumOf axis F := by
  constructor
  · intro hd
    have := hd 1 2 _ (by rw [axis_edges]; simp; rfl) rfl
    unfold seqOf at this
    simp [axis_nodes] at this
  · obtain ⟨F, h, hp⟩ := axis_returns (tmax := 100) (by norm_num) (le_refl (0 : ℝ))
    obtain ⟨h1, h2⟩ := axis_form h hp
    exact ⟨F, h, C21_exact valid_axis nonzero_axis (by norm_num) le_rfl h,
      C58_exact valid_axis nonzero_axis (by norm_num) le_rfl h h2⟩

/-- The hypotheses of C61 with an indirect edge that carries a force: a constant sequence. -/
example : ∃ F : ℕ → Diagram ℝ, (∀ j, staticEquilibrium axis none 100 0 false = .ok (F j)) ∧
    FormsApproach axis F (F 0) ∧ EquilibriumOf axis (F 0) := by
  obtain ⟨F, h, hp⟩ := axis_returns (tmax := 100) (by norm_num) (le_refl (0 : ℝ))
  obtain ⟨h1, h2⟩ := axis_form h hp
  obtain ⟨_, _, _, k4⟩ := C25_keeps_data valid_axis h
  have A := FormsApproach.const valid_axis h
  refine ⟨fun _ => F, fun _ => h, A, C61_limit valid_axis nonzero_axis (tmax := fun _ => 100)
    (eta := fun _ => 0) (fun _ => by norm_num) (fun _ => h) A tendsto_const_nhds ?_ ?_ ?_⟩
  · intro e d hd _
    rw [axis_edges] at hd
    split_ifs at hd <;> rw [← Option.some.inj hd]
  · intro e d hd ht
    obtain ⟨d', hd', e1, _⟩ := k4 e d hd
    unfold forceAt
    rw [hd', Option.map_some, Option.getD_some]
    exact h2 e d' hd' (by rw [e1]; exact ht)
  · intro e d hd ht
    obtain ⟨d', hd', _⟩ := k4 e d hd
    exact Or.inl (h1 e d' hd')

end AxisEx
end Props
end CEM
