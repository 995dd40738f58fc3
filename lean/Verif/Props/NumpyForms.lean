import Verif.Props.NumpyUnconverged
import Verif.Props.Reach

/-!
# What holds of every form without NaN that the numpy solver returns (C91)
-/

set_option linter.unusedSectionVars false
set_option linter.unusedSimpArgs false

namespace CEM
namespace Props
open Diagram Spec

/-- The sweep from which the form was made. -/
theorem numpy_sweep {D : Diagram ℝ} (I : ValidInput D) {tmax : Nat} {eta : ℝ} {verbose : Bool} {F : Diagram (Num ℝ)}
    (h : staticEquilibriumNumpy D tmax eta verbose = .ok F) :
    HasNaN F ∨ ∃ T N m, D.trailsSequences = .ok T ∧ D.numberOfSequences = .ok N ∧ GoodSeqs D T ∧
      GoodSched D none (sched D T N) ∧ 1 ≤ m ∧ m ≤ tmax ∧
      F = (formOf D (iter D none (sched D T N) m)).num := by
  obtain ⟨T, N, hT, hN, hg, hlt⟩ := goodSeqs_of_valid I.wf I.trails I.nonempty
  have G := goodSched I.wf I.trails hg none hlt
  rw [← flStaticEquilibriumNumpy_exact] at h
  rcases Nat.lt_or_ge tmax 2 with ht | ht
  · obtain ⟨c0, c1, _⟩ := flNpEquilibriumState_cases (A := Arith.exact) (total := List.sum) I hT hN hg tmax eta verbose
    unfold flStaticEquilibriumNumpy at h
    rcases (by omega : tmax = 0 ∨ tmax = 1) with rfl | rfl
    · rw [c0 rfl] at h; cases h
    · rw [c1 rfl] at h
      cases verbose with
      | true => simp at h
      | false =>
        simp only [Bool.false_eq_true, if_false, Except.ok.injEq] at h
        by_cases hn : NoNaN (flNIter Arith.exact D (sched D T N) 1)
        · right
          refine ⟨T, N, 1, hT, hN, hg, G, le_rfl, le_rfl, ?_⟩
          rw [← h, flNIter_eq precise_exact (by norm_num) zeroAdds_exact I G hn, flNpForm_lift I, flIter_exact I hg,
            flFormOf_exact]
        · left
          rw [← h]
          have B := NBelow.iter precise_exact (by norm_num) zeroAdds_exact G 1
          have hk := B.reactions.keys
          exact flForm_nan (by rw [B.xyz.keys]; exact (fl_goodState_iter I.wf I.trails none _ 1).1) I.wf.nodesNodup
            (by rw [hk]; exact B.reactNodup) (by rw [hk]; exact fl_reaction_keys G 1) hn
  · obtain ⟨m, hm2, hmt, _, ⟨_, hnan⟩ | ⟨_, hF, _⟩⟩ :=
      flNp_cases precise_exact (by norm_num) zeroAdds_exact totals_exact I hT hN hg hlt ht h
    · exact Or.inl hnan
    · right
      refine ⟨T, N, m, hT, hN, hg, G, by omega, hmt, ?_⟩
      rw [hF, flIter_exact I hg, flFormOf_exact]

/-- **C91.**  Whatever the numpy solver returns contains NaN, or its numbers are those of the form
that the plain solver has after one of its first `tmax` sweeps. -/
theorem C91_sweep {D : Diagram ℝ} (I : ValidInput D) {tmax : Nat} {eta : ℝ} {verbose : Bool} {F : Diagram (Num ℝ)}
    (h : staticEquilibriumNumpy D tmax eta verbose = .ok F) :
    HasNaN F ∨ ∃ T N m s, D.trailsSequences = .ok T ∧ D.numberOfSequences = .ok N ∧ 1 ≤ m ∧ m ≤ tmax ∧
      sweepsN D T none N m = .ok s ∧ F = (formUpdate (formFromTopology D) s).num := by
  rcases numpy_sweep I h with h | ⟨T, N, m, hT, hN, hg, G, h1, h2, hF⟩
  · exact Or.inl h
  · exact Or.inr ⟨T, N, m, _, hT, hN, h1, h2, sweepsN_eq I.wf I.trails hg none N m, hF⟩

theorem computed_of_numpy {D : Diagram ℝ} (I : ValidInput D) {tmax : Nat} {eta : ℝ} {verbose : Bool} {F : Diagram ℝ}
    (h : staticEquilibriumNumpy D tmax eta verbose = .ok F.num) : Computed D F := by
  rcases numpy_sweep I h with h | ⟨T, N, m, _, _, _, G, h1, _, hF⟩
  · exact absurd h (not_hasNaN_num F)
  · obtain ⟨k, rfl⟩ : ∃ k, m = k + 1 := ⟨m - 1, by omega⟩
    exact ⟨_, _, _, _, _, num_inj hF, finalSpec_sched I.wf I.trails G k⟩

section
variable {D : Diagram ℝ} (I : ValidInput D) {tmax : Nat} {eta : ℝ} {verbose : Bool} {F : Diagram ℝ}
  (h : staticEquilibriumNumpy D tmax eta verbose = .ok F.num)
include I h

/-- **C91.**  Nodes, edges, loads, kinds, planes, starts of trails and forces of deviation edges stay. -/
theorem C91_keeps_data :
    F.nodes.keys = D.nodes.keys ∧ F.edges.keys = D.edges.keys ∧
    (∀ n d, D.nodes.get? n = some d → ∃ d', F.nodes.get? n = some d' ∧
      d'.load = d.load ∧ d'.type = d.type ∧ d'.k = d.k ∧
      ((∃ tr, (n, tr) ∈ D.trails) → d'.pos = d.pos) ∧ (d.type ≠ .support → d'.reaction = 0)) ∧
    (∀ e d, D.edges.get? e = some d → ∃ d', F.edges.get? e = some d' ∧
      d'.type = d.type ∧ d'.plane = d.plane ∧ (d.type = .deviation → d'.force = d.force)) :=
  computed_keeps_data I (computed_of_numpy I h)

/-- **C91.**  A trail edge with a force has its prescribed length, and its force has the prescribed sign. -/
theorem C91_trail_length_sign {e : Int × Int} {d0 d : EdgeData ℝ} (h0 : D.edges.get? e = some d0)
    (ht : d0.type = .trail) (hp : d0.plane = none) (hd : F.edges.get? e = some d) (hf : d.force ≠ 0) :
    Vec.dist (posOf F e.1) (posOf F e.2) = |d0.length| ∧
    (0 < d0.length → 0 < d.force) ∧ (d0.length < 0 → d.force < 0) ∧ d.length = d0.length :=
  computed_trail_length_sign I (computed_of_numpy I h) h0 ht hp hd hf

/-- **C91.**  The ends of a trail edge with force zero coincide. -/
theorem C91_zero_force {e : Int × Int} {d0 d : EdgeData ℝ} (h0 : D.edges.get? e = some d0)
    (ht : d0.type = .trail) (hd : F.edges.get? e = some d) (hf : d.force = 0) : posOf F e.1 = posOf F e.2 := by
  obtain ⟨ind, p, s, r, Q, rfl, S⟩ := computed_of_numpy I h
  obtain ⟨a, b⟩ := e
  obtain ⟨key, tr, htr, hc⟩ := I.trails.complete a b (Or.inl ⟨d0, h0, ht⟩)
  have hz : ∀ (v : Vec ℝ) l, copysign (Vec.length v) l = 0 → v = 0 := by
    intro v l hv
    apply Vec.length_eq_zero.1
    unfold copysign at hv
    split_ifs at hv
    · rw [neg_eq_zero, abs_eq_zero] at hv; exact hv
    · rw [abs_eq_zero] at hv; exact hv
  rcases hc with hc | hc
  · obtain ⟨h1, h2, _⟩ := trail_form I S htr hc (Or.inl rfl) h0 hd
    rw [hf] at h2
    rw [hz _ _ h2.symm, unit_zero, smul_zero, add_zero] at h1
    exact h1.symm
  · obtain ⟨h1, h2, _⟩ := trail_form I S htr hc (Or.inr rfl) h0 hd
    rw [hf] at h2
    rw [hz _ _ h2.symm, unit_zero, smul_zero, add_zero] at h1
    exact h1

/-- **C91.**  Planes are reached, or the prescribed length is used. -/
theorem C91_plane {key : Int} {tr : List Int} (htr : (key, tr) ∈ D.trails) {a b : Int} (hc : Consecutive tr a b)
    {e : Int × Int} (he : e = (a, b) ∨ e = (b, a)) {d0 d : EdgeData ℝ}
    (h0 : D.edges.get? e = some d0) (hd : F.edges.get? e = some d)
    {o N : Vec ℝ} (hp : d0.plane = some (o, N)) :
    (1 / 1000000 ≤ |Vec.dot N (unit (posOf F b - posOf F a))| →
      Vec.dot N (posOf F a - o) ≠ 0 → Vec.dot N (posOf F b - o) = 0) ∧
    (|Vec.dot N (unit (posOf F b - posOf F a))| < 1 / 1000000 ∨
      Vec.dot N (posOf F a - o) = 0 → d.force ≠ 0 →
      Vec.dist (posOf F a) (posOf F b) = |d0.length| ∧
      (0 < d0.length → 0 < d.force) ∧ (d0.length < 0 → d.force < 0)) :=
  computed_plane I (computed_of_numpy I h) htr hc he h0 hd hp

/-- **C91.**  Lengths are the distances of the ends with the signs of the forces. -/
theorem C91_signed_lengths {e : Int × Int} {d : EdgeData ℝ} (hd : F.edges.get? e = some d) :
    (0 ≤ d.force → d.length = Vec.dist (posOf F e.1) (posOf F e.2)) ∧
    (d.force < 0 → d.length = -Vec.dist (posOf F e.1) (posOf F e.2)) := by
  obtain ⟨ind, p, s, r, Q, rfl, S⟩ := computed_of_numpy I h
  have := formOf_length I.wf S hd
  have h0 := dist_nonneg (posOf (formOf D s) e.1) (posOf (formOf D s) e.2)
  rw [this, copysign, abs_of_nonneg h0]
  exact ⟨fun h => by rw [if_neg (not_lt.2 h)], fun h => by rw [if_pos h]⟩

/-- **C91.**  Without indirect deviation edges all nodes are in equilibrium. -/
theorem C91_equilibrium (hl : NonzeroTrails D) (hd : DirectOnly D) : ∀ n ∈ F.nodes.keys, imbalance F n = 0 := by
  obtain ⟨ind, p, s, r, Q, rfl, S⟩ := computed_of_numpy I h
  intro n hn
  rw [show (formOf D s).nodes.keys = D.nodes.keys from formNodes_keys _ _] at hn
  rw [imbalance_eq I hl S hn, indNbrs_direct hd]
  simp [devSum]

variable {key : Int} {tr : List Int} (htr : (key, tr) ∈ D.trails)
include htr

/-- **C91.**  The bounds of C90. -/
theorem C91_trail_force {l q : List Int} {a b : Int} (hl : tr = l ++ a :: b :: q) {e : Int × Int}
    (he : e = (a, b) ∨ e = (b, a)) {d : EdgeData ℝ} (hd : F.edges.get? e = some d) :
    |d.force| ≤ pushes D (l ++ [a]) :=
  computed_trail_force I (computed_of_numpy I h) htr hl he hd

theorem C91_reaction {n : Int} (hn : n ∈ tr) : Vec.length (reactionAt F n) ≤ pushes D tr :=
  computed_reaction I (computed_of_numpy I h) htr hn

theorem C91_reach (hp : NoPlanes D) {l q : List Int} {n : Int} (hl : tr = l ++ n :: q) :
    Vec.dist (posOf F n) (posOf D key) ≤ walked D (l ++ [n]) :=
  computed_reach I (computed_of_numpy I h) htr hp hl

end

/-! ## Examples -/

namespace SwingEx

theorem swing_push : pushes swing [2] = 3 := by
  have h1 : loadAt swing 2 = ⟨-1, 0, 0⟩ := by unfold loadAt; rw [swing_nodes]; simp
  have h2 : deviationsAt swing 2 = 2 := by
    unfold deviationsAt swing Diagram.real
    simp [swingLit, Diagram.map, EdgeData.map]
  simp only [pushes, pushAt, h1, h2, Vec.length_def, Vec.dot, List.map_cons, List.map_nil, List.sum_cons, List.sum_nil]
  norm_num

end SwingEx

open SwingEx in
/-- A form of the numpy solver that has not converged and is not in equilibrium: still the first trail edge of the
second trail carries at most 3 and is as long as prescribed, and the plane is reached or the length kept. -/
example : ∃ F, staticEquilibriumNumpy swing 3 0 false = .ok F.num ∧ Vec.length (imbalance F 0) = 2 ∧
    (∀ d, F.edges.get? (2, 3) = some d → |d.force| ≤ 3 ∧
      (d.force ≠ 0 → Vec.dist (posOf F 2) (posOf F 3) = 2 ∧ d.length = 2)) ∧
    (∀ d, F.edges.get? (0, 1) = some d →
      (1 / 1000000 ≤ |Vec.dot ⟨1, 0, 0⟩ (unit (posOf F 1 - posOf F 0))| →
        Vec.dot ⟨1, 0, 0⟩ (posOf F 0 - ⟨10, 0, 0⟩) ≠ 0 → Vec.dot ⟨1, 0, 0⟩ (posOf F 1 - ⟨10, 0, 0⟩) = 0)) ∧
    Vec.length (reactionAt F 4) ≤ pushes swing [2, 3, 4] := by
  obtain ⟨I, _, h, _⟩ := C78_unconverged
  obtain ⟨F, hF, _, hi, _⟩ := h 0 0 false
  have t0 : (0, [0, 1]) ∈ swing.trails := by simp [swing, swingLit, Diagram.real, Diagram.map]
  have t2 : (2, [2, 3, 4]) ∈ swing.trails := by simp [swing, swingLit, Diagram.real, Diagram.map]
  refine ⟨F, hF, hi, fun d hd => ⟨?_, fun h0 => ?_⟩, fun d hd => ?_, C91_reaction I hF t2 (by simp)⟩
  · rw [← swing_push]
    exact C91_trail_force I hF t2 (l := []) (q := [4]) rfl (Or.inl rfl) hd
  · have := C91_trail_length_sign I hF (e := (2, 3)) (by rw [swing_edges, if_neg (by simp), if_pos rfl]) rfl rfl hd h0
    exact ⟨by simpa using this.1, this.2.2.2⟩
  · exact (C91_plane I hF t0 ⟨[], [], rfl⟩ (e := (0, 1)) (Or.inl rfl) (by rw [swing_edges, if_pos rfl]) hd rfl).1

open EqEx in
/-- Without indirect deviation edges. -/
example : ∃ eta F, staticEquilibriumNumpy direct 100 eta false = .ok F.num ∧ ∀ n ∈ F.nodes.keys, imbalance F n = 0 := by
  obtain ⟨eta, F, h⟩ := exists_returned valid_direct 100 (by norm_num)
  obtain ⟨G, h1, h2, _⟩ := C33_direct valid_direct directOnly_direct h
  have hF : staticEquilibriumNumpy direct 100 eta false = .ok F.num := by rw [h1, h2 (nondegenerate_direct h)]
  exact ⟨eta, F, hF, C91_equilibrium valid_direct hF nonzero_direct directOnly_direct⟩

open StageEx in
/-- With an indirect deviation edge and without planes: node 2 stays within reach. -/
example : ∃ F, staticEquilibriumNumpy bent 6 0 false = .ok F.num ∧
    Vec.dist (posOf F 2) (posOf bent 0) ≤ walked bent [0, 1, 2] := by
  obtain ⟨F, G, h1, h2, h3, _⟩ := C33_acyclic valid_bent acyclic_bent (tmax := 6)
    (by unfold bent Diagram.real Diagram.map; simp only [List.length_map]; decide +kernel) false
  have hF : staticEquilibriumNumpy bent 6 0 false = .ok F.num := by
    rw [h2, h3 (NumpyStagedEx.nondegenerate_bent h1)]
  have hp : NoPlanes bent := by
    intro e d hd _
    have hpl : ∀ p ∈ bentQ.edges, p.2.plane = none := by decide +kernel
    unfold bent Diagram.real at hd
    rw [map_edges_get?] at hd
    obtain ⟨q, hq, rfl⟩ := Option.map_eq_some_iff.1 hd
    have := hpl _ (Dict.mem_of_get? hq)
    simp only at this
    simp [EdgeData.map, this]
  have htr : (0, [0, 1, 2]) ∈ bent.trails := by
    unfold bent Diagram.real; rw [map_trails]; decide +kernel
  exact ⟨F, hF, C91_reach valid_bent hF htr hp (l := [0, 1]) (q := []) rfl⟩

end Props
end CEM
