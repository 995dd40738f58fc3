import Verif.Props.RoundedNumpy

/-!
# Property C78: what the numpy solver returns may not have converged
-/

set_option linter.unusedSectionVars false
set_option linter.unusedSimpArgs false

namespace CEM
namespace Props
open Diagram Spec EqEx

theorem flIter_exact {D : Diagram ℝ} (I : ValidInput D) {T : Dict Int (Dict Int Int)} (hT : GoodSeqs D T) (N : Int)
    (m : Nat) : flIter Arith.exact D none (sched D T N) m = iter D none (sched D T N) m := by
  have h : ∀ b s, flSweep Arith.exact D T none b N s = sweep D T none b N s := by
    intro b s
    unfold flSweep sweep
    rw [flStep_exact]
  have e : ∀ m, flPlainSweeps Arith.exact D T N m = sweepsN D T none N m := by
    intro m
    induction m with
    | zero => rfl
    | succ m ih =>
      rw [flPlainSweeps, ih, sweepsN]
      have e : decide (m > 0) = decide (m ≠ 0) := by
        simp only [gt_iff_lt, ne_eq, Nat.pos_iff_ne_zero]
      simp only [e, h]
      rfl
  have := e m
  rw [flPlainSweeps_eq I hT, sweepsN_eq I.wf I.trails hT] at this
  exact Except.ok.inj this

theorem flFormOf_exact (D : Diagram ℝ) (s : EqState ℝ) : flFormOf Arith.exact D s = formOf D s := rfl

theorem numpySweeps_exact (D : Diagram ℝ) (tab : NTables ℝ) (T : Dict Int (Dict Int Int)) (N : Int) (m : Nat) :
    flNumpySweeps Arith.exact D tab T N m = numpySweeps D tab T N m := by
  have h : ∀ b s, flNpSweep Arith.exact D tab T b N s = npSweep D tab T b N s := by
    intro b s
    unfold flNpSweep npSweep
    rw [flNpStep_exact]
  induction m with
  | zero => rfl
  | succ m ih =>
    rw [flNumpySweeps, ih, numpySweeps]
    simp only [h]
    rfl

theorem precise_exact : Precise (Arith.exact (R := ℝ)) 0 := (C77_exact direct 1 0 false).2.1
theorem zeroAdds_exact : ZeroAdds (Arith.exact (R := ℝ)) := (C77_exact direct 1 0 false).2.2.1
theorem totals_exact : Totals (Arith.exact (R := ℝ)) List.sum := (C77_exact direct 1 0 false).2.2.2

/-- The indirect forces of the geometry that is returned and of that which was used. -/
theorem indDiff_le {D : Diagram ℝ} (I : ValidInput D) {p s : EqState ℝ} {r : Int → Vec ℝ} {Q : Int → Int → Vec ℝ}
    (S : FinalSpec D none true p s r Q) {eta : ℝ} (he : ∀ m ∈ D.nodes.keys, Vec.dist (p.pos m) (s.pos m) ≤ eta)
    {n : Int} (hn : n ∈ D.nodes.keys) :
    Vec.length (devSum D s.pos n (indNbrs D n) - devSum D (Q n) n (indNbrs D n)) ≤
      ((indNbrs D n).map fun m => |(edgeData D n m).force| *
        slack eta (Vec.length (s.pos m - s.pos n))).sum := by
  have h0 : 0 ≤ eta := (dist_nonneg _ _).trans (he n hn)
  have hd : devSum D s.pos n (indNbrs D n) - devSum D (Q n) n (indNbrs D n) =
      ((indNbrs D n).map fun m => devTerm D s.pos n m - devTerm D (Q n) n m).sum := by
    unfold devSum
    generalize indNbrs D n = l
    induction l with
    | nil => simp
    | cons a l ih => simp only [List.map_cons, List.sum_cons, ← ih]; abel
  rw [hd]
  refine (Vec.length_list_sum_le _).trans ?_
  rw [List.map_map]
  apply List.sum_le_sum
  intro m hm
  have hnb := (List.mem_filter.1 hm).1
  have hmk := (mem_keys_of_nbr I.wf hnb).1
  simp only [Function.comp, devTerm_real]
  rw [← smul_sub, Vec.length_smul]
  apply mul_le_mul_of_nonneg_left _ (abs_nonneg _)
  rw [S.seen n hn n le_rfl, Vec.length_sub_comm]
  apply unit_slack
  have e : Q n m - s.pos n - (s.pos m - s.pos n) = Q n m - s.pos m := by abel
  rw [e]
  rcases S.seen_any n hn m with h | h
  · rw [h]
    exact he m hmk
  · rw [h, sub_self, Vec.length_zero]; exact h0

/-- C78. A form without NaN that the numpy solver returns is in equilibrium up to the threshold, unless some
position was NaN one sweep before the last. -/
theorem C78_nodal_partial {D : Diagram ℝ} (I : ValidInput D) (hl : NonzeroTrails D) {tmax : Nat} (ht : 2 ≤ tmax)
    {eta : ℝ} {verbose : Bool} {F : Diagram ℝ} (h : staticEquilibriumNumpy D tmax eta verbose = .ok F.num) :
    (∀ n ∈ F.nodes.keys, Vec.length (imbalance F n) ≤ nodalBound F eta n) ∨
      ∃ T tab N s n, D.trailsSequences = .ok T ∧ npTables D = .ok tab ∧ D.numberOfSequences = .ok N ∧
        numpySweeps D tab T N (tmax - 1) = .ok s ∧ s.xyz.get? n = some none := by
  obtain ⟨T, N, hT, hN, hg, hlt⟩ := goodSeqs_of_valid I.wf I.trails I.nonempty
  obtain ⟨tab, htab, GT⟩ := npTables_ok I.wf fun n hn =>
    let ⟨k, h, _⟩ := allSequenced_of_valid I.trails n hn; ⟨k, h⟩
  have G := goodSched I.wf I.trails hg none hlt
  rw [← flStaticEquilibriumNumpy_exact] at h
  obtain ⟨m, hm2, hmt, _, ⟨_, hnan⟩ | ⟨_, hF, hd | ⟨rfl, n, hn'⟩⟩⟩ :=
    flNp_cases precise_exact (by norm_num) zeroAdds_exact totals_exact I hT hN hg hlt ht h
  · exact absurd hnan (not_hasNaN_num F)
  · obtain rfl := num_inj hF
    rw [flIter_exact I hg, flFormOf_exact] at *
    rw [flIter_exact I hg] at hd
    simp only [sub_zero, one_pow, div_one] at hd
    obtain ⟨k, rfl⟩ : ∃ k, m = k + 2 := ⟨m - 2, by omega⟩
    have S := finalSpec_sched I.wf I.trails G (k + 1)
    have htrue : decide (k + 1 ≠ 0) = true := by simp
    rw [htrue] at S
    left
    intro n hn
    rw [formNodes_keys] at hn
    rw [imbalance_eq I hl S hn, if_pos rfl, nodalBound_eq I S]
    exact indDiff_le I S hd hn
  · refine Or.inr ⟨T, tab, N, _, n, hT, htab, hN, ?_, hn'⟩
    rw [← numpySweeps_exact]
    exact flNumpySweeps_eq I hg GT N _

/-- A form without NaN that is in equilibrium, found with the numpy solver and threshold zero. -/
example : ∃ F : Diagram ℝ, staticEquilibriumNumpy StageEx.bent 6 0 false = .ok F.num ∧
    ((∀ n ∈ F.nodes.keys, Vec.length (imbalance F n) ≤ nodalBound F 0 n) ∨
      ∃ T tab N s n, StageEx.bent.trailsSequences = .ok T ∧ npTables StageEx.bent = .ok tab ∧
        StageEx.bent.numberOfSequences = .ok N ∧ numpySweeps StageEx.bent tab T N 5 = .ok s ∧
        s.xyz.get? n = some none) := by
  obtain ⟨F, G, h1, h2, h3, _⟩ := C33_acyclic StageEx.valid_bent StageEx.acyclic_bent (tmax := 6)
    (by unfold StageEx.bent Diagram.real Diagram.map; simp only [List.length_map]; decide +kernel) false
  have h : staticEquilibriumNumpy StageEx.bent 6 0 false = .ok F.num := by
    rw [h2, h3 (NumpyStagedEx.nondegenerate_bent h1)]
  exact ⟨F, h, C78_nodal_partial StageEx.valid_bent StageEx.nonzero_bent (by norm_num) h⟩

namespace SwingEx
open TrailEx

local instance swingSqrt : PySqrt ℚ := ⟨id⟩

/-- Trails `0-1` and `2-3-4` along the x axis.  Nodes 3 and 4 change sides in every round; node 1 is NaN where
the force of the edge `0-3` is balanced by the load of 0. -/
def swingOps : List (Op ℚ) := [.addNode none ⟨1, 0, 0⟩, .addNode none ⟨10, 0, 0⟩, .addNode none ⟨0, 0, 0⟩,
  .addNode none ⟨2, 0, 0⟩, .addNode none ⟨3, 0, 0⟩,
  .addEdge (.trail (.key 0) (.key 1) 9 (some (⟨10, 0, 0⟩, ⟨1, 0, 0⟩))),
  .addEdge (.trail (.key 2) (.key 3) 2 none), .addEdge (.trail (.key 3) (.key 4) 1 none),
  .addEdge (.deviation (.key 0) (.key 3) 1), .addEdge (.deviation (.key 2) (.key 4) 2),
  sup 1, sup 4, load 0 ⟨-1, 0, 0⟩, load 2 ⟨-1, 0, 0⟩]

def swingQ : Diagram ℚ := after key (swingOps ++ [.buildTrails])

def swingLit : Diagram ℚ where
  nodes := [(0, ⟨⟨1, 0, 0⟩, ⟨-1, 0, 0⟩, ⟨0, 0, 0⟩, some 0, .origin⟩),
    (1, ⟨⟨10, 0, 0⟩, ⟨0, 0, 0⟩, ⟨0, 0, 0⟩, some 1, .support⟩),
    (2, ⟨⟨0, 0, 0⟩, ⟨-1, 0, 0⟩, ⟨0, 0, 0⟩, some 0, .origin⟩),
    (3, ⟨⟨2, 0, 0⟩, ⟨0, 0, 0⟩, ⟨0, 0, 0⟩, some 1, .free⟩),
    (4, ⟨⟨3, 0, 0⟩, ⟨0, 0, 0⟩, ⟨0, 0, 0⟩, some 2, .support⟩)]
  edges := [((0, 1), ⟨.trail, 9, 0, some (⟨10, 0, 0⟩, ⟨1, 0, 0⟩)⟩), ((2, 3), ⟨.trail, 2, 0, none⟩),
    ((3, 4), ⟨.trail, 1, 0, none⟩), ((0, 3), ⟨.deviation, 0, 1, none⟩), ((2, 4), ⟨.deviation, 0, 2, none⟩)]
  maxNode := 4
  gkeyNode := [("1", 0), ("5", 1), ("0", 2), ("2", 3), ("3", 4)]
  trails := [(0, [0, 1]), (2, [2, 3, 4])]
  auxTrails := []
  auxLength := -1
  auxVector := ⟨1, 1, 1⟩

theorem swingQ_eq : swingQ = swingLit := by decide +kernel

theorem valid_swingQ : ValidInput swingQ :=
  validInput_of_history key swingOps (RegularCheck.regular (WF.after _ _) (by decide +kernel))
    (by decide +kernel)

noncomputable def swing : Diagram ℝ := swingLit.real

theorem valid_swing : ValidInput swing := by
  have := validInput_real valid_swingQ
  rwa [swingQ_eq] at this

theorem swing_seqs : swing.trailsSequences = .ok [(0, [(0, 0), (1, 1)]), (2, [(0, 2), (1, 3), (2, 4)])] := rfl
theorem swing_number : swing.numberOfSequences = .ok 3 := rfl
theorem swing_sched : sched swing [(0, [(0, 0), (1, 1)]), (2, [(0, 2), (1, 3), (2, 4)])] 3 = [0, 2, 1, 3, 4] := rfl

theorem swing_nodes (n : Int) : swing.nodes.get? n =
    if n = 0 then some ⟨⟨1, 0, 0⟩, ⟨-1, 0, 0⟩, ⟨0, 0, 0⟩, some 0, .origin⟩
    else if n = 1 then some ⟨⟨10, 0, 0⟩, ⟨0, 0, 0⟩, ⟨0, 0, 0⟩, some 1, .support⟩
    else if n = 2 then some ⟨⟨0, 0, 0⟩, ⟨-1, 0, 0⟩, ⟨0, 0, 0⟩, some 0, .origin⟩
    else if n = 3 then some ⟨⟨2, 0, 0⟩, ⟨0, 0, 0⟩, ⟨0, 0, 0⟩, some 1, .free⟩
    else if n = 4 then some ⟨⟨3, 0, 0⟩, ⟨0, 0, 0⟩, ⟨0, 0, 0⟩, some 2, .support⟩ else none := by
  unfold swing Diagram.real
  rw [map_nodes_get?]
  simp only [swingLit, Dict.get?, eq_comm (b := n)]
  split_ifs <;> simp [NodeData.map, Vec.map]

theorem swing_edges (e : Int × Int) : swing.edges.get? e =
    if e = (0, 1) then some ⟨.trail, 9, 0, some (⟨10, 0, 0⟩, ⟨1, 0, 0⟩)⟩
    else if e = (2, 3) then some ⟨.trail, 2, 0, none⟩
    else if e = (3, 4) then some ⟨.trail, 1, 0, none⟩
    else if e = (0, 3) then some ⟨.deviation, 0, 1, none⟩
    else if e = (2, 4) then some ⟨.deviation, 0, 2, none⟩ else none := by
  unfold swing Diagram.real
  rw [map_edges_get?]
  simp only [swingLit, Dict.get?, eq_comm (b := e)]
  split_ifs <;> simp [EdgeData.map, Vec.map]

theorem swing_keys : swing.nodes.keys = [0, 1, 2, 3, 4] := by
  unfold swing Diagram.real; rw [map_nodes_keys]; decide +kernel

theorem swing_edge_keys : swing.edges.keys = [(0, 1), (2, 3), (3, 4), (0, 3), (2, 4)] := by
  unfold swing Diagram.real; rw [map_edges_keys]; decide +kernel

theorem swing_next : nxtK swing none 0 = some 1 ∧ nxtK swing none 1 = none ∧ nxtK swing none 2 = some 3 ∧
    nxtK swing none 3 = some 4 ∧ nxtK swing none 4 = none := ⟨rfl, rfl, rfl, rfl, rfl⟩

theorem nonzero_swing : NonzeroTrails swing := NonzeroCheck.nonzero (D := swingLit) (by decide +kernel)

theorem swing_data : edgeData swing 0 1 = ⟨.trail, 9, 0, some (⟨10, 0, 0⟩, ⟨1, 0, 0⟩)⟩ ∧
    edgeData swing 2 3 = ⟨.trail, 2, 0, none⟩ ∧ edgeData swing 3 4 = ⟨.trail, 1, 0, none⟩ ∧
    edgeData swing 0 3 = ⟨.deviation, 0, 1, none⟩ ∧ edgeData swing 3 0 = ⟨.deviation, 0, 1, none⟩ ∧
    edgeData swing 2 4 = ⟨.deviation, 0, 2, none⟩ ∧ edgeData swing 4 2 = ⟨.deviation, 0, 2, none⟩ := by
  have hh : ∀ e, swing.edges.has e = decide (e ∈ swing.edges.keys) := by
    intro e
    rw [Bool.eq_iff_iff, Dict.has_iff, decide_eq_true_iff]
  unfold edgeData edgeKey
  simp only [hh, swing_edge_keys, swing_edges]
  simp

theorem swing_dir : (dirNbrs swing 0 = [] ∧ indNbrs swing 0 = [3]) ∧ (dirNbrs swing 1 = [] ∧ indNbrs swing 1 = []) ∧
    (dirNbrs swing 2 = [] ∧ indNbrs swing 2 = [4]) ∧ (dirNbrs swing 3 = [] ∧ indNbrs swing 3 = [0]) ∧
    (dirNbrs swing 4 = [] ∧ indNbrs swing 4 = [2]) := by
  refine ⟨⟨rfl, rfl⟩, ⟨rfl, rfl⟩, ⟨rfl, rfl⟩, ⟨rfl, rfl⟩, rfl, rfl⟩

noncomputable abbrev st (j : Nat) : NState ℝ := flNIter Arith.exact swing [0, 2, 1, 3, 4] j

theorem swing_good : GoodSeqs swing [(0, [(0, 0), (1, 1)]), (2, [(0, 2), (1, 3), (2, 4)])] ∧
    GoodSched swing none [0, 2, 1, 3, 4] := by
  obtain ⟨T, N, hT, hN, hg, hlt⟩ := goodSeqs_of_valid valid_swing.wf valid_swing.trails valid_swing.nonempty
  rw [swing_seqs] at hT
  rw [swing_number] at hN
  obtain rfl := Except.ok.inj hT
  obtain rfl := Except.ok.inj hN
  exact ⟨hg, by rw [← swing_sched]; exact goodSched valid_swing.wf valid_swing.trails hg none hlt⟩

theorem norm_axis {a : ℝ} (h : a ≠ 0) : flNormalizeNumpy Arith.exact (some (⟨a, 0, 0⟩ : Vec ℝ)) =
    some ⟨a / |a|, 0, 0⟩ := by
  have hl : Arith.exact.vlength (⟨a, 0, 0⟩ : Vec ℝ) = |a| := by
    simp [Arith.vlength, Arith.vdot, Arith.exact, PySqrt.sqrt, Real.sqrt_mul_self_eq_abs]
  unfold flNormalizeNumpy
  simp only [hl]
  rw [if_neg (abs_ne_zero.2 h)]
  simp [Arith.exact]

theorem norm_origin : flNormalizeNumpy Arith.exact (some (⟨0, 0, 0⟩ : Vec ℝ)) = none := by
  unfold flNormalizeNumpy
  simp [Arith.vlength, Arith.vdot, Arith.exact, PySqrt.sqrt]

theorem sub_axis (a b : ℝ) : lift2 Arith.exact.vsub (some (⟨a, 0, 0⟩ : Vec ℝ)) (some ⟨b, 0, 0⟩) =
    some ⟨a - b, 0, 0⟩ := by
  simp [lift2, Arith.vsub, Arith.exact]

theorem dev_axis {D : Diagram ℝ} {P : Int → NVec ℝ} {n m : Int} {a b f : ℝ} (hm : P m = some ⟨a, 0, 0⟩)
    (hn : P n = some ⟨b, 0, 0⟩) (hf : (edgeData D n m).force = f) (h : a - b ≠ 0) :
    flDevSumN Arith.exact D P n [m] (some 0) = some ⟨f * ((a - b) / |a - b|), 0, 0⟩ := by
  simp only [flDevSumN, List.foldl_cons, List.foldl_nil, flDevTermN, hm, hn, hf]
  rw [sub_axis, norm_axis h]
  simp only [Option.map_some, lift2, Arith.vadd, Arith.vscale, Arith.exact, Option.some.injEq]
  ext <;> simp

theorem out_axis {D : Diagram ℝ} {P : Int → NVec ℝ} {n : Int} {t q v : ℝ} {ind : Bool}
    (hq : loadOf D n = ⟨q, 0, 0⟩) (hd : dirNbrs D n = [])
    (hv : (if ind then flDevSumN Arith.exact D P n (indNbrs D n) (some 0) else some 0) = some ⟨v, 0, 0⟩) :
    flOutN Arith.exact D ind P (some ⟨t, 0, 0⟩) n = some ⟨t - q - v, 0, 0⟩ := by
  unfold flOutN
  rw [hq, hd, hv]
  simp only [flDevSumN, List.foldl_nil, flNpNodeEquilibrium, lift2, Option.map_some, Arith.vadd, Arith.exact,
    Option.some.injEq]
  ext <;> simp
  ring

theorem go_axis {a t l : ℝ} (ht : t ≠ 0) : lift2 Arith.exact.vadd (some (⟨a, 0, 0⟩ : Vec ℝ))
    (lift2 Arith.exact.vscale (some l) (flNpDirection Arith.exact (some ⟨t, 0, 0⟩))) =
    some ⟨a + l * (t / |t|), 0, 0⟩ := by
  unfold flNpDirection
  rw [norm_axis ht]
  simp [lift2, Arith.vadd, Arith.vscale, Arith.exact]

theorem len_plain {n m : Int} {l : ℝ} {pos r : NVec ℝ} (hl : (edgeData swing n m).length = l)
    (hp : (edgeData swing n m).plane = none) : flLenN Arith.exact swing n m pos r = some l := by
  unfold flLenN flNpEffectiveLength
  rw [hp, hl]

theorem len_plane {t : ℝ} (ht : 0 < t) :
    flLenN Arith.exact swing 0 1 (some ⟨1, 0, 0⟩) (some ⟨t, 0, 0⟩) = some 9 := by
  unfold flLenN flNpEffectiveLength flNpPlaneLength
  rw [swing_data.1]
  simp only [norm_axis ht.ne', abs_of_pos ht, div_self ht.ne', Option.map_some]
  norm_num [Arith.vdot, Arith.vsub, Arith.exact, planeTol]

theorem len_nan : flLenN Arith.exact swing 0 1 (some ⟨1, 0, 0⟩) (some ⟨0, 0, 0⟩) = none := by
  unfold flLenN flNpEffectiveLength flNpPlaneLength
  rw [swing_data.1]
  simp only [norm_origin]

/-- Where the nodes are after a sweep. -/
structure At (s : NState ℝ) (c : ℝ) : Prop where
  zero : s.pos 0 = some ⟨1, 0, 0⟩ ∧ s.res 0 = some ⟨0, 0, 0⟩
  two : s.pos 2 = some ⟨0, 0, 0⟩ ∧ s.res 2 = some ⟨0, 0, 0⟩
  three : s.pos 3 = some ⟨2 * c, 0, 0⟩
  four : s.pos 4 = some ⟨3 * c, 0, 0⟩
  reactions : ∀ n, n ≠ 1 → n ≠ 4 → s.reactions.get? n = none

theorem swing_round {j : Nat} {c e x1 x2 x3 v0 v2 v3 : ℝ} (h : At (st j) c)
    (hv0 : (if decide (j ≠ 0) then some (⟨(2 * c - 1) / |2 * c - 1|, 0, 0⟩ : Vec ℝ) else some 0) = some ⟨v0, 0, 0⟩)
    (hv2 : (if decide (j ≠ 0) then some (⟨2 * ((3 * c) / |3 * c|), 0, 0⟩ : Vec ℝ) else some 0) = some ⟨v2, 0, 0⟩)
    (hv3 : (if decide (j ≠ 0) then some (⟨(1 - 2 * e) / |1 - 2 * e|, 0, 0⟩ : Vec ℝ) else some 0) = some ⟨v3, 0, 0⟩)
    (hc0 : 2 * c - 1 ≠ 0) (hc1 : 3 * c ≠ 0) (he : 1 - 2 * e ≠ 0) (hx0 : x1 = 1 - v0) (hx2 : x2 = 1 - v2) (hx3 : x3 = x2 - v3)
    (h2 : x2 ≠ 0) (h3 : x3 ≠ 0) (s2 : x2 / |x2| = e) (s3 : x3 / |x3| = e) (he3 : e ≠ 0) :
    At (st (j + 1)) e ∧ (0 < x1 → (st (j + 1)).pos 1 = some ⟨10, 0, 0⟩) ∧ (x1 = 0 → (st (j + 1)).pos 1 = none) ∧
      ∀ n, (st (j + 1)).reactions.get? n ≠ some none := by
  obtain ⟨_, G⟩ := swing_good
  have SN := flN_sweep (A := Arith.exact) G j
  obtain ⟨n0, n1, n2, n3, n4⟩ := swing_next
  obtain ⟨d01, d23, d34, d03, d30, d24, d42⟩ := swing_data
  obtain ⟨⟨a0, b0⟩, ⟨a1, b1⟩, ⟨a2, b2⟩, ⟨a3, b3⟩, ⟨a4, b4⟩⟩ := swing_dir
  have nx : ∀ a ∈ [0, 2, 1, 3, 4], nxtK swing none a ≠ some 0 ∧ nxtK swing none a ≠ some 2 := by
    intro a ha
    simp only [List.mem_cons, List.not_mem_nil, or_false] at ha
    rcases ha with rfl | rfl | rfl | rfl | rfl <;> simp [n0, n1, n2, n3, n4]
  have z0 := SN.start 0 fun a ha => (nx a ha).1
  have z2 := SN.start 2 fun a ha => (nx a ha).2
  rw [h.zero.1, h.zero.2] at z0
  rw [h.two.1, h.two.2] at z2
  have hq : loadOf swing 0 = ⟨-1, 0, 0⟩ ∧ loadOf swing 1 = ⟨0, 0, 0⟩ ∧ loadOf swing 2 = ⟨-1, 0, 0⟩ ∧
      loadOf swing 3 = ⟨0, 0, 0⟩ ∧ loadOf swing 4 = ⟨0, 0, 0⟩ := by
    unfold loadOf; simp [swing_nodes]
  -- what node 0 sends out
  have r0 := SN.out 0 (by simp)
  have q0 : (flNStateAt Arith.exact swing (nxtK swing none) (decide (j ≠ 0)) [0, 2, 1, 3, 4] (st j) 0) = st j := rfl
  rw [z0.2, q0, out_axis (t := 0) (v := v0) hq.1 a0 (by
    rw [b0, dev_axis h.three h.zero.1 (by rw [d03]) hc0, one_mul]; exact hv0)] at r0
  have e0 : (0 : ℝ) - -1 - v0 = x1 := by rw [hx0]; ring
  rw [e0] at r0
  -- what node 2 sends out
  have r2 := SN.out 2 (by simp)
  have q2 : (flNStateAt Arith.exact swing (nxtK swing none) (decide (j ≠ 0)) [0, 2, 1, 3, 4] (st j) 2) =
      flNproc Arith.exact swing (nxtK swing none) (decide (j ≠ 0)) (st j) 0 := rfl
  have q2p : ∀ n, n ≠ 1 → (flNproc Arith.exact swing (nxtK swing none) (decide (j ≠ 0)) (st j) 0).pos n =
      (st j).pos n := by
    intro n hn
    unfold flNproc NState.pos
    rw [n0]
    simp [Dict.get?_set, hn, Ne.symm hn]
  rw [z2.2, q2, out_axis (t := 0) (v := v2) hq.2.2.1 a2 (by
    rw [b2, dev_axis (by rw [q2p 4 (by norm_num)]; exact h.four) (by rw [q2p 2 (by norm_num)]; exact h.two.1)
      (by rw [d24]) (by rw [sub_zero]; exact hc1), sub_zero]; exact hv2)] at r2
  have e2 : (0 : ℝ) - -1 - v2 = x2 := by rw [hx2]; ring
  rw [e2] at r2
  obtain ⟨p3, t3, _⟩ := SN.next 2 (by simp) 3 n2
  rw [z2.1, r2, len_plain (l := 2) (by rw [d23]) (by rw [d23]), go_axis h2, s2, zero_add] at p3
  rw [r2] at t3
  -- what node 3 sends out
  have r3 := SN.out 3 (by simp)
  have rk : rankOf swing 0 ≤ rankOf swing 3 ∧ rankOf swing 2 ≤ rankOf swing 4 := by
    unfold rankOf seqOf; simp [swing_nodes]
  have w3 := SN.seen 3 (by simp) 3 le_rfl
  have w0 := SN.seen 3 (by simp) 0 rk.1
  rw [p3] at w3
  rw [z0.1] at w0
  rw [t3, out_axis (v := v3) hq.2.2.2.1 a3 (by
    rw [b3, dev_axis w0 w3 (by rw [d30]) he, one_mul]; exact hv3)] at r3
  have e3 : x2 - 0 - v3 = x3 := by rw [hx3]; ring
  rw [e3] at r3
  obtain ⟨p4, t4, _⟩ := SN.next 3 (by simp) 4 n3
  rw [p3, r3, len_plain (l := 1) (by rw [d34]) (by rw [d34]), go_axis h3, s3] at p4
  rw [r3] at t4
  have e4 : 2 * e + 1 * e = 3 * e := by ring
  rw [e4] at p4
  obtain ⟨p1, t1, _⟩ := SN.next 0 (by simp) 1 n0
  rw [z0.1, r0] at p1
  rw [r0] at t1
  have rc : ∀ n, n ≠ 1 → n ≠ 4 → (st (j + 1)).reactions.get? n = none := by
    intro n h1 h4
    rw [SN.react n, if_neg, h.reactions n h1 h4]
    rintro ⟨hn, hx⟩
    simp only [List.mem_cons, List.not_mem_nil, or_false] at hn
    rcases hn with rfl | rfl | rfl | rfl | rfl <;> simp_all
  refine ⟨⟨z0, z2, p3, p4, rc⟩, fun hp => ?_, fun hp => ?_, fun n hn => ?_⟩
  · rw [p1, len_plane hp, go_axis hp.ne', abs_of_pos hp, div_self hp.ne']
    norm_num
  · rw [p1, hp, len_nan]
    rfl
  · by_cases h1 : n = 1
    · subst h1
      have r1 := SN.out 1 (by simp)
      rw [t1, out_axis (v := 0) hq.2.1 a1 (by rw [b1]; split_ifs <;> rfl)] at r1
      rw [SN.react 1, if_pos ⟨by simp, n1⟩, r1] at hn
      cases hn
    by_cases h4 : n = 4
    · subst h4
      have r4 := SN.out 4 (by simp)
      have y4 := SN.seen 4 (by simp) 4 le_rfl
      have y2 := SN.seen 4 (by simp) 2 rk.2
      rw [p4] at y4
      rw [z2.1] at y2
      have hne : (0 : ℝ) - 3 * e ≠ 0 := by
        intro h0; apply he3; linarith
      rw [t4, out_axis (v := if j ≠ 0 then 2 * ((0 - 3 * e) / |0 - 3 * e|) else 0) hq.2.2.2.2 a4 (by
        rw [b4, dev_axis y2 y4 (by rw [d42]) hne]
        by_cases hj : j = 0 <;> simp [hj] <;> rfl)] at r4
      rw [SN.react 4, if_pos ⟨by simp, n4⟩, r4] at hn
      cases hn
    rw [rc n h1 h4] at hn
    cases hn

theorem swing_start : At (st 0) 1 := by
  refine ⟨⟨?_, ?_⟩, ⟨?_, ?_⟩, ?_, ?_, fun n _ _ => rfl⟩
  all_goals
    show _ = _
    simp [st, flNIter, npInit, NState.pos, NState.res, swing, swingLit, Diagram.real, Diagram.map, Dict.get?,
      NodeData.map, Vec.map]

/-- Nodes 3 and 4 are on the right after the odd sweeps, and on the left after the even ones; then node 1 is
NaN. -/
theorem swing_numpy (k : Nat) :
    (At (st (2 * k + 1)) 1 ∧ NoNaN (st (2 * k + 1))) ∧ (At (st (2 * k + 2)) (-1) ∧ (st (2 * k + 2)).pos 1 = none) := by
  have nn : ∀ j c, At (st j) c → (st j).pos 1 = some ⟨10, 0, 0⟩ → (∀ n, (st j).reactions.get? n ≠ some none) →
      NoNaN (st j) := by
    intro j c h h1 hr
    refine ⟨(flN_pos_ne (A := Arith.exact) (L := [0, 2, 1, 3, 4]) valid_swing j).2 fun n hn => ?_, hr⟩
    rw [swing_keys] at hn
    simp only [List.mem_cons, List.not_mem_nil, or_false] at hn
    rcases hn with rfl | rfl | rfl | rfl | rfl
    · rw [h.zero.1]; simp
    · rw [h1]; simp
    · rw [h.two.1]; simp
    · rw [h.three]; simp
    · rw [h.four]; simp
  have left : ∀ j, j ≠ 0 → At (st j) 1 → At (st (j + 1)) (-1) ∧ (st (j + 1)).pos 1 = none := by
    intro j hj h
    obtain ⟨h1, _, h2, _⟩ := swing_round (j := j) (c := 1) (e := -1) (x1 := 0) (x2 := -1) (x3 := -2) (v0 := 1)
      (v2 := 2) (v3 := 1) h (by simp [hj]; norm_num) (by simp [hj]) (by simp [hj]; norm_num) (by norm_num)
      (by norm_num) (by norm_num) (by norm_num) (by norm_num) (by norm_num) (by norm_num) (by norm_num)
      (by norm_num) (by norm_num) (by norm_num)
    exact ⟨h1, h2 rfl⟩
  have right : ∀ j, j ≠ 0 → At (st j) (-1) → At (st (j + 1)) 1 ∧ NoNaN (st (j + 1)) := by
    intro j hj h
    obtain ⟨h1, h2, _, h3⟩ := swing_round (j := j) (c := -1) (e := 1) (x1 := 2) (x2 := 3) (x3 := 4) (v0 := -1)
      (v2 := -2) (v3 := -1) h (by simp [hj]; norm_num) (by simp [hj]) (by simp [hj]; norm_num)
      (by norm_num) (by norm_num) (by norm_num) (by norm_num) (by norm_num) (by norm_num) (by norm_num)
      (by norm_num) (by norm_num) (by norm_num) (by norm_num)
    exact ⟨h1, nn _ _ h1 (h2 (by norm_num)) h3⟩
  have first : At (st 1) 1 ∧ NoNaN (st 1) := by
    obtain ⟨h1, h2, _, h3⟩ := swing_round (j := 0) (c := 1) (e := 1) (x1 := 1) (x2 := 1) (x3 := 1) (v0 := 0)
      (v2 := 0) (v3 := 0) swing_start (by simp; rfl) (by simp; rfl) (by simp; rfl)
      (by norm_num) (by norm_num) (by norm_num) (by norm_num) (by norm_num) (by norm_num) (by norm_num)
      (by norm_num) (by norm_num) (by norm_num) (by norm_num)
    exact ⟨h1, nn _ _ h1 (h2 (by norm_num)) h3⟩
  induction k with
  | zero => exact ⟨first, left 1 (by norm_num) first.1⟩
  | succ k ih =>
    have h := right (2 * k + 2) (by omega) ih.2.1
    exact ⟨h, left _ (by omega) h.1⟩

/-- The states of the plain solver. -/
theorem swing_plain {j : Nat} {c : ℝ} (h : At (st j) c) : (iter swing none [0, 2, 1, 3, 4] j).pos 0 = ⟨1, 0, 0⟩ ∧
    (iter swing none [0, 2, 1, 3, 4] j).pos 3 = ⟨2 * c, 0, 0⟩ := by
  have B := NBelow.iter precise_exact (by norm_num) zeroAdds_exact swing_good.2 j
  have e := flIter_exact valid_swing swing_good.1 3 j
  rw [swing_sched] at e
  rw [e] at B
  constructor
  · have := B.pos 0
    rw [show (flNIter Arith.exact swing [0, 2, 1, 3, 4] j).pos 0 = some ⟨1, 0, 0⟩ from h.zero.1] at this
    rcases this with h | h
    · cases h
    · exact (Option.some.inj h).symm
  · have := B.pos 3
    rw [show (flNIter Arith.exact swing [0, 2, 1, 3, 4] j).pos 3 = some ⟨2 * c, 0, 0⟩ from h.three] at this
    rcases this with h | h
    · cases h
    · exact (Option.some.inj h).symm

theorem swing_at (j : Nat) (hj : 1 ≤ j) : ∃ c, (c = 1 ∨ c = -1) ∧ At (st j) c ∧ At (st (j + 1)) (-c) := by
  obtain ⟨k, rfl | rfl⟩ : ∃ k, j = 2 * k + 1 ∨ j = 2 * k + 2 := ⟨(j - 1) / 2, by omega⟩
  · exact ⟨1, Or.inl rfl, (swing_numpy k).1.1, (swing_numpy k).2.1⟩
  · refine ⟨-1, Or.inr rfl, (swing_numpy k).2.1, ?_⟩
    rw [neg_neg]
    exact (swing_numpy (k + 1)).1.1

end SwingEx

open SwingEx in
/-- C78. In this problem the positions alternate between two states and never converge, and the plain solver
raises whatever the number of iterations.  The numpy solver never does, for any threshold: after an even number of
iterations it returns a form with NaN, after an odd number a form without NaN that is not in equilibrium. -/
theorem C78_unconverged :
    ValidInput swing ∧ NonzeroTrails swing ∧
    (∀ k (eta : ℝ) verbose, ∃ F, staticEquilibriumNumpy swing (2 * k + 3) eta verbose = .ok F.num ∧
      0 ∈ F.nodes.keys ∧ Vec.length (imbalance F 0) = 2 ∧ (eta < 1 → nodalBound F eta 0 < 2)) ∧
    (∀ k (eta : ℝ) verbose, ∃ G, staticEquilibriumNumpy swing (2 * k + 2) eta verbose = .ok G ∧ HasNaN G) ∧
    (∀ tmax (eta : ℝ) verbose, 2 ≤ tmax → eta < 4 →
      staticEquilibrium swing none tmax eta verbose = .error .valueError) := by
  have I := valid_swing
  obtain ⟨hg, G⟩ := swing_good
  have hl : ∀ a : ℝ, Vec.length (⟨a, 0, 0⟩ : Vec ℝ) = |a| := by
    intro a
    simp [Vec.length, Vec.dot, PySqrt.sqrt, Real.sqrt_mul_self_eq_abs]
  have hlt : ∀ n ∈ swing.nodes.keys, ∀ k, seqOf swing n = some k → k < 3 := by
    intro n hn k hk
    rw [swing_keys] at hn
    unfold seqOf at hk
    simp only [swing_nodes, List.mem_cons, List.not_mem_nil, or_false] at hn hk
    rcases hn with rfl | rfl | rfl | rfl | rfl <;> simp at hk <;> omega
  have bad : ∀ k, (st (2 * k + 2)).xyz.get? 1 = some none := by
    intro k
    have h := (swing_numpy k).2.2
    unfold NState.pos at h
    cases hv : (st (2 * k + 2)).xyz.get? 1 with
    | none => rw [hv] at h; cases h
    | some v => rw [hv] at h; rw [show v = none from h]
  have run : ∀ (tmax : Nat) (eta : ℝ) verbose, 2 ≤ tmax → staticEquilibriumNumpy swing tmax eta verbose =
      .ok (flNpFormUpdate Arith.exact (formFromTopology swing).num (st tmax)) := by
    intro tmax eta verbose ht
    rw [← flStaticEquilibriumNumpy_exact]
    obtain ⟨m, hm2, hmt, hor, hnan, _⟩ := flNp_end precise_exact (by norm_num) zeroAdds_exact List.sum I swing_seqs
      swing_number hg hlt ht eta verbose
    rw [swing_sched] at hor hnan
    have hb : ∃ n, (st (m - 1)).xyz.get? n = some none ∨ (st m).xyz.get? n = some none := by
      obtain ⟨k, rfl | rfl⟩ : ∃ k, m = 2 * k + 2 ∨ m = 2 * k + 3 := ⟨(m - 2) / 2, by omega⟩
      · exact ⟨1, Or.inr (bad k)⟩
      · exact ⟨1, Or.inl (bad k)⟩
    obtain ⟨rfl, hne⟩ := hnan hb
    rcases hor with h | h
    · exact absurd h.1 hne
    · exact h
  refine ⟨I, nonzero_swing, fun k eta verbose => ?_, fun k eta verbose => ?_, fun tmax eta verbose ht he => ?_⟩
  · have hn := (swing_numpy (k + 1)).1.2
    rw [show 2 * (k + 1) + 1 = 2 * k + 3 by ring] at hn
    have hit : flIter Arith.exact swing none [0, 2, 1, 3, 4] (2 * k + 3) =
        iter swing none [0, 2, 1, 3, 4] (2 * k + 3) := flIter_exact I hg 3 _
    refine ⟨formOf swing (iter swing none [0, 2, 1, 3, 4] (2 * k + 3)), ?_, ?_, ?_⟩
    · rw [run _ eta verbose (by omega)]
      unfold st
      rw [flNIter_eq precise_exact (by norm_num) zeroAdds_exact I G hn, flNpForm_lift I, hit, flFormOf_exact]
    · rw [formNodes_keys]; show (0 : Int) ∈ swing.nodes.keys; rw [swing_keys]; simp
    · have S := finalSpec_sched I.wf I.trails G (2 * k + 2)
      have htrue : decide (2 * k + 2 ≠ 0) = true := by simp
      rw [htrue] at S
      obtain ⟨p0, p3⟩ := swing_plain (swing_numpy (k + 1)).1.1
      rw [show 2 * (k + 1) + 1 = 2 * k + 3 by ring] at p0 p3
      obtain ⟨o0, o3⟩ := swing_plain (swing_numpy k).2.1
      have hk0 : (0 : Int) ∈ swing.nodes.keys := by rw [swing_keys]; simp
      have q0 : (stateAt swing (nxtK swing none) true [0, 2, 1, 3, 4]
        (iter swing none [0, 2, 1, 3, 4] (2 * k + 2)) 0) = iter swing none [0, 2, 1, 3, 4] (2 * k + 2) := rfl
      constructor
      · rw [imbalance_eq I nonzero_swing S hk0, if_pos rfl]
        simp only [q0, swing_dir.1.2, devSum, devTerm_real, List.map_cons, List.map_nil, List.sum_cons,
          List.sum_nil, p0, p3, o0, o3, swing_data.2.2.2.1]
        have e1 : (⟨2 * 1, 0, 0⟩ : Vec ℝ) - ⟨1, 0, 0⟩ = ⟨1, 0, 0⟩ := by ext <;> simp; norm_num
        have e2 : (⟨2 * -1, 0, 0⟩ : Vec ℝ) - ⟨1, 0, 0⟩ = ⟨-3, 0, 0⟩ := by ext <;> simp; norm_num
        rw [e1, e2]
        simp only [unit, hl]
        have e3 : (1 : ℝ) • |(1 : ℝ)|⁻¹ • (⟨1, 0, 0⟩ : Vec ℝ) + 0 - ((1 : ℝ) • |(-3 : ℝ)|⁻¹ • ⟨-3, 0, 0⟩ + 0) =
            ⟨2, 0, 0⟩ := by
          ext <;> simp; norm_num
        rw [e3, hl, abs_two]
      · intro he
        rw [nodalBound_eq I S]
        simp only [swing_dir.1.2, List.map_cons, List.map_nil, List.sum_cons, List.sum_nil, p0, p3,
          swing_data.2.2.2.1]
        have e1 : (⟨2 * 1, 0, 0⟩ : Vec ℝ) - ⟨1, 0, 0⟩ = ⟨1, 0, 0⟩ := by ext <;> simp; norm_num
        rw [e1, hl, abs_one, one_mul, add_zero, slack, if_neg one_ne_zero]
        exact (min_le_right _ _).trans_lt (by linarith)
  · refine ⟨_, run _ eta verbose (by omega), ?_⟩
    have g := goodFlNState_iter (A := Arith.exact) I.wf I.trails [0, 2, 1, 3, 4] (2 * k + 2)
    have B := NBelow.iter precise_exact (by norm_num) zeroAdds_exact G (2 * k + 2)
    have hk := B.reactions.keys
    exact flForm_nan g.1 I.wf.nodesNodup (by rw [hk]; exact B.reactNodup)
      (by rw [hk]; exact fl_reaction_keys G (2 * k + 2)) fun h => h.1 1 (bad k)
  · refine C30_not_converged I.nonempty (fun k h => by cases h) swing_seqs swing_number ht
      (st := iter swing none [0, 2, 1, 3, 4])
      (fun m => by rw [← swing_sched]; exact sweepsN_eq I.wf I.trails hg none 3 m) fun m hm hmt => ?_
    refine lt_of_lt_of_le he ?_
    have hx : (3 : Int) ∈ (iter swing none [0, 2, 1, 3, 4] m).xyz.keys := by
      rw [(goodState_iter I.wf I.trails none [0, 2, 1, 3, 4] m).1, swing_keys]; simp
    refine le_trans ?_ (dist_le_residual (iter swing none [0, 2, 1, 3, 4] (m - 1)) _ hx)
    obtain ⟨c, hc, h1, h2⟩ := swing_at (m - 1) (by omega)
    rw [show m - 1 + 1 = m by omega] at h2
    rw [(swing_plain h1).2, (swing_plain h2).2]
    have e : Vec.dist (⟨2 * c, 0, 0⟩ : Vec ℝ) ⟨2 * -c, 0, 0⟩ = |4 * c| := by
      rw [← hl]
      unfold Vec.dist
      congr 1
      ext <;> simp; ring
    rw [e]
    rcases hc with rfl | rfl <;> norm_num

/-- C78 fails: with any threshold below one and any odd number of iterations from three on, a valid problem has a
form without NaN that the numpy solver returns although it is not in equilibrium up to the threshold. -/
theorem C78_claim_false : ¬ ∀ (D : Diagram ℝ), ValidInput D → NonzeroTrails D → ∀ (tmax : Nat) (eta : ℝ)
    (verbose : Bool) (F : Diagram ℝ), 2 ≤ tmax → staticEquilibriumNumpy D tmax eta verbose = .ok F.num →
      ∀ n ∈ F.nodes.keys, Vec.length (imbalance F n) ≤ nodalBound F eta n := by
  intro h
  obtain ⟨I, hl, h1, _⟩ := C78_unconverged
  obtain ⟨F, hF, h0, hi, hb⟩ := h1 0 0 false
  have := h _ I hl _ _ _ F (by norm_num) hF 0 h0
  rw [hi] at this
  linarith [hb (by norm_num)]

/-- C33. Whenever a state of the numpy solver is without NaN, it has all numbers of the plain solver after as many
sweeps, also if there was NaN before. -/
theorem C33_each_sweep {D : Diagram ℝ} (I : ValidInput D) :
    ∃ (T : Dict Int (Dict Int Int)) (tab : NTables ℝ) (N : Int) (st : Nat → EqState ℝ)
      (nst : Nat → NState ℝ), D.trailsSequences = .ok T ∧ npTables D = .ok tab ∧
      D.numberOfSequences = .ok N ∧
      (∀ m, sweepsN D T none N m = .ok (st m)) ∧ (∀ m, numpySweeps D tab T N m = .ok (nst m)) ∧
      ∀ m, NoNaN (nst m) → SameNumbers (st m) (nst m) := by
  obtain ⟨T, N, hT, hN, hg, hlt⟩ := goodSeqs_of_valid I.wf I.trails I.nonempty
  obtain ⟨tab, htab, GT⟩ := npTables_ok I.wf fun n hn =>
    let ⟨k, h, _⟩ := allSequenced_of_valid I.trails n hn; ⟨k, h⟩
  have G := goodSched I.wf I.trails hg none hlt
  refine ⟨T, tab, N, iter D none (sched D T N), flNIter Arith.exact D (sched D T N), hT, htab, hN,
    fun m => sweepsN_eq I.wf I.trails hg none N m, fun m => ?_, fun m hm => ?_⟩
  · rw [← numpySweeps_exact]
    exact flNumpySweeps_eq I hg GT N m
  · rw [flNIter_eq precise_exact (by norm_num) zeroAdds_exact I G hm, flIter_exact I hg]
    exact sameNumbers_lift _

/-- A state without NaN that comes after one with NaN. -/
example : NoNaN (SwingEx.st 3) ∧ ¬ NoNaN (SwingEx.st 2) := by
  refine ⟨(SwingEx.swing_numpy 1).1.2, fun h => ?_⟩
  have := (flN_pos_ne (A := Arith.exact) (L := [0, 2, 1, 3, 4]) SwingEx.valid_swing 2).1 h.1 1
    (by rw [SwingEx.swing_keys]; simp)
  exact this (SwingEx.swing_numpy 0).2.2

end Props
end CEM
