import Verif.Props.Names
import Verif.Props.NumpyUnconverged

/-!
# Property C85: the order of the trails

Names of nodes do not matter, but the order of the trails does as soon as there are indirect deviation edges: a
node sees the new positions of the trails before its own and the old positions of the trails after it.
-/

set_option linter.unusedSectionVars false
set_option linter.unusedSimpArgs false

namespace CEM
namespace Props
open Diagram Spec

local instance orderSqrt : PySqrt ℚ := ⟨id⟩

namespace OrderEx
open TrailEx EqEx SwingEx

/-- The calls of `SwingEx.swingOps` with the support of the second trail first. -/
def turnedOps : List (Op ℚ) := [.addNode (some 4) ⟨3, 0, 0⟩, .addNode (some 0) ⟨1, 0, 0⟩,
  .addNode (some 1) ⟨10, 0, 0⟩, .addNode (some 2) ⟨0, 0, 0⟩, .addNode (some 3) ⟨2, 0, 0⟩,
  .addEdge (.trail (.key 0) (.key 1) 9 (some (⟨10, 0, 0⟩, ⟨1, 0, 0⟩))),
  .addEdge (.trail (.key 2) (.key 3) 2 none), .addEdge (.trail (.key 3) (.key 4) 1 none),
  .addEdge (.deviation (.key 0) (.key 3) 1), .addEdge (.deviation (.key 2) (.key 4) 2),
  sup 1, sup 4, load 0 ⟨-1, 0, 0⟩, load 2 ⟨-1, 0, 0⟩]

def turnedQ : Diagram ℚ := after key (turnedOps ++ [.buildTrails])

def turnedLit : Diagram ℚ where
  nodes := [(4, ⟨⟨3, 0, 0⟩, ⟨0, 0, 0⟩, ⟨0, 0, 0⟩, some 2, .support⟩),
    (0, ⟨⟨1, 0, 0⟩, ⟨-1, 0, 0⟩, ⟨0, 0, 0⟩, some 0, .origin⟩),
    (1, ⟨⟨10, 0, 0⟩, ⟨0, 0, 0⟩, ⟨0, 0, 0⟩, some 1, .support⟩),
    (2, ⟨⟨0, 0, 0⟩, ⟨-1, 0, 0⟩, ⟨0, 0, 0⟩, some 0, .origin⟩),
    (3, ⟨⟨2, 0, 0⟩, ⟨0, 0, 0⟩, ⟨0, 0, 0⟩, some 1, .free⟩)]
  edges := swingLit.edges
  maxNode := 4
  gkeyNode := turnedQ.gkeyNode
  trails := [(2, [2, 3, 4]), (0, [0, 1])]
  auxTrails := []
  auxLength := -1
  auxVector := ⟨1, 1, 1⟩

theorem turnedQ_eq : turnedQ = turnedLit := by decide +kernel

noncomputable def turned : Diagram ℝ := turnedLit.real

theorem valid_turned : ValidInput turned := by
  have h : ValidInput turnedQ :=
    validInput_of_history key turnedOps (RegularCheck.regular (WF.after _ _) (by decide +kernel))
      (by decide +kernel)
  have := validInput_real h
  rwa [turnedQ_eq] at this

theorem nonzero_turned : NonzeroTrails turned := NonzeroCheck.nonzero (D := turnedLit) (by decide +kernel)

theorem turned_seqs :
    turned.trailsSequences = .ok [(2, [(0, 2), (1, 3), (2, 4)]), (0, [(0, 0), (1, 1)])] := rfl
theorem turned_number : turned.numberOfSequences = .ok 3 := rfl
theorem turned_sched :
    sched turned [(2, [(0, 2), (1, 3), (2, 4)]), (0, [(0, 0), (1, 1)])] 3 = [2, 0, 3, 1, 4] := rfl

theorem turned_next : nxtK turned none 0 = some 1 ∧ nxtK turned none 1 = none ∧ nxtK turned none 2 = some 3 ∧
    nxtK turned none 3 = some 4 ∧ nxtK turned none 4 = none := ⟨rfl, rfl, rfl, rfl, rfl⟩

theorem turned_ind : indNbrs turned 0 = [3] := rfl

theorem turned_keys : turned.nodes.keys = [4, 0, 1, 2, 3] := by
  unfold turned Diagram.real; rw [map_nodes_keys]; decide +kernel

theorem turned_good : GoodSeqs turned [(2, [(0, 2), (1, 3), (2, 4)]), (0, [(0, 0), (1, 1)])] ∧
    GoodSched turned none [2, 0, 3, 1, 4] := by
  obtain ⟨T, N, hT, hN, hg, hlt⟩ := goodSeqs_of_valid valid_turned.wf valid_turned.trails valid_turned.nonempty
  rw [turned_seqs] at hT
  rw [turned_number] at hN
  obtain rfl := Except.ok.inj hT
  obtain rfl := Except.ok.inj hN
  exact ⟨hg, by rw [← turned_sched]; exact goodSched valid_turned.wf valid_turned.trails hg none hlt⟩

/-- Form finding with a large threshold returns the form of the second sweep. -/
theorem second_sweep {D : Diagram ℝ} (I : ValidInput D) {T : Dict Int (Dict Int Int)} {N : Int}
    (hT : D.trailsSequences = .ok T) (hN : D.numberOfSequences = .ok N) (hg : GoodSeqs D T) :
    ∃ c, ∀ eta, c < eta → ∀ tmax, 2 ≤ tmax → ∀ verbose,
      staticEquilibrium D none tmax eta verbose = .ok (formOf D (iter D none (sched D T N) 2)) := by
  refine ⟨residualDistance (iter D none (sched D T N) 1).xyz (iter D none (sched D T N) 2).xyz,
    fun eta he tmax ht verbose => ?_⟩
  obtain ⟨m, h2, _, hb, _, hr⟩ :=
    (equilibriumState_sched I (kmax := none) (by simp) hT hN hg tmax eta verbose).2.2 ht
  obtain rfl : m = 2 := by
    by_contra hm
    exact hb 2 le_rfl (by omega) he
  unfold staticEquilibrium
  rw [hr, if_neg (not_lt.2 he.le)]

theorem same_nodes (n : Int) : turned.nodes.get? n = swing.nodes.get? n := by
  rw [swing_nodes]
  unfold turned Diagram.real
  rw [map_nodes_get?]
  simp only [turnedLit, Dict.get?, eq_comm (b := n)]
  by_cases h4 : n = 4
  · subst h4; simp [NodeData.map, Vec.map]
  rw [if_neg h4, if_neg h4]
  split_ifs <;> simp [NodeData.map, Vec.map]

theorem same_edges : turned.edges = swing.edges := rfl

theorem swing_unbalanced : Vec.length (imbalance (formOf swing (iter swing none [0, 2, 1, 3, 4] 2)) 0) = 2 := by
  have I := valid_swing
  obtain ⟨hg, G⟩ := swing_good
  have hl : ∀ a : ℝ, Vec.length (⟨a, 0, 0⟩ : Vec ℝ) = |a| := by
    intro a
    simp [Vec.length, Vec.dot, PySqrt.sqrt, Real.sqrt_mul_self_eq_abs]
  have S := finalSpec_sched I.wf I.trails G 1
  have htrue : decide (1 ≠ 0) = true := by simp
  rw [htrue] at S
  obtain ⟨p0, p3⟩ := swing_plain (swing_numpy 0).2.1
  obtain ⟨o0, o3⟩ := swing_plain (swing_numpy 0).1.1
  have hk0 : (0 : Int) ∈ swing.nodes.keys := by rw [swing_keys]; simp
  have q0 : (stateAt swing (nxtK swing none) true [0, 2, 1, 3, 4]
    (iter swing none [0, 2, 1, 3, 4] 1) 0) = iter swing none [0, 2, 1, 3, 4] 1 := rfl
  rw [imbalance_eq I nonzero_swing S hk0, if_pos rfl]
  simp only [q0, swing_dir.1.2, devSum, devTerm_real, List.map_cons, List.map_nil, List.sum_cons,
    List.sum_nil, p0, p3, o0, o3, swing_data.2.2.2.1, mul_zero, zero_add, Nat.reduceAdd]
  have e1 : (⟨2 * 1, 0, 0⟩ : Vec ℝ) - ⟨1, 0, 0⟩ = ⟨1, 0, 0⟩ := by ext <;> simp; norm_num
  have e2 : (⟨2 * -1, 0, 0⟩ : Vec ℝ) - ⟨1, 0, 0⟩ = ⟨-3, 0, 0⟩ := by ext <;> simp; norm_num
  rw [e1, e2]
  simp only [unit, hl]
  have e3 : (1 : ℝ) • |(-3 : ℝ)|⁻¹ • (⟨-3, 0, 0⟩ : Vec ℝ) + 0 - ((1 : ℝ) • |(1 : ℝ)|⁻¹ • ⟨1, 0, 0⟩ + 0) =
      ⟨-2, 0, 0⟩ := by
    ext <;> simp; norm_num
  rw [e3, hl, abs_neg, abs_two]

theorem turned_balanced : imbalance (formOf turned (iter turned none [2, 0, 3, 1, 4] 2)) 0 = 0 := by
  have I := valid_turned
  obtain ⟨hg, G⟩ := turned_good
  have S := finalSpec_sched I.wf I.trails G 1
  have htrue : decide (1 ≠ 0) = true := by simp
  rw [htrue] at S
  have hk0 : (0 : Int) ∈ turned.nodes.keys := by rw [turned_keys]; simp
  obtain ⟨n0, n1, n2, n3, n4⟩ := turned_next
  have keep : ∀ (s : EqState ℝ) (a m : Int), nxtK turned none a ≠ some m →
      (proc turned (nxtK turned none) true s a).pos m = s.pos m := by
    intro s a m h
    cases hx : nxtK turned none a with
    | none => rw [proc_none hx]; rfl
    | some b =>
      have hb : m ≠ b := by rintro rfl; exact h hx
      rw [proc_some hx]
      unfold EqState.pos
      simp [Dict.get?_set, hb, Ne.symm hb]
  have q : ∀ m, m ≠ 1 → m ≠ 4 → (stateAt turned (nxtK turned none) true [2, 0, 3, 1, 4]
      (iter turned none [2, 0, 3, 1, 4] 1) 0).pos m = (iter turned none [2, 0, 3, 1, 4] 2).pos m := by
    intro m h1 h4
    have e1 : stateAt turned (nxtK turned none) true [2, 0, 3, 1, 4] (iter turned none [2, 0, 3, 1, 4] 1) 0 =
      proc turned (nxtK turned none) true (iter turned none [2, 0, 3, 1, 4] 1) 2 := rfl
    have e2 : iter turned none [2, 0, 3, 1, 4] 2 =
      [2, 0, 3, 1, 4].foldl (proc turned (nxtK turned none) true) (iter turned none [2, 0, 3, 1, 4] 1) := rfl
    rw [e1, e2]
    simp only [List.foldl_cons, List.foldl_nil]
    rw [keep _ 4 _ (by rw [n4]; simp), keep _ 1 _ (by rw [n1]; simp), keep _ 3 _ (by rw [n3]; simp [Ne.symm h4]),
      keep _ 0 _ (by rw [n0]; simp [Ne.symm h1])]
  rw [imbalance_eq I nonzero_turned S hk0, if_pos rfl, turned_ind]
  rw [devSum_congr (q 0 (by norm_num) (by norm_num)) (fun m hm => by
    obtain rfl := List.mem_singleton.1 hm
    exact q 3 (by norm_num) (by norm_num)), sub_self]

end OrderEx

open OrderEx SwingEx in
/-- **C85.**  The order of the trails does matter.  Two valid diagrams hold the same data for every node and every
edge and have the same trails, in opposite orders.  With a large threshold both have forms after two sweeps.  In
one of them the forces at node 0 are balanced, in the other they are not. -/
theorem C85_order : ∃ D E : Diagram ℝ, ValidInput D ∧ ValidInput E ∧ NonzeroTrails D ∧ NonzeroTrails E ∧
    (∀ n, E.nodes.get? n = D.nodes.get? n) ∧ E.edges = D.edges ∧ E.trails = D.trails.reverse ∧
    ∃ c, ∀ eta, c < eta → ∀ tmax, 2 ≤ tmax → ∀ verbose, ∃ F G,
      staticEquilibrium D none tmax eta verbose = .ok F ∧ staticEquilibrium E none tmax eta verbose = .ok G ∧
      Vec.length (imbalance F 0) = 2 ∧ imbalance G 0 = 0 := by
  refine ⟨swing, turned, valid_swing, valid_turned, nonzero_swing, nonzero_turned, same_nodes, same_edges, rfl, ?_⟩
  obtain ⟨c, hc⟩ := second_sweep valid_swing swing_seqs swing_number swing_good.1
  obtain ⟨c', hc'⟩ := second_sweep valid_turned turned_seqs turned_number turned_good.1
  refine ⟨max c c', fun eta he tmax ht verbose => ?_⟩
  have h1 := hc eta (lt_of_le_of_lt (le_max_left _ _) he) tmax ht verbose
  have h2 := hc' eta (lt_of_le_of_lt (le_max_right _ _) he) tmax ht verbose
  rw [swing_sched] at h1
  rw [turned_sched] at h2
  exact ⟨_, _, h1, h2, swing_unbalanced, turned_balanced⟩

end Props
end CEM
