import Verif.Lemmas.RoundedReturn
import Verif.Props.TrailEdges
import Verif.Props.LoadPath

/-!
# Property C72: rounding errors stay where they are made
-/

set_option linter.unusedSectionVars false
set_option linter.unusedSimpArgs false

namespace CEM
namespace Props
open Diagram Spec EqEx

/-! ## Binary arithmetic -/

/-- C72. Rounding to `p` binary digits has a relative error of at most `2 ^ (-p)`. -/
theorem C72_binary (p : ℕ) : Precise (binaryArith p) ((2 : ℝ) ^ p)⁻¹ where
  nonneg := by positivity
  add _ _ := binaryRound_error p _
  sub _ _ := binaryRound_error p _
  mul _ _ := binaryRound_error p _
  div _ _ _ := binaryRound_error p _
  sqrt a _ := by
    have := binaryRound_error p (Real.sqrt a)
    rwa [abs_of_nonneg (Real.sqrt_nonneg a)] at this

/-- Double precision is precise enough for what follows. -/
theorem double_small : ((2 : ℝ) ^ 53)⁻¹ ≤ 1 / 100 := by norm_num

/-- Its rounding is not the identity: a third becomes another number. -/
example : binaryRound 53 (1 / 3) ≠ 1 / 3 := by
  intro h
  have hlog : Int.log 2 |(1 / 3 : ℝ)| = -2 := by
    have h1 : |(1 / 3 : ℝ)| = 1 / 3 := abs_of_pos (by norm_num)
    rw [h1]
    apply le_antisymm
    · have : Int.log 2 (1 / 3 : ℝ) < -1 := by
        rw [← Int.lt_zpow_iff_log_lt (b := 2) (by norm_num) (by norm_num)]
        norm_num
      omega
    · rw [← Int.zpow_le_iff_le_log (b := 2) (by norm_num) (by norm_num)]
      norm_num
  unfold binaryRound at h
  rw [hlog] at h
  set k := round ((1 / 3 : ℝ) / 2 ^ ((-2 : ℤ) + 1 - (53 : ℕ))) with hk
  have e : (2 : ℝ) ^ ((-2 : ℤ) + 1 - (53 : ℕ)) = ((2 : ℝ) ^ 54)⁻¹ := by
    rw [show ((-2 : ℤ) + 1 - (53 : ℕ)) = -((54 : ℕ) : ℤ) by norm_num, zpow_neg, zpow_natCast]
  rw [e] at h
  have h2 : (3 * k : ℝ) = 2 ^ 54 := by
    field_simp at h
    linarith
  have h3 : (3 * k : ℤ) = 2 ^ 54 := by exact_mod_cast h2
  omega

/-! ## Form finding returns -/

/-- C72. With exact operations the rounded solver is the solver of all other theorems. -/
theorem C72_exact (D : Diagram ℝ) (kmax : Option Int) (tmax : Nat) (eta : ℝ) (verbose : Bool) :
    flStaticEquilibrium Arith.exact D kmax tmax eta verbose =
      staticEquilibrium D kmax tmax eta verbose ∧ Precise (Arith.exact (R := ℝ)) 0 := by
  refine ⟨flStaticEquilibrium_exact D kmax tmax eta verbose, ⟨le_rfl, ?_, ?_, ?_, ?_, ?_⟩⟩ <;>
    intros <;> simp [Arith.exact]; exact sub_self _

/-- C72. Whatever the operations compute, form finding returns a form or raises the
documented error. -/
theorem C72_returns (A : Arith ℝ) {D : Diagram ℝ} (I : ValidInput D) {tmax : Nat} (ht : 1 ≤ tmax) (eta : ℝ) :
    (∃ F, flStaticEquilibrium A D none tmax eta false = .ok F) ∨
    (2 ≤ tmax ∧ flStaticEquilibrium A D none tmax eta false = .error .valueError) := by
  obtain ⟨L, G, _, h1, h2⟩ := fl_equilibriumState_cases (A := A) I (kmax := none) (by simp) tmax eta false
  unfold flStaticEquilibrium
  rcases Nat.lt_or_ge tmax 2 with hlt | hge
  · rw [h1 (by omega)]; exact Or.inl ⟨_, rfl⟩
  · obtain ⟨m, _, _, _, _, hr⟩ := h2 hge
    rw [hr]
    split_ifs
    · exact Or.inr ⟨hge, rfl⟩
    · exact Or.inl ⟨_, rfl⟩

/-- C72. Without indirect deviation edges rounding never keeps it from returning, also
with threshold zero. -/
theorem C72_returns_direct {A : Arith ℝ} {u : ℝ} (H : Precise A u) (hu : u ≤ 1 / 100) {D : Diagram ℝ}
    (I : ValidInput D) (hd : DirectOnly D) {tmax : Nat} (ht : 1 ≤ tmax) {eta : ℝ} (he : 0 ≤ eta) :
    ∃ F, flStaticEquilibrium A D none tmax eta false = .ok F := by
  obtain ⟨L, G, _, h1, h2⟩ := fl_equilibriumState_cases (A := A) I (kmax := none) (by simp) tmax eta false
  unfold flStaticEquilibrium
  rcases Nat.lt_or_ge tmax 2 with hlt | hge
  · rw [h1 (by omega)]; exact ⟨_, rfl⟩
  · obtain ⟨m, hm, _, _, _, hr⟩ := h2 hge
    obtain ⟨m, rfl⟩ : ∃ k, m = k + 2 := ⟨m - 2, by omega⟩
    have := fl_residual_direct H hu I hd G m
    rw [hr, if_neg]
    · exact ⟨_, rfl⟩
    · rw [show m + 2 - 1 = m + 1 by omega, this]; exact not_lt.2 he

example : ∃ F, flStaticEquilibrium (binaryArith 53) direct none 100 0 false = .ok F :=
  C72_returns_direct (C72_binary 53) double_small valid_direct directOnly_direct (by norm_num) le_rfl

example (eta : ℝ) : (∃ F, flStaticEquilibrium (binaryArith 2) indirect none 100 eta false = .ok F) ∨
    (2 ≤ 100 ∧ flStaticEquilibrium (binaryArith 2) indirect none 100 eta false = .error .valueError) :=
  C72_returns _ valid_indirect (by norm_num) eta

/-! ## Equilibrium of nodes -/

/-- C72. The imbalance of a node is the one of the convergence threshold and a rounding
error of the node itself, however long the trails are. -/
theorem C72_nodal {A : Arith ℝ} {u : ℝ} (H : Precise A u) (hu : u ≤ 1 / 100) {D : Diagram ℝ}
    (I : ValidInput D) {tmax : Nat} (ht : 2 ≤ tmax) {eta : ℝ} {verbose : Bool} {F : Diagram ℝ}
    (h : flStaticEquilibrium A D none tmax eta verbose = .ok F) :
    ∀ n ∈ F.nodes.keys, Vec.length (imbalance F n) ≤
      nodalBound F (eta / (1 - u) ^ (F.nodes.length + 4)) n + roundingBound F u n := by
  obtain ⟨ind, p, s, r, Q, rfl, S, h2⟩ := fl_returned I (by simp) h
  obtain ⟨rfl, hres⟩ := h2 ht
  have hkeys : (flFormOf A D s).nodes.keys = D.nodes.keys := formNodes_keys _ _
  intro n hn
  rw [hkeys] at hn
  have hlen : s.xyz.length = (flFormOf A D s).nodes.length := by
    have h1 : s.xyz.keys.length = (flFormOf A D s).nodes.keys.length := by rw [S.keys.1, hkeys]
    simpa [Dict.keys] using h1
  have h1 := fl_imbalance H hu I S hn
  rw [if_pos rfl] at h1
  have h2 := fl_indDiff_le I S (eta := eta / (1 - u) ^ ((flFormOf A D s).nodes.length + 4))
    (fun m hm => fl_dist_le H hu hlen hres (by rw [S.keys.1]; exact hm)) hn
  rw [← fl_nodalBound_eq I S] at h2
  have h3 := Vec.length_add_le (imbalance (flFormOf A D s) n -
      (devSum D s.pos n (indNbrs D n) - devSum D (Q n) n (indNbrs D n)))
    (devSum D s.pos n (indNbrs D n) - devSum D (Q n) n (indNbrs D n))
  rw [sub_add_cancel] at h3
  linarith

/-- C72. Without indirect deviation edges it is a rounding error of the node alone. -/
theorem C72_direct {A : Arith ℝ} {u : ℝ} (H : Precise A u) (hu : u ≤ 1 / 100) {D : Diagram ℝ}
    (I : ValidInput D) (hd : DirectOnly D) {tmax : Nat} {eta : ℝ} {verbose : Bool} {F : Diagram ℝ}
    (h : flStaticEquilibrium A D none tmax eta verbose = .ok F) :
    ∀ n ∈ F.nodes.keys, Vec.length (imbalance F n) ≤ roundingBound F u n := by
  obtain ⟨ind, p, s, r, Q, rfl, S, _⟩ := fl_returned I (by simp) h
  intro n hn
  rw [show (flFormOf A D s).nodes.keys = D.nodes.keys from formNodes_keys _ _] at hn
  have h1 := fl_imbalance H hu I S hn
  rw [indNbrs_direct hd] at h1
  simpa [devSum] using h1

example : ∃ F, flStaticEquilibrium (binaryArith 53) direct none 1 0 false = .ok F ∧
    ∀ n ∈ F.nodes.keys, Vec.length (imbalance F n) ≤ roundingBound F ((2 : ℝ) ^ 53)⁻¹ n := by
  obtain ⟨F, h⟩ := C72_returns_direct (C72_binary 53) double_small valid_direct directOnly_direct
    (le_refl 1) (le_refl (0 : ℝ))
  exact ⟨F, h, C72_direct (C72_binary 53) double_small valid_direct directOnly_direct h⟩

example : ∃ eta F, flStaticEquilibrium (binaryArith 53) indirect none 100 eta false = .ok F ∧
    ∀ n ∈ F.nodes.keys, Vec.length (imbalance F n) ≤
      nodalBound F (eta / (1 - ((2 : ℝ) ^ 53)⁻¹) ^ (F.nodes.length + 4)) n +
        roundingBound F ((2 : ℝ) ^ 53)⁻¹ n := by
  obtain ⟨eta, F, h⟩ := fl_exists_returned (A := binaryArith 53) valid_indirect 100 (by norm_num)
  exact ⟨eta, F, h, C72_nodal (C72_binary 53) double_small valid_indirect (by norm_num) h⟩

/-! ## The whole form -/

theorem fl_form_wf {A : Arith ℝ} {D : Diagram ℝ} (w : WF D) (s : EqState ℝ) : WF (flFormOf A D s) := by
  have h1 : (flFormOf A D s).nodes.keys = (formFromTopology D).nodes.keys := formNodes_keys _ _
  have h2 : (flFormOf A D s).edges.keys = (formFromTopology D).edges.keys := fl_formEdges_keys _ _
  have w := WF.form w
  refine ⟨?_, ?_, w.3, ?_, w.5, ?_, ?_, ?_⟩
  · rw [h1]; exact w.1
  · rw [h2]; exact w.2
  · rw [h1]; exact w.4
  · rw [h1]; exact w.6
  · rw [h1, h2]; exact w.7
  · rw [h1, h2]; exact w.8

/-- C72. Loads and reactions balance up to the sum of the nodal rounding errors. -/
theorem C72_total {A : Arith ℝ} {u : ℝ} (H : Precise A u) (hu : u ≤ 1 / 100) {D : Diagram ℝ}
    (I : ValidInput D) (hd : DirectOnly D) {tmax : Nat} {eta : ℝ} {verbose : Bool} {F : Diagram ℝ}
    (h : flStaticEquilibrium A D none tmax eta verbose = .ok F) :
    Vec.length (totalForce F) ≤ (F.nodes.keys.map (roundingBound F u)).sum := by
  have hn := C72_direct H hu I hd h
  obtain ⟨ind, p, s, r, Q, rfl, S, _⟩ := fl_returned I (by simp) h
  rw [← sum_imbalance_eq_total _ (fl_form_wf I.wf s)]
  refine (Vec.length_list_sum_le _).trans ?_
  rw [List.map_map]
  exact List.sum_le_sum fun n h => hn n h

example : ∃ F, flStaticEquilibrium (binaryArith 53) direct none 1 0 false = .ok F ∧
    Vec.length (totalForce F) ≤ (F.nodes.keys.map (roundingBound F ((2 : ℝ) ^ 53)⁻¹)).sum := by
  obtain ⟨F, h⟩ := C72_returns_direct (C72_binary 53) double_small valid_direct directOnly_direct
    (le_refl 1) (le_refl (0 : ℝ))
  exact ⟨F, h, C72_total (C72_binary 53) double_small valid_direct directOnly_direct h⟩

/-- C72. Their moments balance up to the moments of these errors. -/
theorem C72_moment {A : Arith ℝ} {u : ℝ} (H : Precise A u) (hu : u ≤ 1 / 100) {D : Diagram ℝ}
    (I : ValidInput D) (hd : DirectOnly D) {tmax : Nat} {eta : ℝ} {verbose : Bool} {F : Diagram ℝ}
    (h : flStaticEquilibrium A D none tmax eta verbose = .ok F) (c : Vec ℝ) :
    Vec.length (totalMoment F c) ≤
      (F.nodes.keys.map fun n => Vec.length (posOf F n - c) * roundingBound F u n).sum := by
  have hn := C72_direct H hu I hd h
  obtain ⟨ind, p, s, r, Q, rfl, S, _⟩ := fl_returned I (by simp) h
  rw [← sum_moment_eq_total _ (fl_form_wf I.wf s)]
  refine (Vec.length_list_sum_le _).trans ?_
  rw [List.map_map]
  exact List.sum_le_sum fun n h => (length_cross_le _ _).trans
    (mul_le_mul_of_nonneg_left (hn n h) (Vec.length_nonneg _))

example : ∃ F, flStaticEquilibrium (binaryArith 53) direct none 1 0 false = .ok F ∧
    Vec.length (totalMoment F ⟨1, 2, 3⟩) ≤ (F.nodes.keys.map fun n =>
      Vec.length (posOf F n - ⟨1, 2, 3⟩) * roundingBound F ((2 : ℝ) ^ 53)⁻¹ n).sum := by
  obtain ⟨F, h⟩ := C72_returns_direct (C72_binary 53) double_small valid_direct directOnly_direct
    (le_refl 1) (le_refl (0 : ℝ))
  exact ⟨F, h, C72_moment (C72_binary 53) double_small valid_direct directOnly_direct h _⟩

/-! ## The size of the bound -/

/-- C72. The bound is linear in the precision. -/
theorem C72_linear {u : ℝ} (h0 : 0 ≤ u) (F : Diagram ℝ) (n : Int)
    (hk : (edgesAt F n + 14 : ℝ) * u ≤ 1 / 2) :
    roundingBound F u n ≤ 4 * (edgesAt F n + 14) * u * (Vec.length (loadAt F n) + forcesAt F n) +
      trailSlack F u n := by
  have hforces : 0 ≤ forcesAt F n := by
    apply List.sum_nonneg
    intro x hx
    obtain ⟨p, _, rfl⟩ := List.mem_map.1 hx
    split_ifs
    · exact abs_nonneg _
    · exact le_rfl
  have hq := Vec.length_nonneg (loadAt F n)
  set k := edgesAt F n + 14 with hkd
  have hkc : ((k : ℕ) : ℝ) = edgesAt F n + 14 := by rw [hkd]; push_cast; ring
  rw [← hkc] at hk ⊢
  have hu : u ≤ 1 / 2 := by
    have : (1 : ℝ) ≤ k := by rw [hkc]; have := Nat.cast_nonneg (α := ℝ) (edgesAt F n); linarith
    nlinarith
  have b := one_add_mul_le_pow (a := -u) (by linarith) k
  have hx : (1 + u) ^ k * (1 + -u) ^ k ≤ 1 := by
    rw [← mul_pow]
    exact pow_le_one₀ (by nlinarith) (by nlinarith)
  have hpos : 0 < (1 + u) ^ k := pow_pos (by linarith) k
  have hg : (1 + u) ^ k - 1 ≤ 2 * k * u := by
    have ht : 0 ≤ k * u := mul_nonneg (Nat.cast_nonneg _) h0
    have h1 : (1 + u) ^ k * (1 - k * u) ≤ 1 := by
      refine le_trans (mul_le_mul_of_nonneg_left ?_ hpos.le) hx
      linarith
    have h2 : 1 ≤ (1 + 2 * (k * u)) * (1 - k * u) := by nlinarith
    have h3 := le_of_mul_le_mul_right (h1.trans h2) (by linarith)
    linarith
  unfold roundingBound
  rw [← hkd]
  have : 2 * ((1 + u) ^ k - 1) * (Vec.length (loadAt F n) + forcesAt F n) ≤
      2 * (2 * k * u) * (Vec.length (loadAt F n) + forcesAt F n) :=
    mul_le_mul_of_nonneg_right (by linarith) (by linarith)
  linarith

/-- A node with ten edges and double precision. -/
example : ((10 : ℕ) + 14 : ℝ) * ((2 : ℝ) ^ 53)⁻¹ ≤ 1 / 2 := by norm_num

/-! ## Rounding does matter -/

/-- Every square root is too large by the factor `1 + u`. -/
noncomputable def longArith (u : ℝ) : Arith ℝ :=
  { Arith.exact (R := ℝ) with sqrt := fun a => (1 + u) * Real.sqrt a }

theorem rounds_long {u : ℝ} (h0 : 0 ≤ u) : Precise (longArith u) u where
  nonneg := h0
  add a b := by simp only [longArith, Arith.exact, sub_self, abs_zero]; positivity
  sub a b := by simp only [longArith, Arith.exact, sub_self, abs_zero]; positivity
  mul a b := by simp only [longArith, Arith.exact, sub_self, abs_zero]; positivity
  div a b _ := by simp only [longArith, Arith.exact, sub_self, abs_zero]; positivity
  sqrt a _ := by
    have e : (1 + u) * Real.sqrt a - Real.sqrt a = u * Real.sqrt a := by ring
    simp only [longArith]
    rw [e, abs_of_nonneg (mul_nonneg h0 (Real.sqrt_nonneg a))]

open ColEx in
/-- C72. The imbalance can be as large as the precision times the load, so the exact
equilibrium of C22 does not survive rounding. -/
theorem C72_attained {u : ℝ} (h0 : 0 ≤ u) (hu : u ≤ 1 / 100) :
    ∃ (A : Arith ℝ) (D F : Diagram ℝ) (n : Int), Precise A u ∧ ValidInput D ∧ DirectOnly D ∧
      flStaticEquilibrium A D none 100 0 false = .ok F ∧ n ∈ F.nodes.keys ∧ loadAt F n ≠ 0 ∧
      Vec.length (imbalance F n) = u * Vec.length (loadAt F n) := by
  have H := rounds_long h0
  have I := valid_none
  have hQ := colQ_none
  obtain ⟨F, hF⟩ := C72_returns_direct H hu I (directOnly_col hQ) (show 1 ≤ 100 by norm_num) (le_refl (0 : ℝ))
  refine ⟨longArith u, col none, F, 0, H, I, directOnly_col hQ, hF, ?_⟩
  obtain ⟨ind, p, s, r, Q, rfl, S, _⟩ := fl_returned I (by simp) hF
  have w := I.wf
  have hk : (0 : Int) ∈ (col none).nodes.keys := by
    unfold col Diagram.real; rw [map_nodes_keys, hQ]; simp [colLit, Dict.keys]
  have htr : ((0 : Int), ([0, 1] : List Int)) ∈ (col none).trails := by
    unfold col Diagram.real; rw [map_trails, hQ]; simp [colLit]
  have hnode : (col none).nodes.get? 0 = some ⟨⟨0, 0, 0⟩, ⟨0, 0, -1⟩, ⟨0, 0, 0⟩, some 0, .origin⟩ := by
    unfold col Diagram.real
    rw [map_nodes_get?, hQ]
    simp [colLit, Dict.get?, NodeData.map, Vec.map]
  have hstart := S.start 0 (fun a _ ha => head_not_next I.wf I.trails htr a (nxtK_trail ha))
  have hres : s.res 0 = 0 := by
    rw [hstart.2]
    unfold EqState.res initState
    rw [get?_map_val (col none).nodes (fun d => d.reaction), hnode]
    rfl
  have hpos : s.pos 0 = 0 := by
    rw [hstart.1]
    unfold EqState.pos initState
    rw [get?_map_val (col none).nodes (fun d => d.pos), hnode]
    rfl
  have hnext : nxtK (col none) none 0 = some 1 := by
    rw [nxtK_none w I.trails]
    exact (trailNext_iff w I.trails).2 ⟨0, [0, 1], htr, [], [], rfl⟩
  have h01 := col_edges hQ (0, 1)
  rw [if_pos rfl] at h01
  have hdev : ∀ e d, (col none).edges.get? e = some d → d.type = .trail := by
    intro e d hd
    rw [col_edges hQ] at hd
    split_ifs at hd
    rw [← Option.some.inj hd]
    rfl
  have hdir : dirNbrs (col none) 0 = [] := by
    unfold dirNbrs
    rw [List.filter_eq_nil_iff]
    intro m hm hc
    simp only [decide_eq_true_eq] at hc
    rw [hdev _ _ (edgeKey_mem hm)] at hc
    exact absurd hc.1 (by simp)
  have hind := indNbrs_direct (directOnly_col hQ) 0
  have hload : loadOf (col none) 0 = ⟨0, 0, -1⟩ := by unfold loadOf; rw [hnode]; rfl
  have hr : r 0 = ⟨0, 0, 1⟩ := by
    rw [S.out 0 hk]
    unfold flOut
    rw [hdir, hind, hres, hload]
    simp only [flDevSum, List.foldl_nil, ite_self, flTrailVectorOut, Arith.vadd, longArith, Arith.exact]
    ext <;> simp
  have hlen : (longArith u).vlength ⟨0, 0, 1⟩ = 1 + u := by
    simp [Arith.vlength, Arith.vdot, longArith, Arith.exact]
  have hu1 : (1 + u) ≠ 0 := by linarith
  have hek : edgeKey (col none) 0 1 = (0, 1) := (edgeKey_of_mem I.simple (Dict.mem_keys_of_get? h01)).1
  have hed : edgeData (col none) 0 1 = colEdge none := by unfold edgeData; rw [hek, h01]; rfl
  obtain ⟨h1, _, h3, _⟩ := S.next 0 hk 1 hnext
  have hel : flEffectiveLength (longArith u) (colEdge none) (s.pos 0) (r 0) = -1 := rfl
  rw [hed, hel, hr, hpos] at h1
  rw [hed, hel, hr, hlen, hek] at h3
  have hp1 : s.pos 1 = ⟨0, 0, -(1 + u)⁻¹⟩ := by
    rw [h1]
    unfold Arith.vnormalize
    rw [hlen, if_neg hu1]
    ext <;> simp [Arith.vadd, Arith.vscale, longArith, Arith.exact]
  have hforce : formForce (col none) s 0 1 = -(1 + u) := by
    unfold formForce
    rw [hek, h3, Option.getD_some]
    unfold copysign
    rw [abs_of_pos (by linarith)]
    norm_num
  have hnb : (col none).neighbors 0 = [1] := by
    unfold col Diagram.real
    rw [hQ]
    rfl
  have hunit : unit (s.pos 1 - s.pos 0) = ⟨0, 0, -1⟩ := by
    have hpi : 0 < (1 + u)⁻¹ := inv_pos.2 (by linarith)
    have e : s.pos 1 - s.pos 0 = (1 + u)⁻¹ • (⟨0, 0, -1⟩ : Vec ℝ) := by
      rw [hp1, hpos]; ext <;> simp
    have e2 : unit (⟨0, 0, -1⟩ : Vec ℝ) = ⟨0, 0, -1⟩ := by
      unfold unit
      have : Vec.length (⟨0, 0, -1⟩ : Vec ℝ) = 1 := by simp [Vec.length_def, Vec.dot]
      rw [this]; simp
    rw [e, unit_smul_pos hpi, e2]
  have hL : loadAt (flFormOf (longArith u) (col none) s) 0 = ⟨0, 0, -1⟩ := by
    rw [fl_loadAt_form w S, hload]
  have hlL : Vec.length (⟨0, 0, -1⟩ : Vec ℝ) = 1 := by simp [Vec.length_def, Vec.dot]
  refine ⟨?_, ?_, ?_⟩
  · rw [show (flFormOf (longArith u) (col none) s).nodes.keys = (col none).nodes.keys from formNodes_keys _ _]
    exact hk
  · rw [hL]
    intro h
    have := congrArg Vec.z h
    simp at this
  · have himb : imbalance (flFormOf (longArith u) (col none) s) 0 = ⟨0, 0, u⟩ := by
      unfold imbalance
      rw [fl_sum_pull w I.simple S, hL, fl_reactionAt_form w S I.reaction hk, hnext, hnb]
      simp only [List.map_cons, List.map_nil, List.sum_cons, List.sum_nil]
      rw [hforce, hunit]
      ext <;> simp
    rw [himb, hL, hlL]
    simp [Vec.length_def, Vec.dot, Real.sqrt_mul_self h0]

end Props
end CEM
