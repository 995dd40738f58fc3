import Verif.Lemmas.RoundedNodal
import Verif.Lemmas.Unique

/-!
# The form returned by the solver with rounded arithmetic
-/

set_option linter.unusedSectionVars false
set_option linter.unusedSimpArgs false

namespace CEM
open Diagram Spec

section
variable {R : Type} [Field R] [LinearOrder R] [PySqrt R] {A : Arith R}

/-- A returned form comes from the last of some iterates. -/
theorem fl_returned {D : Diagram R} (I : ValidInput D) {kmax : Option Int}
    (hk : ∀ k, kmax = some k → 0 ≤ k) {tmax : Nat} {eta : R} {verbose : Bool} {F : Diagram R}
    (h : flStaticEquilibrium A D kmax tmax eta verbose = .ok F) :
    ∃ ind p s r Q, F = flFormOf A D s ∧ FlFinalSpec A D kmax ind p s r Q ∧
      (2 ≤ tmax → ind = true ∧ flResidualDistance A p.xyz s.xyz ≤ eta) := by
  obtain ⟨L, G, h0, h1, h2⟩ := fl_equilibriumState_cases (A := A) I hk tmax eta verbose
  unfold flStaticEquilibrium at h
  rcases Nat.lt_or_ge tmax 2 with hlt | hge
  · rcases Nat.eq_zero_or_pos tmax with hz | hz
    · rw [h0 hz] at h; simp at h
    · have ht : tmax = 1 := by omega
      rw [h1 ht] at h
      cases verbose with
      | true => simp at h
      | false =>
        simp only [Bool.false_eq_true, if_false, Except.ok.injEq] at h
        obtain ⟨r, Q, S⟩ := fl_finalSpec (A := A) I.wf I.trails G 0
        exact ⟨_, _, _, r, Q, h.symm, S, by omega⟩
  · obtain ⟨m, hm2, hmle, _, _, hres⟩ := h2 hge
    rw [hres] at h
    split_ifs at h with hc
    · simp only [Except.ok.injEq] at h
      obtain ⟨m, rfl⟩ : ∃ k, m = k + 2 := ⟨m - 2, by omega⟩
      obtain ⟨r, Q, S⟩ := fl_finalSpec (A := A) I.wf I.trails G (m + 1)
      exact ⟨_, _, _, r, Q, h.symm, S, fun _ => ⟨by simp, not_lt.1 hc⟩⟩

/-- Without indirect edges the positions only depend on the diagram. -/
theorem fl_iter_direct {D : Diagram R} (I : ValidInput D) (hd : DirectOnly D) {kmax : Option Int}
    {L : List Int} (G : GoodSched D kmax L) (m m' : Nat) {n : Int} (hn : n ∈ D.nodes.keys) :
    (flIter A D kmax L (m + 1)).pos n = (flIter A D kmax L (m' + 1)).pos n := by
  obtain ⟨r, Q, S⟩ := fl_finalSpec (A := A) I.wf I.trails G m
  obtain ⟨r', Q', S'⟩ := fl_finalSpec (A := A) I.wf I.trails G m'
  have w := I.wf
  have V := I.trails
  set s := flIter A D kmax L (m + 1)
  set s' := flIter A D kmax L (m' + 1)
  have hr : ∀ a ∈ D.nodes.keys, s.pos a = s'.pos a → s.res a = s'.res a →
      (∀ b ∈ dirNbrs D a, s.pos b = s'.pos b) → r a = r' a := by
    intro a ha h1 h2 h3
    rw [S.out a ha, S'.out a ha]
    unfold flOut
    rw [indNbrs_direct hd, h2]
    have e : ∀ l : List Int, (∀ b ∈ l, Q a b = Q' a b) → ∀ acc : Vec R,
        flDevSum A D (Q a) a l acc = flDevSum A D (Q' a) a l acc := by
      intro l
      induction l with
      | nil => intro _ acc; rfl
      | cons b l ih =>
        intro hl acc
        unfold flDevSum at ih ⊢
        rw [List.foldl_cons, List.foldl_cons, hl b List.mem_cons_self,
          S.seen a ha a le_rfl, S'.seen a ha a le_rfl, h1]
        have := ih (fun c hc => hl c (List.mem_cons_of_mem _ hc))
          (A.vadd acc (A.vscale (edgeData D a b).force (A.vnormalize (A.vsub (Q' a b) (s'.pos a)))))
        rwa [S.seen a ha a le_rfl, S'.seen a ha a le_rfl, h1] at this
    rw [e _ fun b hb => ?_]
    · simp [flDevSum]
    · have hs : seqOf D a = seqOf D b := by
        have := (List.mem_filter.1 hb).2; simp only [decide_eq_true_eq] at this; exact this.2
      rw [S.seen a ha b (by simp [rankOf, hs]), S'.seen a ha b (by simp [rankOf, hs]), h3 b hb]
  have hstart : ∀ a, (∀ b ∈ D.nodes.keys, nxtK D kmax b ≠ some a) →
      s.pos a = s'.pos a ∧ s.res a = s'.res a := by
    intro a ha
    obtain ⟨h1, h2⟩ := S.start a ha
    obtain ⟨h3, h4⟩ := S'.start a ha
    exact ⟨h1.trans h3.symm, h2.trans h4.symm⟩
  have main : ∀ (k : Nat) (n : Int), n ∈ D.nodes.keys → seqOf D n = some (k : Int) →
      s.pos n = s'.pos n ∧ s.res n = s'.res n := by
    intro k
    induction k with
    | zero =>
      intro n hn hk
      apply hstart n
      intro a _ ha
      obtain ⟨key, tr, ht, hc⟩ := (trailNext_iff w V).1 (nxtK_trail ha)
      obtain ⟨j, hj, _, e⟩ := seqOf_next V ht hc
      rw [hk] at e
      have := Option.some.inj e
      simp at this
      omega
    | succ k ih =>
      intro n hn hk
      by_cases hex : ∃ a ∈ D.nodes.keys, CEM.nxtK D kmax a = some n
      · obtain ⟨a, ha, han⟩ := hex
        obtain ⟨key, tr, ht, hc⟩ := (trailNext_iff w V).1 (nxtK_trail han)
        obtain ⟨j, hj, e1, e2⟩ := seqOf_next V ht hc
        rw [hk] at e2
        have hjk : j = k := by have := Option.some.inj e2; push_cast at this; omega
        subst hjk
        obtain ⟨p1, p2⟩ := ih a ha e1
        have hra := hr a ha p1 p2 (by
          intro b hb
          obtain ⟨h1, h2⟩ := List.mem_filter.1 hb
          simp only [decide_eq_true_eq] at h2
          exact (ih b (mem_keys_of_nbr w h1).1 (by rw [← h2.2]; exact e1)).1)
        obtain ⟨q1, q2, _⟩ := S.next a ha n han
        obtain ⟨q3, q4, _⟩ := S'.next a ha n han
        exact ⟨by rw [q1, q3, p1, hra], by rw [q2, q4, hra]⟩
      · push Not at hex
        exact hstart n hex
  obtain ⟨k, hk, h0⟩ := allSequenced_of_valid V n hn
  obtain ⟨i, rfl⟩ := Int.eq_ofNat_of_zero_le h0
  exact (main i n hn hk).1

end

variable {A : Arith ℝ} {u : ℝ}

theorem vdist_self (H : Precise A u) (hu : u ≤ 1 / 100) (a : Vec ℝ) : A.vdist a a = 0 := by
  have h : ∀ x, A.sub x x = 0 := by
    intro x
    have := H.sub x x
    rw [sub_self, sub_zero, abs_zero, mul_zero] at this
    exact abs_eq_zero.1 (le_antisymm this (abs_nonneg _))
  unfold Arith.vdist Arith.vsub
  rw [h, h, h]
  exact vlength_zero H hu

theorem fl_residual_same (H : Precise A u) (hu : u ≤ 1 / 100) {last new : Dict Int (Vec ℝ)}
    (h : ∀ p ∈ new, (last.get? p.1).getD 0 = p.2) : flResidualDistance A last new = 0 := by
  have h0 : A.add 0 0 = 0 := by
    have := H.add 0 0
    rw [add_zero, sub_zero, abs_zero, mul_zero] at this
    exact abs_eq_zero.1 (le_antisymm this (abs_nonneg _))
  unfold flResidualDistance
  induction new with
  | nil => rfl
  | cons q l ih =>
    rw [List.foldl_cons, h q List.mem_cons_self, vdist_self H hu, h0]
    exact ih fun p hp => h p (List.mem_cons_of_mem _ hp)

theorem fl_residual_direct (H : Precise A u) (hu : u ≤ 1 / 100) {D : Diagram ℝ} (I : ValidInput D)
    (hd : DirectOnly D) {kmax : Option Int} {L : List Int} (G : GoodSched D kmax L) (m : Nat) :
    flResidualDistance A (flIter A D kmax L (m + 1)).xyz (flIter A D kmax L (m + 2)).xyz = 0 := by
  apply fl_residual_same H hu
  rintro ⟨n, v⟩ hm
  have g2 := fl_goodState_iter (A := A) I.wf I.trails kmax L (m + 2)
  have hk : n ∈ (flIter A D kmax L (m + 2)).xyz.keys := List.mem_map.2 ⟨_, hm, rfl⟩
  have hget := Dict.get?_of_mem (by rw [g2.1]; exact I.wf.nodesNodup) hm
  have := fl_iter_direct (A := A) I hd G m (m + 1) (by rw [← g2.1]; exact hk)
  have hp : (flIter A D kmax L (m + 2)).pos n = v := by unfold EqState.pos; rw [hget]; rfl
  rw [hp] at this
  exact this

/-- The threshold that a computed sum of distances of at most `eta` guarantees. -/
theorem fl_dist_le (H : Precise A u) (hu : u ≤ 1 / 100) {p s : EqState ℝ} {eta : ℝ} {N : ℕ}
    (hN : s.xyz.length = N) (he : flResidualDistance A p.xyz s.xyz ≤ eta) {n : Int}
    (hn : n ∈ s.xyz.keys) : Vec.dist (p.pos n) (s.pos n) ≤ eta / (1 - u) ^ (N + 4) := by
  obtain ⟨v, hv⟩ := (Dict.exists_get?_iff _ _).2 hn
  have hm := Dict.mem_of_get? hv
  have := (flResidual_ge H hu p.xyz s.xyz 0 le_rfl).2 _ hm
  have hp : 0 < (1 - u) ^ (N + 4) := pow_pos (by linarith) _
  rw [le_div_iff₀ hp, mul_comm, ← hN]
  have e : s.pos n = v := by unfold EqState.pos; rw [hv]; rfl
  rw [e]
  exact this.trans he

theorem fl_indDiff_le {D : Diagram ℝ} (I : ValidInput D) {kmax : Option Int}
    {p s : EqState ℝ} {r : Int → Vec ℝ} {Q : Int → Int → Vec ℝ}
    (S : FlFinalSpec A D kmax true p s r Q) {eta : ℝ}
    (he : ∀ n ∈ D.nodes.keys, Vec.dist (p.pos n) (s.pos n) ≤ eta)
    {n : Int} (hn : n ∈ D.nodes.keys) :
    Vec.length (devSum D s.pos n (indNbrs D n) - devSum D (Q n) n (indNbrs D n)) ≤
      ((indNbrs D n).map fun m => |(edgeData D n m).force| *
        slack eta (Vec.length (s.pos m - s.pos n))).sum := by
  have h0 : 0 ≤ eta := (dist_nonneg _ _).trans (he n hn)
  have hd : devSum D s.pos n (indNbrs D n) - devSum D (Q n) n (indNbrs D n) =
      ((indNbrs D n).map fun m => devTerm D s.pos n m - devTerm D (Q n) n m).sum := by
    unfold devSum
    generalize indNbrs D n = l
    induction l with
    | nil => simp
    | cons a l ih => simp only [List.map_cons, List.sum_cons, ← ih]; abel
  rw [hd]
  refine (Vec.length_list_sum_le _).trans ?_
  rw [List.map_map]
  apply List.sum_le_sum
  intro m hm
  have hnb := (List.mem_filter.1 hm).1
  have hmk := (mem_keys_of_nbr I.wf hnb).1
  simp only [Function.comp, devTerm_real]
  rw [← smul_sub, Vec.length_smul]
  apply mul_le_mul_of_nonneg_left _ (abs_nonneg _)
  rw [S.seen n hn n le_rfl, Vec.length_sub_comm]
  apply unit_slack
  have e : Q n m - s.pos n - (s.pos m - s.pos n) = Q n m - s.pos m := by abel
  rw [e]
  rcases S.seen_any n hn m with h | h
  · rw [h]; exact he m hmk
  · rw [h, sub_self, Vec.length_zero]; exact h0

/-- Form finding returns when the threshold is large enough. -/
theorem fl_exists_returned {D : Diagram ℝ} (I : ValidInput D) (tmax : Nat) (h : 2 ≤ tmax) :
    ∃ eta F, flStaticEquilibrium A D none tmax eta false = .ok F := by
  obtain ⟨T, N, hT, hN, hg, _⟩ := goodSeqs_of_valid I.wf I.trails I.nonempty
  set d := flResidualDistance A (flIter A D none (sched D T N) 1).xyz (flIter A D none (sched D T N) 2).xyz
    with hd
  refine ⟨d + 1, ?_⟩
  obtain ⟨m, hm2, _, hbef, _, hr⟩ :=
    (fl_equilibriumState_sched (A := A) I (kmax := none) (by simp) hT hN hg tmax (d + 1) false).2.2 h
  have hm : m = 2 := by
    by_contra hne
    exact hbef 2 le_rfl (by omega) (lt_add_one d)
  subst hm
  unfold flStaticEquilibrium
  rw [hr, if_neg (not_lt.2 (lt_add_one d).le)]
  exact ⟨_, rfl⟩

/-! ## Rounding to binary digits -/

theorem binaryRound_error (p : ℕ) (x : ℝ) : |binaryRound p x - x| ≤ ((2 : ℝ) ^ p)⁻¹ * |x| := by
  by_cases hx : x = 0
  · subst hx; simp [binaryRound]
  · set s := (2 : ℝ) ^ (Int.log 2 |x| + 1 - p) with hs
    have hs0 : 0 < s := zpow_pos (by norm_num) _
    have e : binaryRound p x - x = (round (x / s) - x / s) * s := by
      unfold binaryRound; rw [← hs, sub_mul, div_mul_cancel₀ _ hs0.ne']
    have h1 : |(round (x / s) : ℝ) - x / s| ≤ 1 / 2 := by
      rw [abs_sub_comm]; exact abs_sub_round _
    have h2 : (2 : ℝ) ^ Int.log 2 |x| ≤ |x| := by
      have := Int.zpow_log_le_self (b := 2) (by norm_num) (abs_pos.2 hx)
      exact_mod_cast this
    have h3 : s = 2 * ((2 : ℝ) ^ p)⁻¹ * (2 : ℝ) ^ Int.log 2 |x| := by
      rw [hs, zpow_sub₀ (by norm_num), zpow_add₀ (by norm_num), zpow_one, zpow_natCast, div_eq_mul_inv]
      ring
    rw [e, abs_mul, abs_of_pos hs0]
    have hp : 0 < ((2 : ℝ) ^ p)⁻¹ := by positivity
    calc |(round (x / s) : ℝ) - x / s| * s ≤ 1 / 2 * s := mul_le_mul_of_nonneg_right h1 hs0.le
      _ = ((2 : ℝ) ^ p)⁻¹ * (2 : ℝ) ^ Int.log 2 |x| := by rw [h3]; ring
      _ ≤ _ := mul_le_mul_of_nonneg_left h2 hp.le

end CEM
