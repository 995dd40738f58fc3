import Verif.Lemmas.RoundedNumpyStaged
import Verif.Props.RoundedRate
import Verif.Props.NumpyStaged

/-!
# Property C77: the numpy solver with rounding
-/

set_option linter.unusedSectionVars false
set_option linter.unusedSimpArgs false

namespace CEM
namespace Props
open Diagram Spec EqEx Filter Topology

/-! ## The arithmetics -/

theorem summed_sum : ∀ l : List ℝ, Summed Arith.exact l l.sum
  | [] => .nil
  | [x] => by simpa using Summed.one (A := Arith.exact) x
  | x :: y :: l => by
    have := Summed.add (by simp) (by simp) (.one x) (summed_sum (y :: l))
    simpa [Arith.exact] using this

/-- C77. Exact arithmetic is one of them, and gives the solver of C33. -/
theorem C77_exact (D : Diagram ℝ) (tmax : Nat) (eta : ℝ) (verbose : Bool) :
    flStaticEquilibriumNumpy Arith.exact List.sum D tmax eta verbose = staticEquilibriumNumpy D tmax eta verbose ∧
    Precise Arith.exact 0 ∧ ZeroAdds Arith.exact ∧ Totals Arith.exact List.sum :=
  ⟨flStaticEquilibriumNumpy_exact D tmax eta verbose, (C72_exact D none tmax eta verbose).2,
    fun x => zero_add x, summed_sum⟩

example : flStaticEquilibriumNumpy Arith.exact List.sum direct 100 0 false =
    staticEquilibriumNumpy direct 100 0 false := (C77_exact direct 100 0 false).1

/-- Numbers added one after the other. -/
def sumLeft (A : Arith ℝ) : List ℝ → ℝ
  | [] => 0
  | x :: l => l.foldl A.add x

theorem summed_left (A : Arith ℝ) : Totals A (sumLeft A) := by
  have h : ∀ (l : List ℝ) (x : ℝ) (k : List ℝ), k ≠ [] → Summed A k x → Summed A (k ++ l) (l.foldl A.add x) := by
    intro l
    induction l with
    | nil => intro x k _ h; simpa using h
    | cons y l ih =>
      intro x k hk h
      have := ih (A.add x y) (k ++ [y]) (by simp) (.add hk (by simp) h (.one y))
      simpa using this
  intro l
  cases l with
  | nil => exact .nil
  | cons x l => exact h l x [x] (by simp) (.one x)

theorem keepZero_precise {A : Arith ℝ} {u : ℝ} (H : Precise A u) : Precise (keepZero A) u where
  nonneg := H.nonneg
  add a b := by
    unfold keepZero
    simp only
    split_ifs with h
    · subst h
      have := H.nonneg
      simp only [zero_add, sub_self, abs_zero]
      positivity
    · exact H.add a b
  sub := H.sub
  mul := H.mul
  div := H.div
  sqrt := H.sqrt

/-- C77. Rounding to `p` binary digits, where adding to zero is exact as it is for numbers of `p` digits,
with sums from the left, is another. -/
theorem C77_binary (p : ℕ) : Precise (keepZero (binaryArith p)) ((2 : ℝ) ^ p)⁻¹ ∧
    ZeroAdds (keepZero (binaryArith p)) ∧
    Totals (keepZero (binaryArith p)) (sumLeft (keepZero (binaryArith p))) :=
  ⟨keepZero_precise (C72_binary p), fun x => by unfold keepZero; simp, summed_left _⟩

/-- Numbers that have `p` digits are not changed. -/
example : (keepZero (binaryArith 53)).add 0 3 = 3 := (C77_binary 53).2.1 3

example : (keepZero (binaryArith 53)).add 1 (1 / 3) = binaryRound 53 (1 + 1 / 3) := by
  unfold keepZero binaryArith; simp

/-! ## Iterates -/

/-- C77. After every sweep, each coordinate vector and each reaction of the numpy solver is NaN or exactly the
one of the plain solver with the same arithmetic.  A state without NaN has all its numbers, whatever
happened in the sweeps before. -/
theorem C77_iterates {A : Arith ℝ} {u : ℝ} (H : Precise A u) (hu : u ≤ 1 / 100) (hz : ZeroAdds A)
    {D : Diagram ℝ} (I : ValidInput D) :
    ∃ (T : Dict Int (Dict Int Int)) (tab : NTables ℝ) (N : Int) (st : Nat → EqState ℝ)
      (nst : Nat → NState ℝ), D.trailsSequences = .ok T ∧ npTables D = .ok tab ∧
      D.numberOfSequences = .ok N ∧
      (∀ m, flPlainSweeps A D T N m = .ok (st m)) ∧ (∀ m, flNumpySweeps A D tab T N m = .ok (nst m)) ∧
      ∀ m, (∀ n, (nst m).xyz.get? n = some none ∨ (nst m).xyz.get? n = ((st m).xyz.get? n).map some) ∧
        (∀ n, (nst m).reactions.get? n = some none ∨
          (nst m).reactions.get? n = ((st m).reactions.get? n).map some) ∧
        (NoNaN (nst m) → SameNumbers (st m) (nst m)) := by
  obtain ⟨T, N, hT, hN, hg, hlt⟩ := goodSeqs_of_valid I.wf I.trails I.nonempty
  obtain ⟨tab, htab, G⟩ := npTables_ok I.wf fun n hn =>
    let ⟨k, h, _⟩ := allSequenced_of_valid I.trails n hn; ⟨k, h⟩
  have S := goodSched I.wf I.trails hg none hlt
  have get : ∀ {s : Dict Int (NVec ℝ)} {t : Dict Int (Vec ℝ)}, BelowD s t → ∀ n,
      s.get? n = some none ∨ s.get? n = (t.get? n).map some := by
    intro s t h n
    rcases h.get? n with ⟨h1, h2⟩ | ⟨a, b, h1, h2, h3 | h3⟩
    · right; rw [h1, h2]; rfl
    · left; rw [h1, h3]
    · right; rw [h1, h2, h3]; rfl
  refine ⟨T, tab, N, flIter A D none (sched D T N), flNIter A D (sched D T N), hT, htab, hN,
    fun m => flPlainSweeps_eq I hg N m, fun m => flNumpySweeps_eq I hg G N m, fun m => ?_⟩
  have B := NBelow.iter H hu hz S m
  refine ⟨get B.xyz, get B.reactions, fun hn => ?_⟩
  rw [flNIter_eq H hu hz I S hn]
  exact sameNumbers_lift _

example := C77_iterates (C77_binary 53).1 double_small (C77_binary 53).2.1 valid_indirect

/-! ## What is returned -/

/-- C77. With two iterations or more the numpy solver returns, or raises a `ValueError`. -/
theorem C77_returns (A : Arith ℝ) (total : List ℝ → ℝ) {D : Diagram ℝ} (I : ValidInput D) {tmax : Nat}
    (ht : 1 ≤ tmax) (eta : ℝ) :
    (∃ F, flStaticEquilibriumNumpy A total D tmax eta false = .ok F) ∨
    (2 ≤ tmax ∧ flStaticEquilibriumNumpy A total D tmax eta false = .error .valueError) := by
  obtain ⟨T, N, hT, hN, hg, hlt⟩ := goodSeqs_of_valid I.wf I.trails I.nonempty
  obtain ⟨_, h1, h2⟩ := flNpEquilibriumState_cases (A := A) (total := total) I hT hN hg tmax eta false
  unfold flStaticEquilibriumNumpy
  rcases Nat.lt_or_ge tmax 2 with hlt | hge
  · rw [h1 (by omega)]; exact Or.inl ⟨_, rfl⟩
  · obtain ⟨m, _, _, _, _, hr⟩ := h2 hge
    rw [hr]
    split_ifs
    · exact Or.inr ⟨hge, rfl⟩
    · exact Or.inl ⟨_, rfl⟩

example (eta : ℝ) := C77_returns (keepZero (binaryArith 2)) (sumLeft (keepZero (binaryArith 2))) valid_indirect
  (tmax := 100) (by norm_num) eta

/-- C77. What is returned has a node whose position or reaction is NaN, or is without any NaN: then it is the form
that the plain solver has after some sweep. -/
theorem C77_nan {A : Arith ℝ} {u : ℝ} (H : Precise A u) (hu : u ≤ 1 / 100) (hz : ZeroAdds A) (total : List ℝ → ℝ)
    {D : Diagram ℝ} (I : ValidInput D) {tmax : Nat} {eta : ℝ} {verbose : Bool} {F : Diagram (Num ℝ)}
    (h : flStaticEquilibriumNumpy A total D tmax eta verbose = .ok F) :
    HasNaN F ∨ ∃ T N m s, D.trailsSequences = .ok T ∧ D.numberOfSequences = .ok N ∧ 1 ≤ m ∧ m ≤ tmax ∧
      flPlainSweeps A D T N m = .ok s ∧ F = (flFormUpdate A (formFromTopology D) s).num := by
  obtain ⟨T, N, hT, hN, hg, hlt⟩ := goodSeqs_of_valid I.wf I.trails I.nonempty
  have G := goodSched I.wf I.trails hg none hlt
  obtain ⟨h0, h1, h2⟩ := flNpEquilibriumState_cases (A := A) (total := total) I hT hN hg tmax eta verbose
  have key : ∃ m, 1 ≤ m ∧ m ≤ tmax ∧
      F = flNpFormUpdate A (formFromTopology D).num (flNIter A D (sched D T N) m) := by
    unfold flStaticEquilibriumNumpy at h
    rcases Nat.lt_or_ge tmax 2 with hlt | hge
    · rcases Nat.eq_zero_or_pos tmax with hz | hz
      · rw [h0 hz] at h; simp at h
      · rw [h1 (by omega)] at h
        split_ifs at h
        simp only [Except.ok.injEq] at h
        exact ⟨1, le_rfl, hz, h.symm⟩
    · obtain ⟨m, hm2, hmle, _, _, hr⟩ := h2 hge
      rw [hr] at h
      split_ifs at h
      simp only [Except.ok.injEq] at h
      exact ⟨m, by omega, hmle, h.symm⟩
  obtain ⟨m, hm1, hmt, rfl⟩ := key
  by_cases hn : NoNaN (flNIter A D (sched D T N) m)
  · right
    refine ⟨T, N, m, _, hT, hN, hm1, hmt, flPlainSweeps_eq I hg N m, ?_⟩
    rw [flNIter_eq H hu hz I G hn]
    exact flNpForm_lift I _ m
  · left
    have B := NBelow.iter H hu hz G m
    have hk := B.reactions.keys
    exact flForm_nan (by rw [B.xyz.keys]; exact (fl_goodState_iter I.wf I.trails none _ m).1) I.wf.nodesNodup
      (by rw [hk]; exact B.reactNodup) (by rw [hk]; exact fl_reaction_keys G m) hn

example : ∃ F, flStaticEquilibriumNumpy (keepZero (binaryArith 53)) (sumLeft (keepZero (binaryArith 53))) indirect
    1 0 false = .ok F ∧ (HasNaN F ∨ ∃ T N m s, indirect.trailsSequences = .ok T ∧
      indirect.numberOfSequences = .ok N ∧ 1 ≤ m ∧ m ≤ 1 ∧
      flPlainSweeps (keepZero (binaryArith 53)) indirect T N m = .ok s ∧
      F = (flFormUpdate (keepZero (binaryArith 53)) (formFromTopology indirect) s).num) := by
  obtain ⟨F, h⟩ | ⟨h, _⟩ := C77_returns (keepZero (binaryArith 53)) (sumLeft (keepZero (binaryArith 53)))
    valid_indirect (le_refl 1) 0
  · exact ⟨F, h, C77_nan (C77_binary 53).1 double_small (C77_binary 53).2.1 _ valid_indirect h⟩
  · omega

/-- C77. A form without NaN is in equilibrium as that of the plain solver, or some position was NaN one sweep
before the last: then the change of the positions is NaN, and no comparison with the threshold fails. -/
theorem C77_nodal {A : Arith ℝ} {u : ℝ} (H : Precise A u) (hu : u ≤ 1 / 100) (hz : ZeroAdds A)
    {total : List ℝ → ℝ} (htot : Totals A total) {D : Diagram ℝ} (I : ValidInput D) {tmax : Nat} (ht : 2 ≤ tmax)
    {eta : ℝ} {verbose : Bool} {F : Diagram ℝ}
    (h : flStaticEquilibriumNumpy A total D tmax eta verbose = .ok F.num) :
    (∀ n ∈ F.nodes.keys, Vec.length (imbalance F n) ≤
      nodalBound F (eta / (1 - u) ^ (3 * F.nodes.length + 4)) n + roundingBound F u n) ∨
    ∃ T tab N s n, D.trailsSequences = .ok T ∧ npTables D = .ok tab ∧ D.numberOfSequences = .ok N ∧
      flNumpySweeps A D tab T N (tmax - 1) = .ok s ∧ s.xyz.get? n = some none := by
  obtain ⟨T, N, hT, hN, hg, hlt⟩ := goodSeqs_of_valid I.wf I.trails I.nonempty
  obtain ⟨tab, htab, GT⟩ := npTables_ok I.wf fun n hn =>
    let ⟨k, h, _⟩ := allSequenced_of_valid I.trails n hn; ⟨k, h⟩
  have G := goodSched I.wf I.trails hg none hlt
  obtain ⟨m, hm2, hmt, _, ⟨_, hnan⟩ | ⟨_, hF, hd | ⟨rfl, n, hn⟩⟩⟩ := flNp_cases H hu hz htot I hT hN hg hlt ht h
  · exact absurd hnan (not_hasNaN_num F)
  · left
    obtain rfl := num_inj hF
    obtain ⟨k, rfl⟩ : ∃ k, m = k + 2 := ⟨m - 2, by omega⟩
    obtain ⟨r, Q, S⟩ := fl_finalSpec (A := A) I.wf I.trails G (k + 1)
    have htrue : decide (k + 1 ≠ 0) = true := by simp
    rw [htrue] at S
    set s := flIter A D none (sched D T N) (k + 2)
    have hkeys : (flFormOf A D s).nodes.keys = D.nodes.keys := formNodes_keys _ _
    have hlen : (flFormOf A D s).nodes.length = D.nodes.length := by
      have h1 : (flFormOf A D s).nodes.keys.length = D.nodes.keys.length := by rw [hkeys]
      simpa [Dict.keys] using h1
    intro n hn
    rw [hkeys] at hn
    rw [hlen]
    have h1 := fl_imbalance H hu I S hn
    rw [if_pos rfl] at h1
    have h2 := fl_indDiff_le I S (eta := eta / (1 - u) ^ (3 * D.nodes.length + 4)) hd hn
    rw [← fl_nodalBound_eq I S] at h2
    have h3 := Vec.length_add_le (imbalance (flFormOf A D s) n -
        (devSum D s.pos n (indNbrs D n) - devSum D (Q n) n (indNbrs D n)))
      (devSum D s.pos n (indNbrs D n) - devSum D (Q n) n (indNbrs D n))
    rw [sub_add_cancel] at h3
    linarith
  · exact Or.inr ⟨T, tab, N, _, n, hT, htab, hN, flNumpySweeps_eq I hg GT N _, hn⟩

/-! ## Without feedback -/

theorem copysign_eq_zero {a l : ℝ} : copysign a l = 0 ↔ a = 0 := by
  unfold copysign
  split_ifs <;> simp

/-- A form is nondegenerate if there was no division by zero. -/
theorem nondegenerate_iff {A : Arith ℝ} {u : ℝ} (H : Precise A u) (hu : u ≤ 1 / 100) {D : Diagram ℝ}
    (I : ValidInput D) {ind : Bool} {p s : EqState ℝ} {r : Int → Vec ℝ} {Q : Int → Int → Vec ℝ}
    (S : FlFinalSpec A D none ind p s r Q) : Nondegenerate (flFormOf A D s) ↔ NoDivision D s.pos s.res := by
  have w := I.wf
  have V := I.trails
  have hnx : ∀ a, nxtK D none a = trailNext D a := nxtK_none w V
  have hedge := fl_formOf_edge S
  constructor
  · intro hn
    constructor
    · intro n b hb hty
      have hd := edgeKey_mem hb
      have hF := hedge (edgeKey D n b)
      rw [hd, Option.map_some] at hF
      have := hn.deviation (edgeKey D n b).1 (edgeKey D n b).2 _ hF
        (by rw [(fl_signedLength_force _ _ _).2.1]; exact hty)
      rw [fl_posOf_form w S, fl_posOf_form w S] at this
      rcases edgeKey_ends D n b with e | e <;> rw [e] at this
      · exact this.symm
      · exact this
    · intro a m ham hp
      obtain ⟨e1, e2⟩ := edgeData_trail w V I.simple ham
      have hF := hedge (edgeKey D a m)
      rw [e1, Option.map_some] at hF
      have := hn.plane _ _ hF (by rw [(fl_signedLength_force _ _ _).2.1]; exact e2)
        (by rw [(fl_signedLength_force _ _ _).2.2]; exact hp)
      have hak := (Follows.mem V ((trailNext_iff w V).1 ham)).1
      obtain ⟨_, h2, h3, _⟩ := S.next a hak m (by rw [hnx]; exact ham)
      rw [(fl_signedLength_force _ _ _).1, h3, Option.getD_some, ne_eq, copysign_eq_zero,
        vlength_eq_zero H hu] at this
      rw [h2]
      exact this
  · intro C
    constructor
    · intro a b d hF hty
      rw [hedge] at hF
      cases hd : D.edges.get? (a, b) with
      | none => rw [hd] at hF; simp at hF
      | some d0 =>
        rw [hd, Option.map_some] at hF
        rw [← Option.some.inj hF, (fl_signedLength_force _ _ _).2.1] at hty
        rw [fl_posOf_form w S, fl_posOf_form w S]
        obtain ⟨hb, he⟩ := (edgeBetween_iff I.simple).1 (Or.inl hd : EdgeBetween D a b d0)
        exact (C.apart a b hb (by rw [he]; exact hty)).symm
    · intro e d hF hty hp
      rw [hedge] at hF
      cases hd : D.edges.get? e with
      | none => rw [hd] at hF; simp at hF
      | some d0 =>
        rw [hd, Option.map_some] at hF
        rw [← Option.some.inj hF, (fl_signedLength_force _ _ _).2.1] at hty
        rw [← Option.some.inj hF, (fl_signedLength_force _ _ _).2.2] at hp
        obtain ⟨a, m, ham, rfl⟩ := trail_ends I hd hty
        have hak := (Follows.mem V ((trailNext_iff w V).1 ham)).1
        obtain ⟨_, h2, h3, _⟩ := S.next a hak m (by rw [hnx]; exact ham)
        obtain ⟨e1, _⟩ := edgeData_trail w V I.simple ham
        rw [hd] at e1
        rw [← Option.some.inj hF, (fl_signedLength_force _ _ _).1, h3, Option.getD_some, ne_eq, copysign_eq_zero,
          vlength_eq_zero H hu, ← h2]
        exact C.plane a m ham (by rw [← Option.some.inj e1]; exact hp)

/-- The state of either solver in which form finding ends. -/
theorem flNp_end {A : Arith ℝ} {u : ℝ} (H : Precise A u) (hu : u ≤ 1 / 100) (hz : ZeroAdds A)
    (total : List ℝ → ℝ) {D : Diagram ℝ} (I : ValidInput D) {T : Dict Int (Dict Int Int)}
    {N : Int} (hTs : D.trailsSequences = .ok T) (hN : D.numberOfSequences = .ok N) (hT : GoodSeqs D T)
    (hlt : ∀ n ∈ D.nodes.keys, ∀ k, seqOf D n = some k → k < N) {tmax : Nat} (ht : 2 ≤ tmax) (eta : ℝ)
    (verbose : Bool) :
    ∃ m, 2 ≤ m ∧ m ≤ tmax ∧
      (flStaticEquilibriumNumpy A total D tmax eta verbose = .error .valueError ∧ m = tmax ∨
        flStaticEquilibriumNumpy A total D tmax eta verbose =
          .ok (flNpFormUpdate A (formFromTopology D).num (flNIter A D (sched D T N) m))) ∧
      ((∃ n, (flNIter A D (sched D T N) (m - 1)).xyz.get? n = some none ∨
          (flNIter A D (sched D T N) m).xyz.get? n = some none) →
        m = tmax ∧ flStaticEquilibriumNumpy A total D tmax eta verbose ≠ .error .valueError) ∧
      ((∀ n, (flNIter A D (sched D T N) (m - 1)).xyz.get? n ≠ some none ∧
          (flNIter A D (sched D T N) m).xyz.get? n ≠ some none) →
        ∃ d, flNpDistance A total (mapVal some (flIter A D none (sched D T N) (m - 1)).xyz)
          (mapVal some (flIter A D none (sched D T N) m).xyz) = some d ∧
          (m < tmax → d < eta) ∧
          (flStaticEquilibriumNumpy A total D tmax eta verbose = .error .valueError ↔ eta < d)) := by
  have G := goodSched I.wf I.trails hT none hlt
  obtain ⟨m, hm2, hmt, _, hl, he⟩ :=
    (flNpEquilibriumState_cases (A := A) (total := total) I hTs hN hT tmax eta verbose).2.2 ht
  have B := NBelow.iter H hu hz G
  have gk : ∀ j, (flIter A D none (sched D T N) j).xyz.keys = D.nodes.keys :=
    fun j => (fl_goodState_iter I.wf I.trails none _ j).1
  have heq : flStaticEquilibriumNumpy A total D tmax eta verbose =
      if (flNDist A total D (sched D T N) m).gt eta = true then .error .valueError
      else .ok (flNpFormUpdate A (formFromTopology D).num (flNIter A D (sched D T N) m)) := by
    unfold flStaticEquilibriumNumpy
    rw [he]
    split_ifs <;> rfl
  refine ⟨m, hm2, hmt, ?_, ?_, ?_⟩
  · rw [heq]
    split_ifs with h
    · left
      refine ⟨rfl, ?_⟩
      rcases hl with hl | hl
      · exfalso
        cases hd : flNDist A total D (sched D T N) m with
        | none => rw [hd] at hl; simp [Num.lt] at hl
        | some d =>
          rw [hd] at hl h
          simp only [Num.lt, Num.gt, decide_eq_true_eq] at hl h
          linarith
      · exact hl
    · exact Or.inr rfl
  · rintro ⟨n, hn⟩
    have hnk : n ∈ (flNIter A D (sched D T N) m).xyz.keys := by
      rcases hn with hn | hn
      · rw [(B m).xyz.keys, gk, ← gk (m - 1), ← (B (m - 1)).xyz.keys]
        exact Dict.mem_keys_of_get? hn
      · exact Dict.mem_keys_of_get? hn
    have hd : flNDist A total D (sched D T N) m = none := by
      unfold flNDist flNpDistance
      rw [flNpSquares_nan hnk hn.symm]
      rfl
    rw [hd] at hl heq
    refine ⟨?_, by rw [heq]; simp [Num.gt]⟩
    rcases hl with hl | hl
    · simp [Num.lt] at hl
    · exact hl
  · intro hn
    have e1 : ∀ j, (∀ n, (flNIter A D (sched D T N) j).xyz.get? n ≠ some none) →
        (flNIter A D (sched D T N) j).xyz = mapVal some (flIter A D none (sched D T N) j).xyz :=
      fun j h => (B j).xyz.eq_lift (by rw [gk]; exact I.wf.nodesNodup) h
    have hdef : flNDist A total D (sched D T N) m =
        flNpDistance A total (mapVal some (flIter A D none (sched D T N) (m - 1)).xyz)
          (mapVal some (flIter A D none (sched D T N) m).xyz) := by
      unfold flNDist; rw [e1 _ fun n => (hn n).1, e1 _ fun n => (hn n).2]
    obtain ⟨d, hd⟩ : ∃ d, flNDist A total D (sched D T N) m = some d := by
      rw [hdef]
      unfold flNpDistance
      rw [flNpSquares_lift _ _ fun q hq => by
        rw [gk, ← gk m]; exact Dict.mem_keys_of_mem hq]
      exact ⟨_, rfl⟩
    refine ⟨d, by rw [← hdef, hd], fun hlt => ?_, ?_⟩
    · rcases hl with hl | hl
      · rw [hd] at hl
        simpa [Num.lt] using hl
      · omega
    · rw [heq, hd]
      by_cases hg : eta < d
      · simp [Num.gt, hg]
      · simp [Num.gt, hg]

theorem nodes_ne_nil {D : Diagram ℝ} (I : ValidInput D) : ∃ n, n ∈ D.nodes.keys := by
  obtain ⟨⟨key, tr⟩, h⟩ := List.exists_mem_of_ne_nil _ I.nonempty
  obtain ⟨rest, rfl⟩ := I.trails.head key tr h
  exact ⟨key, I.trails.mem_keys h List.mem_cons_self⟩

/-- The distance of equal positions is zero. -/
theorem flNpDistance_same {A : Arith ℝ} {u : ℝ} (H : Precise A u) {total : List ℝ → ℝ}
    (htot : Totals A total) {last new : Dict Int (Vec ℝ)} (hk : ∀ p ∈ new, p.1 ∈ last.keys)
    (h : ∀ p ∈ new, (last.get? p.1).getD 0 = p.2) :
    flNpDistance A total (mapVal some last) (mapVal some new) = some 0 := by
  have hsub : ∀ x, A.sub x x = 0 := fun x => by
    have := H.sub x x
    rw [sub_self, sub_zero, abs_zero, mul_zero] at this
    exact abs_eq_zero.1 (le_antisymm this (abs_nonneg _))
  have hmul : A.mul 0 0 = 0 := by
    have := H.mul 0 0
    rw [mul_zero, sub_zero, abs_zero, mul_zero] at this
    exact abs_eq_zero.1 (le_antisymm this (abs_nonneg _))
  have hadd : A.add 0 0 = 0 := by
    have := H.add 0 0
    rw [add_zero, sub_zero, abs_zero, mul_zero] at this
    exact abs_eq_zero.1 (le_antisymm this (abs_nonneg _))
  have hsqrt : A.sqrt 0 = 0 := by
    have := H.sqrt 0 le_rfl
    rw [Real.sqrt_zero, sub_zero, mul_zero] at this
    exact abs_eq_zero.1 (le_antisymm this (abs_nonneg _))
  have hall : ∀ x ∈ changeSquares A last new, x = 0 := by
    intro x hx
    unfold changeSquares at hx
    obtain ⟨p, hp, hx⟩ := List.mem_flatMap.1 hx
    simp only [h p hp, Arith.vsub, hsub, hmul, List.mem_cons, List.not_mem_nil, or_false, or_self] at hx
    exact hx
  have hsum : ∀ {l : List ℝ} {a : ℝ}, Summed A l a → (∀ x ∈ l, x = 0) → a = 0 := by
    intro l a hs
    induction hs with
    | nil => intro _; rfl
    | one x => intro h; exact h x (by simp)
    | add _ _ _ _ i1 i2 =>
      intro h
      rw [i1 fun x hx => h x (List.mem_append_left _ hx), i2 fun x hx => h x (List.mem_append_right _ hx), hadd]
  unfold flNpDistance
  rw [flNpSquares_lift _ _ hk, Option.map_some, hsum (htot _) hall, hsqrt]

/-- C77. If the nodes have stages up to `N` and there are `N + 2` iterations or more, the numpy solver returns.
With threshold zero its form is that of the plain solver with the same arithmetic if this is nondegenerate, and
has NaN otherwise. -/
theorem C77_staged {A : Arith ℝ} {u : ℝ} (H : Precise A u) (hu : u ≤ 1 / 100) (hz : ZeroAdds A)
    {total : List ℝ → ℝ} (htot : Totals A total) {D : Diagram ℝ} (I : ValidInput D) {stage : Int → Nat}
    (St : Staged D stage) {N : Nat} (hN : ∀ n ∈ D.nodes.keys, stage n ≤ N) {tmax : Nat} (ht : N + 2 ≤ tmax)
    (verbose : Bool) :
    (∀ eta : ℝ, 0 ≤ eta → ∃ G, flStaticEquilibriumNumpy A total D tmax eta verbose = .ok G) ∧
    ∃ F G, flStaticEquilibrium A D none tmax 0 verbose = .ok F ∧
      flStaticEquilibriumNumpy A total D tmax 0 verbose = .ok G ∧
      (Nondegenerate F → G = F.num) ∧ (¬ Nondegenerate F → HasNaN G) := by
  have w := I.wf
  have V := I.trails
  obtain ⟨T, M, hT, hM, hg, hlt⟩ := goodSeqs_of_valid w V I.nonempty
  have Gs := goodSched w V hg none hlt
  have B := NBelow.iter H hu hz Gs
  have gk : ∀ j, (flIter A D none (sched D T M) j).xyz.keys = D.nodes.keys :=
    fun j => (fl_goodState_iter w V none _ j).1
  have X := fl_rounds_iter (A := A) I Gs
  have fixed : ∀ j, N + 2 ≤ j → ∀ p ∈ (flIter A D none (sched D T M) j).xyz,
      (((flIter A D none (sched D T M) (j - 1)).xyz.get? p.1).getD 0) = p.2 := by
    rintro j hj ⟨n, v⟩ hv
    obtain ⟨k, rfl⟩ : ∃ k, j = k + 2 := ⟨j - 2, by omega⟩
    have hget := Dict.get?_of_mem (by rw [gk]; exact w.nodesNodup) hv
    have hn : n ∈ D.nodes.keys := by rw [← gk (k + 2)]; exact Dict.mem_keys_of_mem hv
    have h := hN n hn
    have := (FlRounds.agree I St X X n hn k (k + 1) (by omega) (by omega)).1
    have hp : (flIter A D none (sched D T M) (k + 2)).pos n = v := by unfold EqState.pos; rw [hget]; rfl
    simp only [hp] at this
    exact this
  have ret : ∀ eta : ℝ, 0 ≤ eta → ∃ m, 2 ≤ m ∧ m ≤ tmax ∧
      flStaticEquilibriumNumpy A total D tmax eta verbose =
        .ok (flNpFormUpdate A (formFromTopology D).num (flNIter A D (sched D T M) m)) ∧ (eta = 0 → m = tmax) := by
    intro eta he
    obtain ⟨m, hm2, hmt, hor, hnan, hnum⟩ := flNp_end H hu hz total I hT hM hg hlt (by omega : 2 ≤ tmax) eta verbose
    by_cases hc : ∃ n, (flNIter A D (sched D T M) (m - 1)).xyz.get? n = some none ∨
        (flNIter A D (sched D T M) m).xyz.get? n = some none
    · obtain ⟨h1, h2⟩ := hnan hc
      exact ⟨m, hm2, hmt, hor.resolve_left fun h => h2 h.1, fun _ => h1⟩
    · push Not at hc
      obtain ⟨d, hd, hdlt, hiff⟩ := hnum hc
      have zero : m = tmax → d = 0 := by
        rintro rfl
        rw [flNpDistance_same H htot (fun q hq => by rw [gk, ← gk m]; exact Dict.mem_keys_of_mem hq)
          (fixed m ht)] at hd
        exact (Option.some.inj hd).symm
      have nonneg : 0 ≤ d := by
        by_contra hneg
        push Not at hneg
        obtain ⟨n, hn⟩ := nodes_ne_nil I
        have h1 := flNp_dist_le H hu htot rfl (by rw [gk, gk]) hd le_rfl (by rw [gk]; exact hn)
        have h2 := dist_nonneg ((flIter A D none (sched D T M) (m - 1)).pos n)
          ((flIter A D none (sched D T M) m).pos n)
        have h3 : 0 < (1 - u) ^ (3 * (flIter A D none (sched D T M) m).xyz.length + 4) :=
          pow_pos (by linarith) _
        have := div_neg_of_neg_of_pos hneg h3
        linarith
      refine ⟨m, hm2, hmt, hor.resolve_left fun h => ?_, ?_⟩
      · have := hiff.1 h.1
        rw [zero h.2] at this
        linarith
      · intro h0
        by_contra hne
        have := hdlt (by omega)
        linarith
  refine ⟨fun eta he => ?_, ?_⟩
  · obtain ⟨m, _, _, h, _⟩ := ret eta he
    exact ⟨_, h⟩
  obtain ⟨m, hm2, _, hG, hm⟩ := ret 0 le_rfl
  obtain rfl := hm rfl
  obtain ⟨m', hm2', hmt', _, hor, hr⟩ :=
    (fl_equilibriumState_sched (A := A) I (kmax := none) (by simp) hT hM hg m 0 verbose).2.2 hm2
  have hmm : m' = m := by
    rcases hor with h | h
    · exfalso
      obtain ⟨n, hn⟩ := nodes_ne_nil I
      obtain ⟨e, he1, he2⟩ := exists_between h
      have h1 := fl_dist_le H hu rfl he1.le (n := n) (by rw [gk]; exact hn)
      have h2 := dist_nonneg ((flIter A D none (sched D T M) (m' - 1)).pos n)
        ((flIter A D none (sched D T M) m').pos n)
      have h3 : 0 < (1 - u) ^ ((flIter A D none (sched D T M) m').xyz.length + 4) := pow_pos (by linarith) _
      have := div_neg_of_neg_of_pos he2 h3
      linarith
    · exact h
  subst hmm
  have hF : flStaticEquilibrium A D none m' 0 verbose = .ok (flFormOf A D (flIter A D none (sched D T M) m')) := by
    unfold flStaticEquilibrium
    rw [hr, fl_residual_same H hu (fixed m' ht), if_neg (lt_irrefl _)]
  obtain ⟨k, rfl⟩ : ∃ k, m' = k + 1 := ⟨m' - 1, by omega⟩
  have hiff := (nondegenerate_iff H hu I (fl_finalSpec_sched (A := A) w V Gs k)).trans
    (flN_noNaN_iff H hu hz I St hN Gs (i := k) (by omega)).symm
  refine ⟨_, _, hF, hG, fun hn => ?_, fun hn => ?_⟩
  · rw [flNIter_eq H hu hz I Gs (hiff.1 hn)]
    exact flNpForm_lift I _ _
  · have hk := (B (k + 1)).reactions.keys
    exact flForm_nan (by rw [(B (k + 1)).xyz.keys, gk]) w.nodesNodup (by rw [hk]; exact (B (k + 1)).reactNodup)
      (by rw [hk]; exact fl_reaction_keys Gs (k + 1)) fun h => hn (hiff.2 h)

/-- C77. The same without feedback, with one iteration more than there are nodes. -/
theorem C77_acyclic {A : Arith ℝ} {u : ℝ} (H : Precise A u) (hu : u ≤ 1 / 100) (hz : ZeroAdds A)
    {total : List ℝ → ℝ} (htot : Totals A total) {D : Diagram ℝ} (I : ValidInput D) (hA : Acyclic D) {tmax : Nat}
    (ht : D.nodes.length < tmax) (verbose : Bool) :
    (∀ eta : ℝ, 0 ≤ eta → ∃ G, flStaticEquilibriumNumpy A total D tmax eta verbose = .ok G) ∧
    ∃ F G, flStaticEquilibrium A D none tmax 0 verbose = .ok F ∧
      flStaticEquilibriumNumpy A total D tmax 0 verbose = .ok G ∧
      (Nondegenerate F → G = F.num) ∧ (¬ Nondegenerate F → HasNaN G) := by
  obtain ⟨St, hb⟩ := staged_of_acyclic I hA
  have := nodes_pos I
  exact C77_staged H hu hz htot I St (N := D.nodes.length - 1) (fun n hn => by have := hb n hn; omega) (by omega)
    verbose

example := C77_acyclic (C77_binary 53).1 double_small (C77_binary 53).2.1 (C77_binary 53).2.2 StageEx.valid_bent
  StageEx.acyclic_bent (tmax := 6)
  (by unfold StageEx.bent Diagram.real Diagram.map; simp only [List.length_map]; decide +kernel) false

/-- The nodal equilibrium of the form that is found with 53 binary digits. -/
example : ∃ G, flStaticEquilibriumNumpy (keepZero (binaryArith 53)) (sumLeft (keepZero (binaryArith 53)))
    StageEx.bent 6 0 false = .ok G ∧ ∀ F, G = F.num →
      (∀ n ∈ F.nodes.keys, Vec.length (imbalance F n) ≤
        nodalBound F (0 / (1 - ((2 : ℝ) ^ 53)⁻¹) ^ (3 * F.nodes.length + 4)) n + roundingBound F ((2 : ℝ) ^ 53)⁻¹ n) ∨
      ∃ T tab N s n, StageEx.bent.trailsSequences = .ok T ∧ npTables StageEx.bent = .ok tab ∧
        StageEx.bent.numberOfSequences = .ok N ∧
        flNumpySweeps (keepZero (binaryArith 53)) StageEx.bent tab T N 5 = .ok s ∧ s.xyz.get? n = some none := by
  obtain ⟨_, G, _, hG, _⟩ := (C77_acyclic (C77_binary 53).1 double_small (C77_binary 53).2.1 (C77_binary 53).2.2
    StageEx.valid_bent StageEx.acyclic_bent (tmax := 6)
    (by unfold StageEx.bent Diagram.real Diagram.map; simp only [List.length_map]; decide +kernel) false).2
  refine ⟨G, hG, fun F hF => ?_⟩
  exact C77_nodal (C77_binary 53).1 double_small (C77_binary 53).2.1 (C77_binary 53).2.2 StageEx.valid_bent
    (by norm_num : 2 ≤ 6) (by rw [hG, hF])

/-! ## The error of the forms -/

theorem settled_of_final {A : Arith ℝ} {D : Diagram ℝ} (I : ValidInput D) {p s : EqState ℝ} {r : Int → Vec ℝ}
    {Q : Int → Int → Vec ℝ} (S : FlFinalSpec A D none true p s r Q) {delta : ℝ}
    (hd : ∀ m ∈ D.nodes.keys, Vec.dist (p.pos m) (s.pos m) ≤ delta) : FlSettled A D delta s.pos s.res r Q := by
  have w := I.wf
  have hnx : ∀ a, nxtK D none a = trailNext D a := nxtK_none w I.trails
  refine ⟨fun n hn => S.seen n hn n le_rfl, fun n hn m hm => ?_, S.out, fun n hn m hm => ?_, fun m hm hx => ?_⟩
  · rcases S.seen_any n hn m with e | e
    · rw [e]; exact hd m hm
    · rw [e]
      refine le_trans (le_of_eq ?_) ((dist_nonneg _ _).trans (hd m hm))
      unfold Vec.dist; rw [sub_self, Vec.length_zero]
  · obtain ⟨h1, h2, _⟩ := S.next n hn m (by rw [hnx]; exact hm)
    exact ⟨h1, h2⟩
  · obtain ⟨h1, h2⟩ := S.start m fun a _ => by rw [hnx]; exact hx a
    exact ⟨by rw [h1, start_position], by rw [h2, start_zero I hm]⟩

/-- What the numpy solver returns is, where nothing coincides, a form that one more round nearly reproduces. -/
theorem flNp_settled {A : Arith ℝ} {u : ℝ} (H : Precise A u) (hu : u ≤ 1 / 100) (hz : ZeroAdds A)
    {total : List ℝ → ℝ} (htot : Totals A total) {D : Diagram ℝ} (I : ValidInput D) {stage : Int → Nat}
    (St : Staged D stage) {N : Nat} (hN : ∀ n ∈ D.nodes.keys, stage n ≤ N) {tmax : Nat} (ht : N + 2 ≤ tmax)
    {eta : ℝ} (he : 0 ≤ eta) (verbose : Bool) :
    ∃ G s r Q, flStaticEquilibriumNumpy A total D tmax eta verbose = .ok G ∧
      (∃ p, FlFinalSpec A D none true p s r Q) ∧
      FlSettled A D (eta / (1 - u) ^ (3 * D.nodes.length + 4)) s.pos s.res r Q ∧
      ((∀ n ∈ D.nodes.keys, ∀ b ∈ D.neighbors n, (edgeData D n b).type = .deviation → Q n b ≠ Q n n) →
        Nondegenerate (flFormOf A D s) → G = (flFormOf A D s).num) := by
  have w := I.wf
  have V := I.trails
  obtain ⟨T, M, hT, hM, hg, hlt⟩ := goodSeqs_of_valid w V I.nonempty
  have Gs := goodSched w V hg none hlt
  have B := NBelow.iter H hu hz Gs
  have gk : ∀ j, (flIter A D none (sched D T M) j).xyz.keys = D.nodes.keys :=
    fun j => (fl_goodState_iter w V none _ j).1
  have X := fl_rounds_iter (A := A) I Gs
  have hbound : 0 ≤ eta / (1 - u) ^ (3 * D.nodes.length + 4) :=
    div_nonneg he (pow_nonneg (by linarith) _)
  obtain ⟨⟨G, hG⟩⟩ : Nonempty {G // flStaticEquilibriumNumpy A total D tmax eta verbose = .ok G} := by
    obtain ⟨G, h⟩ := (C77_staged H hu hz htot I St hN ht verbose).1 eta he
    exact ⟨⟨G, h⟩⟩
  obtain ⟨m, hm2, hmt, hor, hnan, hnum⟩ := flNp_end H hu hz total I hT hM hg hlt (by omega : 2 ≤ tmax) eta verbose
  rw [hG] at hor hnan hnum
  have hGe : G = flNpFormUpdate A (formFromTopology D).num (flNIter A D (sched D T M) m) := by
    rcases hor with ⟨h, _⟩ | h
    · cases h
    · exact Except.ok.inj h
  obtain ⟨k, rfl⟩ : ∃ k, m = k + 2 := ⟨m - 2, by omega⟩
  have S := fl_finalSpec_sched (A := A) w V Gs (k + 1)
  have htrue : decide (k + 1 ≠ 0) = true := by simp
  have S' := S
  rw [htrue] at S'
  have fin : NoNaN (flNIter A D (sched D T M) (k + 2)) →
      G = (flFormOf A D (flIter A D none (sched D T M) (k + 2))).num := by
    intro h
    rw [hGe, flNIter_eq H hu hz I Gs h]
    exact flNpForm_lift I _ _
  refine ⟨G, _, _, _, hG, ⟨_, S'⟩, settled_of_final I S' ?_, ?_⟩
  · by_cases hc : ∃ n, (flNIter A D (sched D T M) (k + 1)).xyz.get? n = some none ∨
        (flNIter A D (sched D T M) (k + 2)).xyz.get? n = some none
    · obtain ⟨rfl, _⟩ := hnan hc
      intro n hn
      have h := hN n hn
      have := (FlRounds.agree I St X X n hn k (k + 1) (by omega) (by omega)).1
      refine le_trans (le_of_eq ?_) hbound
      unfold Vec.dist
      rw [this, sub_self, Vec.length_zero]
    · push Not at hc
      obtain ⟨d, hd, _, hiff⟩ := hnum hc
      have hle : d ≤ eta := by
        by_contra hgt
        have := hiff.2 (not_le.1 hgt)
        cases this
      have hlen : (flIter A D none (sched D T M) (k + 2)).xyz.length = D.nodes.length := by
        have h1 : (flIter A D none (sched D T M) (k + 2)).xyz.keys.length = D.nodes.keys.length := by rw [gk]
        simpa [Dict.keys] using h1
      intro n hn
      exact flNp_dist_le H hu htot hlen (by rw [gk, gk]) hd hle (by rw [gk]; exact hn)
  · intro ha hn
    apply fin
    by_cases hc : ∃ n, (flNIter A D (sched D T M) (k + 1)).xyz.get? n = some none ∨
        (flNIter A D (sched D T M) (k + 2)).xyz.get? n = some none
    · obtain ⟨rfl, _⟩ := hnan hc
      exact (flN_noNaN_iff H hu hz I St hN Gs (i := k + 1) (by omega)).2 ((nondegenerate_iff H hu I S').1 hn)
    · push Not at hc
      refine flN_noNaN_of H hu hz I Gs ((flN_pos_ne (A := A) (L := sched D T M) I _).1 fun n => (hc n).1)
        ((flN_pos_ne (A := A) (L := sched D T M) I _).1 fun n => (hc n).2) fun n hn b hb hty => ?_
      rw [htrue]
      exact ha n hn b hb hty

/-- Ends of deviation edges remain apart. -/
theorem apart_near {D G : Diagram ℝ} (I : ValidInput D) (hX : Distinct D G) :
    ∃ g : ℝ, 0 < g ∧ ∀ (F : Diagram ℝ) (eps delta : ℝ), WithinForm D F G eps → 2 * eps + delta < g →
      ∀ n b, b ∈ D.neighbors n → (edgeData D n b).type = .deviation →
        delta < Vec.dist (posOf F b) (posOf F n) := by
  classical
  have comm : ∀ a b : Vec ℝ, Vec.dist a b = Vec.dist b a := by
    intro a b; unfold Vec.dist; rw [← neg_sub, Vec.length_neg]
  obtain ⟨g, hg, h⟩ := below_all
    (D.edges.keys.filter fun e => decide (∃ d, D.edges.get? e = some d ∧ d.type = .deviation))
    (fun e => Vec.dist (posOf G e.1) (posOf G e.2)) (by
      intro e he
      obtain ⟨d, hd, ht⟩ := of_decide_eq_true (List.mem_filter.1 he).2
      exact Vec.length_pos (sub_ne_zero.2 (hX.apart e d hd ht)))
  refine ⟨g, hg, fun F eps delta W hs n b hb hty => ?_⟩
  obtain ⟨hbk, hnk⟩ := mem_keys_of_nbr I.wf hb
  have hd := edgeKey_mem hb
  have h1 : g ≤ Vec.dist (posOf G n) (posOf G b) := by
    have := h (edgeKey D n b) (List.mem_filter.2 ⟨Dict.mem_keys_of_get? hd, decide_eq_true ⟨_, hd, hty⟩⟩)
    rcases edgeKey_ends D n b with e | e <;> simp only [e] at this
    · exact this
    · rw [comm]; exact this
  have k1 := W.positions n hnk
  have k2 := W.positions b hbk
  have h2 := Vec.length_sub_le (posOf F b - posOf F n) ((posOf F b - posOf G b) - (posOf F n - posOf G n))
  have h3 := Vec.length_sub_le (posOf F b - posOf G b) (posOf F n - posOf G n)
  have e : posOf F b - posOf F n - ((posOf F b - posOf G b) - (posOf F n - posOf G n)) = posOf G b - posOf G n := by
    ext <;> simp <;> ring
  rw [e] at h2
  rw [comm] at h1
  unfold Vec.dist at *
  linarith

/-- C77. Without feedback, if no plane, direction or force of the exact form is on a border, the numpy solver
returns with small errors and thresholds a form without NaN, and there is one factor such that all these forms
differ from the exact one by at most the factor times `u + eta`. -/
theorem C77_rate {D : Diagram ℝ} (I : ValidInput D) (hl : NonzeroTrails D) (hA : Acyclic D)
    {t : Nat} (h2 : 2 ≤ t) {v : Bool} {G : Diagram ℝ} (hG : staticEquilibrium D none t 0 v = .ok G)
    (hf : TrailsCarry G) (hX : Distinct D G) :
    ∃ C delta : ℝ, 0 < delta ∧ ∀ (A : Arith ℝ) (u : ℝ) (total : List ℝ → ℝ), Precise A u → ZeroAdds A →
      Totals A total → u ≤ delta → ∀ eta : ℝ, 0 ≤ eta → eta ≤ delta → ∀ (tmax : Nat) (verbose : Bool),
      D.nodes.length < tmax → ∃ F, flStaticEquilibriumNumpy A total D tmax eta verbose = .ok F.num ∧
        WithinForm D F G (C * (u + eta)) := by
  obtain ⟨St, hb⟩ := staged_of_acyclic I hA
  have hpos := nodes_pos I
  have hN : ∀ n ∈ D.nodes.keys, (needed D n).card ≤ D.nodes.length - 1 := fun n hn => by have := hb n hn; omega
  by_contra hno
  push Not at hno
  choose A u total hA1 hz htot hu eta he0 he tmax verbose ht hbad using
    fun j : ℕ => hno j (1 / ((j : ℝ) + 1)) (by positivity)
  have lim : Tendsto (fun j : ℕ => 1 / ((j : ℝ) + 1)) atTop (𝓝 0) := tendsto_one_div_add_atTop_nhds_zero_nat
  have hu0 : Tendsto u atTop (𝓝 0) := squeeze_zero (fun j => (hA1 j).nonneg) hu lim
  have he1 : Tendsto eta atTop (𝓝 0) := squeeze_zero he0 he lim
  have R : Refines A u := ⟨hA1, hu0⟩
  have H : RefinesBy A u fun j => u j + eta j :=
    ⟨R, fun j => by linarith [he0 j], by simpa using hu0.add he1⟩
  have hw0 : Tendsto (fun j => u j + eta j) atTop (𝓝 0) := by simpa using hu0.add he1
  have hp : Tendsto (fun j => ((1 - u j) ^ (3 * D.nodes.length + 4))⁻¹) atTop (𝓝 1) := by
    have := ((hu0.const_sub 1).pow (3 * D.nodes.length + 4)).inv₀ (by simp)
    simpa using this
  have hrun : ∀ᶠ j in atTop, ∃ q : (EqState ℝ × (Int → Vec ℝ)) × (Int → Int → Vec ℝ) × Diagram (Num ℝ),
      flStaticEquilibriumNumpy (A j) (total j) D (tmax j) (eta j) (verbose j) = .ok q.2.2 ∧
      (∃ p, FlFinalSpec (A j) D none true p q.1.1 q.1.2 q.2.1) ∧
      FlSettled (A j) D (eta j / (1 - u j) ^ (3 * D.nodes.length + 4)) q.1.1.pos q.1.1.res q.1.2 q.2.1 ∧
      ((∀ n ∈ D.nodes.keys, ∀ b ∈ D.neighbors n, (edgeData D n b).type = .deviation → q.2.1 n b ≠ q.2.1 n n) →
        Nondegenerate (flFormOf (A j) D q.1.1) → q.2.2 = (flFormOf (A j) D q.1.1).num) := by
    refine R.eventually_le.mono fun j hj => ?_
    obtain ⟨g, s, r, Q, h⟩ := flNp_settled (hA1 j) hj (hz j) (htot j) I St hN
      (by have := ht j; omega : D.nodes.length - 1 + 2 ≤ tmax j) (he0 j) (verbose j)
    exact ⟨((s, r), Q, g), h⟩
  obtain ⟨q, hq⟩ := hrun.choice
  obtain ⟨C, hC⟩ := rate_form H I hl hA (B := 2)
    (delta := fun j => eta j / (1 - u j) ^ (3 * D.nodes.length + 4))
    (F := fun j => flFormOf (A j) D (q j).1.1) (by
      filter_upwards [hp.eventually_lt_const (show (1 : ℝ) < 2 by norm_num)] with j hj
      rw [div_eq_mul_inv]
      have := mul_le_mul_of_nonneg_left hj.le (he0 j)
      linarith [(hA1 j).nonneg])
    (hq.mono fun j hj => ⟨(q j).1, rfl, ⟨true, hj.2.1.choose, _, hj.2.1.choose_spec⟩, ⟨_, hj.2.2.1⟩⟩)
    (settled_zero I h2 le_rfl hG) hf hX
  obtain ⟨g, hg, hap⟩ := apart_near I hX
  obtain ⟨mm, hmm, hpr⟩ := proper_near I hl (settled_zero I h2 le_rfl hG) hf hX
  have hCw : Tendsto (fun j => C * (u j + eta j)) atTop (𝓝 0) := by simpa using hw0.const_mul C
  have hdel : Tendsto (fun j => eta j / (1 - u j) ^ (3 * D.nodes.length + 4)) atTop (𝓝 0) := by
    simpa [div_eq_mul_inv] using he1.mul hp
  have hsum : Tendsto (fun j => 2 * (C * (u j + eta j)) + eta j / (1 - u j) ^ (3 * D.nodes.length + 4)) atTop
      (𝓝 0) := by simpa using (hCw.const_mul 2).add hdel
  obtain ⟨j, ⟨⟨⟨⟨⟨h3, h4⟩, h5⟩, h6⟩, h7⟩, h8⟩, h9⟩ := ((((((hC.and (eventually_ge_atTop ⌈C⌉₊)).and hq).and
    R.eventually_le).and (hsum.eventually_lt_const hg)).and (hCw.eventually_lt_const hmm)).and
    (hp.eventually_lt_const (show (1 : ℝ) < 2 by norm_num))).exists
  obtain ⟨hrun, ⟨p, S⟩, hS, hgood⟩ := h5
  have hdl : 0 ≤ eta j / (1 - u j) ^ (3 * D.nodes.length + 4) :=
    div_nonneg (he0 j) (pow_nonneg (by linarith) _)
  have far := hap _ _ _ h3 h7
  have hP : ∀ n, posOf (flFormOf (A j) D (q j).1.1) n = (q j).1.1.pos n := fl_posOf_form I.wf S
  have hform : (q j).2.2 = (flFormOf (A j) D (q j).1.1).num := by
    refine hgood (fun n hn b hb hty heq => ?_) ?_
    · have h1 := far n b hb hty
      have h2 := hS.near n hn b (mem_keys_of_nbr I.wf hb).1
      rw [heq, hS.self n hn] at h2
      rw [hP, hP] at h1
      unfold Vec.dist at h1 h2
      rw [← neg_sub, Vec.length_neg] at h2
      linarith
    · have pr := hpr _ (fl_keepsData I S) _ h8 h3
      refine ⟨fun a b d hd hty => ?_, fun e d hd hty _ => (pr e d hd hty).1⟩
      have hF := fl_formOf_edge S (a, b)
      rw [hd] at hF
      cases hd0 : D.edges.get? (a, b) with
      | none => rw [hd0] at hF; simp at hF
      | some d0 =>
        rw [hd0, Option.map_some] at hF
        rw [Option.some.inj hF, (fl_signedLength_force _ _ _).2.1] at hty
        obtain ⟨hbn, he⟩ := (edgeBetween_iff I.simple).1 (Or.inl hd0 : EdgeBetween D a b d0)
        intro heq
        have := far a b hbn (by rw [he]; exact hty)
        rw [heq] at this
        unfold Vec.dist at this
        rw [sub_self, Vec.length_zero] at this
        linarith
  exact hbad j _ (by rw [hrun, hform]) (withinForm_mono h3
    (mul_le_mul_of_nonneg_right ((Nat.le_ceil C).trans (by exact_mod_cast h4)) (H.nonneg j)))

/-- C77. Each binary digit that is added halves the bound of the error. -/
theorem C77_digits {D : Diagram ℝ} (I : ValidInput D) (hl : NonzeroTrails D) (hA : Acyclic D)
    {t : Nat} (h2 : 2 ≤ t) {v : Bool} {G : Diagram ℝ} (hG : staticEquilibrium D none t 0 v = .ok G)
    (hf : TrailsCarry G) (hX : Distinct D G) {tmax : Nat} (ht : D.nodes.length < tmax) :
    ∃ (C : ℝ) (p0 : ℕ), ∀ p, p0 ≤ p → ∀ verbose, ∃ F,
      flStaticEquilibriumNumpy (keepZero (binaryArith p)) (sumLeft (keepZero (binaryArith p))) D tmax 0 verbose =
        .ok F.num ∧ WithinForm D F G (C / 2 ^ p) := by
  obtain ⟨C, delta, hd, h⟩ := C77_rate I hl hA h2 hG hf hX
  obtain ⟨p0, hp0⟩ := eventually_atTop.1 (binary_refines.eventually_lt_const hd)
  refine ⟨C, p0, fun p hp verbose => ?_⟩
  obtain ⟨H, hz, htot⟩ := C77_binary p
  obtain ⟨F, hF, W⟩ := h _ _ _ H hz htot (hp0 p hp).le 0 le_rfl hd.le tmax verbose ht
  rw [add_zero, ← div_eq_mul_inv] at W
  exact ⟨F, hF, W⟩

open TieEx in
/-- Two trails with an indirect deviation edge between them. -/
example : ∃ G, staticEquilibrium (tie 3 3 4) none 5 0 false = .ok G ∧ ∃ (C : ℝ) (p0 : ℕ), ∀ p, p0 ≤ p →
    ∀ verbose, ∃ F, flStaticEquilibriumNumpy (keepZero (binaryArith p)) (sumLeft (keepZero (binaryArith p)))
      (tie 3 3 4) 100 0 verbose = .ok F.num ∧ WithinForm (tie 3 3 4) F G (C / 2 ^ p) := by
  obtain ⟨G, hG, hc, hX⟩ := tie_found
  exact ⟨G (3, 4), hG (3, 4), C77_digits (valid_tie 3 4 (Or.inr rfl)) (nonzero_tie 3 4) (acyclic_tie 3 4)
    (by norm_num) (hG (3, 4)) hc hX (by change 4 < 100; norm_num)⟩

end Props
end CEM
