import Verif.Lemmas.Numpy
import Verif.Props.Returned
import Verif.Spec.Numpy

/-!
# Property C33: the plain and the numpy solver
-/

set_option linter.unusedSectionVars false
set_option linter.unusedSimpArgs false

namespace CEM
namespace Props
open Diagram Spec TrailEx EqEx

local instance npSqrt : PySqrt ℚ := ⟨id⟩

theorem numpySweeps_eq {D : Diagram ℝ} (I : ValidInput D) {T : Dict Int (Dict Int Int)}
    (hT : GoodSeqs D T) {tab : NTables ℝ} (G : GoodTab D tab) (N : Int) (m : Nat) :
    numpySweeps D tab T N m = .ok (nIter D (sched D T N) m) := by
  induction m with
  | zero => rfl
  | succ m ih =>
    rw [numpySweeps, ih]
    exact npSweep_eq I.wf I.trails I.simple hT G _ N (goodNState_iter I.wf I.trails _ m)

theorem not_noNaN {nxt : Int → Option Int} {s : NState ℝ} {n : Int} (h : NaNAt nxt s n) :
    ¬ NoNaN s := by
  rintro ⟨h1, h2⟩
  rcases h with ⟨_, h⟩ | ⟨m, _, h⟩
  · exact h2 n h
  · exact h1 m h

theorem noNaN_lift (s : EqState ℝ) : NoNaN (liftS s) := by
  constructor
  · intro n h
    unfold liftS at h
    simp only [mapVal_get?] at h
    cases hx : s.xyz.get? n <;> rw [hx] at h <;> simp at h
  · intro n h
    unfold liftS at h
    simp only [mapVal_get?] at h
    cases hx : s.reactions.get? n <;> rw [hx] at h <;> simp at h

theorem nIter_eq_of_noNaN {D : Diagram ℝ} {L : List Int} (G : GoodSched D none L) (m : Nat)
    (h : ∀ j, 1 ≤ j → j ≤ m → NoNaN (nIter D L j)) : nIter D L m = liftS (iter D none L m) := by
  induction m with
  | zero => exact (liftS_init D).symm
  | succ m ih =>
    have ih := ih fun j h1 h2 => h j h1 (by omega)
    have hm := h (m + 1) (by omega) le_rfl
    rw [nIter, ih] at hm ⊢
    have hb : decide (m > 0) = decide (m ≠ 0) := by
      simp only [gt_iff_lt, ne_eq, Nat.pos_iff_ne_zero]
    rw [hb] at hm ⊢
    rcases sweep_clean_or_nan (D := D) (ind := decide (m ≠ 0)) G.sched (iter D none L m) with
      ⟨_, h2⟩ | ⟨_, n, _, h2⟩
    · exact h2
    · exact absurd hm (not_noNaN h2)

theorem sameNumbers_lift (s : EqState ℝ) : SameNumbers s (liftS s) :=
  ⟨fun _ => mapVal_get? _ _ _, fun _ => mapVal_get? _ _ _, fun _ => mapVal_get? _ _ _,
    fun _ => mapVal_get? _ _ _⟩

/-- C33. As long as no NaN turned up, the numpy solver has after every sweep the same
positions, trail forces, directions and reactions as the plain solver.  (On a valid diagram
neither sweep raises.) -/
theorem C33_same_iterates {D : Diagram ℝ} (I : ValidInput D) :
    ∃ (T : Dict Int (Dict Int Int)) (tab : NTables ℝ) (N : Int) (st : Nat → EqState ℝ)
      (nst : Nat → NState ℝ), D.trailsSequences = .ok T ∧ npTables D = .ok tab ∧
      D.numberOfSequences = .ok N ∧
      (∀ m, sweepsN D T none N m = .ok (st m)) ∧ (∀ m, numpySweeps D tab T N m = .ok (nst m)) ∧
      ∀ m, (∀ j, 1 ≤ j → j ≤ m → NoNaN (nst j)) → SameNumbers (st m) (nst m) := by
  obtain ⟨T, N, hT, hN, hg, hlt⟩ := goodSeqs_of_valid I.wf I.trails I.nonempty
  obtain ⟨tab, htab, G⟩ := npTables_ok I.wf fun n hn =>
    let ⟨k, h, _⟩ := allSequenced_of_valid I.trails n hn; ⟨k, h⟩
  refine ⟨T, tab, N, iter D none (sched D T N), nIter D (sched D T N), hT, htab, hN,
    fun m => sweepsN_eq I.wf I.trails hg none N m, fun m => numpySweeps_eq I hg G N m, ?_⟩
  intro m hm
  rw [nIter_eq_of_noNaN (goodSched I.wf I.trails hg none hlt) m hm]
  exact sameNumbers_lift _

/-- C33. A form of floats that equals `F.num` has the data of `F` at each node and edge, number by number, and none of
these numbers is NaN. -/
theorem C33_numbers (F : Diagram ℝ) :
    (∀ n, F.num.nodes.get? n = (F.nodes.get? n).map fun d =>
      ⟨⟨some d.pos.x, some d.pos.y, some d.pos.z⟩, ⟨some d.load.x, some d.load.y, some d.load.z⟩,
        ⟨some d.reaction.x, some d.reaction.y, some d.reaction.z⟩, d.k, d.type⟩) ∧
    (∀ e, F.num.edges.get? e = (F.edges.get? e).map fun d =>
      ⟨d.type, some d.length, some d.force, d.plane.map fun q =>
        (⟨some q.1.x, some q.1.y, some q.1.z⟩, ⟨some q.2.x, some q.2.y, some q.2.z⟩)⟩) ∧
    F.num.nodes.keys = F.nodes.keys ∧ F.num.edges.keys = F.edges.keys ∧ F.num.trails = F.trails ∧
    F.num.auxTrails = F.auxTrails ∧ F.num.gkeyNode = F.gkeyNode ∧ F.num.maxNode = F.maxNode ∧
    F.num.auxLength = some F.auxLength ∧
    F.num.auxVector = ⟨some F.auxVector.x, some F.auxVector.y, some F.auxVector.z⟩ := by
  refine ⟨fun n => mapVal_get? _ _ _, fun e => mapVal_get? _ _ _, ?_, ?_, rfl, rfl, rfl, rfl, rfl, rfl⟩
  · simp [Diagram.num, Dict.keys]
  · simp [Diagram.num, Dict.keys]

/-! ## Without degenerate geometry -/

theorem lt_iff_some {d eta : ℝ} : (Num.lt (some d) eta = true) ↔ d < eta := by simp [Num.lt]
theorem gt_iff_some {d eta : ℝ} : (Num.gt (some d) eta = true) ↔ eta < d := by simp [Num.gt]

theorem iter_keys_sub {D : Diagram ℝ} (I : ValidInput D) (L : List Int) (m m' : Nat) :
    ∀ p ∈ (iter D none L m).xyz, p.1 ∈ (iter D none L m').xyz.keys := by
  intro p hp
  rw [(goodState_iter I.wf I.trails none L m').1, ← (goodState_iter I.wf I.trails none L m).1]
  exact Dict.mem_keys_of_mem hp

theorem npForm_lift {D : Diagram ℝ} (I : ValidInput D) (L : List Int) (m : Nat) :
    npFormUpdate (formFromTopology D).num (liftS (iter D none L m)) =
      (formOf D (iter D none L m)).num :=
  npFormUpdate_lift (WF.form I.wf) (goodState_iter I.wf I.trails none L m).1 (iter_nodup m).1

/-- C33. If the plain solver returns after `m` sweeps and no NaN turns up, the numpy solver
returns after at most `m` sweeps, with the form that the plain solver has after as many
sweeps. -/
theorem C33_stops_no_later {D : Diagram ℝ} (I : ValidInput D) {tmax : Nat} (ht : 2 ≤ tmax) {eta : ℝ}
    {verbose : Bool} {F : Diagram ℝ} (hF : staticEquilibrium D none tmax eta verbose = .ok F)
    (hnan : ∀ T tab N m s, D.trailsSequences = .ok T → npTables D = .ok tab →
      D.numberOfSequences = .ok N → 1 ≤ m → m ≤ tmax → numpySweeps D tab T N m = .ok s → NoNaN s) :
    ∃ T N m m' s s', D.trailsSequences = .ok T ∧ D.numberOfSequences = .ok N ∧
      2 ≤ m' ∧ m' ≤ m ∧ m ≤ tmax ∧
      sweepsN D T none N m = .ok s ∧ F = formUpdate (formFromTopology D) s ∧
      sweepsN D T none N m' = .ok s' ∧
      staticEquilibriumNumpy D tmax eta verbose =
        .ok (formUpdate (formFromTopology D) s').num := by
  obtain ⟨T, N, m, p, s, hT, hN, hm2, hmt, hp, hs, hFs, hle, hlast, hbefore⟩ := C30_converged ht hF
  obtain ⟨T', N', hT', hN', hg, hlt⟩ := goodSeqs_of_valid I.wf I.trails I.nonempty
  rw [hT] at hT'; obtain rfl := Except.ok.inj hT'
  rw [hN] at hN'; obtain rfl := Except.ok.inj hN'
  obtain ⟨tab, htab, G⟩ := npTables_ok I.wf fun n hn =>
    let ⟨k, h, _⟩ := allSequenced_of_valid I.trails n hn; ⟨k, h⟩
  have hsame : ∀ j, j ≤ tmax → nIter D (sched D T N) j = liftS (iter D none (sched D T N) j) := by
    intro j hj
    apply nIter_eq_of_noNaN (goodSched I.wf I.trails hg none hlt)
    intro i h1 h2
    exact hnan T tab N i _ hT htab hN h1 (by omega) (numpySweeps_eq I hg G N i)
  have hdist : ∀ j, 1 ≤ j → j ≤ tmax → ∃ d, nDist D (sched D T N) j = some d ∧ 0 ≤ d ∧
      d ≤ residualDistance (iter D none (sched D T N) (j - 1)).xyz
        (iter D none (sched D T N) j).xyz := by
    intro j h1 h2
    unfold nDist
    rw [hsame j h2, hsame (j - 1) (by omega)]
    exact npDistance_le _ _ (iter_keys_sub I _ _ _)
  obtain ⟨m', hm'2, hm't, hb, hl, heq⟩ :=
    (npEquilibriumState_cases I hT hN hg tmax eta verbose).2.2 ht
  rw [sweepsN_eq I.wf I.trails hg] at hp hs
  obtain rfl := Except.ok.inj hp
  obtain rfl := Except.ok.inj hs
  have hm'm : m' ≤ m := by
    by_contra hc
    push Not at hc
    have hnot := hb m hm2 hc
    obtain ⟨d, hd, h0, hdle⟩ := hdist m (by omega) hmt
    rw [hd, lt_iff_some] at hnot
    rcases hlast with hlast | hlast
    · exact hnot (lt_of_le_of_lt hdle hlast)
    · omega
  have hgt : ¬ (nDist D (sched D T N) m').gt eta = true := by
    obtain ⟨d, hd, h0, hdle⟩ := hdist m' (by omega) hm't
    rw [hd, gt_iff_some, not_lt]
    rcases hl with hl | hl
    · rw [hd, lt_iff_some] at hl; exact hl.le
    · have : m' = m := by omega
      subst this
      exact hdle.trans hle
  refine ⟨T, N, m, m', _, _, hT, hN, hm'2, hm'm, hmt, sweepsN_eq I.wf I.trails hg _ _ _, hFs,
    sweepsN_eq I.wf I.trails hg _ _ _, ?_⟩
  unfold staticEquilibriumNumpy
  rw [heq, if_neg hgt, hsame m' hm't]
  simp only
  rw [npForm_lift I]

/-! ## Without indirect deviation edges -/

theorem allNbrs_direct {D : Diagram ℝ} (hd : DirectOnly D) (ind : Bool) (n : Int) :
    allNbrs D ind n = dirNbrs D n := by
  unfold allNbrs
  rw [indNbrs_direct hd]
  simp

theorem outVecN_direct {D : Diagram ℝ} (hd : DirectOnly D) (ind ind' : Bool) :
    outVecN D ind = outVecN D ind' := by
  funext P t n
  unfold outVecN
  rw [indNbrs_direct hd]
  cases ind <;> cases ind' <;> rfl

theorem rank_dirNbr {D : Diagram ℝ} {n m : Int} (h : m ∈ dirNbrs D n) : rankOf D m = rankOf D n := by
  have := (List.mem_filter.1 h).2
  simp only [decide_eq_true_eq] at this
  unfold rankOf
  rw [this.2]

theorem mem_before {rank : Int → Int} {L L1 L2 : List Int} {n : Int}
    (hs : L.Pairwise fun a b => rank a ≤ rank b) (h : L = L1 ++ n :: L2) {a : Int} (ha : a ∈ L)
    (hlt : rank a < rank n) : a ∈ L1 := by
  rw [h] at ha hs
  rcases List.mem_append.1 ha with h1 | h1
  · exact h1
  · exfalso
    have h2 := (List.pairwise_append.1 hs).2.1
    rcases List.mem_cons.1 h1 with rfl | h1
    · omega
    · have := (List.pairwise_cons.1 h2).1 a h1; omega

/-- Without indirect deviation edges the result of a sweep depends only on the nodes that
start a trail. -/
theorem nfold_agree {D : Diagram ℝ} (hd : DirectOnly D) {L : List Int} (G : GoodSched D none L)
    (ind ind' : Bool) (s s' : NState ℝ)
    (hst : ∀ m, (∀ a ∈ L, nxtK D none a ≠ some m) →
      s.xyz.get? m = s'.xyz.get? m ∧ s.residual.get? m = s'.residual.get? m)
    (L1 L2 : List Int) (h : L = L1 ++ L2) :
    (∀ m, ((∀ a ∈ L, nxtK D none a ≠ some m) ∨ ∃ a ∈ L1, nxtK D none a = some m) →
      (L1.foldl (nproc D (nxtK D none) ind) s).xyz.get? m =
        (L1.foldl (nproc D (nxtK D none) ind') s').xyz.get? m ∧
      (L1.foldl (nproc D (nxtK D none) ind) s).residual.get? m =
        (L1.foldl (nproc D (nxtK D none) ind') s').residual.get? m) ∧
    (∀ n ∈ L1, nxtK D none n = none →
      (L1.foldl (nproc D (nxtK D none) ind) s).reactions.get? n =
        (L1.foldl (nproc D (nxtK D none) ind') s').reactions.get? n) := by
  induction L1 using List.reverseRecOn generalizing L2 with
  | nil =>
    refine ⟨fun m hm => ?_, by simp⟩
    rcases hm with hm | ⟨a, ha, _⟩
    · exact hst m hm
    · simp at ha
  | append_singleton L1 n ih =>
    have hsplit : L = L1 ++ n :: L2 := by simpa using h
    obtain ⟨i1, i2⟩ := ih (n :: L2) hsplit
    have hnL : n ∉ L1 := by
      have := G.sched.nodup
      rw [hsplit] at this
      intro hc
      exact (List.nodup_append.1 this).2.2 n hc n (by simp) rfl
    simp only [List.foldl_append, List.foldl_cons, List.foldl_nil]
    generalize ht : L1.foldl (nproc D (nxtK D none) ind) s = t at i1 i2 ⊢
    generalize ht' : L1.foldl (nproc D (nxtK D none) ind') s' = t' at i1 i2 ⊢
    have known : ∀ m, rankOf D m = rankOf D n →
        t.xyz.get? m = t'.xyz.get? m ∧ t.residual.get? m = t'.residual.get? m := by
      intro m hm
      apply i1
      by_cases hex : ∃ a ∈ L, nxtK D none a = some m
      · obtain ⟨a, ha, ham⟩ := hex
        refine Or.inr ⟨a, ?_, ham⟩
        have := G.sched.rank_succ a m ham
        exact mem_before G.sched.sorted hsplit ha (by omega)
      · push Not at hex; exact Or.inl hex
    have hpos : ∀ m, rankOf D m = rankOf D n → t.pos m = t'.pos m := by
      intro m hm; unfold NState.pos; rw [(known m hm).1]
    have hres : t.res n = t'.res n := by unfold NState.res; rw [(known n rfl).2]
    have hterm : ∀ m ∈ dirNbrs D n, devTermN D t.pos n m = devTermN D t'.pos n m := by
      intro m hm
      unfold devTermN
      rw [hpos m (rank_dirNbr hm), hpos n rfl]
    have hsum : ∀ (l : List Int) (acc : NVec ℝ), (∀ m ∈ l, m ∈ dirNbrs D n) →
        devSumN D t.pos n l acc = devSumN D t'.pos n l acc := by
      intro l
      induction l with
      | nil => intro _ _; rfl
      | cons m l ihl =>
        intro acc hl
        have e1 : devSumN D t.pos n (m :: l) acc =
          devSumN D t.pos n l (lift2 (· + ·) acc (devTermN D t.pos n m)) := rfl
        have e2 : devSumN D t'.pos n (m :: l) acc =
          devSumN D t'.pos n l (lift2 (· + ·) acc (devTermN D t'.pos n m)) := rfl
        rw [e1, e2, hterm m (hl m (by simp))]
        exact ihl _ fun x hx => hl x (by simp [hx])
    have hout : outVecN D ind t.pos (t.res n) n = outVecN D ind' t'.pos (t'.res n) n := by
      rw [outVecN_direct hd ind false, outVecN_direct hd ind' false, hres]
      unfold outVecN
      rw [hsum (dirNbrs D n) _ fun m hm => hm]
      rfl
    unfold nproc
    rw [hout, hpos n rfl]
    cases hn : nxtK D none n with
    | none =>
      refine ⟨fun m hm => ?_, fun a ha hna => ?_⟩
      · apply i1
        rcases hm with hm | ⟨a, ha, ham⟩
        · exact Or.inl hm
        · rcases List.mem_append.1 ha with ha | ha
          · exact Or.inr ⟨a, ha, ham⟩
          · simp only [List.mem_singleton] at ha; subst ha; rw [hn] at ham; simp at ham
      · simp only [Dict.get?_set]
        by_cases e : n = a
        · simp [e]
        · rw [if_neg e, if_neg e]
          exact i2 a (by simpa [Ne.symm e] using ha) hna
    | some m0 =>
      refine ⟨fun m hm => ?_, fun a ha hna => ?_⟩
      · simp only [Dict.get?_set]
        by_cases e : m0 = m
        · simp [e]
        · rw [if_neg e, if_neg e, if_neg e, if_neg e]
          apply i1
          rcases hm with hm | ⟨a, ha, ham⟩
          · exact Or.inl hm
          · rcases List.mem_append.1 ha with ha | ha
            · exact Or.inr ⟨a, ha, ham⟩
            · simp only [List.mem_singleton] at ha; subst ha; rw [hn] at ham
              exact absurd (Option.some.inj ham) e
      · have hne : a ≠ n := by rintro rfl; rw [hn] at hna; simp at hna
        exact i2 a (by simpa [hne] using ha) hna

/-- Without indirect deviation edges a NaN of the first sweep is there after every sweep. -/
theorem nan_persists {D : Diagram ℝ} (hd : DirectOnly D) {L : List Int} (G : GoodSched D none L)
    {n : Int} (hn : n ∈ L) (h : NaNAt (nxtK D none) (nIter D L 1) n) (m : Nat) :
    NaNAt (nxtK D none) (nIter D L (m + 1)) n := by
  have hstart : ∀ j m', (∀ a ∈ L, nxtK D none a ≠ some m') →
      (nIter D L j).xyz.get? m' = (nIter D L 0).xyz.get? m' ∧
      (nIter D L j).residual.get? m' = (nIter D L 0).residual.get? m' := by
    intro j
    induction j with
    | zero => intro _ _; exact ⟨rfl, rfl⟩
    | succ j ih =>
      intro m' hm'
      have := (nproc_kept (D := D) (nxt := nxtK D none) (ind := decide (j > 0)) L (nIter D L j)).1
        m' hm'
      exact ⟨this.1.trans (ih m' hm').1, this.2.trans (ih m' hm').2⟩
  obtain ⟨a1, a2⟩ := nfold_agree hd G (decide (m > 0)) (decide (0 > 0)) (nIter D L m) (nIter D L 0)
    (hstart m) L [] (by simp)
  have e1 : nIter D L (m + 1) = L.foldl (nproc D (nxtK D none) (decide (m > 0))) (nIter D L m) := rfl
  have e0 : nIter D L 1 = L.foldl (nproc D (nxtK D none) (decide (0 > 0))) (nIter D L 0) := rfl
  rw [← e1, ← e0] at a1 a2
  rcases h with ⟨h1, h2⟩ | ⟨b, h1, h2⟩
  · exact Or.inl ⟨h1, by rw [a2 n hn h1, h2]⟩
  · exact Or.inr ⟨b, h1, by rw [(a1 b (Or.inr ⟨n, hn, h1⟩)).1, h2]⟩

/-- The outgoing vectors are the same in every sweep. -/
theorem rAt_direct {D : Diagram ℝ} (I : ValidInput D) (hd : DirectOnly D) {L : List Int}
    (G : GoodSched D none L) (m m' : Nat) {n : Int} (hn : n ∈ D.nodes.keys) :
    (iter D none L (m + 1)).pos n = (iter D none L (m' + 1)).pos n ∧
    rAt D (nxtK D none) (decide (m ≠ 0)) L (iter D none L m) n =
      rAt D (nxtK D none) (decide (m' ≠ 0)) L (iter D none L m') n := by
  have S := finalSpec_sched I.wf I.trails G m
  have S' := finalSpec_sched I.wf I.trails G m'
  have hsame : SameProblem D D :=
    ⟨fun _ => rfl, fun _ _ _ => rfl, fun _ => Iff.rfl, fun _ => Iff.rfl,
      fun _ _ _ h h' => by rw [h] at h'; rw [Option.some.inj h'],
      fun _ _ _ h h' _ => by rw [h] at h'; rw [Option.some.inj h']; exact ⟨rfl, rfl⟩,
      fun _ _ _ h h' _ => by rw [h] at h'; rw [Option.some.inj h']⟩
  have := solves_unique hsame I.simple I.wf I.trails I.wf I.trails (S.solves hd) (S'.solves hd)
    (by
      intro a _ ha
      obtain ⟨h1, h2⟩ := S.start a ha
      obtain ⟨h3, h4⟩ := S'.start a ha
      exact ⟨h1.trans h3.symm, h2.trans h4.symm⟩) n hn
  exact ⟨this.1, this.2.2⟩

/-- A sweep divides by zero exactly if the form has a deviation edge of length zero or an
unstressed trail edge with a plane. -/
theorem clean_iff {D : Diagram ℝ} (I : ValidInput D) (hd : DirectOnly D) {L : List Int}
    (G : GoodSched D none L) (m m' : Nat) :
    (∀ n ∈ L, Clean D (nxtK D none) (decide (m ≠ 0))
      (stateAt D (nxtK D none) (decide (m ≠ 0)) L (iter D none L m) n) n) ↔
    Nondegenerate (formOf D (iter D none L (m' + 1))) := by
  have S := finalSpec_sched I.wf I.trails G m
  have S' := finalSpec_sched I.wf I.trails G m'
  have hpos : ∀ n ∈ D.nodes.keys, ∀ b, rankOf D b ≤ rankOf D n → b ∈ D.nodes.keys →
      (stateAt D (nxtK D none) (decide (m ≠ 0)) L (iter D none L m) n).pos b =
        posOf (formOf D (iter D none L (m' + 1))) b := by
    intro n hn b hb hbk
    rw [posOf_form I.wf S', S.seen n hn b hb]
    exact (rAt_direct I hd G m m' hbk).1
  constructor
  · intro h
    refine ⟨?_, ?_⟩
    · intro a b d hab ht he
      rw [formOf_edge S'] at hab
      obtain ⟨d0, hd0, rfl⟩ := Option.map_eq_some_iff.1 hab
      have ht : d0.type = .deviation := by
        rwa [(signedLength_type _ _ _).1] at ht
      have hk := Dict.mem_keys_of_get? hd0
      have hak := I.wf.edge_left _ hk
      have hbk := I.wf.edge_right _ hk
      have hnb : b ∈ D.neighbors a := mem_neighbors.2 (Or.inl hk)
      have hkey : edgeKey D a b = (a, b) := by
        unfold edgeKey; rw [if_pos ((Dict.has_iff _ _).2 hk)]
      have hdir : b ∈ dirNbrs D a := by
        refine List.mem_filter.2 ⟨hnb, ?_⟩
        simp only [decide_eq_true_eq]
        refine ⟨by simp [edgeData, hkey, hd0, ht], hd a b d0 hd0 ht⟩
      have := (h a ((G.mem a).2 hak)).nbrs b (by rw [allNbrs_direct hd]; exact hdir)
      apply this
      rw [hpos a hak b (rank_dirNbr hdir).le hbk, hpos a hak a le_rfl hak, he, sub_self,
        Vec.length_zero]
    · intro e d hed ht hp hf
      rw [formOf_edge S'] at hed
      obtain ⟨d0, hd0, rfl⟩ := Option.map_eq_some_iff.1 hed
      obtain ⟨k1, k2, k3⟩ := signedLength_type (formOf D (iter D none L (m' + 1))).nodes e
        { d0 with force := ((iter D none L (m' + 1)).trailForces.get? e).getD d0.force }
      rw [k1] at ht
      rw [k2] at hp
      rw [k3] at hf
      simp only at ht hp hf
      -- the trail edge joins consecutive nodes
      obtain ⟨a, b, hab, hkey⟩ : ∃ a b, nxtK D none a = some b ∧ edgeKey D a b = e := by
        obtain ⟨a, b⟩ := e
        have hk := edgeKey_of_mem I.simple (Dict.mem_keys_of_get? hd0)
        obtain ⟨key, tr, htr, hc | hc⟩ := I.trails.complete a b (Or.inl ⟨d0, hd0, ht⟩)
        · exact ⟨a, b, (nxtK_none I.wf I.trails a).trans
            ((trailNext_iff I.wf I.trails).2 ⟨key, tr, htr, hc⟩), hk.1⟩
        · exact ⟨b, a, (nxtK_none I.wf I.trails b).trans
            ((trailNext_iff I.wf I.trails).2 ⟨key, tr, htr, hc⟩), hk.2⟩
      have hnk := (nxtK_mem I.wf I.trails hab).2
      have hdata : edgeData D a b = d0 := by simp [edgeData, hkey, hd0]
      have hforce := (S'.next a hnk b hab).2.2.1
      rw [hkey] at hforce
      rw [hforce, Option.getD_some] at hf
      have hr := (h a ((G.mem a).2 hnk)).plane b hab (by rw [hdata]; exact hp)
      have hr' : Vec.length (rAt D (nxtK D none) (decide (m ≠ 0)) L (iter D none L m) a) ≠ 0 := hr
      rw [(rAt_direct I hd G m m' hnk).2] at hr'
      apply hr'
      unfold copysign at hf
      split_ifs at hf <;> simpa using hf
  · intro h n hnL
    have hn := (G.mem n).1 hnL
    refine ⟨?_, ?_⟩
    · intro b hb hz
      rw [allNbrs_direct hd] at hb
      obtain ⟨hnb, ht⟩ := List.mem_filter.1 hb
      simp only [decide_eq_true_eq] at ht
      have hbk := (mem_keys_of_nbr I.wf hnb).1
      have hed := edgeKey_mem hnb
      rw [Vec.length_eq_zero, sub_eq_zero, hpos n hn b (rank_dirNbr hb).le hbk,
        hpos n hn n le_rfl hn] at hz
      have hF := formOf_edge S' (e := edgeKey D n b)
      rw [hed] at hF
      rcases edgeKey_ends D n b with e | e <;> rw [e] at hF
      · exact h.deviation _ _ _ hF (by rw [(signedLength_type _ _ _).1]; exact ht.1) hz.symm
      · exact h.deviation _ _ _ hF (by rw [(signedLength_type _ _ _).1]; exact ht.1) hz
    · intro b hb hp hz
      have htr := nxtK_trail hb
      have ht := edgeData_trail' I.wf I.trails I.simple htr
      have hed := edgeKey_mem (adj_mem_neighbors (trailNext_adj I.wf I.trails htr))
      have hF := formOf_edge S' (e := edgeKey D n b)
      rw [hed] at hF
      have hforce := (S'.next n hn b hb).2.2.1
      have hz' : Vec.length (rAt D (nxtK D none) (decide (m ≠ 0)) L (iter D none L m) n) = 0 := hz
      rw [(rAt_direct I hd G m m' hn).2] at hz'
      obtain ⟨k1, k2, k3⟩ := signedLength_type (formOf D (iter D none L (m' + 1))).nodes
        (edgeKey D n b) { edgeData D n b with
          force := ((iter D none L (m' + 1)).trailForces.get? (edgeKey D n b)).getD
            (edgeData D n b).force }
      refine h.plane _ _ hF (by rw [k1]; exact ht) (by rw [k2]; exact hp) ?_
      rw [k3]
      simp only
      rw [hforce, Option.getD_some, hz']
      simp [copysign]

theorem nIter_lift {D : Diagram ℝ} (I : ValidInput D) (hd : DirectOnly D) {L : List Int}
    (G : GoodSched D none L) (m' : Nat)
    (h : Nondegenerate (formOf D (iter D none L (m' + 1)))) (m : Nat) :
    nIter D L m = liftS (iter D none L m) := by
  induction m with
  | zero => exact (liftS_init D).symm
  | succ m ih =>
    rw [nIter, ih]
    have hb : decide (m > 0) = decide (m ≠ 0) := by
      simp only [gt_iff_lt, ne_eq, Nat.pos_iff_ne_zero]
    rw [hb]
    rcases sweep_clean_or_nan (D := D) (ind := decide (m ≠ 0)) G.sched (iter D none L m) with
      ⟨_, h2⟩ | ⟨h1, _⟩
    · exact h2
    · exact absurd ((clean_iff I hd G m m').2 h) h1

theorem nIter_nan {D : Diagram ℝ} (I : ValidInput D) (hd : DirectOnly D) {L : List Int}
    (G : GoodSched D none L) (m' : Nat)
    (h : ¬ Nondegenerate (formOf D (iter D none L (m' + 1)))) :
    ∃ n ∈ L, ∀ m, NaNAt (nxtK D none) (nIter D L (m + 1)) n := by
  rcases sweep_clean_or_nan (D := D) (ind := decide (0 ≠ 0)) G.sched (iter D none L 0) with
    ⟨h1, _⟩ | ⟨_, n, hn, h2⟩
  · exact absurd ((clean_iff I hd G 0 m').1 h1) h
  · refine ⟨n, hn, fun m => nan_persists hd G hn ?_ m⟩
    have e : liftS (iter D none L 0) = nIter D L 0 := liftS_init D
    rw [e] at h2
    exact h2

theorem npDistance_agree {last new : Dict Int (NVec ℝ)} (hk : new.keys.Nodup)
    (h : ∀ n, last.get? n = new.get? n) : npDistance last new = none ∨ npDistance last new = some 0 := by
  have key : ∀ (l : Dict Int (NVec ℝ)), (∀ p ∈ l, p ∈ new) → ∀ a : Num ℝ, a = none ∨ a = some 0 →
      l.foldl (fun acc p => lift2 (· + ·) acc
        ((lift2 (· - ·) ((last.get? p.1).getD none) p.2).map fun d => Vec.dot d d)) a = none ∨
      l.foldl (fun acc p => lift2 (· + ·) acc
        ((lift2 (· - ·) ((last.get? p.1).getD none) p.2).map fun d => Vec.dot d d)) a = some 0 := by
    intro l
    induction l with
    | nil => intro _ a ha; exact ha
    | cons p l ih =>
      intro hl a ha
      rw [List.foldl_cons]
      apply ih fun q hq => hl q (by simp [hq])
      rw [h, Dict.get?_of_mem hk (hl p (by simp))]
      rcases ha with rfl | rfl
      · exact Or.inl (lift2_none_left _ _)
      · cases hp : p.2 with
        | none => left; simp only [Option.getD_some]; rfl
        | some v =>
          right
          have : v - v = 0 := sub_self v
          simp [lift2, this, Vec.dot]
  unfold npDistance
  rcases key new (fun _ hp => hp) (some 0) (Or.inr rfl) with h | h <;> rw [h]
  · exact Or.inl rfl
  · right
    simp only [Option.map_some]
    congr 1
    exact Real.sqrt_zero

theorem nDist_direct {D : Diagram ℝ} (I : ValidInput D) (hd : DirectOnly D) {L : List Int}
    (G : GoodSched D none L) (j : Nat) (hj : 2 ≤ j) :
    nDist D L j = none ∨ nDist D L j = some 0 := by
  obtain ⟨i, rfl⟩ : ∃ i, j = i + 2 := ⟨j - 2, by omega⟩
  unfold nDist
  have e : i + 2 - 1 = i + 1 := by omega
  rw [e]
  have g := goodNState_iter (R := ℝ) I.wf I.trails L
  apply npDistance_agree
  · rw [(g _).1]; exact I.wf.nodesNodup
  · intro m
    have hstart : ∀ j m', (∀ a ∈ L, nxtK D none a ≠ some m') →
        (nIter D L j).xyz.get? m' = (nIter D L 0).xyz.get? m' ∧
        (nIter D L j).residual.get? m' = (nIter D L 0).residual.get? m' := by
      intro j
      induction j with
      | zero => intro _ _; exact ⟨rfl, rfl⟩
      | succ j ih =>
        intro m' hm'
        have := (nproc_kept (D := D) (nxt := nxtK D none) (ind := decide (j > 0)) L (nIter D L j)).1
          m' hm'
        exact ⟨this.1.trans (ih m' hm').1, this.2.trans (ih m' hm').2⟩
    have := (nfold_agree hd G (decide (i > 0)) (decide (i + 1 > 0)) (nIter D L i)
      (nIter D L (i + 1)) (fun m' hm' => ⟨(hstart i m' hm').1.trans (hstart (i + 1) m' hm').1.symm,
        (hstart i m' hm').2.trans (hstart (i + 1) m' hm').2.symm⟩) L [] (by simp)).1 m (by
          by_cases hex : ∃ a ∈ L, nxtK D none a = some m
          · exact Or.inr hex
          · push Not at hex; exact Or.inl hex)
    exact this.1

theorem nIter_nodup {D : Diagram ℝ} {L : List Int} (m : Nat) :
    (nIter D L m).reactions.keys.Nodup := by
  have fold : ∀ (L : List Int) (ind : Bool) (s : NState ℝ), s.reactions.keys.Nodup →
      (L.foldl (nproc D (nxtK D none) ind) s).reactions.keys.Nodup := by
    intro L ind
    induction L with
    | nil => intro s h; exact h
    | cons n L ih =>
      intro s h
      rw [List.foldl_cons]
      apply ih
      unfold nproc
      cases nxtK D none n with
      | none => exact Dict.nodup_keys_set h
      | some m => exact h
  induction m with
  | zero => exact List.nodup_nil
  | succ m ih => exact fold L _ _ ih

/-- A NaN of the state is in the form made from it. -/
theorem form_nan {D : Diagram ℝ} (I : ValidInput D) {L : List Int} (G : GoodSched D none L) {m : Nat}
    {n : Int} (hn : n ∈ L) (h : NaNAt (nxtK D none) (nIter D L m) n) :
    HasNaN (npFormUpdate (formFromTopology D).num (nIter D L m)) := by
  have g := goodNState_iter (R := ℝ) I.wf I.trails L m
  have hget : ∀ b, (npFormUpdate (formFromTopology D).num (nIter D L m)).nodes.get? b =
      match (nIter D L m).reactions.get? b with
      | none => (match (nIter D L m).xyz.get? b with
        | none => (formFromTopology D).num.nodes.get? b
        | some w => ((formFromTopology D).num.nodes.get? b).map fun d => { d with pos := NVec.coords w })
      | some v => (match (nIter D L m).xyz.get? b with
        | none => (formFromTopology D).num.nodes.get? b
        | some w => ((formFromTopology D).num.nodes.get? b).map
            fun (d : NodeData (Num ℝ)) => { d with pos := NVec.coords w }).map
              fun (d : NodeData (Num ℝ)) => { d with reaction := NVec.coords v } := by
    intro b
    unfold npFormUpdate
    dsimp only
    rw [get?_foldl_modify (fun w (d : NodeData (Num ℝ)) => { d with reaction := NVec.coords w }) _
      (nIter_nodup m), get?_foldl_modify (fun w (d : NodeData (Num ℝ)) => { d with pos := NVec.coords w })
      _ (by rw [g.1]; exact I.wf.nodesNodup)]
    cases (nIter D L m).reactions.get? b <;> cases (nIter D L m).xyz.get? b <;> rfl
  have hnode : ∀ b ∈ D.nodes.keys, ∃ d, (formFromTopology D).num.nodes.get? b = some d := by
    intro b hb
    apply (Dict.exists_get?_iff _ _).2
    have : (formFromTopology D).num.nodes.keys = (formFromTopology D).nodes.keys :=
      keys_map_val _ _
    rw [this]
    exact hb
  rcases h with ⟨h1, h2⟩ | ⟨b, h1, h2⟩
  · have hk := (G.mem n).1 hn
    obtain ⟨d, hd⟩ := hnode n hk
    obtain ⟨w, hw⟩ := (Dict.exists_get?_iff (nIter D L m).xyz n).2 (by rw [g.1]; exact hk)
    have := hget n
    rw [h2, hw, hd] at this
    exact ⟨n, _, this, Or.inr rfl⟩
  · have hk := (nxtK_mem I.wf I.trails h1).1
    obtain ⟨d, hd⟩ := hnode b hk
    have := hget b
    rw [h2, hd] at this
    cases hr : (nIter D L m).reactions.get? b with
    | none => rw [hr] at this; exact ⟨b, _, this, Or.inl rfl⟩
    | some v => rw [hr] at this; exact ⟨b, _, this, Or.inl rfl⟩

/-- C33. On a diagram without indirect deviation edges the numpy solver always returns when the
plain solver does.  If no deviation edge of the form has length zero and no trail edge with a
plane is unstressed, both return the same form; otherwise the numpy solver returns, without a
report, a form with NaN. -/
theorem C33_direct {D : Diagram ℝ} (I : ValidInput D) (hd : DirectOnly D) {tmax : Nat} {eta : ℝ}
    {verbose : Bool} {F : Diagram ℝ} (hF : staticEquilibrium D none tmax eta verbose = .ok F) :
    ∃ G, staticEquilibriumNumpy D tmax eta verbose = .ok G ∧
      (Nondegenerate F → G = F.num) ∧ (¬ Nondegenerate F → HasNaN G) := by
  obtain ⟨T, N, hT, hN, hg, hlt⟩ := goodSeqs_of_valid I.wf I.trails I.nonempty
  have G := goodSched I.wf I.trails hg none hlt
  obtain ⟨a0, a1, a2⟩ := equilibriumState_sched I (kmax := none) (by simp) hT hN hg tmax eta verbose
  obtain ⟨b0, b1, b2⟩ := npEquilibriumState_cases I hT hN hg tmax eta verbose
  obtain ⟨s, hs, hFs⟩ := staticEquilibrium_ok hF
  have close : ∀ i, s = iter D none (sched D T N) (i + 1) →
      npEquilibriumState D tmax eta verbose = .ok (nIter D (sched D T N) (i + 1)) →
      ∃ G, staticEquilibriumNumpy D tmax eta verbose = .ok G ∧
        (Nondegenerate F → G = F.num) ∧ (¬ Nondegenerate F → HasNaN G) := by
    intro i hsi hni
    have hFi : F = formOf D (iter D none (sched D T N) (i + 1)) := by rw [hFs, hsi]
    refine ⟨npFormUpdate (formFromTopology D).num (nIter D (sched D T N) (i + 1)), ?_, ?_, ?_⟩
    · unfold staticEquilibriumNumpy
      rw [hni]
    · intro hn
      rw [hFi] at hn ⊢
      rw [nIter_lift I hd G i hn]
      exact npForm_lift I _ _
    · intro hn
      rw [hFi] at hn
      obtain ⟨n, hnL, hnan⟩ := nIter_nan I hd G i hn
      exact form_nan I G hnL (hnan i)
  rcases Nat.lt_trichotomy tmax 1 with h | h | h
  · have h0 : tmax = 0 := by omega
    rw [a0 h0] at hs; simp at hs
  · have e1 := a1 h
    have e2 := b1 h
    rw [hs] at e1
    cases verbose with
    | true => simp at e1
    | false =>
      simp only [Bool.false_eq_true, if_false] at e1 e2
      exact close 0 (Except.ok.inj e1) e2
  · obtain ⟨m, hm2, hmt, hb, hl, he⟩ := a2 h
    obtain ⟨m', hm2', hmt', hb', hl', he'⟩ := b2 h
    have hres : ∀ j, 2 ≤ j → residualDistance (iter D none (sched D T N) (j - 1)).xyz
        (iter D none (sched D T N) j).xyz = 0 := by
      intro j hj
      obtain ⟨i, rfl⟩ : ∃ i, j = i + 2 := ⟨j - 2, by omega⟩
      exact residual_direct I hd G i
    rw [hres m hm2] at hl he
    rw [hs] at he
    have heta : ¬ (0 : ℝ) > eta := by intro hc; rw [if_pos hc] at he; simp at he
    rw [if_neg heta] at he
    have hgt : ¬ (nDist D (sched D T N) m').gt eta = true := by
      rcases nDist_direct I hd G m' hm2' with hd' | hd' <;> rw [hd']
      · simp [Num.gt]
      · rw [gt_iff_some]; exact heta
    rw [if_neg hgt] at he'
    by_cases hn : Nondegenerate F
    · obtain ⟨i, rfl⟩ : ∃ i, m = i + 1 := ⟨m - 1, by omega⟩
      have hFi : F = formOf D (iter D none (sched D T N) (i + 1)) := by
        rw [hFs, Except.ok.inj he]
      have hlift := nIter_lift I hd G i (by rw [← hFi]; exact hn)
      have hdist : ∀ j, 2 ≤ j → nDist D (sched D T N) j = some 0 := by
        intro j hj
        unfold nDist
        rw [hlift, hlift]
        obtain ⟨d, h1, h2, h3⟩ := npDistance_le _ _ (iter_keys_sub I (sched D T N) j (j - 1))
        rw [hres j hj] at h3
        rw [le_antisymm h3 h2] at h1
        exact h1
      have hmm : m' = i + 1 := by
        rw [hdist m' hm2', lt_iff_some] at hl'
        by_cases hpos : 0 < eta
        · have e1 : i + 1 = 2 := by
            by_contra hc
            exact hb 2 le_rfl (by omega) (by rw [hres 2 le_rfl]; exact hpos)
          have e2 : m' = 2 := by
            by_contra hc
            exact hb' 2 le_rfl (by omega) (by rw [hdist 2 le_rfl, lt_iff_some]; exact hpos)
          omega
        · rcases hl with hl | hl
          · exact absurd hl hpos
          · rcases hl' with hl' | hl'
            · exact absurd hl' hpos
            · omega
      rw [hmm] at he'
      exact close i (Except.ok.inj he) he'
    · obtain ⟨i, rfl⟩ : ∃ i, m = i + 1 := ⟨m - 1, by omega⟩
      have hFi : F = formOf D (iter D none (sched D T N) (i + 1)) := by
        rw [hFs, Except.ok.inj he]
      obtain ⟨n, hnL, hnan⟩ := nIter_nan I hd G i (by rw [← hFi]; exact hn)
      refine ⟨npFormUpdate (formFromTopology D).num (nIter D (sched D T N) m'), ?_,
        fun h => absurd h hn, fun _ => ?_⟩
      · unfold staticEquilibriumNumpy
        rw [he']
      · obtain ⟨i', rfl⟩ : ∃ i, m' = i + 1 := ⟨m' - 1, by omega⟩
        exact form_nan I G hnL (hnan i')

/-- C33. Two coinciding trail origins joined by a deviation edge: the plain solver returns a form
without NaN, the numpy solver one with NaN and does not raise. -/
theorem C33_nan_silent {D : Diagram ℝ} (I : ValidInput D) (hd : DirectOnly D) {a b : Int}
    {d : EdgeData ℝ} (hab : D.edges.get? (a, b) = some d) (ht : d.type = .deviation)
    (ha : ∃ tr, (a, tr) ∈ D.trails) (hb : ∃ tr, (b, tr) ∈ D.trails) (hp : posOf D a = posOf D b)
    {tmax : Nat} {eta : ℝ} {verbose : Bool} {F : Diagram ℝ}
    (hF : staticEquilibrium D none tmax eta verbose = .ok F) :
    ∃ G, staticEquilibriumNumpy D tmax eta verbose = .ok G ∧ HasNaN G := by
  obtain ⟨G, h1, _, h2⟩ := C33_direct I hd hF
  refine ⟨G, h1, h2 ?_⟩
  intro hn
  obtain ⟨_, _, hnodes, hedges⟩ := C25_keeps_data I hF
  obtain ⟨d', hd', ht', _⟩ := hedges _ _ hab
  apply hn.deviation a b d' hd' (ht'.trans ht)
  have hk := Dict.mem_keys_of_get? hab
  have pos : ∀ n, n ∈ D.nodes.keys → (∃ tr, (n, tr) ∈ D.trails) → posOf F n = posOf D n := by
    intro n hnk htr
    obtain ⟨e, he⟩ := (Dict.exists_get?_iff D.nodes n).2 hnk
    obtain ⟨e', he', _, _, _, hpos, _⟩ := hnodes n e he
    unfold posOf
    rw [he, he']
    simpa using hpos htr
  rw [pos a (I.wf.edge_left _ hk) ha, pos b (I.wf.edge_right _ hk) hb, hp]

namespace NumpyEx

/-- The direct example with node 4 moved onto node 0. -/
def coincidentOps : List (Op ℚ) := directOps ++ [.moveNode 4 ⟨0, 0, 0⟩]
def coincidentQ : Diagram ℚ := after key (coincidentOps ++ [.buildTrails])
noncomputable def coincident : Diagram ℝ := coincidentQ.real

theorem valid_coincident : ValidInput coincident :=
  validInput_real (validInput_of_history key coincidentOps
    (RegularCheck.regular (WF.after _ _) (by decide +kernel)) (by decide +kernel))

theorem directOnly_coincident : DirectOnly coincident :=
  map_directOnly (DirectCheck.direct (D := coincidentQ) (by decide +kernel))

end NumpyEx
open NumpyEx

/-- A diagram on which the numpy solver returns NaN: the hypotheses of `C33_nan_silent` hold. -/
example : ∃ eta F G, staticEquilibrium coincident none 100 eta false = .ok F ∧
    staticEquilibriumNumpy coincident 100 eta false = .ok G ∧ HasNaN G := by
  obtain ⟨eta, F, h⟩ := exists_returned valid_coincident 100 (by norm_num)
  have htr : ∀ p ∈ coincidentQ.trails, p ∈ coincident.trails := fun p hp => hp
  obtain ⟨G, h1, h2⟩ := C33_nan_silent valid_coincident directOnly_coincident (a := 0) (b := 4)
    (d := EdgeData.map (fun q : ℚ => (q : ℝ)) ⟨.deviation, 0, 1, none⟩) (by
      unfold coincident Diagram.real
      rw [map_edges_get?]
      have : coincidentQ.edges.get? (0, 4) = some ⟨.deviation, 0, 1, none⟩ := by decide +kernel
      rw [this]; rfl) rfl
    ⟨[0, 1, 2], htr _ (by decide +kernel)⟩ ⟨[4, 3], htr _ (by decide +kernel)⟩ (by
      have h0 : (coincidentQ.nodes.get? 0).map (·.pos) = some ⟨0, 0, 0⟩ := by decide +kernel
      have h4 : (coincidentQ.nodes.get? 4).map (·.pos) = some ⟨0, 0, 0⟩ := by decide +kernel
      unfold coincident Diagram.real posOf
      rw [map_nodes_get?, map_nodes_get?]
      obtain ⟨d0, e0, p0⟩ := Option.map_eq_some_iff.1 h0
      obtain ⟨d4, e4, p4⟩ := Option.map_eq_some_iff.1 h4
      rw [e0, e4]
      simp [NodeData.map, p0, p4]) h
  exact ⟨eta, F, G, h, h1, h2⟩

theorem nondegenerate_direct {eta : ℝ} {F : Diagram ℝ}
    (h : staticEquilibrium direct none 100 eta false = .ok F) : Nondegenerate F := by
  obtain ⟨_, hk, hnodes, hedges⟩ := C25_keeps_data valid_direct h
  have back : ∀ e d, F.edges.get? e = some d → ∃ q, directQ.edges.get? e = some q ∧
      d.type = q.type ∧ (d.plane = none ↔ q.plane = none) := by
    intro e d hd
    have hm : e ∈ direct.edges.keys := by rw [← hk]; exact Dict.mem_keys_of_get? hd
    obtain ⟨d0, hd0⟩ := (Dict.exists_get?_iff direct.edges e).2 hm
    obtain ⟨d', hd', t1, t2, _⟩ := hedges e d0 hd0
    rw [hd] at hd'; obtain rfl := Option.some.inj hd'
    unfold direct Diagram.real at hd0
    rw [map_edges_get?] at hd0
    obtain ⟨q, hq, rfl⟩ := Option.map_eq_some_iff.1 hd0
    exact ⟨q, hq, t1, by rw [t2]; simp [EdgeData.map]⟩
  have hdev : ∀ p ∈ directQ.edges, p.2.type = .deviation → p.1 = (0, 4) := by decide +kernel
  have hpl : ∀ p ∈ directQ.edges, p.2.plane = none := by decide +kernel
  have pos : ∀ n p, (directQ.nodes.get? n).map (·.pos) = some p →
      (∃ tr, (n, tr) ∈ directQ.trails) → posOf F n = p.map fun q : ℚ => (q : ℝ) := by
    intro n p hp htr
    obtain ⟨q, hq, rfl⟩ := Option.map_eq_some_iff.1 hp
    obtain ⟨d', hd', _, _, _, hpos, _⟩ := hnodes n (NodeData.map (fun q : ℚ => (q : ℝ)) q) (by
      unfold direct Diagram.real
      rw [map_nodes_get?, hq]; rfl)
    unfold posOf
    rw [hd']
    exact hpos htr
  constructor
  · intro a b d hd ht he
    obtain ⟨q, hq, t, _⟩ := back _ _ hd
    have := hdev _ (Dict.mem_of_get? hq) (t ▸ ht)
    simp only [Prod.mk.injEq] at this
    obtain ⟨rfl, rfl⟩ := this
    rw [pos 0 ⟨0, 0, 0⟩ (by decide +kernel) ⟨[0, 1, 2], by decide +kernel⟩,
      pos 4 ⟨4, 0, 0⟩ (by decide +kernel) ⟨[4, 3], by decide +kernel⟩] at he
    have := congrArg Vec.x he
    norm_num [Vec.map] at this
  · intro e d hd _ hp
    obtain ⟨q, hq, _, t⟩ := back _ _ hd
    exact absurd (t.2 (hpl _ (Dict.mem_of_get? hq))) hp

/-- A diagram on which both solvers return the same form. -/
example : ∃ eta F, staticEquilibrium direct none 100 eta false = .ok F ∧ Nondegenerate F ∧
    staticEquilibriumNumpy direct 100 eta false = .ok F.num := by
  obtain ⟨eta, F, h⟩ := exists_returned valid_direct 100 (by norm_num)
  have hn := nondegenerate_direct h
  obtain ⟨G, h1, h2, _⟩ := C33_direct valid_direct directOnly_direct h
  exact ⟨eta, F, h, hn, by rw [h1, h2 hn]⟩

/-- The hypotheses of `C33_stops_no_later` hold there, too. -/
example : ∃ eta F, staticEquilibrium direct none 100 eta false = .ok F ∧
    ∀ T tab N m s, direct.trailsSequences = .ok T → npTables direct = .ok tab →
      direct.numberOfSequences = .ok N → 1 ≤ m → m ≤ 100 →
      numpySweeps direct tab T N m = .ok s → NoNaN s := by
  obtain ⟨eta, F, h⟩ := exists_returned valid_direct 100 (by norm_num)
  refine ⟨eta, F, h, ?_⟩
  have I := valid_direct
  intro T tab N m s hT htab hN _ _ hs
  obtain ⟨T', N', hT', hN', hg, hlt⟩ := goodSeqs_of_valid I.wf I.trails I.nonempty
  rw [hT] at hT'; obtain rfl := Except.ok.inj hT'
  rw [hN] at hN'; obtain rfl := Except.ok.inj hN'
  obtain ⟨tab', htab', G⟩ := npTables_ok I.wf fun n hn =>
    let ⟨k, h, _⟩ := allSequenced_of_valid I.trails n hn; ⟨k, h⟩
  rw [htab] at htab'; obtain rfl := Except.ok.inj htab'
  rw [numpySweeps_eq I hg G] at hs
  obtain rfl := Except.ok.inj hs
  obtain ⟨m0, p, s0, hm0, _, _, hs0, hF0, _⟩ : ∃ m p s, 2 ≤ m ∧ m ≤ 100 ∧
      sweepsN direct T none N p = .ok s ∧ sweepsN direct T none N m = .ok s ∧
      F = formUpdate (formFromTopology direct) s ∧ True := by
    obtain ⟨T'', N'', m, p, s, hT'', hN'', h1, h2, _, h4, h5, _⟩ := C30_converged (by norm_num) h
    rw [hT] at hT''; obtain rfl := Except.ok.inj hT''
    rw [hN] at hN''; obtain rfl := Except.ok.inj hN''
    exact ⟨m, m, s, h1, h2, h4, h4, h5, trivial⟩
  rw [sweepsN_eq I.wf I.trails hg] at hs0
  obtain rfl := Except.ok.inj hs0
  obtain ⟨i, rfl⟩ : ∃ i, m0 = i + 1 := ⟨m0 - 1, by omega⟩
  rw [nIter_lift I directOnly_direct (goodSched I.wf I.trails hg none hlt) i
    (by have := nondegenerate_direct h; rwa [hF0] at this)]
  exact noNaN_lift _

end Props
end CEM
