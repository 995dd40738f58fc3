import Verif.Spec.Autodiff
import Verif.Lemmas.AutodiffRun
import Verif.Props.Autodiff
import Verif.Props.Small

/-!
# Property C81: derivatives of what form finding computes
-/

set_option linter.unusedSectionVars false
set_option linter.unusedSimpArgs false

namespace CEM
namespace Props
open Diagram Spec EqEx Filter Topology

/-! ## Runs that stay away from kinks -/

/-- Sweeps whose forms are at no kink. -/
theorem sound_of {D : Diagram ℝ} (I : ValidInput D) (hl : NonzeroTrails D) {L : List Int}
    (G : GoodSched D none L) {m : Nat} {F : Nat → Diagram ℝ} (K : Kinkless D m F)
    (hF : ∀ j, 1 ≤ j → j ≤ m → F j = formOf D (iter D none L j)) (i : Nat) (hi : i < m) : SoundSweep D L i := by
  have hnx := nxtK_none I.wf I.trails
  have hpos : ∀ j, j < m → ∀ a, posOf (F (j + 1)) a = (iter D none L (j + 1)).pos a := by
    intro j hj a
    rw [hF _ (by omega) (by omega)]
    exact posOf_form I.wf (finalSpec_sched I.wf I.trails G j) a
  intro L1 n L2 hL
  have S := finalSpec_sched I.wf I.trails G i
  have hn : n ∈ D.nodes.keys := (G.mem n).1 (by rw [hL]; simp)
  have hst : stateAt D (nxtK D none) (decide (i ≠ 0)) L (iter D none L i) n =
      L1.foldl (proc D (nxtK D none) (decide (i ≠ 0))) (iter D none L i) := by
    unfold stateAt
    rw [takeWhile_of_split G.sched.nodup hL]
  rw [← hst]
  have h0 : (stateAt D (nxtK D none) (decide (i ≠ 0)) L (iter D none L i) n).pos n =
      posOf (F (i + 1)) n := by
    rw [hpos i hi]
    exact S.seen n hn n le_rfl
  have htr : ∀ b, nxtK D none n = some b →
      rAt D (nxtK D none) (decide (i ≠ 0)) L (iter D none L i) n ≠ 0 := by
    intro b hb
    rw [hnx] at hb
    obtain ⟨d, h1, h2, h3⟩ := final_edge I S hb
    rw [← hF _ (by omega) (by omega)] at h1
    exact copysign_ne_zero (by rw [← h3]; exact K.carry (i + 1) (by omega) (by omega) _ d h1 h2)
  refine ⟨fun b hb => ?_, fun hind b hb => ?_, htr, fun b o N hb hp => ?_⟩
  · obtain ⟨m1, m2⟩ := List.mem_filter.1 hb
    simp only [decide_eq_true_eq] at m2
    have hE : EdgeBetween D n b (edgeData D n b) := (edgeBetween_iff I.simple).2 ⟨m1, rfl⟩
    have h1 : (stateAt D (nxtK D none) (decide (i ≠ 0)) L (iter D none L i) n).pos b = posOf (F (i + 1)) b := by
      rw [hpos i hi]
      exact S.seen n hn b (by unfold rankOf; rw [m2.2])
    rw [h0, h1]
    exact (K.apart (i + 1) (by omega) (by omega) n b _ hE m2.1 fun _ => m2.2).symm
  · have hi0 : i ≠ 0 := by simpa using hind
    obtain ⟨m1, m2⟩ := List.mem_filter.1 hb
    simp only [decide_eq_true_eq] at m2
    have hE : EdgeBetween D n b (edgeData D n b) := (edgeBetween_iff I.simple).2 ⟨m1, rfl⟩
    have hap := (K.apart (i + 1) (by omega) (by omega) n b _ hE m2.1 fun h => by omega).symm
    have hbk := (mem_keys_of_nbr I.wf m1).1
    obtain ⟨p, hp, _⟩ := allSequenced_of_valid I.trails n hn
    obtain ⟨q, hq, _⟩ := allSequenced_of_valid I.trails b hbk
    rw [h0]
    rcases lt_or_ge p q with hpq | hpq
    · have h1 : (stateAt D (nxtK D none) (decide (i ≠ 0)) L (iter D none L i) n).pos b =
          (iter D none L i).pos b ∨ (stateAt D (nxtK D none) (decide (i ≠ 0)) L (iter D none L i) n).pos b =
          (iter D none L (i + 1)).pos b := S.seen_any n hn b
      rcases h1 with h1 | h1
      · obtain ⟨j, rfl⟩ : ∃ j, i = j + 1 := ⟨i - 1, by omega⟩
        rw [h1, ← hpos j (by omega)]
        exact (K.before (j + 1) (by omega) (by omega) n b _ p q hE m2.1 hp hq hpq).symm
      · rw [h1, ← hpos i hi]
        exact hap
    · have h1 : (stateAt D (nxtK D none) (decide (i ≠ 0)) L (iter D none L i) n).pos b = posOf (F (i + 1)) b := by
        rw [hpos i hi]
        exact S.seen n hn b (by unfold rankOf; rw [hp, hq]; exact hpq)
      rw [h1]
      exact hap
  · have hn' := hb
    rw [hnx] at hn'
    have hf := (trailNext_iff I.wf I.trails).1 hn'
    have hE : EdgeBetween D n b (edgeData D n b) :=
      (edgeBetween_iff I.simple).2 ⟨adj_mem_neighbors (trailNext_adj I.wf I.trails hn'), rfl⟩
    have q := K.planes (i + 1) (by omega) (by omega) n b _ o N hf hE hp
    obtain ⟨e1, e2⟩ := edgeData_trail I.wf I.trails I.simple hn'
    have hne := effectiveLength_ne_zero (hl _ _ e1 e2) ((iter D none L (i + 1)).pos n)
      (rAt D (nxtK D none) (decide (i ≠ 0)) L (iter D none L i) n)
    have hstep := (S.next n hn b hb).1
    rw [normalize_eq_unit] at hstep
    rw [hpos i hi b, hstep, ← hpos i hi n, add_sub_cancel_left] at q
    rw [← hpos i hi n] at hne
    rw [h0]
    change |Vec.dot N (unit (rAt D (nxtK D none) (decide (i ≠ 0)) L (iter D none L i) n))| < _ ∨
      (_ < |Vec.dot N (unit (rAt D (nxtK D none) (decide (i ≠ 0)) L (iter D none L i) n))| ∧ _)
    generalize rAt D (nxtK D none) (decide (i ≠ 0)) L (iter D none L i) n = r at q hne ⊢
    have e : |Vec.dot N (unit r)| =
        |Vec.dot N (unit (effectiveLength (edgeData D n b) (posOf (F (i + 1)) n) r • unit r))| := by
      rcases lt_or_gt_of_ne hne with h | h
      · rw [unit_smul_neg h, unit_unit, dot_neg_right, abs_neg]
      · rw [unit_smul_pos h, unit_unit]
    rw [← e] at q
    refine q.imp id fun h => ⟨h.1, fun h0 => h.2 ?_⟩
    simp only [Vec.dot, Vec.sub_x, Vec.sub_y, Vec.sub_z] at h0 ⊢
    linarith

/-! ## Forms -/

section
variable {V : Type} [NormedAddCommGroup V] [NormedSpace ℝ V] {k : WithTop ℕ∞} {t0 : V} {D : V → Diagram ℝ}
  {L : List Int} {m : Nat}

/-- The numbers of the form after some sweeps. -/
theorem computed_numbers (I : ValidInput (D t0)) (S : SmoothInput k D t0) (hl : NonzeroTrails (D t0))
    (G : ∀ t, GoodSched (D t) none L) (hs : ∀ i, i < m + 1 → SoundSweep (D t0) L i) :
    SmoothNumbers k (D t0) (fun t => formOf (D t) (iter (D t) none L (m + 1))) t0 := by
  have J : ∀ t, ValidInput (D t) := fun t => validInput_same (S.same t) I
  have FS := fun t => finalSpec_sched (J t).wf (J t).trails (G t) m
  have hL : ∀ n ∈ (D t0).nodes.keys, n ∈ L := fun n hn => ((G t0).mem n).2 hn
  refine ⟨fun n _ => ?_, fun n hn => ?_, fun e he => ?_⟩
  · simp only [posOf_form (J _).wf (FS _)]
    exact (smooth_iter I S hs (m + 1) le_rfl).1.pos n
  · have e : ∀ t, reactionAt (formOf (D t) (iter (D t) none L (m + 1))) n =
        if nxtK (D t0) none n = none then
          rAt (D t) (nxtK (D t) none) (decide (m ≠ 0)) L (iter (D t) none L m) n else 0 := by
      intro t
      rw [reactionAt_form (J t).wf (FS t) (J t).reaction (by rw [(S.same t).nodeKeys]; exact hn),
        nxtK_same (S.same t)]
    simp only [e]
    split_ifs
    · exact (smooth_last I S (G t0) hs (hL n hn)).1
    · exact SmoothAt.const 0
  · obtain ⟨d, hd⟩ := (Dict.exists_get?_iff _ _).2 he
    cases ht : d.type with
    | untyped => exact absurd ht (I.typed _ _ hd)
    | deviation =>
      refine (S.forces e).congr_of_eventuallyEq (.of_forall fun t => ?_)
      obtain ⟨d1, h1⟩ := (Dict.exists_get?_iff (D t).edges e).2 (by rw [(S.same t).edgeKeys]; exact he)
      obtain ⟨d', h2, _, _, h3⟩ := (computed_keeps_data (J t) ⟨_, _, _, _, _, rfl, FS t⟩).2.2.2 e d1 h1
      simp only
      unfold forceAt
      rw [h1, h2]
      exact h3 (by rw [((S.same t).edge e d d1 hd h1).1]; exact ht)
    | trail =>
      obtain ⟨a, b, hn, rfl⟩ := trail_ends I hd ht
      have hnk : nxtK (D t0) none a = some b := by rw [nxtK_none I.wf I.trails]; exact hn
      have ha := (Follows.mem I.trails ((trailNext_iff I.wf I.trails).1 hn)).1
      obtain ⟨g1, g2⟩ := smooth_last I S (G t0) hs (hL a ha)
      obtain ⟨g3, g4⟩ := g2 b hnk
      obtain ⟨e1, e2⟩ := edgeData_trail I.wf I.trails I.simple hn
      refine (smooth_copysign (g1.length g3) g4 (Vec.length_pos g3)
        (effectiveLength_ne_zero (hl _ _ e1 e2) _ _)).congr_of_eventuallyEq (.of_forall fun t => ?_)
      obtain ⟨d', h1, _, h3⟩ := final_edge (J t) (FS t) (by rw [trailNext_shape (S.same t)]; exact hn)
      rw [edgeKey_same (S.same t)] at h1
      simp only
      unfold forceAt lenAt
      rw [h1, (FS t).seen a (by rw [(S.same t).nodeKeys]; exact ha) a le_rfl]
      exact h3

/-! ## When form finding stops -/

theorem dict_pairs {α β : Type} [DecidableEq α] {d : Dict α β} (h : d.keys.Nodup) {z : β} {γ : Type} (f : α → β → γ) :
    (d.map fun p => f p.1 p.2) = d.keys.map fun n => f n ((d.get? n).getD z) := by
  unfold Dict.keys
  rw [List.map_map]
  refine List.map_congr_left fun p hp => ?_
  simp [Dict.get?_of_mem h hp]

/-- The change that the numpy solver measures. -/
theorem distance_lifted {D : Diagram ℝ} (I : ValidInput D) (L : List Int) {j : Nat}
    (h1 : nIter D L (j - 1) = liftS (iter D none L (j - 1))) (h2 : nIter D L j = liftS (iter D none L j)) :
    nDist D L j = some (Real.sqrt ((D.nodes.keys.map fun n =>
      Vec.dist ((iter D none L (j - 1)).pos n) ((iter D none L j).pos n) ^ 2).sum)) := by
  unfold nDist
  rw [h1, h2]
  have := npDistance_lift _ _ (iter_keys_sub I L j (j - 1))
  have hk := (goodState_iter I.wf I.trails none L j).1
  rw [dict_pairs (z := 0) (by rw [hk]; exact I.wf.nodesNodup)
    (fun n v => Vec.dist (((iter D none L (j - 1)).xyz.get? n).getD 0) v ^ 2), hk] at this
  exact this

theorem distance_continuous (I : ValidInput (D t0)) (S : SmoothInput k D t0)
    (hs : ∀ i, i < m → SoundSweep (D t0) L i) {j : Nat} (hj : j ≤ m) :
    ContinuousAt (fun t => Real.sqrt (((D t).nodes.keys.map fun n =>
      Vec.dist ((iter (D t) none L (j - 1)).pos n) ((iter (D t) none L j).pos n) ^ 2).sum)) t0 := by
  simp only [(S.same _).nodeKeys]
  refine ContinuousAt.sqrt ?_
  have h1 := (smooth_iter I S hs (j - 1) (by omega)).1.pos
  have h2 := (smooth_iter I S hs j hj).1.pos
  have : ∀ l : List Int, ContinuousAt (fun t => (l.map fun n =>
      Vec.dist ((iter (D t) none L (j - 1)).pos n) ((iter (D t) none L j).pos n) ^ 2).sum) t0 := by
    intro l
    induction l with
    | nil => simpa using continuousAt_const
    | cons n l ih =>
      simp only [List.map_cons, List.sum_cons]
      refine ContinuousAt.add ?_ ih
      simp only [Vec.dist, pow_two, Vec.length_sq]
      exact (((h1 n).sub (h2 n)).dot ((h1 n).sub (h2 n))).continuousAt
  exact this _

/-- The sweep after which a loop stops is determined by the changes. -/
theorem stop_unique {d : Nat → Num ℝ} {v : Nat → ℝ} {tmax m m' : Nat} {eta : ℝ} (hv : ∀ j, 2 ≤ j → j ≤ m → d j = some (v j))
    (h2 : 2 ≤ m) (ht : m ≤ tmax) (hm : v m < eta) (hb : ∀ j, 2 ≤ j → j < m → eta < v j)
    (g2 : 2 ≤ m') (gb : ∀ j, 2 ≤ j → j < m' → ¬ (d j).lt eta = true)
    (gm : (d m').lt eta = true ∨ m' = tmax) : m' = m ∧ ¬ (d m).gt eta = true := by
  have e : m' = m := by
    rcases Nat.lt_trichotomy m' m with h | h | h
    · rcases gm with gm | gm
      · rw [hv m' g2 h.le, lt_iff_some] at gm
        have := hb m' g2 h
        linarith
      · omega
    · exact h
    · have := gb m h2 h
      rw [hv m h2 le_rfl, lt_iff_some] at this
      exact absurd hm this
  refine ⟨e, ?_⟩
  rw [hv m h2 le_rfl, gt_iff_some]
  linarith

/-- Near `t0` the numpy solver stops after the same number of sweeps. -/
theorem stops_near (I : ValidInput (D t0)) (S : SmoothInput k D t0) {T : Dict Int (Dict Int Int)} {N : Int}
    (hT : (D t0).trailsSequences = .ok T) (hN : (D t0).numberOfSequences = .ok N) (hg : GoodSeqs (D t0) T)
    (hL : L = sched (D t0) T N) (G : GoodSched (D t0) none L) (hs : ∀ i, i < m → SoundSweep (D t0) L i)
    {F : Nat → Diagram ℝ} (hF : ∀ j, 1 ≤ j → j ≤ m → F j = formOf (D t0) (iter (D t0) none L j))
    {tmax : Nat} {eta : ℝ} (St : StopsAt (D t0) tmax eta m F) :
    ∀ᶠ t in 𝓝 t0, npEquilibriumState (D t) tmax eta false = .ok (nIter (D t) L m) := by
  have J : ∀ t, ValidInput (D t) := fun t => validInput_same (S.same t) I
  have cases := fun t => npEquilibriumState_cases (J t) (by rw [trailsSequences_same (S.same t)]; exact hT)
    (by rw [numberOfSequences_same (S.same t) I.wf]; exact hN) (goodSeqs_same (S.same t) hg) tmax eta false
  simp only [sched_same (S.same _), ← hL] at cases
  rcases St with ⟨h1, h2⟩ | ⟨h1, h2, h3, h4⟩
  · subst h2
    exact .of_forall fun t => by simpa using (cases t).2.1 h1
  · have hlift : ∀ᶠ t in 𝓝 t0, ∀ j, j ≤ m → nIter (D t) L j = liftS (iter (D t) none L j) := by
      have : ∀ᶠ t in 𝓝 t0, ∀ j ∈ Finset.range (m + 1), nIter (D t) L j = liftS (iter (D t) none L j) := by
        rw [eventually_all_finset]
        exact fun j hj => (smooth_iter I S hs j (by have := Finset.mem_range.1 hj; omega)).2
      exact this.mono fun t h j hj => h j (Finset.mem_range.2 (by omega))
    have hmv : ∀ j, 2 ≤ j → j ≤ m → Real.sqrt (((D t0).nodes.keys.map fun n =>
        Vec.dist ((iter (D t0) none L (j - 1)).pos n) ((iter (D t0) none L j).pos n) ^ 2).sum) =
        moved (D t0) (F (j - 1)) (F j) := by
      intro j g1 g2
      obtain ⟨j, rfl⟩ : ∃ i, j = i + 2 := ⟨j - 2, by omega⟩
      unfold moved
      rw [hF _ (by omega) g2, hF _ (by omega) (by omega)]
      simp only [posOf_form I.wf (finalSpec_sched I.wf I.trails G _)]
      have := posOf_form I.wf (finalSpec_sched I.wf I.trails G j)
      simp only [show j + 2 - 1 = j + 1 by omega, this]
    have hlast : ∀ᶠ t in 𝓝 t0, Real.sqrt (((D t).nodes.keys.map fun n =>
        Vec.dist ((iter (D t) none L (m - 1)).pos n) ((iter (D t) none L m).pos n) ^ 2).sum) < eta := by
      refine (distance_continuous I S hs le_rfl).eventually_lt continuousAt_const ?_
      rw [hmv m h1 le_rfl]
      exact h3
    have hbefore : ∀ᶠ t in 𝓝 t0, ∀ j, 2 ≤ j → j < m → eta < Real.sqrt (((D t).nodes.keys.map fun n =>
        Vec.dist ((iter (D t) none L (j - 1)).pos n) ((iter (D t) none L j).pos n) ^ 2).sum) := by
      have : ∀ᶠ t in 𝓝 t0, ∀ j ∈ Finset.Ico 2 m, eta < Real.sqrt (((D t).nodes.keys.map fun n =>
          Vec.dist ((iter (D t) none L (j - 1)).pos n) ((iter (D t) none L j).pos n) ^ 2).sum) := by
        rw [eventually_all_finset]
        intro j hj
        obtain ⟨g1, g2⟩ := Finset.mem_Ico.1 hj
        refine continuousAt_const.eventually_lt (distance_continuous I S hs g2.le) ?_
        rw [hmv j g1 g2.le]
        exact h4 j g1 g2
      exact this.mono fun t h j g1 g2 => h j (Finset.mem_Ico.2 ⟨g1, g2⟩)
    filter_upwards [hlift, hlast, hbefore] with t a1 a2 a3
    obtain ⟨m', g2, gt, gb, gm, he⟩ := (cases t).2.2 (by omega)
    obtain ⟨rfl, hgt⟩ := stop_unique (d := nDist (D t) L) (v := fun j => Real.sqrt (((D t).nodes.keys.map fun n =>
        Vec.dist ((iter (D t) none L (j - 1)).pos n) ((iter (D t) none L j).pos n) ^ 2).sum))
      (fun j _ hj => distance_lifted (J t) L (a1 _ (by omega)) (a1 _ hj)) h1 h2 a2 a3 g2 gb gm
    rw [he, if_neg hgt]

end

/-- The iterates with derivatives have the values of those without. -/
theorem shadows_iter {D E : Diagram ℝ} (I : ValidInput D) {T : Dict Int (Dict Int Int)} (hg : GoodSeqs D T) (N : Int)
    (j : Nat) : Shadows (aIter D E (sched D T N) j) (nIter D (sched D T N) j) := by
  have hs : ∀ n ∈ D.nodes.keys, ∃ k, seqOf D n = some k := fun n hn =>
    let ⟨k, h, _⟩ := allSequenced_of_valid I.trails n hn; ⟨k, h⟩
  obtain ⟨tab, _, G⟩ := npTables_ok I.wf hs
  induction j with
  | zero => exact shadows_init D E
  | succ j ih =>
    have := adSweep_both (D := D) (T := E) (tab := tab) (tseq := T) (ind := decide (j > 0)) (n := N) ih
    rw [adSweep_eq I.wf I.trails I.simple hg G _ N (goodAState_iter I.wf I.trails _ j),
      npSweep_eq I.wf I.trails I.simple hg G _ N (goodNState_iter I.wf I.trails _ j)] at this
    exact this

/-- Differentiation stops after as many sweeps as the numpy solver. -/
theorem ad_stops {D E : Diagram ℝ} (I : ValidInput D) {T : Dict Int (Dict Int Int)} {N : Int}
    (hT : D.trailsSequences = .ok T) (hN : D.numberOfSequences = .ok N) (hg : GoodSeqs D T) {tmax : Nat} {eta : ℝ}
    {m : Nat} {v : Nat → ℝ} (hv : ∀ j, 2 ≤ j → j ≤ m → nDist D (sched D T N) j = some (v j))
    (hs : tmax = 1 ∧ m = 1 ∨ 2 ≤ m ∧ m ≤ tmax ∧ v m < eta ∧ ∀ j, 2 ≤ j → j < m → eta < v j) :
    adEquilibriumState D E tmax eta = .ok (aIter D E (sched D T N) m) := by
  obtain ⟨_, c1, c2⟩ := adEquilibriumState_cases (E := E) I hT hN hg tmax eta
  rcases hs with ⟨h1, rfl⟩ | ⟨h1, h2, h3, h4⟩
  · exact c1 h1
  · obtain ⟨m', g2, _, gb, gm, he⟩ := c2 (by omega)
    obtain ⟨rfl, hgt⟩ := stop_unique (d := aDist D E (sched D T N)) (v := v) (fun j g1 g2 => by
      rw [← hv j g1 g2]
      unfold aDist nDist
      rw [(shadows_iter I hg N _).xyz, (shadows_iter I hg N _).xyz]) h1 h2 h3 h4 g2 gb gm
    rw [he, if_neg hgt]

/-! ## The objective -/

/-- What C81 asks for: a valid problem, the diagram `E` that carries the values `x0` of `n` parameters, and the
forms `F 1` to `F m` that form finding goes through until it clearly stops, none of which is at a kink of the
form finding, and the last at none of the constraints. -/
structure ComputedPoint (k : WithTop ℕ∞) (o : Optimizer ℝ) (h : List (RegOp (Param ℝ))) (D E : Diagram ℝ)
    (F : Nat → Diagram ℝ) {n : Nat} (x0 : Fin n → ℝ) (tmax : Nat) (eta : ℝ) (m : Nat) : Prop where
  history : HasHistory o h
  slots : ∀ j p, Registered h j p → j < n ∧ HasSlot D p.slot
  valid : ValidInput D
  carries : Spec.Carries o.parameters D (List.ofFn x0) E
  nonzero : NonzeroTrails E
  runs : Kinkless E m F
  stops : StopsAt E tmax eta m F
  posed : ∀ c ∈ o.constraints.vals, Posed D c
  clear : ∀ c ∈ o.constraints.vals, Clear k (F m) c

section
variable {k : WithTop ℕ∞} {o : Optimizer ℝ} {h : List (RegOp (Param ℝ))} {D E : Diagram ℝ} {F : Nat → Diagram ℝ}
  {n : Nat} {x0 : Fin n → ℝ} {tmax : Nat} {eta : ℝ} {m : Nat}

theorem input_written (h0 : ∀ q ∈ o.parameters, 0 ≤ q.1)
    (hok : ∀ x : Fin n → ℝ, (o.updateParameters D (List.ofFn x)).2 = .ok ()) (k : WithTop ℕ∞)
    (x0 : Fin n → ℝ) :
    SmoothInput k (fun x : Fin n → ℝ => (o.updateParameters D (List.ofFn x)).1) x0 := by
  have sm := smooth_slot h0 hok k x0
  refine ⟨(smooth_written h0 hok k x0).same, fun m => ?_, fun m => ?_, fun e => ?_, fun e => ?_⟩
  · simp only [posOf_slots]
    exact ⟨sm _, sm _, sm _⟩
  · simp only [loadAt_slots]
    exact ⟨sm _, sm _, sm _⟩
  · simp only [lengthAt_slots]
    exact sm _
  · simp only [forceAt_slots]
    exact sm _

/-- The objective near the values of the parameters, and the entries of its gradient. -/
theorem computed_objective (P : ComputedPoint k o h D E F x0 tmax eta m) :
    ∃ f : (Fin n → ℝ) → ℝ, ContDiffAt ℝ k f x0 ∧
      (∀ᶠ x in 𝓝 x0, (o.optimizeForm tmax eta D (List.ofFn x)).2 = .ok (some (f x))) ∧
      (1 ≤ k → ∀ i : Fin n, o.adEntry tmax eta E n i = .ok (some (partialAt f x0 i))) := by
  have h0 := P.history.nonneg
  have hsl : ∀ q ∈ o.parameters, q.1 < n ∧ HasSlot D q.2.slot := by
    intro q hq
    refine P.slots _ _ ?_
    rw [← (regInv h).get, ← P.history]
    exact Dict.get?_of_mem P.history.nodup hq
  have hok : ∀ x : Fin n → ℝ, (o.updateParameters D (List.ofFn x)).2 = .ok () := fun x =>
    (Optimizer.writeParameters_ok _ _ _ h0).2 fun q hq => ⟨by simpa using (hsl q hq).1, (hsl q hq).2⟩
  have S := input_written h0 hok k x0
  have hs : ∀ x : Fin n → ℝ, SameExcept (fun s => ∃ q ∈ o.parameters, q.2.slot = s) D
      (o.updateParameters D (List.ofFn x)).1 := fun x =>
    Optimizer.writeParameters_same (List.ofFn x) o.parameters D
  have J : ∀ x : Fin n → ℝ, ValidInput (o.updateParameters D (List.ofFn x)).1 := fun x =>
    validInput_same (hs x) P.valid
  have hE : (o.updateParameters D (List.ofFn x0)).1 = E :=
    Spec.Carries.unique P.valid.wf.nodesNodup P.valid.wf.edgesNodup (carries_of_write h0 (hok x0)) P.carries
  have IE : ValidInput E := hE ▸ J x0
  obtain ⟨T, N, hT, hN, hg, hlt⟩ := goodSeqs_of_valid IE.wf IE.trails IE.nonempty
  have GE := goodSched IE.wf IE.trails hg none hlt
  have hsE : ∀ x : Fin n → ℝ, SameExcept (fun _ => True) E (o.updateParameters D (List.ofFn x)).1 := fun x => by
    have := S.same x
    simp only [hE] at this
    exact this
  have G : ∀ x : Fin n → ℝ, GoodSched (o.updateParameters D (List.ofFn x)).1 none (sched E T N) := fun x => by
    have := goodSched (J x).wf (J x).trails (goodSeqs_same (hsE x) hg) none (N := N) (by
      intro a ha q hq
      rw [(hsE x).nodeKeys] at ha
      rw [seqOf_same (hsE x)] at hq
      exact hlt a ha q hq)
    rw [sched_same (hsE x)] at this
    exact this
  have hF : ∀ j, 1 ≤ j → j ≤ m → F j = formOf E (iter E none (sched E T N) j) := by
    intro j h1 h2
    obtain ⟨T', N', s, e1, e2, e3, e4⟩ := P.runs.sweeps j h1 h2
    rw [hT] at e1
    rw [hN] at e2
    cases e1
    cases e2
    rw [sweepsN_eq IE.wf IE.trails hg] at e3
    rw [e4, ← Except.ok.inj e3]
  have sound := sound_of IE P.nonzero GE P.runs hF
  obtain ⟨m, rfl⟩ : ∃ i, m = i + 1 := by
    rcases P.stops with ⟨_, rfl⟩ | ⟨h, _⟩
    · exact ⟨0, rfl⟩
    · exact ⟨m - 1, by omega⟩
  have SN := computed_numbers (D := fun x : Fin n → ℝ => (o.updateParameters D (List.ofFn x)).1) (J x0) S
    (by rw [hE]; exact P.nonzero) G (by rw [hE]; exact sound)
  have hF0 : formOf (o.updateParameters D (List.ofFn x0)).1
      (iter (o.updateParameters D (List.ofFn x0)).1 none (sched E T N) (m + 1)) = F (m + 1) := by
    rw [hE, hF _ (by omega) le_rfl]
  have h4 : ∀ c ∈ o.constraints.vals, ContDiffAt ℝ k (fun x : Fin n → ℝ => formPenalty
      (formOf (o.updateParameters D (List.ofFn x)).1
        (iter (o.updateParameters D (List.ofFn x)).1 none (sched E T N) (m + 1))) c) x0 ∧
      ∀ᶠ x : Fin n → ℝ in 𝓝 x0, Clear 0 (formOf (o.updateParameters D (List.ofFn x)).1
        (iter (o.updateParameters D (List.ofFn x)).1 none (sched E T N) (m + 1))) c := fun c hc =>
    smooth_penalty SN (posed_same (hs x0) (P.posed c hc)) (fun m hm => mem_of_typeOf hm)
      (by simp only [hF0]; exact P.clear c hc)
  have h5 : ∀ᶠ x : Fin n → ℝ in 𝓝 x0, ∀ c ∈ o.constraints.vals,
      Clear 0 (formOf (o.updateParameters D (List.ofFn x)).1
        (iter (o.updateParameters D (List.ofFn x)).1 none (sched E T N) (m + 1))) c := by
    have : ∀ (A : (Fin n → ℝ) → Diagram ℝ) (l : List (Constraint ℝ)), (∀ c ∈ l, ∀ᶠ x in 𝓝 x0, Clear 0 (A x) c) →
        ∀ᶠ x in 𝓝 x0, ∀ c ∈ l, Clear 0 (A x) c := by
      intro A l
      induction l with
      | nil => simp
      | cons c l ih =>
        intro hl
        filter_upwards [hl c (by simp), ih fun c' hc' => hl c' (by simp [hc'])] with x a1 a2
        simpa using ⟨a1, a2⟩
    exact this _ _ fun c hc => (h4 c hc).2
  have hf : ContDiffAt ℝ k (fun x : Fin n → ℝ => (o.constraints.vals.map (formPenalty
      (formOf (o.updateParameters D (List.ofFn x)).1
        (iter (o.updateParameters D (List.ofFn x)).1 none (sched E T N) (m + 1))))).sum) x0 := by
    have : ∀ (A : (Fin n → ℝ) → Diagram ℝ) (l : List (Constraint ℝ)),
        (∀ c ∈ l, ContDiffAt ℝ k (fun x => formPenalty (A x) c) x0) →
        ContDiffAt ℝ k (fun x => (l.map (formPenalty (A x))).sum) x0 := by
      intro A l
      induction l with
      | nil => intro _; simpa using contDiffAt_const
      | cons c l ih =>
        intro hl
        simp only [List.map_cons, List.sum_cons]
        exact (hl c (by simp)).add (ih fun c' hc' => hl c' (by simp [hc']))
    exact this _ _ fun c hc => (h4 c hc).1
  have hstop := stops_near (D := fun x : Fin n → ℝ => (o.updateParameters D (List.ofFn x)).1) (J x0) S
    (by rw [hE]; exact hT) (by rw [hE]; exact hN) (by rw [hE]; exact hg) (by rw [hE]) (G x0)
    (by rw [hE]; exact sound) (F := F) (by rw [hE]; exact hF) (by rw [hE]; exact P.stops)
  have hlift := (smooth_iter (D := fun x : Fin n → ℝ => (o.updateParameters D (List.ofFn x)).1) (J x0) S
    (L := sched E T N) (m := m + 1) (by rw [hE]; exact sound) (m + 1) le_rfl).2
  refine ⟨_, hf, ?_, fun hk i => ?_⟩
  · filter_upwards [hstop, hlift, h5] with x a1 a2 a3
    have b2 := stateOf_iter (J x) (G x) m (t := nIter (o.updateParameters D (List.ofFn x)).1 (sched E T N) (m + 1))
      (by rw [a2]) (by rw [a2]) (by rw [a2])
    unfold Optimizer.optimizeForm
    have hp : ∀ c ∈ o.constraints.vals, Posed (o.updateParameters D (List.ofFn x)).1 c := fun c hc =>
      posed_same (hs x) (P.posed c hc)
    have hr := hok x
    rcases hu : o.updateParameters D (List.ofFn x) with ⟨D', r⟩
    rw [hu] at hr a1 a3 b2 hp
    simp only at hr a1 a3 b2 hp
    subst hr
    simp only [a1]
    exact penalties_form b2 fun c hc => ⟨hp c hc, a3 c hc⟩
  · have Tn := tangent_written h0 hsl x0 i
    rw [hE] at Tn
    have T0 : (o.updateParameters D (List.ofFn (x0 + (0 : ℝ) • Pi.single i 1))).1 = E := by
      rw [zero_smul, add_zero, hE]
    have hdist : ∀ j, 2 ≤ j → j ≤ m + 1 → nDist E (sched E T N) j = some (moved E (F (j - 1)) (F j)) := by
      have SE := smooth_iter (D := fun x : Fin n → ℝ => (o.updateParameters D (List.ofFn x)).1) (J x0) S
        (L := sched E T N) (m := m + 1) (by rw [hE]; exact sound)
      intro j g1 g2
      have l1 := (SE (j - 1) (by omega)).2.self_of_nhds
      have l2 := (SE j g2).2.self_of_nhds
      rw [hE] at l1 l2
      rw [distance_lifted IE _ l1 l2]
      obtain ⟨j, rfl⟩ : ∃ i, j = i + 2 := ⟨j - 2, by omega⟩
      unfold moved
      rw [hF _ (by omega) g2, hF _ (by omega) (by omega)]
      simp only [show j + 2 - 1 = j + 1 by omega, posOf_form IE.wf (finalSpec_sched IE.wf IE.trails GE _)]
    have ha := ad_stops (E := (o.updateParameters E.still (unitList n i)).1) IE hT hN hg hdist P.stops
    refine entry_of (hf.of_le hk) ha ?_ fun c hc => ⟨?_, ?_⟩
    · have A := along_run (D := fun t : ℝ => (o.updateParameters D (List.ofFn (x0 + t • Pi.single i 1))).1) (J _) Tn
        (by simp only [T0]; exact P.nonzero) (fun t => G _) (m := m) (by simp only [T0]; exact sound)
      have B := form_along (G := fun t : ℝ => formOf (o.updateParameters D (List.ofFn (x0 + t • Pi.single i 1))).1
        (iter (o.updateParameters D (List.ofFn (x0 + t • Pi.single i 1))).1 none (sched E T N) (m + 1)))
        (q := fun t => (iter (o.updateParameters D (List.ofFn (x0 + t • Pi.single i 1))).1 none (sched E T N) (m + 1),
          rAt (o.updateParameters D (List.ofFn (x0 + t • Pi.single i 1))).1
            (nxtK (o.updateParameters D (List.ofFn (x0 + t • Pi.single i 1))).1 none) (decide (m ≠ 0)) (sched E T N)
            (iter (o.updateParameters D (List.ofFn (x0 + t • Pi.single i 1))).1 none (sched E T N) m)))
        (J _) Tn.same (fun t => ⟨rfl, _, _, _, finalSpec_sched (J _).wf (J _).trails (G _) m⟩) A
      simp only [T0] at B
      exact B
    · have := posed_same (hs x0) (P.posed c hc)
      rw [hE] at this
      exact this
    · rw [hF0]
      exact clear_mono hk (P.clear c hc)

/-- What `grad_finite_differences` returns for small steps. -/
theorem computed_quotients (P : ComputedPoint k o h D E F x0 tmax eta m) {f : (Fin n → ℝ) → ℝ}
    (hf : ∀ᶠ x in 𝓝 x0, (o.optimizeForm tmax eta D (List.ofFn x)).2 = .ok (some (f x))) :
    ∀ᶠ d in 𝓝[≠] (0 : ℝ), ∀ E1, SameExcept (fun s => ∃ q ∈ o.parameters, q.2.slot = s) D E1 →
      ∀ grad : List (Num ℝ), grad.length = n → ∃ E2,
        gradFiniteDifferences (o.optimizeForm tmax eta) d E1 (List.ofFn x0) grad =
          ((E2, List.ofFn x0), .ok (List.ofFn fun i : Fin n =>
            some ((f (x0 + d • Pi.single i 1) - f x0) / d))) := by
  have hstep : ∀ᶠ d in 𝓝[≠] (0 : ℝ), ∀ i : Fin n,
      (o.optimizeForm tmax eta D (List.ofFn (x0 + d • Pi.single i 1))).2 =
        .ok (some (f (x0 + d • Pi.single i 1))) := by
    rw [eventually_all]
    exact fun i => (steps_tend x0 i).eventually hf
  filter_upwards [hstep, self_mem_nhdsWithin] with d hd hd0 E1 hs grad hg
  exact quotients_of P.history.nonneg P.valid hd0 hf.self_of_nhds hd hs hg

/-- **C81.**  Where no sweep is at a kink and form finding clearly stops, the value of the objective is a smooth
function of the values of the parameters, for every threshold and every valid diagram. -/
theorem C81_smooth (P : ComputedPoint k o h D E F x0 tmax eta m) :
    ∃ f : (Fin n → ℝ) → ℝ, ContDiffAt ℝ k f x0 ∧
      ∀ᶠ x in 𝓝 x0, (o.optimizeForm tmax eta D (List.ofFn x)).2 = .ok (some (f x)) := by
  obtain ⟨f, h1, h2, _⟩ := computed_objective P
  exact ⟨f, h1, h2⟩

/-- **C81.**  Automatic differentiation returns the partial derivatives of this function, whatever values of the
parameters were written into the diagram before, and finite differences with small steps come close to them. -/
theorem C81_gradients (P : ComputedPoint k o h D E F x0 tmax eta m) (hk : 1 ≤ k) :
    ∃ f : (Fin n → ℝ) → ℝ, ContDiffAt ℝ k f x0 ∧
      (∀ᶠ x in 𝓝 x0, (o.optimizeForm tmax eta D (List.ofFn x)).2 = .ok (some (f x))) ∧
      (∀ E1, SameExcept (fun s => ∃ q ∈ o.parameters, q.2.slot = s) D E1 →
        o.autograd tmax eta E1 (List.ofFn x0) = (E, .ok (List.ofFn fun i => some (partialAt f x0 i)))) ∧
      ∀ ε > 0, ∃ δ > 0, ∀ step : ℝ, 0 < |step| → |step| < δ →
        ∀ E1, SameExcept (fun s => ∃ q ∈ o.parameters, q.2.slot = s) D E1 →
        ∀ grad : List (Num ℝ), grad.length = n → ∃ (E2 : Diagram ℝ) (g : Fin n → ℝ),
          gradFiniteDifferences (o.optimizeForm tmax eta) step E1 (List.ofFn x0) grad =
            ((E2, List.ofFn x0), .ok (List.ofFn fun i => some (g i))) ∧
          ∀ i, |g i - partialAt f x0 i| ≤ ε := by
  obtain ⟨f, h1, h2, h3⟩ := computed_objective P
  refine ⟨f, h1, h2, fun E1 hs => autograd_of P.history.nonneg P.valid P.carries h2.self_of_nhds (h3 hk) hs,
    fun ε hε => ?_⟩
  have hd : DifferentiableAt ℝ f x0 := h1.differentiableAt (by
    rintro rfl
    simp at hk)
  have := (computed_quotients P h2).and (fd_converges hd hε)
  rw [eventually_nhdsWithin_iff, Metric.eventually_nhds_iff] at this
  obtain ⟨δ, hδ, H⟩ := this
  refine ⟨δ, hδ, fun step hs0 hs E1 hE1 grad hg => ?_⟩
  obtain ⟨h4, h5⟩ := H (y := step) (by simpa [Real.dist_eq] using hs) (by simpa using hs0)
  obtain ⟨E2, h6⟩ := h4 E1 hE1 grad hg
  exact ⟨E2, _, h6, h5⟩

/-- **C81.**  The error of finite differences is at most proportional to the step. -/
theorem C81_order (P : ComputedPoint k o h D E F x0 tmax eta m) (hk : 2 ≤ k) :
    ∃ C, ∃ δ > 0, ∀ step : ℝ, 0 < |step| → |step| < δ →
      ∀ E1, SameExcept (fun s => ∃ q ∈ o.parameters, q.2.slot = s) D E1 →
      ∀ grad : List (Num ℝ), grad.length = n → ∃ (E2 : Diagram ℝ) (g a : Fin n → ℝ),
        gradFiniteDifferences (o.optimizeForm tmax eta) step E1 (List.ofFn x0) grad =
          ((E2, List.ofFn x0), .ok (List.ofFn fun i => some (g i))) ∧
        o.autograd tmax eta E1 (List.ofFn x0) = (E, .ok (List.ofFn fun i => some (a i))) ∧
        ∀ i, |g i - a i| ≤ C * |step| := by
  obtain ⟨f, h1, h2, h3⟩ := computed_objective P
  obtain ⟨C, hC⟩ := fd_order (h1.of_le hk)
  have := (computed_quotients P h2).and hC
  rw [eventually_nhdsWithin_iff, Metric.eventually_nhds_iff] at this
  obtain ⟨δ, hδ, H⟩ := this
  refine ⟨C, δ, hδ, fun step hs0 hs E1 hE1 grad hg => ?_⟩
  obtain ⟨h4, h5⟩ := H (y := step) (by simpa [Real.dist_eq] using hs) (by simpa using hs0)
  obtain ⟨E2, h6⟩ := h4 E1 hE1 grad hg
  exact ⟨E2, _, _, h6, autograd_of P.history.nonneg P.valid P.carries h2.self_of_nhds
    (h3 (le_trans (by norm_num) hk)) hE1, h5⟩

end

/-! ## Example: a threshold that hides a parameter -/

/-- Trails of a form carry forces if the resultants do not vanish. -/
theorem carry_of_final {D : Diagram ℝ} (I : ValidInput D) {ind : Bool} {p s : EqState ℝ} {r : Int → Vec ℝ}
    {Q : Int → Int → Vec ℝ} (S : FinalSpec D none ind p s r Q)
    (hr : ∀ a b, trailNext D a = some b → r a ≠ 0) : TrailsCarry (formOf D s) := by
  intro e d hd ht
  obtain ⟨d0, h0⟩ := (Dict.exists_get?_iff D.edges e).2 (by
    rw [← show (formOf D s).edges.keys = D.edges.keys from formEdges_keys _ _]
    exact Dict.mem_keys_of_get? hd)
  obtain ⟨d', h1, h2, _⟩ := (computed_keeps_data I ⟨_, _, _, _, _, rfl, S⟩).2.2.2 e d0 h0
  rw [hd] at h1
  cases h1
  obtain ⟨a, b, hab, rfl⟩ := trail_ends I h0 (by rw [← h2]; exact ht)
  obtain ⟨d1, g1, _, g3⟩ := final_edge I S hab
  rw [hd] at g1
  cases g1
  have := Vec.length_pos (hr a b hab)
  rw [g3]
  unfold copysign
  rw [abs_of_pos this]
  split_ifs <;> linarith

namespace StaleEx

theorem stale_computed (k : WithTop ℕ∞) {tmax : Nat} (ht : 2 ≤ tmax) {eta : ℝ} (he : 0 < eta) :
    ComputedPoint k staleOpt staleHistory (stale 0) (stale 0) (fun j => formOf (stale 0) (pass 0 j)) ![0] tmax eta 2 := by
  have I := valid_stale 0
  obtain ⟨⟨a0, a2, a4⟩, a5, a3, a1, ar1, ar3⟩ := pass_one 0
  obtain ⟨⟨b0, b2, b4⟩, b5, b3, b1, br1, br3⟩ := pass_two 0 (by simp)
  have b3 : (pass 0 2).pos 3 = ⟨0, 0, 1⟩ := by rw [b3]; ext <;> norm_num
  have S1 := finalSpec_sched I.wf I.trails (stale_good 0).2 0
  have S2 := finalSpec_sched I.wf I.trails (stale_good 0).2 1
  obtain ⟨x0, x1, x2, x3, x4, x5⟩ := stale_next 0
  have hp : ∀ j, 1 ≤ j → j ≤ 2 → posOf (formOf (stale 0) (pass 0 j)) 0 = ⟨0, 0, -1⟩ ∧
      posOf (formOf (stale 0) (pass 0 j)) 1 = ⟨0, 0, -2⟩ ∧ posOf (formOf (stale 0) (pass 0 j)) 2 = ⟨0, 0, 0⟩ ∧
      posOf (formOf (stale 0) (pass 0 j)) 3 = ⟨0, 0, 1⟩ ∧ posOf (formOf (stale 0) (pass 0 j)) 4 = ⟨1, 0, -1⟩ ∧
      posOf (formOf (stale 0) (pass 0 j)) 5 = ⟨1, 0, 0⟩ := by
    intro j h1 h2
    rcases (by omega : j = 1 ∨ j = 2) with rfl | rfl
    · have := posOf_form I.wf S1
      exact ⟨(this 0).trans a0, (this 1).trans a1, (this 2).trans a2, (this 3).trans a3, (this 4).trans a4,
        (this 5).trans a5⟩
    · have := posOf_form I.wf S2
      exact ⟨(this 0).trans b0, (this 1).trans b1, (this 2).trans b2, (this 3).trans b3, (this 4).trans b4,
        (this 5).trans b5⟩
  have hnext : ∀ a b, trailNext (stale 0) a = some b → (a = 0 ∧ b = 1) ∨ (a = 2 ∧ b = 3) ∨ (a = 4 ∧ b = 5) := by
    intro a b hab
    have hak := (Follows.mem I.trails ((trailNext_iff I.wf I.trails).1 hab)).1
    rw [← nxtK_none I.wf I.trails] at hab
    rw [stale_keys] at hak
    simp only [List.mem_cons, List.not_mem_nil, or_false] at hak
    rcases hak with rfl | rfl | rfl | rfl | rfl | rfl <;> simp_all
  have hdev : ∀ i j, 1 ≤ i → i ≤ 2 → 1 ≤ j → j ≤ 2 → ∀ a b d, EdgeBetween (stale 0) a b d → d.type = .deviation →
      posOf (formOf (stale 0) (pass 0 i)) a ≠ posOf (formOf (stale 0) (pass 0 j)) b := by
    intro i j i1 i2 j1 j2 a b d hE hty
    obtain ⟨p0, -, p2, p3, -, p5⟩ := hp i i1 i2
    obtain ⟨q0, -, q2, q3, -, q5⟩ := hp j j1 j2
    have hab : (a = 0 ∧ b = 3) ∨ (a = 3 ∧ b = 0) ∨ (a = 2 ∧ b = 5) ∨ (a = 5 ∧ b = 2) := by
      rcases hE with hd | hd <;> rw [stale_edges] at hd <;> split_ifs at hd with h1 h2 h3 h4 h5 <;>
        simp at hd <;> subst hd <;> simp at hty <;> simp_all
    rcases hab with ⟨rfl, rfl⟩ | ⟨rfl, rfl⟩ | ⟨rfl, rfl⟩ | ⟨rfl, rfl⟩
    · rw [p0, q3]; intro h; have := congrArg Vec.z h; norm_num at this
    · rw [p3, q0]; intro h; have := congrArg Vec.z h; norm_num at this
    · rw [p2, q5]; intro h; have := congrArg Vec.x h; norm_num at this
    · rw [p5, q2]; intro h; have := congrArg Vec.x h; norm_num at this
  have hlow : unit (⟨0, 0, -2⟩ - ⟨0, 0, -1⟩ : Vec ℝ) = ⟨0, 0, -1⟩ := by
    rw [show (⟨0, 0, -2⟩ - ⟨0, 0, -1⟩ : Vec ℝ) = -⟨0, 0, 1⟩ by ext <;> norm_num, unit_neg, unit_up one_pos]
    ext <;> simp
  obtain ⟨F, P⟩ := stale_point k (tmax := 7) (by norm_num)
  refine ⟨P.history, P.slots, I, P.carries, nonzero_stale 0, ⟨?_, ?_, ?_, ?_, ?_⟩, Or.inr ⟨le_rfl, ht, ?_, ?_⟩,
    P.posed, ?_⟩
  · intro j h1 h2
    exact ⟨_, _, _, stale_seqs 0, stale_number 0, sweepsN_eq I.wf I.trails (stale_good 0).1 none 2 j, rfl⟩
  · intro j h1 h2
    have key : ∀ i, GoodSched (stale 0) none [0, 2, 4, 1, 3, 5] → (pass 0 (i + 1)).res 1 ≠ 0 →
        (pass 0 (i + 1)).res 3 ≠ 0 → TrailsCarry (formOf (stale 0) (pass 0 (i + 1))) := by
      intro i G r1 r3
      have S := finalSpec_sched I.wf I.trails G i
      obtain ⟨-, -, h4, -⟩ := stale_final 0 S
      refine carry_of_final I S fun a b hab => ?_
      rcases hnext a b hab with ⟨rfl, rfl⟩ | ⟨rfl, rfl⟩ | ⟨rfl, rfl⟩
      · rw [← (S.next 0 (by rw [stale_keys]; simp) 1 x0).2.1]
        exact r1
      · rw [← (S.next 2 (by rw [stale_keys]; simp) 3 x2).2.1]
        exact r3
      · rw [h4]
        intro h
        have := congrArg Vec.z h
        simp at this
    rcases (by omega : j = 1 ∨ j = 2) with rfl | rfl
    · exact key 0 (stale_good 0).2 ar1 ar3
    · exact key 1 (stale_good 0).2 br1 br3
  · exact fun j h1 h2 a b d hE hty _ => hdev j j h1 h2 h1 h2 a b d hE hty
  · exact fun j h1 h2 a b d p q hE hty _ _ _ => hdev (j + 1) j (by omega) h2 h1 (by omega) a b d hE hty
  · intro j h1 h2 a b d o N hf hb hpl
    right
    obtain ⟨p0, p1, p2, p3, -, -⟩ := hp j h1 h2
    have hab := hnext a b ((trailNext_iff I.wf I.trails).2 hf)
    unfold EdgeBetween at hb
    rw [stale_edges, stale_edges] at hb
    rcases hab with ⟨rfl, rfl⟩ | ⟨rfl, rfl⟩ | ⟨rfl, rfl⟩ <;> simp at hb <;> subst hb <;> simp at hpl <;>
      obtain ⟨rfl, rfl⟩ := hpl
    · rw [p0, p1, hlow]
      norm_num [Vec.dot]
    · rw [p2, p3, show (⟨0, 0, 1⟩ - ⟨0, 0, 0⟩ : Vec ℝ) = ⟨0, 0, 1⟩ by ext <;> norm_num, unit_up one_pos]
      norm_num [Vec.dot]
  · obtain ⟨p0, p1, p2, p3, p4, p5⟩ := hp 1 le_rfl (by norm_num)
    obtain ⟨q0, q1, q2, q3, q4, q5⟩ := hp 2 (by norm_num) le_rfl
    unfold moved
    rw [stale_keys]
    simp only [List.map_cons, List.map_nil, List.sum_cons, List.sum_nil, Nat.add_one_sub_one, p0, p1, p2, p3, p4, p5,
      q0, q1, q2, q3, q4, q5, Vec.dist, sub_self, Vec.length_zero]
    simpa using he
  · intro j g1 g2
    omega
  · rw [stale_goals]
    simp [Clear]

end StaleEx

open StaleEx in
/-- **C81, what a threshold hides.**  With any positive threshold, and so with the default one, automatic
differentiation returns zero for a parameter with respect to which the exact objective has slope -1/4, which is what
it returns if the threshold is zero. -/
theorem C81_stale {tmax : Nat} (ht : 6 < tmax) :
    (∀ eta : ℝ, 0 < eta → staleOpt.autograd tmax eta (stale 0) [0] = (stale 0, .ok [some 0])) ∧
    staleOpt.autograd tmax 0 (stale 0) [0] = (stale 0, .ok [some (-1 / 4)]) := by
  constructor
  · intro eta he
    obtain ⟨f, h1, h2, h3, -⟩ := C81_gradients (stale_computed 1 (tmax := tmax) (by omega) he) le_rfl
    have e : partialAt f ![0] 0 = 0 := by
      have hc : ContinuousAt (fun x : Fin 1 → ℝ => |x 0|) ![0] :=
        (continuous_apply (0 : Fin 1)).abs.continuousAt
      have c1 := hc.eventually_lt (continuousAt_const (y := (1 : ℝ))) (by simp)
      have c2 := hc.eventually_lt (continuousAt_const (y := 2 * eta)) (by simpa using he)
      have : f =ᶠ[𝓝 ![0]] fun _ => (1 : ℝ) := by
        filter_upwards [h2, c1, c2] with x g1 g2 g3
        rw [show List.ofFn x = [x 0] by simp, stale_value (x 0) 0 g2.le (by omega) (by linarith)] at g1
        simpa using g1.symm
      unfold partialAt
      rw [this.fderiv_eq]
      simp
    have := h3 _ (SameExcept.refl _ _)
    simpa [e] using this
  · obtain ⟨⟨F, P⟩, -, -, f, h1, h2, h3⟩ := C79_stale ht 1
    obtain ⟨g, g1, g2, g3⟩ := C80_gradient P
    have : g =ᶠ[𝓝 ![0]] f := by
      filter_upwards [h2, g2] with x e1 e2
      rw [e1] at e2
      simpa using e2.symm
    have e : partialAt g ![0] 0 = -1 / 4 := by
      rw [← h3]
      unfold partialAt
      rw [this.fderiv_eq]
    have := g3 _ (SameExcept.refl _ _)
    simpa [e] using this

/-! ## Example: positions that need themselves -/

namespace PairEx

/-- The forces of the two indirect edges are parameters, and the end of the first trail has a goal. -/
def pairHistory : List (RegOp (Param ℝ)) :=
  [.add (deviationEdgeParameter (0, 3) none none), .add (deviationEdgeParameter (2, 1) none none)]

def pairOpt : Optimizer ℝ := (runOps Optimizer.empty pairHistory).addConstraint (.point 1 ⟨1, 2, 0⟩ 1)

theorem pair_registered : pairOpt.parameters = [(0, deviationEdgeParameter (0, 3) none none),
    (1, deviationEdgeParameter (2, 1) none none)] := by
  simp [pairOpt, pairHistory, runOps, Optimizer.addConstraint, Optimizer.addParameter, Optimizer.empty, Dict.set]

theorem pair_goals : pairOpt.constraints.vals = [.point 1 ⟨1, 2, 0⟩ 1] := by
  simp [pairOpt, pairHistory, runOps, Optimizer.addConstraint, Optimizer.addParameter, Optimizer.empty, Dict.set,
    Dict.vals]

/-- The trails go along the y axis. -/
noncomputable abbrev cross : Diagram ℝ := pair ⟨0, 1, 0⟩ 0 0

theorem cross_keys : cross.nodes.keys = [0, 1, 2, 3] := rfl

theorem cross_next : nxtK cross none 0 = some 1 ∧ nxtK cross none 1 = none ∧ nxtK cross none 2 = some 3 ∧
    nxtK cross none 3 = none := ⟨rfl, rfl, rfl, rfl⟩

theorem cross_seqs : cross.trailsSequences = .ok [(0, [(0, 0), (1, 1)]), (2, [(0, 2), (1, 3)])] := rfl
theorem cross_number : cross.numberOfSequences = .ok 2 := rfl

theorem cross_good : GoodSeqs cross [(0, [(0, 0), (1, 1)]), (2, [(0, 2), (1, 3)])] ∧
    GoodSched cross none [0, 2, 1, 3] := by
  have I := valid_pair ⟨0, 1, 0⟩ 0 0
  obtain ⟨T, N, hT, hN, hg, hlt⟩ := goodSeqs_of_valid I.wf I.trails I.nonempty
  rw [cross_seqs] at hT
  rw [cross_number] at hN
  obtain rfl := Except.ok.inj hT
  obtain rfl := Except.ok.inj hN
  exact ⟨hg, goodSched I.wf I.trails hg none hlt⟩

theorem cross_data : edgeData cross 0 1 = ⟨.trail, -2, 0, none⟩ ∧ edgeData cross 2 3 = ⟨.trail, -2, 0, none⟩ ∧
    edgeData cross 0 3 = ⟨.deviation, 0, 0, none⟩ ∧ edgeData cross 2 1 = ⟨.deviation, 0, 0, none⟩ := by
  have hh : ∀ e, cross.edges.has e = decide (e ∈ cross.edges.keys) := by
    intro e
    rw [Bool.eq_iff_iff, Dict.has_iff, decide_eq_true_iff]
  have hk : cross.edges.keys = [(0, 1), (2, 3), (0, 3), (2, 1)] := rfl
  unfold edgeData edgeKey
  simp only [hh, hk, pair_edges]
  simp

/-- The form after any sweep. -/
theorem cross_final {ind : Bool} {p s : EqState ℝ} {r : Int → Vec ℝ} {Q : Int → Int → Vec ℝ}
    (S : FinalSpec cross none ind p s r Q) : s.pos 0 = ⟨0, 0, 0⟩ ∧ s.pos 1 = ⟨0, 2, 0⟩ ∧ s.pos 2 = ⟨1, 0, 0⟩ ∧
      s.pos 3 = ⟨1, 2, 0⟩ ∧ r 0 = ⟨0, -1, 0⟩ ∧ r 2 = ⟨0, -1, 0⟩ := by
  obtain ⟨x0, x1, x2, x3⟩ := cross_next
  obtain ⟨d1, d2, d3, d4⟩ := cross_data
  have hb : (dirNbrs cross 0 = [] ∧ indNbrs cross 0 = [3]) ∧ dirNbrs cross 2 = [] ∧ indNbrs cross 2 = [1] :=
    ⟨⟨rfl, rfl⟩, rfl, rfl⟩
  have st : ∀ n : Int, n = 0 ∨ n = 2 → s.pos n = posOf cross n ∧ s.res n = 0 := by
    intro n hn
    obtain ⟨h1, h2⟩ := S.start n fun a ha => by
      rw [cross_keys] at ha
      simp only [List.mem_cons, List.not_mem_nil, or_false] at ha
      rcases ha with rfl | rfl | rfl | rfl <;> rcases hn with rfl | rfl <;> simp [x0, x1, x2, x3]
    rw [h1, h2]
    rcases hn with rfl | rfl <;> exact ⟨rfl, rfl⟩
  obtain ⟨p0, t0⟩ := st 0 (by simp)
  obtain ⟨p2, t2⟩ := st 2 (by simp)
  have ps : posOf cross 0 = ⟨0, 0, 0⟩ ∧ posOf cross 2 = ⟨1, 0, 0⟩ := by
    unfold posOf; simp [pair_nodes]
  have ld : loadOf cross 0 = ⟨0, 1, 0⟩ ∧ loadOf cross 2 = ⟨0, 1, 0⟩ := by
    unfold loadOf; simp [pair_nodes]
  rw [ps.1] at p0
  rw [ps.2] at p2
  have o0 := S.out 0 (by rw [cross_keys]; simp)
  have o2 := S.out 2 (by rw [cross_keys]; simp)
  unfold outVec at o0 o2
  rw [t0, ld.1, hb.1.1, hb.1.2] at o0
  rw [t2, ld.2, hb.2.1, hb.2.2] at o2
  have r0 : r 0 = ⟨0, -1, 0⟩ := by
    rw [o0]
    cases ind <;> ext <;> simp [devSum, devTerm_real, d3]
  have r2 : r 2 = ⟨0, -1, 0⟩ := by
    rw [o2]
    cases ind <;> ext <;> simp [devSum, devTerm_real, d4]
  have hu : unit (⟨0, -1, 0⟩ : Vec ℝ) = ⟨0, -1, 0⟩ := by
    have : Vec.length (⟨0, -1, 0⟩ : Vec ℝ) = 1 := by simp [Vec.length_def, Vec.dot]
    unfold unit; rw [this]; simp
  obtain ⟨q1, -⟩ := S.next 0 (by rw [cross_keys]; simp) 1 x0
  obtain ⟨q3, -⟩ := S.next 2 (by rw [cross_keys]; simp) 3 x2
  refine ⟨p0, ?_, p2, ?_, r0, r2⟩
  · rw [q1, d1, p0, r0, normalize_eq_unit, hu]
    ext <;> simp [effectiveLength]
  · rw [q3, d2, p2, r2, normalize_eq_unit, hu]
    ext <;> simp [effectiveLength]

theorem cross_computed (k : WithTop ℕ∞) {tmax : Nat} (ht : 2 ≤ tmax) {eta : ℝ} (he : 0 < eta) :
    ComputedPoint k pairOpt pairHistory cross cross (fun j => formOf cross (iter cross none [0, 2, 1, 3] j)) ![0, 0]
      tmax eta 2 := by
  have I := valid_pair ⟨0, 1, 0⟩ 0 0
  have FS := fun i => finalSpec_sched I.wf I.trails cross_good.2 i
  have hp : ∀ j, 1 ≤ j → posOf (formOf cross (iter cross none [0, 2, 1, 3] j)) 0 = ⟨0, 0, 0⟩ ∧
      posOf (formOf cross (iter cross none [0, 2, 1, 3] j)) 1 = ⟨0, 2, 0⟩ ∧
      posOf (formOf cross (iter cross none [0, 2, 1, 3] j)) 2 = ⟨1, 0, 0⟩ ∧
      posOf (formOf cross (iter cross none [0, 2, 1, 3] j)) 3 = ⟨1, 2, 0⟩ := by
    intro j h1
    obtain ⟨i, rfl⟩ : ∃ i, j = i + 1 := ⟨j - 1, by omega⟩
    have := posOf_form I.wf (FS i)
    obtain ⟨a0, a1, a2, a3, -⟩ := cross_final (FS i)
    exact ⟨(this 0).trans a0, (this 1).trans a1, (this 2).trans a2, (this 3).trans a3⟩
  have hdev : ∀ i j, 1 ≤ i → 1 ≤ j → ∀ a b d, EdgeBetween cross a b d → d.type = .deviation →
      posOf (formOf cross (iter cross none [0, 2, 1, 3] i)) a ≠
        posOf (formOf cross (iter cross none [0, 2, 1, 3] j)) b := by
    intro i j i1 j1 a b d hE hty
    obtain ⟨p0, p1, p2, p3⟩ := hp i i1
    obtain ⟨q0, q1, q2, q3⟩ := hp j j1
    have hab : (a = 0 ∧ b = 3) ∨ (a = 3 ∧ b = 0) ∨ (a = 2 ∧ b = 1) ∨ (a = 1 ∧ b = 2) := by
      rcases hE with hd | hd <;> rw [pair_edges] at hd <;> split_ifs at hd with h1 h2 h3 h4 <;>
        simp at hd <;> subst hd <;> simp at hty <;> simp_all
    rcases hab with ⟨rfl, rfl⟩ | ⟨rfl, rfl⟩ | ⟨rfl, rfl⟩ | ⟨rfl, rfl⟩
    · rw [p0, q3]; intro h; have := congrArg Vec.x h; norm_num at this
    · rw [p3, q0]; intro h; have := congrArg Vec.x h; norm_num at this
    · rw [p2, q1]; intro h; have := congrArg Vec.x h; norm_num at this
    · rw [p1, q2]; intro h; have := congrArg Vec.x h; norm_num at this
  refine ⟨?_, ?_, I, ⟨SameExcept.refl _ _, ?_⟩, nonzero_pair _ 0 0, ⟨?_, ?_, ?_, ?_, ?_⟩,
    Or.inr ⟨le_rfl, ht, ?_, ?_⟩, ?_, ?_⟩
  · unfold HasHistory
    rw [pair_registered]
    simp [pairHistory, runOps, Optimizer.addParameter, Optimizer.empty, Dict.set]
  · intro j p hr
    rw [← (regInv pairHistory).get] at hr
    have e : (runOps (Optimizer.empty : Optimizer ℝ) pairHistory).parameters =
        [(0, deviationEdgeParameter (0, 3) none none), (1, deviationEdgeParameter (2, 1) none none)] := by
      simp [pairHistory, runOps, Optimizer.addParameter, Optimizer.empty, Dict.set]
    have hk : cross.edges.keys = [(0, 1), (2, 3), (0, 3), (2, 1)] := rfl
    rw [e] at hr
    simp only [Dict.get?] at hr
    split_ifs at hr with h1 h2 <;> cases hr
    · subst h1
      exact ⟨by norm_num, by simp [deviationEdgeParameter, HasSlot, hk]⟩
    · subst h2
      exact ⟨by norm_num, by simp [deviationEdgeParameter, HasSlot, hk]⟩
  · intro l1 j p l2 e _
    have hm : (j, p) ∈ pairOpt.parameters := by rw [e]; simp
    rw [pair_registered] at hm
    simp only [List.mem_cons, Prod.mk.injEq, List.not_mem_nil, or_false] at hm
    rcases hm with ⟨rfl, rfl⟩ | ⟨rfl, rfl⟩
    · exact ⟨0, by simp, ⟨_, by rw [pair_edges]; simp; rfl, rfl⟩⟩
    · exact ⟨0, by simp, ⟨_, by rw [pair_edges]; simp; rfl, rfl⟩⟩
  · intro j _ _
    exact ⟨_, _, _, cross_seqs, cross_number, sweepsN_eq I.wf I.trails cross_good.1 none 2 j, rfl⟩
  · intro j h1 _
    obtain ⟨i, rfl⟩ : ∃ i, j = i + 1 := ⟨j - 1, by omega⟩
    obtain ⟨-, -, -, -, r0, r2⟩ := cross_final (FS i)
    obtain ⟨x0, x1, x2, x3⟩ := cross_next
    refine carry_of_final I (FS i) fun a b hab => ?_
    have hak := (Follows.mem I.trails ((trailNext_iff I.wf I.trails).1 hab)).1
    rw [← nxtK_none I.wf I.trails] at hab
    rw [cross_keys] at hak
    simp only [List.mem_cons, List.not_mem_nil, or_false] at hak
    rcases hak with rfl | rfl | rfl | rfl
    · rw [r0]; intro h; have := congrArg Vec.y h; simp at this
    · rw [x1] at hab; simp at hab
    · rw [r2]; intro h; have := congrArg Vec.y h; simp at this
    · rw [x3] at hab; simp at hab
  · exact fun j h1 _ a b d hE hty _ => hdev j j h1 h1 a b d hE hty
  · exact fun j h1 _ a b d p q hE hty _ _ _ => hdev (j + 1) j (by omega) h1 a b d hE hty
  · intro j _ _ a b d o N _ hb hpl
    unfold EdgeBetween at hb
    rw [pair_edges, pair_edges] at hb
    rcases hb with h | h <;> split_ifs at h <;> simp at h <;> subst h <;> simp at hpl
  · obtain ⟨p0, p1, p2, p3⟩ := hp 1 le_rfl
    obtain ⟨q0, q1, q2, q3⟩ := hp 2 (by norm_num)
    unfold moved
    rw [cross_keys]
    simp only [List.map_cons, List.map_nil, List.sum_cons, List.sum_nil, Nat.add_one_sub_one, p0, p1, p2, p3,
      q0, q1, q2, q3, Vec.dist, sub_self, Vec.length_zero]
    simpa using he
  · intro j g1 g2
    omega
  · rw [pair_goals]
    simp [Posed, cross_keys]
  · rw [pair_goals]
    simp [Clear]

end PairEx

open PairEx in
/-- The trails are joined crosswise, so that positions need themselves.  The gradient with the default threshold. -/
example : ¬ Acyclic cross ∧ ∃ f : (Fin 2 → ℝ) → ℝ, ContDiffAt ℝ 2 f ![0, 0] ∧
    (∀ᶠ x in 𝓝 ![0, 0], (pairOpt.optimizeForm 100 (1 / 1000000) cross (List.ofFn x)).2 = .ok (some (f x))) ∧
    pairOpt.autograd 100 (1 / 1000000) cross [0, 0] =
      (cross, .ok [some (partialAt f ![0, 0] 0), some (partialAt f ![0, 0] 1)]) := by
  obtain ⟨f, h1, h2, h3, -⟩ := C81_gradients (cross_computed 2 (tmax := 100) (by norm_num)
    (eta := 1 / 1000000) (by norm_num)) (by norm_num)
  exact ⟨feedback_pair 0 0, f, h1, h2, by simpa using h3 _ (SameExcept.refl _ _)⟩

open PairEx in
/-- Both kinds of gradients are close. -/
example : ∃ C, ∃ δ > 0, ∀ step : ℝ, 0 < |step| → |step| < δ → ∃ (E2 : Diagram ℝ) (g a : Fin 2 → ℝ),
    gradFiniteDifferences (pairOpt.optimizeForm 100 (1 / 1000000)) step cross [0, 0] [none, none] =
      ((E2, [0, 0]), .ok [some (g 0), some (g 1)]) ∧
    pairOpt.autograd 100 (1 / 1000000) cross [0, 0] = (cross, .ok [some (a 0), some (a 1)]) ∧
    ∀ i, |g i - a i| ≤ C * |step| := by
  obtain ⟨C, δ, hδ, H⟩ := C81_order (cross_computed 2 (tmax := 100) (by norm_num)
    (eta := 1 / 1000000) (by norm_num)) le_rfl
  refine ⟨C, δ, hδ, fun step h1 h2 => ?_⟩
  obtain ⟨E2, g, a, h3, h4, h5⟩ := H step h1 h2 _ (SameExcept.refl _ _) [none, none] rfl
  exact ⟨E2, g, a, by simpa using h3, by simpa using h4, h5⟩

end Props
end CEM
