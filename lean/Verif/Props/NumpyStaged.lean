import Verif.Props.Numpy
import Verif.Props.Staged

/-!
# The numpy solver on problems without feedback (C33)

`C33_direct` compares the two solvers on problems without indirect deviation edges.  Here indirect
deviation edges are admitted as long as no position needs itself.  A division by zero in an early
sweep, before the positions have settled, writes NaN; it is overwritten in later sweeps, so that in
the end only the form that the plain solver finds decides.
-/

set_option linter.unusedSectionVars false
set_option linter.unusedSimpArgs false

namespace CEM
namespace Props
open Diagram Spec EqEx

/-! ## Sweeps of the numpy solver settle stage by stage -/

/-- Two states agree in the position of a node and in the trail vector that arrives there. -/
def AgreeN (t t' : NState ℝ) (m : Int) : Prop :=
  t.xyz.get? m = t'.xyz.get? m ∧ t.residual.get? m = t'.residual.get? m

theorem AgreeN.pos {t t' : NState ℝ} {m : Int} (h : AgreeN t t' m) : t.pos m = t'.pos m := by
  unfold NState.pos; rw [h.1]

theorem AgreeN.res {t t' : NState ℝ} {m : Int} (h : AgreeN t t' m) : t.res m = t'.res m := by
  unfold NState.res; rw [h.2]

theorem devSumN_congr {D : Diagram ℝ} {P P' : Int → NVec ℝ} {n : Int} (hn : P n = P' n)
    (l : List Int) (acc : NVec ℝ) (h : ∀ m ∈ l, P m = P' m) :
    devSumN D P n l acc = devSumN D P' n l acc := by
  induction l generalizing acc with
  | nil => rfl
  | cons m l ih =>
    have e1 : devSumN D P n (m :: l) acc =
      devSumN D P n l (lift2 (· + ·) acc (devTermN D P n m)) := rfl
    have e2 : devSumN D P' n (m :: l) acc =
      devSumN D P' n l (lift2 (· + ·) acc (devTermN D P' n m)) := rfl
    have e3 : devTermN D P n m = devTermN D P' n m := by
      unfold devTermN; rw [h m (by simp), hn]
    rw [e1, e2, e3]
    exact ih _ fun x hx => h x (by simp [hx])

theorem outVecN_congr {D : Diagram ℝ} {P P' : Int → NVec ℝ} {n : Int} {ind ind' : Bool}
    (hn : P n = P' n) (hd : ∀ m ∈ dirNbrs D n, P m = P' m)
    (hi : ∀ m ∈ indNbrs D n, ind = true ∧ ind' = true ∧ P m = P' m) (t : NVec ℝ) :
    outVecN D ind P t n = outVecN D ind' P' t n := by
  unfold outVecN
  rw [devSumN_congr hn _ _ hd]
  congr 1
  rcases h0 : indNbrs D n with _ | ⟨m, l⟩
  · cases ind <;> cases ind' <;> rfl
  · rw [h0] at hi
    obtain ⟨h1, h2, _⟩ := hi m (by simp)
    rw [if_pos h1, if_pos h2]
    exact devSumN_congr hn _ _ fun m hm => (hi m hm).2.2

theorem nfold_staged {D : Diagram ℝ} (I : ValidInput D) {stage : Int → Nat} (St : Staged D stage)
    {L : List Int} (G : GoodSched D none L) {i j : Nat} {ind ind' : Bool}
    (hi : 1 ≤ i → ind = true) (hj : 1 ≤ j → ind' = true) {s s' : NState ℝ}
    (hst : ∀ m, (∀ a ∈ L, nxtK D none a ≠ some m) → AgreeN s s' m)
    (hprev : ∀ m ∈ D.nodes.keys, stage m < i → stage m < j → AgreeN s s' m)
    (L1 L2 : List Int) (h : L = L1 ++ L2) :
    ∀ m ∈ D.nodes.keys, (stage m < i ∧ stage m < j ∨ stage m ≤ i ∧ stage m ≤ j ∧
        ((∀ a ∈ L, nxtK D none a ≠ some m) ∨ ∃ a ∈ L1, nxtK D none a = some m)) →
      AgreeN (L1.foldl (nproc D (nxtK D none) ind) s) (L1.foldl (nproc D (nxtK D none) ind') s') m := by
  induction L1 using List.reverseRecOn generalizing L2 with
  | nil =>
    intro m hm hc
    rcases hc with ⟨h1, h2⟩ | ⟨_, _, h3 | ⟨a, ha, _⟩⟩
    · exact hprev m hm h1 h2
    · exact hst m h3
    · simp at ha
  | append_singleton L1 n ih =>
    have hsplit : L = L1 ++ n :: L2 := by simpa using h
    have i1 := ih (n :: L2) hsplit
    simp only [List.foldl_append, List.foldl_cons, List.foldl_nil]
    generalize L1.foldl (nproc D (nxtK D none) ind) s = t at i1 ⊢
    generalize L1.foldl (nproc D (nxtK D none) ind') s' = t' at i1 ⊢
    have hnk : n ∈ D.nodes.keys := (G.mem n).1 (by rw [hsplit]; simp)
    have known : ∀ b, stage b ≤ i → stage b ≤ j → ∀ x ∈ D.nodes.keys, stage x ≤ stage b →
        rankOf D x ≤ rankOf D n → AgreeN t t' x := by
      intro b hb1 hb2 x hx hs hr
      refine i1 x hx (Or.inr ⟨by omega, by omega, ?_⟩)
      by_cases hex : ∃ a ∈ L, nxtK D none a = some x
      · obtain ⟨a, ha, hax⟩ := hex
        refine Or.inr ⟨a, ?_, hax⟩
        have := G.sched.rank_succ a x hax
        exact mem_before G.sched.sorted hsplit ha (by omega)
      · push Not at hex; exact Or.inl hex
    intro m hm hc
    unfold nproc
    cases hn : nxtK D none n with
    | none =>
      refine i1 m hm ?_
      rcases hc with hc | ⟨h1, h2, h3 | ⟨a, ha, ham⟩⟩
      · exact Or.inl hc
      · exact Or.inr ⟨h1, h2, Or.inl h3⟩
      · rcases List.mem_append.1 ha with ha | ha
        · exact Or.inr ⟨h1, h2, Or.inr ⟨a, ha, ham⟩⟩
        · simp only [List.mem_singleton] at ha; subst ha; rw [hn] at ham; simp at ham
    | some m0 =>
      by_cases e : m0 = m
      · subst e
        have hle : stage m0 ≤ i ∧ stage m0 ≤ j := by
          rcases hc with ⟨h1, h2⟩ | ⟨h1, h2, _⟩
          · exact ⟨h1.le, h2.le⟩
          · exact ⟨h1, h2⟩
        have hf : Follows D n m0 := (trailNext_iff I.wf I.trails).1
          (by rw [← nxtK_none I.wf I.trails]; exact hn)
        have hnn := known m0 hle.1 hle.2 n hnk (St.before n m0 hf) le_rfl
        have nbr : ∀ x ∈ D.neighbors n, EdgeBetween D n x (edgeData D n x) :=
          fun x hx => (edgeBetween_iff I.simple).2 ⟨hx, rfl⟩
        obtain ⟨q, hq, e1, e2⟩ := Follows.seq I.trails hf
        have hout : outVecN D ind t.pos (t.res n) n = outVecN D ind' t'.pos (t'.res n) n := by
          rw [hnn.res]
          refine outVecN_congr hnn.pos (fun x hx => ?_) (fun x hx => ?_) _
          · obtain ⟨h1, h2⟩ := List.mem_filter.1 hx
            simp only [decide_eq_true_eq] at h2
            exact (known m0 hle.1 hle.2 x (mem_keys_of_nbr I.wf h1).1
              (St.direct n m0 x _ hf (nbr x h1) h2.1 h2.2) (rank_dirNbr hx).le).pos
          · obtain ⟨h1, h2⟩ := List.mem_filter.1 hx
            simp only [decide_eq_true_eq] at h2
            have hxk := (mem_keys_of_nbr I.wf h1).1
            obtain ⟨p, hp, _⟩ := allSequenced_of_valid I.trails x hxk
            rcases lt_trichotomy p q with hlt | heq | hgt
            · obtain ⟨g1, g2⟩ := St.earlier n m0 x _ _ _ hf (nbr x h1) h2.1 e1 hp hlt
              refine ⟨hi (by omega), hj (by omega), (known m0 hle.1 hle.2 x hxk g2 ?_).pos⟩
              unfold rankOf
              rw [hp, e1]
              exact hlt.le
            · exact absurd (by rw [e1, hp, heq]) h2.2
            · have g := St.later n m0 x _ _ _ hf (nbr x h1) h2.1 e1 hp hgt
              exact ⟨hi (by omega), hj (by omega),
                (i1 x hxk (Or.inl ⟨by omega, by omega⟩)).pos⟩
        unfold AgreeN
        simp only [Dict.get?_set_self]
        rw [hout, hnn.pos]
        exact ⟨rfl, rfl⟩
      · unfold AgreeN
        simp only [Dict.get?_set, if_neg e]
        refine i1 m hm ?_
        rcases hc with hc | ⟨h1, h2, h3 | ⟨a, ha, ham⟩⟩
        · exact Or.inl hc
        · exact Or.inr ⟨h1, h2, Or.inl h3⟩
        · rcases List.mem_append.1 ha with ha | ha
          · exact Or.inr ⟨h1, h2, Or.inr ⟨a, ha, ham⟩⟩
          · simp only [List.mem_singleton] at ha; subst ha; rw [hn] at ham
            exact absurd (Option.some.inj ham) e

/-- Consecutive sweeps of the numpy solver; after the first sweep indirect edges are used. -/
structure NRounds (D : Diagram ℝ) (L : List Int) (ind : Nat → Bool) (A : Nat → NState ℝ) : Prop where
  ind_pos : ∀ i, 1 ≤ i → ind i = true
  step : ∀ i, A (i + 1) = L.foldl (nproc D (nxtK D none) (ind i)) (A i)
  keys : ∀ i, GoodNState D (A i)
  start : ∀ m, (∀ a ∈ L, nxtK D none a ≠ some m) → AgreeN (A 0) (npInit D) m

theorem NRounds.starts {D : Diagram ℝ} {L : List Int} {ind : Nat → Bool} {A : Nat → NState ℝ}
    (H : NRounds D L ind A) (i : Nat) {m : Int} (hm : ∀ a ∈ L, nxtK D none a ≠ some m) :
    AgreeN (A i) (npInit D) m := by
  induction i with
  | zero => exact H.start m hm
  | succ i ih =>
    have := (nproc_kept (D := D) (nxt := nxtK D none) (ind := ind i) L (A i)).1 m hm
    rw [← H.step] at this
    exact ⟨this.1.trans ih.1, this.2.trans ih.2⟩

/-- A node of stage `k` is the same in all states from number `k + 1` on. -/
theorem NRounds.agree {D : Diagram ℝ} (I : ValidInput D) {stage : Int → Nat} (St : Staged D stage)
    {L : List Int} (G : GoodSched D none L) {ind ind' : Nat → Bool} {A B : Nat → NState ℝ}
    (HA : NRounds D L ind A) (HB : NRounds D L ind' B) (i j : Nat) {m : Int}
    (hm : m ∈ D.nodes.keys) (hi : stage m < i) (hj : stage m < j) : AgreeN (A i) (B j) m := by
  induction i generalizing j m with
  | zero => omega
  | succ i ih =>
    obtain ⟨j, rfl⟩ : ∃ j', j = j' + 1 := ⟨j - 1, by omega⟩
    rw [HA.step, HB.step]
    refine nfold_staged I St G (HA.ind_pos i) (HB.ind_pos j) (fun x hx => ?_)
      (fun x hx h1 h2 => ih j hx h1 h2) L [] (by simp) m hm (Or.inr ⟨by omega, by omega, ?_⟩)
    · have h1 := HA.starts i hx
      have h2 := HB.starts j hx
      exact ⟨h1.1.trans h2.1.symm, h1.2.trans h2.2.symm⟩
    · by_cases hex : ∃ a ∈ L, nxtK D none a = some m
      · exact Or.inr hex
      · push Not at hex; exact Or.inl hex

theorem nRounds_iter {D : Diagram ℝ} (I : ValidInput D) (L : List Int) :
    NRounds D L (fun j => decide (j > 0)) (nIter D L) :=
  ⟨fun i hi => by simp; omega, fun _ => rfl, fun i => goodNState_iter I.wf I.trails L i,
    fun _ _ => ⟨rfl, rfl⟩⟩

/-- States with the same positions and trail vectors give the same results. -/
theorem nfold_same {D : Diagram ℝ} {nxt : Int → Option Int} {ind : Bool} (l : List Int)
    {s s' : NState ℝ} (h : ∀ m, AgreeN s s' m) :
    (∀ m, AgreeN (l.foldl (nproc D nxt ind) s) (l.foldl (nproc D nxt ind) s') m) ∧
    (∀ n ∈ l, nxt n = none → (l.foldl (nproc D nxt ind) s).reactions.get? n =
      (l.foldl (nproc D nxt ind) s').reactions.get? n) ∧
    (∀ n ∈ l, ∀ m, nxt n = some m → (l.foldl (nproc D nxt ind) s).trailForces.get? (edgeKey D n m) =
      (l.foldl (nproc D nxt ind) s').trailForces.get? (edgeKey D n m)) ∧
    (∀ n ∈ l, ∀ m, nxt n = some m → (l.foldl (nproc D nxt ind) s).trailDirs.get? (edgeKey D n m) =
      (l.foldl (nproc D nxt ind) s').trailDirs.get? (edgeKey D n m)) := by
  induction l using List.reverseRecOn with
  | nil => exact ⟨h, by simp, by simp, by simp⟩
  | append_singleton l n ih =>
    obtain ⟨i1, i2, i3, i4⟩ := ih
    simp only [List.foldl_append, List.foldl_cons, List.foldl_nil]
    generalize l.foldl (nproc D nxt ind) s = t at *
    generalize l.foldl (nproc D nxt ind) s' = t' at *
    have hpos : t.pos = t'.pos := funext fun m => (i1 m).pos
    unfold nproc
    rw [hpos, (i1 n).res]
    cases hn : nxt n with
    | none =>
      refine ⟨i1, fun a ha hna => ?_, fun a ha m ham => ?_, fun a ha m ham => ?_⟩
      · simp only [Dict.get?_set]
        by_cases e : n = a
        · simp [e]
        · rw [if_neg e, if_neg e]
          exact i2 a (by simpa [Ne.symm e] using ha) hna
      · have hne : a ≠ n := by rintro rfl; rw [hn] at ham; simp at ham
        exact i3 a (by simpa [hne] using ha) m ham
      · have hne : a ≠ n := by rintro rfl; rw [hn] at ham; simp at ham
        exact i4 a (by simpa [hne] using ha) m ham
    | some m0 =>
      refine ⟨fun m => ?_, fun a ha hna => ?_, fun a ha m ham => ?_, fun a ha m ham => ?_⟩
      · unfold AgreeN
        simp only [Dict.get?_set]
        by_cases e : m0 = m
        · simp [e]
        · rw [if_neg e, if_neg e, if_neg e, if_neg e]
          exact i1 m
      · have hne : a ≠ n := by rintro rfl; rw [hn] at hna; simp at hna
        exact i2 a (by simpa [hne] using ha) hna
      · simp only [Dict.get?_set]
        by_cases e : edgeKey D n m0 = edgeKey D a m
        · rw [if_pos e, if_pos e]
        · rw [if_neg e, if_neg e]
          have hne : a ≠ n := by
            rintro rfl; rw [hn] at ham; exact e (by rw [Option.some.inj ham])
          exact i3 a (by simpa [hne] using ha) m ham
      · simp only [Dict.get?_set]
        by_cases e : edgeKey D n m0 = edgeKey D a m
        · rw [if_pos e, if_pos e]
        · rw [if_neg e, if_neg e]
          have hne : a ≠ n := by
            rintro rfl; rw [hn] at ham; exact e (by rw [Option.some.inj ham])
          exact i4 a (by simpa [hne] using ha) m ham

/-- Once all stages are passed the states agree in everything that a sweep writes. -/
theorem NRounds.agree_all {D : Diagram ℝ} (I : ValidInput D) {stage : Int → Nat} (St : Staged D stage)
    {L : List Int} (G : GoodSched D none L) {ind ind' : Nat → Bool} {A B : Nat → NState ℝ}
    (HA : NRounds D L ind A) (HB : NRounds D L ind' B) {N : Nat}
    (hN : ∀ n ∈ D.nodes.keys, stage n ≤ N) (i j : Nat) (hi : N + 2 ≤ i) (hj : N + 2 ≤ j) :
    (∀ m, AgreeN (A i) (B j) m) ∧
    (∀ n ∈ D.nodes.keys, nxtK D none n = none → (A i).reactions.get? n = (B j).reactions.get? n) ∧
    (∀ n ∈ D.nodes.keys, ∀ m, nxtK D none n = some m →
      (A i).trailForces.get? (edgeKey D n m) = (B j).trailForces.get? (edgeKey D n m)) ∧
    (∀ n ∈ D.nodes.keys, ∀ m, nxtK D none n = some m →
      (A i).trailDirs.get? (edgeKey D n m) = (B j).trailDirs.get? (edgeKey D n m)) := by
  obtain ⟨i, rfl⟩ : ∃ i', i = i' + 1 := ⟨i - 1, by omega⟩
  obtain ⟨j, rfl⟩ : ∃ j', j = j' + 1 := ⟨j - 1, by omega⟩
  have h : ∀ m, AgreeN (A i) (B j) m := by
    intro m
    by_cases hm : m ∈ D.nodes.keys
    · have := hN m hm
      exact NRounds.agree I St G HA HB i j hm (by omega) (by omega)
    · constructor
      · rw [(Dict.get?_eq_none_iff _ _).2 (by rw [(HA.keys i).1]; exact hm),
          (Dict.get?_eq_none_iff _ _).2 (by rw [(HB.keys j).1]; exact hm)]
      · rw [(Dict.get?_eq_none_iff _ _).2 (by rw [(HA.keys i).2]; exact hm),
          (Dict.get?_eq_none_iff _ _).2 (by rw [(HB.keys j).2]; exact hm)]
  rw [HA.step, HB.step, HA.ind_pos i (by omega), HB.ind_pos j (by omega)]
  obtain ⟨h1, h2, h3, h4⟩ := nfold_same (D := D) (nxt := nxtK D none) (ind := true) L h
  exact ⟨h1, fun n hn => h2 n ((G.mem n).2 hn), fun n hn => h3 n ((G.mem n).2 hn),
    fun n hn => h4 n ((G.mem n).2 hn)⟩

/-! ## NaN stays -/

/-- NaN or the same. -/
def LeN {α : Type} (a b : Option α) : Prop := a = none ∨ a = b

theorem LeN.map {α β : Type} {a b : Option α} (h : LeN a b) (f : α → β) : LeN (a.map f) (b.map f) := by
  rcases h with rfl | rfl
  · exact Or.inl rfl
  · exact Or.inr rfl

theorem LeN.lift2 {α β γ : Type} {a b : Option α} {c d : Option β} (f : α → β → γ) (h : LeN a b)
    (g : LeN c d) : LeN (CEM.lift2 f a c) (CEM.lift2 f b d) := by
  rcases h with rfl | rfl
  · exact Or.inl (lift2_none_left f c)
  · rcases g with rfl | rfl
    · exact Or.inl (lift2_none_right f a)
    · exact Or.inr rfl

theorem LeN.normalize {a b : NVec ℝ} (h : LeN a b) : LeN (normalizeNumpy a) (normalizeNumpy b) := by
  rcases h with rfl | rfl
  · exact Or.inl rfl
  · exact Or.inr rfl

theorem LeN.direction {a b : NVec ℝ} (h : LeN a b) : LeN (npDirection a) (npDirection b) := by
  rcases h with rfl | rfl
  · exact Or.inl rfl
  · exact Or.inr rfl

theorem devSumN_mono {D : Diagram ℝ} {P P' : Int → NVec ℝ} (h : ∀ m, LeN (P m) (P' m)) (n : Int)
    (l : List Int) {acc acc' : NVec ℝ} (ha : LeN acc acc') :
    LeN (devSumN D P n l acc) (devSumN D P' n l acc') := by
  induction l generalizing acc acc' with
  | nil => exact ha
  | cons m l ih =>
    have e1 : devSumN D P n (m :: l) acc =
      devSumN D P n l (CEM.lift2 (· + ·) acc (devTermN D P n m)) := rfl
    have e2 : devSumN D P' n (m :: l) acc' =
      devSumN D P' n l (CEM.lift2 (· + ·) acc' (devTermN D P' n m)) := rfl
    rw [e1, e2]
    exact ih (LeN.lift2 _ ha ((LeN.lift2 _ (h m) (h n)).normalize.map _))

theorem outVecN_mono {D : Diagram ℝ} {P P' : Int → NVec ℝ} (h : ∀ m, LeN (P m) (P' m)) (ind : Bool)
    {t t' : NVec ℝ} (ht : LeN t t') (n : Int) : LeN (outVecN D ind P t n) (outVecN D ind P' t' n) := by
  unfold outVecN npNodeEquilibrium
  refine (LeN.lift2 _ (LeN.lift2 _ (LeN.lift2 _ (ht.map _) (Or.inr rfl))
    (devSumN_mono h n _ (Or.inr rfl))) ?_).map _
  cases ind
  · exact Or.inr rfl
  · exact devSumN_mono h n _ (Or.inr rfl)

/-- In positions and trail vectors, NaN or the same. -/
def BelowN (t t' : NState ℝ) : Prop :=
  ∀ m, (t.xyz.get? m = some none ∨ t.xyz.get? m = t'.xyz.get? m) ∧
    (t.residual.get? m = some none ∨ t.residual.get? m = t'.residual.get? m)

theorem BelowN.refl (t : NState ℝ) : BelowN t t := fun _ => ⟨Or.inr rfl, Or.inr rfl⟩

theorem BelowN.trans {t u v : NState ℝ} (h : BelowN t u) (g : BelowN u v) : BelowN t v := by
  intro m
  obtain ⟨h1, h2⟩ := h m
  obtain ⟨g1, g2⟩ := g m
  constructor
  · rcases h1 with h1 | h1
    · exact Or.inl h1
    · rw [h1]; exact g1
  · rcases h2 with h2 | h2
    · exact Or.inl h2
    · rw [h2]; exact g2

theorem BelowN.pos {t t' : NState ℝ} (h : BelowN t t') (m : Int) : LeN (t.pos m) (t'.pos m) := by
  unfold NState.pos
  rcases (h m).1 with h | h <;> rw [h]
  · exact Or.inl rfl
  · exact Or.inr rfl

theorem BelowN.res {t t' : NState ℝ} (h : BelowN t t') (m : Int) : LeN (t.res m) (t'.res m) := by
  unfold NState.res
  rcases (h m).2 with h | h <;> rw [h]
  · exact Or.inl rfl
  · exact Or.inr rfl

theorem BelowN.out {D : Diagram ℝ} {ind : Bool} {t t' : NState ℝ} (h : BelowN t t') (n : Int) :
    LeN (outVecN D ind t.pos (t.res n) n) (outVecN D ind t'.pos (t'.res n) n) :=
  outVecN_mono h.pos ind (h.res n) n

theorem leO_of {a b : NVec ℝ} (h : LeN a b) : some a = some none ∨ some a = some b := by
  rcases h with rfl | rfl
  · exact Or.inl rfl
  · exact Or.inr rfl

theorem BelowN.nproc {D : Diagram ℝ} {nxt : Int → Option Int} {ind : Bool} {t t' : NState ℝ}
    (h : BelowN t t') (n : Int) : BelowN (nproc D nxt ind t n) (nproc D nxt ind t' n) := by
  intro m
  unfold CEM.nproc
  cases hn : nxt n with
  | none => exact h m
  | some m0 =>
    have hout := h.out (D := D) (ind := ind) n
    have hlen : LeN (lenN D n m0 (t.pos n) (outVecN D ind t.pos (t.res n) n))
        (lenN D n m0 (t'.pos n) (outVecN D ind t'.pos (t'.res n) n)) ∨ t.pos n = none := by
      rcases h.pos n with hp | hp
      · exact Or.inr hp
      · refine Or.inl ?_
        rw [hp]
        rcases hout with ho | ho
        · rw [ho]
          unfold lenN npEffectiveLength npPlaneLength
          cases (edgeData D n m0).plane with
          | none => exact Or.inr rfl
          | some q => exact Or.inl rfl
        · rw [ho]; exact Or.inr rfl
    simp only [Dict.get?_set]
    by_cases e : m0 = m
    · simp only [if_pos e]
      refine ⟨leO_of ?_, leO_of hout⟩
      rcases hlen with hlen | hp
      · exact LeN.lift2 _ (h.pos n) (LeN.lift2 _ hlen hout.direction)
      · rw [hp]; exact Or.inl (lift2_none_left _ _)
    · simp only [if_neg e]
      exact h m

theorem BelowN.lift {D : Diagram ℝ} {nxt : Int → Option Int} {ind : Bool} (u : EqState ℝ) (n : Int) :
    BelowN (CEM.nproc D nxt ind (liftS u) n) (liftS (proc D nxt ind u n)) := by
  by_cases hc : Clean D nxt ind u n
  · rw [nproc_clean hc]
    exact BelowN.refl _
  · intro m
    by_cases h1 : ∀ m ∈ allNbrs D ind n, Vec.length (u.pos m - u.pos n) ≠ 0
    · have h2 : ∃ m, nxt n = some m ∧ (edgeData D n m).plane ≠ none ∧
          Vec.length (outVec D ind u.pos (u.res n) n) = 0 := by
        by_contra hc'
        push Not at hc'
        exact hc ⟨h1, hc'⟩
      obtain ⟨m0, hm0, hp, hr⟩ := h2
      unfold CEM.nproc
      rw [liftS_res, funext_pos, outVecN_clean D ind u.pos _ n h1, hm0, proc_some hm0]
      simp only [lenN_nan D n m0 _ _ hp hr, lift2_none_left, lift2_none_right, Dict.get?_set]
      simp only [liftS, ← mapVal_set, Dict.get?_set]
      by_cases e : m0 = m
      · simp only [if_pos e, true_or, or_true, and_self]
      · simp only [if_neg e, or_true, and_self]
    · push Not at h1
      obtain ⟨x, hx, hz⟩ := h1
      have hout : outVecN D ind (liftS u).pos ((liftS u).res n) n = none := by
        apply outVecN_nan
        refine ⟨x, hx, ?_⟩
        rw [funext_pos, devTermN_some, if_pos hz]
      unfold CEM.nproc
      rw [hout]
      cases hn : nxt n with
      | none =>
        rw [proc_none hn]
        exact ⟨Or.inr rfl, Or.inr rfl⟩
      | some m0 =>
        have : npDirection (none : NVec ℝ) = none := rfl
        rw [proc_some hn]
        simp only [this, lift2_none_right, Dict.get?_set]
        simp only [liftS, ← mapVal_set, Dict.get?_set]
        by_cases e : m0 = m
        · simp only [if_pos e, true_or, and_self]
        · simp only [if_neg e, or_true, and_self]

theorem BelowN.fold {D : Diagram ℝ} {nxt : Int → Option Int} {ind : Bool} (l : List Int)
    {t t' : NState ℝ} (h : BelowN t t') :
    BelowN (l.foldl (CEM.nproc D nxt ind) t) (l.foldl (CEM.nproc D nxt ind) t') := by
  induction l generalizing t t' with
  | nil => exact h
  | cons n l ih => exact ih (h.nproc n)

theorem BelowN.fold_lift {D : Diagram ℝ} {nxt : Int → Option Int} {ind : Bool} (l : List Int)
    (u : EqState ℝ) :
    BelowN (l.foldl (CEM.nproc D nxt ind) (liftS u)) (liftS (l.foldl (proc D nxt ind) u)) := by
  induction l generalizing u with
  | nil => exact BelowN.refl _
  | cons n l ih => exact (BelowN.fold l (BelowN.lift u n)).trans (ih _)

/-- A NaN that a sweep writes is also written by a sweep that starts with the same numbers and more
NaN. -/
theorem BelowN.nan {D : Diagram ℝ} {nxt : Int → Option Int} {rank : Int → Int} {ind : Bool}
    {L : List Int} (S : Sched nxt rank L) {t t' : NState ℝ} (h : BelowN t t') {n : Int} (hn : n ∈ L)
    (hx : NaNAt nxt (L.foldl (CEM.nproc D nxt ind) t') n) :
    NaNAt nxt (L.foldl (CEM.nproc D nxt ind) t) n := by
  rcases hx with ⟨h1, h2⟩ | ⟨m, h1, h2⟩
  · obtain ⟨L1, L2, hL⟩ := List.append_of_mem hn
    have hnd := S.nodup
    rw [hL] at hnd
    have hn2 : n ∉ L2 := (List.nodup_cons.1 (List.nodup_append.1 hnd).2.1).1
    have hval : ∀ s : NState ℝ, (L.foldl (CEM.nproc D nxt ind) s).reactions.get? n =
        some (outVecN D ind (L1.foldl (CEM.nproc D nxt ind) s).pos
          ((L1.foldl (CEM.nproc D nxt ind) s).res n) n) := by
      intro s
      rw [hL, List.foldl_append, List.foldl_cons, (nproc_kept L2 _).2 n hn2]
      unfold CEM.nproc
      rw [h1]
      simp only [Dict.get?_set_self]
    rw [hval] at h2
    refine Or.inl ⟨h1, ?_⟩
    rw [hval]
    rcases (BelowN.fold L1 h).out (D := D) (ind := ind) n with ho | ho
    · rw [ho]
    · rw [ho]; exact h2
  · refine Or.inr ⟨m, h1, ?_⟩
    rcases (BelowN.fold (D := D) (nxt := nxt) (ind := ind) L h m).1 with ho | ho
    · exact ho
    · rw [ho]; exact h2

/-! ## The settled round -/

theorem mem_allNbrs {D : Diagram ℝ} {n m : Int} :
    m ∈ allNbrs D true n ↔ m ∈ D.neighbors n ∧ (edgeData D n m).type = .deviation := by
  unfold allNbrs dirNbrs indNbrs
  simp only [if_true, List.mem_append, List.mem_filter, decide_eq_true_eq]
  by_cases h : seqOf D n = seqOf D m
  · simp only [h, and_true, ne_eq, not_true, and_false, or_false]
  · simp only [h, and_false, ne_eq, not_false_eq_true, and_true, false_or]

/-- A sweep that repeats the positions divides by zero exactly if the form has a deviation edge of
length zero or an unstressed trail edge with a plane. -/
theorem clean_settled {D : Diagram ℝ} (I : ValidInput D) {L : List Int} (G : GoodSched D none L)
    {m : Nat} (hm : m ≠ 0)
    (hp : ∀ n ∈ D.nodes.keys, (iter D none L m).pos n = (iter D none L (m + 1)).pos n) :
    (∀ n ∈ L, Clean D (nxtK D none) (decide (m ≠ 0))
      (stateAt D (nxtK D none) (decide (m ≠ 0)) L (iter D none L m) n) n) ↔
    Nondegenerate (formOf D (iter D none L (m + 1))) := by
  have S := finalSpec_sched I.wf I.trails G m
  have htrue : decide (m ≠ 0) = true := by simpa using hm
  have hpos : ∀ n ∈ D.nodes.keys, ∀ b ∈ D.nodes.keys,
      (stateAt D (nxtK D none) (decide (m ≠ 0)) L (iter D none L m) n).pos b =
        posOf (formOf D (iter D none L (m + 1))) b := by
    intro n hn b hbk
    rw [posOf_form I.wf S]
    rcases S.seen_any n hn b with e | e
    · exact e.trans (hp b hbk)
    · exact e
  constructor
  · intro h
    refine ⟨?_, ?_⟩
    · intro a b d hab ht he
      rw [formOf_edge S] at hab
      obtain ⟨d0, hd0, rfl⟩ := Option.map_eq_some_iff.1 hab
      have ht : d0.type = .deviation := by
        rwa [(signedLength_type _ _ _).1] at ht
      have hk := Dict.mem_keys_of_get? hd0
      have hak := I.wf.edge_left _ hk
      have hbk := I.wf.edge_right _ hk
      have hnb : b ∈ D.neighbors a := mem_neighbors.2 (Or.inl hk)
      have hkey : edgeKey D a b = (a, b) := by
        unfold edgeKey; rw [if_pos ((Dict.has_iff _ _).2 hk)]
      refine (h a ((G.mem a).2 hak)).nbrs b ?_ ?_
      · rw [htrue]
        exact mem_allNbrs.2 ⟨hnb, by simp [edgeData, hkey, hd0, ht]⟩
      · rw [hpos a hak b hbk, hpos a hak a hak, he, sub_self, Vec.length_zero]
    · intro e d hed ht hp' hf
      rw [formOf_edge S] at hed
      obtain ⟨d0, hd0, rfl⟩ := Option.map_eq_some_iff.1 hed
      obtain ⟨k1, k2, k3⟩ := signedLength_type (formOf D (iter D none L (m + 1))).nodes e
        { d0 with force := ((iter D none L (m + 1)).trailForces.get? e).getD d0.force }
      rw [k1] at ht
      rw [k2] at hp'
      rw [k3] at hf
      simp only at ht hp' hf
      obtain ⟨a, b, hab, hkey⟩ : ∃ a b, nxtK D none a = some b ∧ edgeKey D a b = e := by
        obtain ⟨a, b⟩ := e
        have hk := edgeKey_of_mem I.simple (Dict.mem_keys_of_get? hd0)
        obtain ⟨key, tr, htr, hc | hc⟩ := I.trails.complete a b (Or.inl ⟨d0, hd0, ht⟩)
        · exact ⟨a, b, (nxtK_none I.wf I.trails a).trans
            ((trailNext_iff I.wf I.trails).2 ⟨key, tr, htr, hc⟩), hk.1⟩
        · exact ⟨b, a, (nxtK_none I.wf I.trails b).trans
            ((trailNext_iff I.wf I.trails).2 ⟨key, tr, htr, hc⟩), hk.2⟩
      have hnk := (nxtK_mem I.wf I.trails hab).2
      have hdata : edgeData D a b = d0 := by simp [edgeData, hkey, hd0]
      have hforce := (S.next a hnk b hab).2.2.1
      rw [hkey] at hforce
      rw [hforce, Option.getD_some] at hf
      have hr := (h a ((G.mem a).2 hnk)).plane b hab (by rw [hdata]; exact hp')
      have hr' : Vec.length (rAt D (nxtK D none) (decide (m ≠ 0)) L (iter D none L m) a) ≠ 0 := hr
      apply hr'
      unfold copysign at hf
      split_ifs at hf <;> simpa using hf
  · intro h n hnL
    have hn := (G.mem n).1 hnL
    refine ⟨?_, ?_⟩
    · intro b hb hz
      rw [htrue] at hb
      obtain ⟨hnb, ht⟩ := mem_allNbrs.1 hb
      have hbk := (mem_keys_of_nbr I.wf hnb).1
      have hed := edgeKey_mem hnb
      rw [Vec.length_eq_zero, sub_eq_zero, hpos n hn b hbk, hpos n hn n hn] at hz
      have hF := formOf_edge S (e := edgeKey D n b)
      rw [hed] at hF
      rcases edgeKey_ends D n b with e | e <;> rw [e] at hF
      · exact h.deviation _ _ _ hF (by rw [(signedLength_type _ _ _).1]; exact ht) hz.symm
      · exact h.deviation _ _ _ hF (by rw [(signedLength_type _ _ _).1]; exact ht) hz
    · intro b hb hp' hz
      have htr := nxtK_trail hb
      have ht := edgeData_trail' I.wf I.trails I.simple htr
      have hed := edgeKey_mem (adj_mem_neighbors (trailNext_adj I.wf I.trails htr))
      have hF := formOf_edge S (e := edgeKey D n b)
      rw [hed] at hF
      have hforce := (S.next n hn b hb).2.2.1
      have hz' : Vec.length (rAt D (nxtK D none) (decide (m ≠ 0)) L (iter D none L m) n) = 0 := hz
      obtain ⟨k1, k2, k3⟩ := signedLength_type (formOf D (iter D none L (m + 1))).nodes
        (edgeKey D n b) { edgeData D n b with
          force := ((iter D none L (m + 1)).trailForces.get? (edgeKey D n b)).getD
            (edgeData D n b).force }
      refine h.plane _ _ hF (by rw [k1]; exact ht) (by rw [k2]; exact hp') ?_
      rw [k3]
      simp only
      rw [hforce, Option.getD_some, hz']
      simp [copysign]

/-- Sweeps of the numpy solver from a given state. -/
noncomputable def nFrom (D : Diagram ℝ) (L : List Int) (s : NState ℝ) : Nat → NState ℝ
  | 0 => s
  | j + 1 => L.foldl (nproc D (nxtK D none) true) (nFrom D L s j)

theorem npDistance_nonneg {last new : Dict Int (NVec ℝ)} {d : ℝ} (h : npDistance last new = some d) :
    0 ≤ d := by
  unfold npDistance at h
  obtain ⟨x, _, rfl⟩ := Option.map_eq_some_iff.1 h
  exact Real.sqrt_nonneg x

theorem keys_like {D : Diagram ℝ} (L : List Int) (m : Nat) :
    (nIter D L m).reactions.keys = (iter D none L m).reactions.keys ∧
    (nIter D L m).trailForces.keys = (iter D none L m).trailForces.keys := by
  have fold : ∀ (l : List Int) (ind ind' : Bool) (t : NState ℝ) (u : EqState ℝ),
      t.reactions.keys = u.reactions.keys → t.trailForces.keys = u.trailForces.keys →
      (l.foldl (nproc D (nxtK D none) ind) t).reactions.keys =
        (l.foldl (proc D (nxtK D none) ind') u).reactions.keys ∧
      (l.foldl (nproc D (nxtK D none) ind) t).trailForces.keys =
        (l.foldl (proc D (nxtK D none) ind') u).trailForces.keys := by
    intro l ind ind'
    induction l with
    | nil => intro t u h1 h2; exact ⟨h1, h2⟩
    | cons n l ih =>
      intro t u h1 h2
      rw [List.foldl_cons, List.foldl_cons]
      apply ih
      · unfold nproc proc
        cases nxtK D none n with
        | none => simp only [Dict.keys_set, h1]
        | some m => exact h1
      · unfold nproc proc
        cases nxtK D none n with
        | none => exact h2
        | some m => simp only [Dict.keys_set, h2]; congr
  induction m with
  | zero => exact ⟨rfl, rfl⟩
  | succ m ih => exact fold L _ _ _ _ ih.1 ih.2

theorem agree_liftS {D : Diagram ℝ} {u v : EqState ℝ} (hu : GoodState D u) (hv : GoodState D v)
    (hp : ∀ n ∈ D.nodes.keys, u.pos n = v.pos n) (hr : ∀ n ∈ D.nodes.keys, u.res n = v.res n) (m : Int) :
    AgreeN (liftS u) (liftS v) m := by
  unfold AgreeN liftS
  simp only [mapVal_get?]
  by_cases hm : m ∈ D.nodes.keys
  · obtain ⟨a, ha⟩ := (Dict.exists_get?_iff u.xyz m).2 (by rw [hu.1]; exact hm)
    obtain ⟨b, hb⟩ := (Dict.exists_get?_iff v.xyz m).2 (by rw [hv.1]; exact hm)
    obtain ⟨c, hc⟩ := (Dict.exists_get?_iff u.residual m).2 (by rw [hu.2]; exact hm)
    obtain ⟨d, hd⟩ := (Dict.exists_get?_iff v.residual m).2 (by rw [hv.2]; exact hm)
    have h1 := hp m hm
    have h2 := hr m hm
    unfold EqState.pos at h1
    unfold EqState.res at h2
    rw [ha, hb] at h1 ⊢
    rw [hc, hd] at h2 ⊢
    simp only [Option.getD_some] at h1 h2
    rw [h1, h2]
    exact ⟨rfl, rfl⟩
  · rw [(Dict.get?_eq_none_iff u.xyz m).2 (by rw [hu.1]; exact hm),
      (Dict.get?_eq_none_iff v.xyz m).2 (by rw [hv.1]; exact hm),
      (Dict.get?_eq_none_iff u.residual m).2 (by rw [hu.2]; exact hm),
      (Dict.get?_eq_none_iff v.residual m).2 (by rw [hv.2]; exact hm)]
    exact ⟨rfl, rfl⟩

theorem goodNState_lift {D : Diagram ℝ} {u : EqState ℝ} (hu : GoodState D u) :
    GoodNState D (liftS u) := by
  unfold liftS
  exact ⟨(mapVal_keys _ _).trans hu.1, (mapVal_keys _ _).trans hu.2⟩

/-- After all stages have passed, the numpy solver has the numbers of the plain solver, or a NaN. -/
theorem nIter_settled {D : Diagram ℝ} (I : ValidInput D) {stage : Int → Nat} (St : Staged D stage)
    {N : Nat} (hN : ∀ n ∈ D.nodes.keys, stage n ≤ N) {L : List Int} (G : GoodSched D none L) {m : Nat}
    (hm : N + 1 ≤ m) :
    (Nondegenerate (formOf D (iter D none L (m + 1))) →
      (nIter D L (m + 1)).xyz = (liftS (iter D none L (m + 1))).xyz ∧
      (nIter D L (m + 1)).reactions = (liftS (iter D none L (m + 1))).reactions ∧
      (nIter D L (m + 1)).trailForces = (liftS (iter D none L (m + 1))).trailForces) ∧
    (¬ Nondegenerate (formOf D (iter D none L (m + 1))) →
      ∃ n ∈ L, NaNAt (nxtK D none) (nIter D L (m + 1)) n) := by
  have w := I.wf
  have V := I.trails
  have A := rounds_iter I G
  have hagree : ∀ n ∈ D.nodes.keys, (iter D none L m).pos n = (iter D none L (m + 1)).pos n ∧
      (iter D none L m).res n = (iter D none L (m + 1)).res n := by
    intro n hn
    obtain ⟨k, rfl⟩ : ∃ k, m = k + 1 := ⟨m - 1, by omega⟩
    have h := hN n hn
    exact Rounds.agree I St A A n hn k (k + 1) (by omega) (by omega)
  have g : ∀ j, GoodState D (iter D none L j) := fun j => goodState_iter w V none L j
  have hm0 : m ≠ 0 := by omega
  have htrue : decide (m ≠ 0) = true := by simpa using hm0
  have hclean := clean_settled I G hm0 fun n hn => (hagree n hn).1
  have hlift : ∀ x, AgreeN (liftS (iter D none L m)) (liftS (iter D none L (m + 1))) x :=
    agree_liftS (g m) (g (m + 1)) (fun n hn => (hagree n hn).1) fun n hn => (hagree n hn).2
  have hstep : iter D none L (m + 1) = L.foldl (proc D (nxtK D none) true) (iter D none L m) := by
    rw [iter, htrue]
  set B := nFrom D L (liftS (iter D none L m)) with hB
  have hB0 : B 0 = liftS (iter D none L m) := rfl
  have hB1 : ∀ j, B (j + 1) = L.foldl (nproc D (nxtK D none) true) (B j) := fun _ => rfl
  have HB : NRounds D L (fun _ => true) B := by
    refine ⟨fun _ _ => rfl, hB1, fun j => ?_, fun x hx => ?_⟩
    · induction j with
      | zero => exact goodNState_lift (g m)
      | succ j ih => rw [hB1]; exact ih.fold w V L
    · have h1 := (iter_start G m).1 x fun n hn => hx n ((G.mem n).2 hn)
      have e : npInit D = liftS (iter D none L 0) := (liftS_init D).symm
      rw [e, hB0]
      unfold AgreeN liftS
      simp only [mapVal_get?]
      by_cases hxk : x ∈ D.nodes.keys
      · have hx1 : ∀ j, (iter D none L j).xyz.get? x = some ((iter D none L j).pos x) := by
          intro j
          obtain ⟨a, ha⟩ := (Dict.exists_get?_iff (iter D none L j).xyz x).2 (by
            rw [(g j).1]; exact hxk)
          unfold EqState.pos
          rw [ha]; rfl
        have hx2 : ∀ j, (iter D none L j).residual.get? x = some ((iter D none L j).res x) := by
          intro j
          obtain ⟨a, ha⟩ := (Dict.exists_get?_iff (iter D none L j).residual x).2 (by
            rw [(g j).2]; exact hxk)
          unfold EqState.res
          rw [ha]; rfl
        rw [hx1, hx1, hx2, hx2, h1.1, h1.2]
        exact ⟨rfl, rfl⟩
      · rw [(Dict.get?_eq_none_iff _ x).2 (by rw [(g m).1]; exact hxk),
          (Dict.get?_eq_none_iff _ x).2 (by rw [(g 0).1]; exact hxk),
          (Dict.get?_eq_none_iff _ x).2 (by rw [(g m).2]; exact hxk),
          (Dict.get?_eq_none_iff _ x).2 (by rw [(g 0).2]; exact hxk)]
        exact ⟨rfl, rfl⟩
  obtain ⟨a1, a2, a3, _⟩ := NRounds.agree_all I St G (nRounds_iter I L) HB hN (m + 1) (N + 2)
    (by omega) (by omega)
  rw [htrue] at hclean
  have hcases := sweep_clean_or_nan (D := D) (ind := true) G.sched (iter D none L m)
  rw [← hstep, ← hB0, ← hB1] at hcases
  constructor
  · intro hn
    have h1 : B 1 = liftS (iter D none L (m + 1)) := by
      rcases hcases with ⟨_, h⟩ | ⟨h, _⟩
      · exact h
      · exact absurd (hclean.2 hn) h
    have hsame : ∀ j x, AgreeN (B j) (B 0) x := by
      intro j
      induction j with
      | zero => exact fun x => ⟨rfl, rfl⟩
      | succ j ih =>
        intro x
        have k1 := (nfold_same (D := D) (nxt := nxtK D none) (ind := true) L ih).1 x
        rw [← hB1, ← hB1, h1] at k1
        have k2 := hlift x
        rw [hB0]
        exact ⟨k1.1.trans k2.1.symm, k1.2.trans k2.2.symm⟩
    obtain ⟨b1, b2, b3, _⟩ := nfold_same (D := D) (nxt := nxtK D none) (ind := true) L (hsame (N + 1))
    rw [← hB1, ← hB1, h1] at b1 b2 b3
    have gn := goodNState_iter w V L (m + 1)
    have gl := goodNState_lift (g (m + 1))
    obtain ⟨k1, k2⟩ := keys_like (D := D) L (m + 1)
    have S := finalSpec_sched w V G m
    refine ⟨Dict.ext_get? (by rw [gn.1]; exact w.nodesNodup) (gn.1.trans gl.1.symm) fun x _ =>
      (a1 x).1.trans (b1 x).1, Dict.ext_get? (nIter_nodup _) (k1.trans (mapVal_keys _ _).symm)
        fun x hx => ?_, Dict.ext_get? (by rw [k2]; exact S.forceNodup)
        (k2.trans (mapVal_keys _ _).symm) fun e he => ?_⟩
    · rw [k1] at hx
      obtain ⟨v, hv⟩ := (Dict.exists_get?_iff _ x).2 hx
      have hr := S.react x
      rw [hv] at hr
      by_cases hc : x ∈ D.nodes.keys ∧ nxtK D none x = none
      · exact (a2 x hc.1 hc.2).trans (b2 x ((G.mem x).2 hc.1) hc.2)
      · rw [if_neg hc] at hr
        simp at hr
    · rw [k2] at he
      obtain ⟨v, hv⟩ := (Dict.exists_get?_iff _ e).2 he
      by_cases hc : ∀ a ∈ D.nodes.keys, ∀ b, nxtK D none a = some b → edgeKey D a b ≠ e
      · have := S.force e hc
        rw [hv] at this
        simp at this
      · push Not at hc
        obtain ⟨a, ha, b, hab, rfl⟩ := hc
        exact (a3 a ha b hab).trans (b3 a ((G.mem a).2 ha) b hab)
  · intro hn
    obtain ⟨n, hnL, hnan⟩ : ∃ n ∈ L, NaNAt (nxtK D none) (B 1) n := by
      rcases hcases with ⟨h, _⟩ | ⟨_, h⟩
      · exact absurd (hclean.1 h) hn
      · exact h
    have hdown : ∀ j, BelowN (B (j + 1)) (B j) := by
      intro j
      induction j with
      | zero =>
        have h1 := BelowN.fold_lift (D := D) (nxt := nxtK D none) (ind := true) L (iter D none L m)
        rw [← hstep, ← hB0, ← hB1] at h1
        refine h1.trans fun x => ?_
        have := hlift x
        exact ⟨Or.inr this.1.symm, Or.inr this.2.symm⟩
      | succ j ih => rw [hB1 (j + 1), hB1 j]; exact ih.fold L
    have hall : ∀ j, NaNAt (nxtK D none) (B (j + 1)) n := by
      intro j
      induction j with
      | zero => exact hnan
      | succ j ih =>
        rw [hB1] at ih ⊢
        exact BelowN.nan G.sched (hdown j) hnL ih
    refine ⟨n, hnL, ?_⟩
    have hnk := (G.mem n).1 hnL
    rcases hall (N + 1) with ⟨h1, h2⟩ | ⟨b, h1, h2⟩
    · exact Or.inl ⟨h1, by rw [a2 n hnk h1]; exact h2⟩
    · exact Or.inr ⟨b, h1, by rw [(a1 b).1]; exact h2⟩

theorem npFormUpdate_congr {F : Diagram (Num ℝ)} {t t' : NState ℝ} (h1 : t.xyz = t'.xyz)
    (h2 : t.reactions = t'.reactions) (h3 : t.trailForces = t'.trailForces) :
    npFormUpdate F t = npFormUpdate F t' := by
  unfold npFormUpdate
  rw [h1, h2, h3]

/-- Both solvers return after as many sweeps as they may make. -/
theorem both_staged {D : Diagram ℝ} (I : ValidInput D) {stage : Int → Nat} (St : Staged D stage)
    {N : Nat} (hN : ∀ n ∈ D.nodes.keys, stage n ≤ N) {M : Nat} (ht : N + 1 ≤ M) (verbose : Bool) :
    ∃ L, GoodSched D none L ∧
      staticEquilibrium D none (M + 1) 0 verbose = .ok (formOf D (iter D none L (M + 1))) ∧
      npEquilibriumState D (M + 1) 0 verbose = .ok (nIter D L (M + 1)) := by
  obtain ⟨T, N0, hT, hN0, hg, hlt⟩ := goodSeqs_of_valid I.wf I.trails I.nonempty
  have G := goodSched I.wf I.trails hg none hlt
  obtain ⟨_, _, p2⟩ := equilibriumState_sched I (kmax := none) (by simp) hT hN0 hg (M + 1) (0 : ℝ) verbose
  obtain ⟨_, _, n2⟩ := npEquilibriumState_cases I hT hN0 hg (M + 1) (0 : ℝ) verbose
  obtain ⟨m, _, hmt, _, hl, he⟩ := p2 (by omega)
  obtain ⟨m', _, hmt', _, hl', he'⟩ := n2 (by omega)
  have A := rounds_iter I G
  have hm : m = M + 1 := by
    rcases hl with hl | hl
    · exact absurd hl (not_lt.2 (residualDistance_nonneg _ _))
    · exact hl
  have hm' : m' = M + 1 := by
    rcases hl' with hl' | hl'
    · unfold nDist at hl'
      cases hd : npDistance (nIter D (sched D T N0) (m' - 1)).xyz (nIter D (sched D T N0) m').xyz with
      | none => rw [hd] at hl'; simp [Num.lt] at hl'
      | some d =>
        rw [hd, lt_iff_some] at hl'
        exact absurd hl' (not_lt.2 (npDistance_nonneg hd))
    · exact hl'
  subst hm hm'
  have hres : residualDistance (iter D none (sched D T N0) M).xyz
      (iter D none (sched D T N0) (M + 1)).xyz = 0 := by
    refine residual_zero I.wf (goodState_iter I.wf I.trails none _ _) fun n hn => ?_
    obtain ⟨k, rfl⟩ : ∃ k, M = k + 1 := ⟨M - 1, by omega⟩
    have h := hN n hn
    exact (Rounds.agree I St A A n hn k (k + 1) (by omega) (by omega)).1
  rw [Nat.add_sub_cancel, hres, if_neg (lt_irrefl _)] at he
  have hdist : ¬ (nDist D (sched D T N0) (M + 1)).gt 0 = true := by
    have g := goodNState_iter (R := ℝ) I.wf I.trails (sched D T N0)
    have : nDist D (sched D T N0) (M + 1) = none ∨ nDist D (sched D T N0) (M + 1) = some 0 := by
      unfold nDist
      rw [Nat.add_sub_cancel]
      refine npDistance_agree (by rw [(g _).1]; exact I.wf.nodesNodup) fun n => ?_
      by_cases hn : n ∈ D.nodes.keys
      · have h := hN n hn
        exact (NRounds.agree I St G (nRounds_iter I _) (nRounds_iter I _) M (M + 1) hn
          (by omega) (by omega)).1
      · rw [(Dict.get?_eq_none_iff _ n).2 (by rw [(g _).1]; exact hn),
          (Dict.get?_eq_none_iff _ n).2 (by rw [(g _).1]; exact hn)]
    rcases this with h | h <;> rw [h]
    · simp [Num.gt]
    · rw [gt_iff_some]; exact lt_irrefl _
  rw [if_neg hdist] at he'
  refine ⟨sched D T N0, G, ?_, he'⟩
  unfold staticEquilibrium
  rw [he]

/-- C33. If the nodes have stages up to `N`, both solvers return within `N + 2` iterations with
threshold zero.  If no deviation edge of the form has length zero and no trail edge with a plane is
unstressed, both forms are the same; otherwise the numpy solver returns, without a report, a form
with NaN. -/
theorem C33_staged {D : Diagram ℝ} (I : ValidInput D) {stage : Int → Nat} (St : Staged D stage)
    {N : Nat} (hN : ∀ n ∈ D.nodes.keys, stage n ≤ N) {tmax : Nat} (ht : N + 2 ≤ tmax)
    (verbose : Bool) :
    ∃ F G, staticEquilibrium D none tmax 0 verbose = .ok F ∧
      staticEquilibriumNumpy D tmax 0 verbose = .ok G ∧
      (Nondegenerate F → G = F.num) ∧ (¬ Nondegenerate F → HasNaN G) := by
  obtain ⟨M, rfl⟩ : ∃ M, tmax = M + 1 := ⟨tmax - 1, by omega⟩
  obtain ⟨L, G, e1, e2⟩ := both_staged I St hN (M := M) (by omega) verbose
  obtain ⟨h1, h2⟩ := nIter_settled I St hN G (m := M) (by omega)
  refine ⟨_, npFormUpdate (formFromTopology D).num (nIter D L (M + 1)), e1, ?_, fun hn => ?_,
    fun hn => ?_⟩
  · unfold staticEquilibriumNumpy
    rw [e2]
  · obtain ⟨e1, e2, e3⟩ := h1 hn
    rw [npFormUpdate_congr e1 e2 e3]
    exact npForm_lift I _ _
  · obtain ⟨n, hnL, hnan⟩ := h2 hn
    exact form_nan I G hnL hnan

theorem nodes_pos {D : Diagram ℝ} (I : ValidInput D) : 1 ≤ D.nodes.length := by
  by_contra h0
  have hnil : D.nodes = [] := List.length_eq_zero_iff.1 (by omega)
  obtain ⟨⟨key, tr⟩, l, hl'⟩ := List.exists_cons_of_ne_nil I.nonempty
  have htr : (key, tr) ∈ D.trails := by rw [hl']; simp
  obtain ⟨rest, rfl⟩ := I.trails.head key tr htr
  have := I.trails.mem_keys htr List.mem_cons_self
  rw [hnil] at this
  simp [Dict.keys] at this

/-- C33. If no position needs itself, more iterations than nodes suffice: with threshold zero both
solvers return.  If no deviation edge of the form has length zero and no trail edge with a plane is
unstressed, both forms are the same, even if there were divisions by zero on the way; otherwise the
numpy solver returns, without a report, a form with NaN. -/
theorem C33_acyclic {D : Diagram ℝ} (I : ValidInput D) (hA : Acyclic D) {tmax : Nat}
    (ht : D.nodes.length < tmax) (verbose : Bool) :
    ∃ F G, staticEquilibrium D none tmax 0 verbose = .ok F ∧
      staticEquilibriumNumpy D tmax 0 verbose = .ok G ∧
      (Nondegenerate F → G = F.num) ∧ (¬ Nondegenerate F → HasNaN G) := by
  obtain ⟨St, hb⟩ := staged_of_acyclic I hA
  have := nodes_pos I
  exact C33_staged I St (N := D.nodes.length - 1) (fun n hn => by have := hb n hn; omega) (by omega)
    verbose

namespace NumpyStagedEx
open StageEx

local instance npStageSqrt : PySqrt ℚ := ⟨id⟩

/-- Node 1 lies at most one unit away from node 0, node 3 farther. -/
theorem nondegenerate_bent {tmax : Nat} {eta : ℝ} {verbose : Bool} {F : Diagram ℝ}
    (h : staticEquilibrium bent none tmax eta verbose = .ok F) : Nondegenerate F := by
  obtain ⟨_, hk, hnodes, hedges⟩ := C25_keeps_data valid_bent h
  have back : ∀ e d, F.edges.get? e = some d → ∃ q, bentQ.edges.get? e = some q ∧
      d.type = q.type ∧ (d.plane = none ↔ q.plane = none) := by
    intro e d hd
    have hm : e ∈ bent.edges.keys := by rw [← hk]; exact Dict.mem_keys_of_get? hd
    obtain ⟨d0, hd0⟩ := (Dict.exists_get?_iff bent.edges e).2 hm
    obtain ⟨d', hd', t1, t2, _⟩ := hedges e d0 hd0
    rw [hd] at hd'; obtain rfl := Option.some.inj hd'
    unfold bent Diagram.real at hd0
    rw [map_edges_get?] at hd0
    obtain ⟨q, hq, rfl⟩ := Option.map_eq_some_iff.1 hd0
    exact ⟨q, hq, t1, by rw [t2]; simp [EdgeData.map]⟩
  have hdev : ∀ p ∈ bentQ.edges, p.2.type = .deviation → p.1 = (1, 3) := by decide +kernel
  have hpl : ∀ p ∈ bentQ.edges, p.2.plane = none := by decide +kernel
  have pos : ∀ n p, (bentQ.nodes.get? n).map (·.pos) = some p →
      (∃ tr, (n, tr) ∈ bentQ.trails) → posOf F n = p.map fun q : ℚ => (q : ℝ) := by
    intro n p hp htr
    obtain ⟨q, hq, rfl⟩ := Option.map_eq_some_iff.1 hp
    obtain ⟨d', hd', _, _, _, hpos, _⟩ := hnodes n (NodeData.map (fun q : ℚ => (q : ℝ)) q) (by
      unfold bent Diagram.real
      rw [map_nodes_get?, hq]; rfl)
    unfold posOf
    rw [hd']
    exact hpos htr
  constructor
  · intro a b d hd ht he
    obtain ⟨q, hq, t, _⟩ := back _ _ hd
    have := hdev _ (Dict.mem_of_get? hq) (t ▸ ht)
    simp only [Prod.mk.injEq] at this
    obtain ⟨rfl, rfl⟩ := this
    have p0 := pos 0 ⟨0, 0, 0⟩ (by decide +kernel) ⟨[0, 1, 2], by decide +kernel⟩
    have p3 := pos 3 ⟨3, 1, 0⟩ (by decide +kernel) ⟨[3, 4], by decide +kernel⟩
    rw [p3] at he
    have h01 : bent.edges.get? (0, 1) = some ⟨.trail, -1, 0, none⟩ := by
      have : bentQ.edges.get? (0, 1) = some ⟨.trail, -1, 0, none⟩ := by decide +kernel
      unfold bent Diagram.real
      rw [map_edges_get?, this]
      simp [EdgeData.map]
    obtain ⟨d1, hd1, _⟩ := hedges _ _ h01
    have hdist : Vec.dist (posOf F 0) (posOf F 1) ≤ 1 := by
      by_cases hf : d1.force = 0
      · have := C26_zero_force valid_bent h h01 rfl hd1 hf
        simp only at this
        rw [this]
        unfold Vec.dist
        rw [sub_self, Vec.length_zero]
        exact zero_le_one
      · have := (C26_trail_length_sign valid_bent h h01 rfl rfl hd1 hf).1
        simp only at this
        rw [this]
        simp
    rw [p0, he] at hdist
    have : Vec.dist (Vec.map (fun q : ℚ => (q : ℝ)) ⟨0, 0, 0⟩) (Vec.map (fun q : ℚ => (q : ℝ)) ⟨3, 1, 0⟩) =
        Real.sqrt 10 := by
      unfold Vec.dist
      rw [Vec.length_def]
      congr 1
      norm_num [Vec.map, Vec.dot]
    rw [this] at hdist
    have h10 := Real.sq_sqrt (show (0 : ℝ) ≤ 10 by norm_num)
    nlinarith [Real.sqrt_nonneg 10]
  · intro e d hd _ hp
    obtain ⟨q, hq, _, t⟩ := back _ _ hd
    exact absurd (t.2 (hpl _ (Dict.mem_of_get? hq))) hp

/-- A diagram with an indirect edge on which both solvers return the same form. -/
example : ¬ DirectOnly bent ∧ ∃ F, staticEquilibrium bent none 6 0 false = .ok F ∧ Nondegenerate F ∧
    staticEquilibriumNumpy bent 6 0 false = .ok F.num := by
  obtain ⟨F, G, h1, h2, h3, _⟩ := C33_acyclic valid_bent acyclic_bent (tmax := 6)
    (by unfold bent Diagram.real Diagram.map; simp only [List.length_map]; decide +kernel) false
  have hn := nondegenerate_bent h1
  exact ⟨indirect_bent, F, h1, hn, by rw [h2, h3 hn]⟩

end NumpyStagedEx

end Props
end CEM
