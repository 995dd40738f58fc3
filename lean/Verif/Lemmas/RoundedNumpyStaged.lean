import Verif.Lemmas.RoundedNumpySweep
import Verif.Lemmas.RoundedStaged
import Verif.Lemmas.Backward

/-!
# When rounded sweeps of the numpy solver have no NaN
-/

set_option linter.unusedSectionVars false
set_option linter.unusedSimpArgs false

namespace CEM
open Diagram Spec

theorem Below.eq_some {α : Type} {a : Option α} {b : α} (h : Below a b) (hn : a ≠ none) : a = some b := by
  rcases h with h | h
  · exact absurd h hn
  · exact h

theorem lift2_ne_none {α β γ : Type} {f : α → β → γ} {a : Option α} {b : Option β} :
    lift2 f a b ≠ none ↔ a ≠ none ∧ b ≠ none := by
  cases a <;> cases b <;> simp [lift2]

variable {A : Arith ℝ} {u : ℝ}

theorem vsub_eq_zero (H : Precise A u) (hu : u ≤ 1 / 100) {a b : Vec ℝ} : A.vsub a b = 0 ↔ a = b := by
  have key : ∀ x y : ℝ, A.sub x y = 0 ↔ x = y := by
    intro x y
    have h := H.sub x y
    constructor
    · intro e
      rw [e, zero_sub, abs_neg] at h
      have h1 := abs_nonneg (x - y)
      have h2 : |x - y| = 0 := by nlinarith
      exact sub_eq_zero.1 (abs_eq_zero.1 h2)
    · rintro rfl
      rw [sub_self, abs_zero, mul_zero, sub_zero] at h
      exact abs_eq_zero.1 (le_antisymm h (abs_nonneg _))
  unfold Arith.vsub
  constructor
  · intro h
    have := congrArg Vec.x h
    have h2 := congrArg Vec.y h
    have h3 := congrArg Vec.z h
    simp only [Vec.zero_x, Vec.zero_y, Vec.zero_z, key] at this h2 h3
    exact Vec.ext this h2 h3
  · rintro rfl
    ext <;> simp only [Vec.zero_x, Vec.zero_y, Vec.zero_z, key]

theorem flDevTermN_ne_none (H : Precise A u) (hu : u ≤ 1 / 100) {D : Diagram ℝ} {P : Int → NVec ℝ} {p : Int → Vec ℝ}
    (hB : ∀ x, Below (P x) (p x)) {n b : Int} :
    flDevTermN A D P n b ≠ none ↔ P b ≠ none ∧ P n ≠ none ∧ p b ≠ p n := by
  unfold flDevTermN
  rcases hB b with hb | hb <;> rcases hB n with hn | hn <;> rw [hb, hn]
  · simp [lift2, flNormalizeNumpy]
  · simp [lift2, flNormalizeNumpy]
  · simp [lift2, flNormalizeNumpy]
  · have : lift2 A.vsub (some (p b)) (some (p n)) = some (A.vsub (p b) (p n)) := rfl
    rw [this, flNormalizeNumpy_some]
    by_cases e : p b = p n
    · rw [if_pos ((vlength_eq_zero H hu).2 ((vsub_eq_zero H hu).2 e))]
      simp [e]
    · rw [if_neg fun h => e ((vsub_eq_zero H hu).1 ((vlength_eq_zero H hu).1 h))]
      simp [e]

theorem flDevSumN_ne_none (H : Precise A u) (hu : u ≤ 1 / 100) {D : Diagram ℝ} {P : Int → NVec ℝ} {p : Int → Vec ℝ}
    (hB : ∀ x, Below (P x) (p x)) (n : Int) (l : List Int) (acc : NVec ℝ) :
    flDevSumN A D P n l acc ≠ none ↔ acc ≠ none ∧ ∀ b ∈ l, P b ≠ none ∧ P n ≠ none ∧ p b ≠ p n := by
  induction l generalizing acc with
  | nil => simp [flDevSumN]
  | cons b l ih =>
    have e : flDevSumN A D P n (b :: l) acc = flDevSumN A D P n l (lift2 A.vadd acc (flDevTermN A D P n b)) := rfl
    rw [e, ih, lift2_ne_none, flDevTermN_ne_none H hu hB]
    constructor
    · rintro ⟨⟨h1, h2⟩, h3⟩
      refine ⟨h1, fun c hc => ?_⟩
      rcases List.mem_cons.1 hc with rfl | hc
      · exact h2
      · exact h3 c hc
    · rintro ⟨h1, h2⟩
      exact ⟨⟨h1, h2 b List.mem_cons_self⟩, fun c hc => h2 c (List.mem_cons_of_mem _ hc)⟩

/-- The outgoing vector is NaN if and only if the incoming one is or some deviation edge has no direction. -/
theorem flOutN_ne_none (H : Precise A u) (hu : u ≤ 1 / 100) {D : Diagram ℝ} {ind : Bool} {P : Int → NVec ℝ}
    {p : Int → Vec ℝ} (hB : ∀ x, Below (P x) (p x)) {t : NVec ℝ} {n : Int} :
    flOutN A D ind P t n ≠ none ↔ t ≠ none ∧ (∀ b ∈ dirNbrs D n, P b ≠ none ∧ P n ≠ none ∧ p b ≠ p n) ∧
      (ind = true → ∀ b ∈ indNbrs D n, P b ≠ none ∧ P n ≠ none ∧ p b ≠ p n) := by
  have h1 := flDevSumN_ne_none H hu (D := D) hB n (dirNbrs D n) (some 0)
  have h2 := flDevSumN_ne_none H hu (D := D) hB n (indNbrs D n) (some 0)
  unfold flOutN flNpNodeEquilibrium
  cases ind
  · simp only [Option.map_eq_none_iff, ne_eq, Bool.false_eq_true, if_false, false_implies, and_true] at *
    rw [← ne_eq, lift2_ne_none, lift2_ne_none, lift2_ne_none, ne_eq, ne_eq, ne_eq, h1]
    simp
  · simp only [Option.map_eq_none_iff, ne_eq, if_true, true_implies] at *
    rw [← ne_eq, lift2_ne_none, lift2_ne_none, lift2_ne_none, ne_eq, ne_eq, ne_eq, ne_eq, h1, h2]
    simp
    tauto

theorem flLenN_ne_none (H : Precise A u) (hu : u ≤ 1 / 100) {D : Diagram ℝ} {n m : Int} {p r : Vec ℝ} :
    flLenN A D n m (some p) (some r) ≠ none ↔ ((edgeData D n m).plane ≠ none → r ≠ 0) := by
  unfold flLenN flNpEffectiveLength
  cases (edgeData D n m).plane with
  | none => simp
  | some pl =>
    simp only [flNpPlaneLength, flNormalizeNumpy_some]
    by_cases hr : r = 0
    · rw [if_pos ((vlength_eq_zero H hu).2 hr)]
      simp [hr]
    · rw [if_neg fun h => hr ((vlength_eq_zero H hu).1 h)]
      simp only [ne_eq, reduceCtorEq, not_false_eq_true, hr, imp_self, iff_true]
      split_ifs
      · simp
      · simp only [Option.map_some]
        split_ifs <;> simp

section
variable {D : Diagram ℝ} {L : List Int}

/-- The positions seen in a sweep. -/
theorem below_seen (H : Precise A u) (hu : u ≤ 1 / 100) (hz : ZeroAdds A) (G : GoodSched D none L) (j : Nat) (n x : Int) :
    Below ((flNStateAt A D (nxtK D none) (decide (j ≠ 0)) L (flNIter A D L j) n).pos x)
      ((flStateAt A D (nxtK D none) (decide (j ≠ 0)) L (flIter A D none L j) n).pos x) :=
  ((NBelow.iter H hu hz G j).fold H hu hz G.sched.inj (decide (j ≠ 0)) (L.takeWhile (· ≠ n))).pos x

theorem flN_sweep (G : GoodSched D none L) (j : Nat) :
    FlNSweepSpec A D (nxtK D none) (rankOf D) (decide (j ≠ 0)) L (flNIter A D L j) (flNIter A D L (j + 1))
      (flNRAt A D (nxtK D none) (decide (j ≠ 0)) L (flNIter A D L j))
      (fun n => (flNStateAt A D (nxtK D none) (decide (j ≠ 0)) L (flNIter A D L j) n).pos) := by
  have hb : decide (j > 0) = decide (j ≠ 0) := by
    simp only [gt_iff_lt, ne_eq, Nat.pos_iff_ne_zero]
  rw [flNIter, hb]
  exact fl_nsweepSpec G.sched _

/-- What makes the positions and outgoing vectors of a settled state numbers. -/
structure NoDivision (D : Diagram ℝ) (P T : Int → Vec ℝ) : Prop where
  apart : ∀ n, ∀ b ∈ D.neighbors n, (edgeData D n b).type = .deviation → P b ≠ P n
  plane : ∀ a m, trailNext D a = some m → (edgeData D a m).plane ≠ none → T m ≠ 0

/-- Positions are numbers once their stages have passed. -/
theorem flN_settles (H : Precise A u) (hu : u ≤ 1 / 100) (hz : ZeroAdds A) (I : ValidInput D) {stage : Int → Nat}
    (St : Staged D stage) {N : Nat} (hN : ∀ n ∈ D.nodes.keys, stage n ≤ N) (G : GoodSched D none L)
    (C : NoDivision D (flIter A D none L (N + 1)).pos (flIter A D none L (N + 1)).res) :
    ∀ n ∈ D.nodes.keys, ∀ i, stage n ≤ i →
      (flNIter A D L (i + 1)).pos n ≠ none ∧ (flNIter A D L (i + 1)).res n ≠ none := by
  have w := I.wf
  have V := I.trails
  have hnx : ∀ a, nxtK D none a = trailNext D a := nxtK_none w V
  have X := fl_rounds_iter (A := A) I G
  have fixed : ∀ m ∈ D.nodes.keys, ∀ i, stage m ≤ i →
      (flIter A D none L (i + 1)).pos m = (flIter A D none L (N + 1)).pos m ∧
      (flIter A D none L (i + 1)).res m = (flIter A D none L (N + 1)).res m :=
    fun m hm i hi => FlRounds.agree I St X X m hm i N hi (hN m hm)
  have B := NBelow.iter H hu hz G
  suffices K : ∀ (s k : Nat) (n : Int), n ∈ D.nodes.keys → stage n = s → seqOf D n = some (k : Int) →
      ∀ i, stage n ≤ i → (flNIter A D L (i + 1)).pos n ≠ none ∧ (flNIter A D L (i + 1)).res n ≠ none by
    intro n hn
    obtain ⟨k, hk, h0⟩ := allSequenced_of_valid V n hn
    obtain ⟨k', rfl⟩ := Int.eq_ofNat_of_zero_le h0
    exact K _ k' n hn rfl hk
  intro s
  induction s using Nat.strong_induction_on with
  | _ s ihs =>
  intro k
  induction k using Nat.strong_induction_on with
  | _ k ihk =>
  intro n hn hs hk i hi
  have all : ∀ m ∈ D.nodes.keys, (stage m < stage n ∨ stage m ≤ stage n ∧
      ∃ q : Nat, seqOf D m = some (q : Int) ∧ q < k) → ∀ i, stage m ≤ i →
        (flNIter A D L (i + 1)).pos m ≠ none ∧ (flNIter A D L (i + 1)).res m ≠ none := by
    intro m hm hc
    have lower : stage m < stage n → ∀ i, stage m ≤ i →
        (flNIter A D L (i + 1)).pos m ≠ none ∧ (flNIter A D L (i + 1)).res m ≠ none := by
      intro h
      obtain ⟨q, hq, h0⟩ := allSequenced_of_valid V m hm
      obtain ⟨q', rfl⟩ := Int.eq_ofNat_of_zero_le h0
      exact ihs (stage m) (by omega) q' m hm rfl hq
    rcases hc with h | ⟨h, q, hq, hlt⟩
    · exact lower h
    · rcases Nat.lt_or_ge (stage m) (stage n) with h' | h'
      · exact lower h'
      · exact ihk q hlt m hm (by omega) hq
  have SN := flN_sweep (A := A) G i
  have S := fl_finalSpec_sched (A := A) w V G i
  by_cases hex : ∃ a, trailNext D a = some n
  · obtain ⟨a, ha⟩ := hex
    have hf : Follows D a n := (trailNext_iff w V).1 ha
    have hak := (Follows.mem V hf).1
    have haL := (G.mem a).2 hak
    obtain ⟨q0, hq0, e1, e2⟩ := Follows.seq V hf
    obtain ⟨q, rfl⟩ := Int.eq_ofNat_of_zero_le hq0
    rw [hk] at e2
    have hqk := Option.some.inj e2
    have hqlt : ∃ q' : Nat, seqOf D a = some (q' : Int) ∧ q' < k := ⟨q, e1, by omega⟩
    have hsa := St.before a n hf
    have ra : rankOf D a = q := by unfold rankOf; rw [e1]; rfl
    have haa := all a hak (Or.inr ⟨hsa, hqlt⟩) i (by omega)
    have nbr : ∀ m ∈ D.neighbors a, (edgeData D a m).type = .deviation →
        EdgeBetween D a m (edgeData D a m) := fun m hm _ => (edgeBetween_iff I.simple).2 ⟨hm, rfl⟩
    have notlater : ∀ m ∈ D.nodes.keys, stage m ≤ stage n → ∀ q' : Nat, seqOf D m = some (q' : Int) →
        (q' : Int) ≤ q →
        (flNStateAt A D (nxtK D none) (decide (i ≠ 0)) L (flNIter A D L i) a).pos m ≠ none ∧
        (flStateAt A D (nxtK D none) (decide (i ≠ 0)) L (flIter A D none L i) a).pos m =
          (flIter A D none L (N + 1)).pos m := by
      intro m hm h1 q' hq' h2
      have rm : rankOf D m = q' := by unfold rankOf; rw [hq']; rfl
      have g1 := SN.seen a haL m (by omega)
      have g2 := S.seen a hak m (by omega)
      rw [g1, g2]
      exact ⟨(all m hm (Or.inr ⟨h1, q', hq', by omega⟩) i (by omega)).1, (fixed m hm i (by omega)).1⟩
    have haQ := notlater a hak hsa q e1 (le_refl _)
    have hr : flNRAt A D (nxtK D none) (decide (i ≠ 0)) L (flNIter A D L i) a ≠ none := by
      rw [SN.out a haL]
      refine (flOutN_ne_none H hu (below_seen H hu hz G i a)).2 ⟨haa.2, fun m hm => ?_, fun hi0 m hm => ?_⟩
      · obtain ⟨h1, h2⟩ := List.mem_filter.1 hm
        simp only [decide_eq_true_eq] at h2
        obtain ⟨g1, g2⟩ := notlater m (mem_keys_of_nbr w h1).1
          (St.direct a n m _ hf (nbr m h1 h2.1) h2.1 h2.2) q (by rw [← h2.2]; exact e1) (le_refl _)
        refine ⟨g1, haQ.1, ?_⟩
        rw [g2, haQ.2]
        exact C.apart a m h1 h2.1
      · obtain ⟨h1, h2⟩ := List.mem_filter.1 hm
        simp only [decide_eq_true_eq] at h2
        have hmk := (mem_keys_of_nbr w h1).1
        obtain ⟨p, hp, hp0⟩ := allSequenced_of_valid V m hmk
        obtain ⟨p', rfl⟩ := Int.eq_ofNat_of_zero_le hp0
        have key : (flNStateAt A D (nxtK D none) (decide (i ≠ 0)) L (flNIter A D L i) a).pos m ≠ none ∧
            (flStateAt A D (nxtK D none) (decide (i ≠ 0)) L (flIter A D none L i) a).pos m =
              (flIter A D none L (N + 1)).pos m := by
          rcases lt_trichotomy (p' : Int) (q : Int) with hlt | heq | hgt
          · obtain ⟨_, g2⟩ := St.earlier a n m _ _ _ hf (nbr m h1 h2.1) h2.1 e1 hp hlt
            exact notlater m hmk g2 p' hp hlt.le
          · exact absurd (by rw [e1, hp, ← heq]) h2.2
          · have g := St.later a n m _ _ _ hf (nbr m h1 h2.1) h2.1 e1 hp hgt
            have hm' := all m hmk (Or.inl g)
            obtain ⟨i', rfl⟩ : ∃ i', i = i' + 1 := ⟨i - 1, by omega⟩
            have c1 := (hm' i' (by omega)).1
            have c2 := (hm' (i' + 1) (by omega)).1
            have d1 := (fixed m hmk i' (by omega)).1
            have d2 := (fixed m hmk (i' + 1) (by omega)).1
            constructor
            · rcases SN.seen_any a haL m with x | x <;> rw [x] <;> assumption
            · rcases S.seen_any a hak m with x | x <;> rw [x] <;> assumption
        refine ⟨key.1, haQ.1, ?_⟩
        rw [key.2, haQ.2]
        exact C.apart a m h1 h2.1
    have hrb : flNRAt A D (nxtK D none) (decide (i ≠ 0)) L (flNIter A D L i) a =
        some (flRAt A D (nxtK D none) (decide (i ≠ 0)) L (flIter A D none L i) a) := by
      refine Below.eq_some ?_ hr
      unfold flNRAt flRAt
      exact flOutN_below hz (below_seen H hu hz G i a)
        (((NBelow.iter H hu hz G i).fold H hu hz G.sched.inj (decide (i ≠ 0)) (L.takeWhile (· ≠ a))).res a) a
    obtain ⟨x1, x2, _⟩ := SN.next a haL n (by rw [hnx]; exact ha)
    obtain ⟨y1, y2, _⟩ := S.next a hak n (by rw [hnx]; exact ha)
    rw [x1, x2]
    refine ⟨?_, hr⟩
    rw [hrb, Below.eq_some ((B (i + 1)).pos a) haa.1, lift2_ne_none, lift2_ne_none, flNpDirection_some]
    refine ⟨by simp, (flLenN_ne_none H hu).2 fun hp => ?_, by simp⟩
    rw [← y2, (fixed n hn i hi).2]
    exact C.plane a n ha hp
  · have hx : ∀ a, trailNext D a ≠ some n := fun a ha => hex ⟨a, ha⟩
    have st : ∀ j, (flNIter A D L j).pos n = some (posOf D n) ∧ (flNIter A D L j).res n ≠ none := by
      intro j
      induction j with
      | zero =>
        obtain ⟨d, hd⟩ := (Dict.exists_get?_iff _ _).2 hn
        constructor
        · unfold flNIter npInit NState.pos posOf
          rw [get?_map_val D.nodes (fun d => some d.pos), hd]
          rfl
        · unfold flNIter npInit NState.res
          rw [get?_map_val D.nodes (fun d => some d.reaction), hd]
          simp
      | succ j ih =>
        obtain ⟨h1, h2⟩ := (flN_sweep (A := A) G j).start n fun a _ => by rw [hnx]; exact hx a
        rw [h1, h2]
        exact ih
    exact ⟨by rw [(st _).1]; simp, (st _).2⟩

/-- Every position is a number or NaN, for nodes only. -/
theorem flN_pos_ne (I : ValidInput D)
    (j : Nat) : (∀ n, (flNIter A D L j).xyz.get? n ≠ some none) ↔
      ∀ n ∈ D.nodes.keys, (flNIter A D L j).pos n ≠ none := by
  have hk : (flNIter A D L j).xyz.keys = D.nodes.keys := (goodFlNState_iter I.wf I.trails L j).1
  constructor
  · intro h n hn
    obtain ⟨v, hv⟩ := (Dict.exists_get?_iff _ _).2 (show n ∈ (flNIter A D L j).xyz.keys by rw [hk]; exact hn)
    have := h n
    unfold NState.pos
    rw [hv] at this ⊢
    simpa using this
  · intro h n hn
    have := h n (by rw [← hk]; exact Dict.mem_keys_of_get? hn)
    unfold NState.pos at this
    rw [hn] at this
    exact this rfl

theorem flN_res_ne (H : Precise A u) (hu : u ≤ 1 / 100) (hz : ZeroAdds A) (G : GoodSched D none L) {j : Nat}
    (h : ∀ n, (flNIter A D L j).xyz.get? n ≠ some none) (n : Int) : (flNIter A D L j).res n ≠ none := by
  intro hn
  unfold NState.res at hn
  cases hr : (flNIter A D L j).residual.get? n with
  | none => rw [hr] at hn; simp at hn
  | some v =>
    rw [hr] at hn
    simp only [Option.getD_some] at hn
    subst hn
    exact h n ((NBelow.iter H hu hz G j).resNaN n hr)

/-- Reactions are numbers if the positions are, and the ends of deviation edges are seen apart. -/
theorem flN_noNaN_of (H : Precise A u) (hu : u ≤ 1 / 100) (hz : ZeroAdds A) (I : ValidInput D) (G : GoodSched D none L)
    {i : Nat} (h1 : ∀ n ∈ D.nodes.keys, (flNIter A D L i).pos n ≠ none)
    (h2 : ∀ n ∈ D.nodes.keys, (flNIter A D L (i + 1)).pos n ≠ none)
    (ha : ∀ n ∈ D.nodes.keys, ∀ b ∈ D.neighbors n, (edgeData D n b).type = .deviation →
      (flStateAt A D (nxtK D none) (decide (i ≠ 0)) L (flIter A D none L i) n).pos b ≠
        (flStateAt A D (nxtK D none) (decide (i ≠ 0)) L (flIter A D none L i) n).pos n) :
    NoNaN (flNIter A D L (i + 1)) := by
  have w := I.wf
  have SN := flN_sweep (A := A) G i
  have hx := (flN_pos_ne (A := A) (L := L) I (i + 1)).2 h2
  refine ⟨hx, fun n hn => ?_⟩
  have hk : n ∈ D.nodes.keys := by
    have := Dict.mem_keys_of_get? hn
    rw [(NBelow.iter H hu hz G (i + 1)).reactions.keys] at this
    exact fl_reaction_keys G (i + 1) n this
  have hrn := SN.react n
  rw [hn] at hrn
  have hsee : ∀ x ∈ D.nodes.keys,
      (flNStateAt A D (nxtK D none) (decide (i ≠ 0)) L (flNIter A D L i) n).pos x ≠ none := by
    intro x hxk
    rcases SN.seen_any n ((G.mem n).2 hk) x with e | e <;> rw [e]
    · exact h1 x hxk
    · exact h2 x hxk
  by_cases hc : n ∈ L ∧ nxtK D none n = none
  · rw [if_pos hc] at hrn
    have hz' := (Option.some.inj hrn).symm
    rw [SN.out n hc.1] at hz'
    refine absurd hz' ((flOutN_ne_none H hu (below_seen H hu hz G i n)).2 ⟨flN_res_ne H hu hz G hx n,
      fun b hb => ?_, fun _ b hb => ?_⟩) <;>
    · obtain ⟨g1, g2⟩ := List.mem_filter.1 hb
      simp only [decide_eq_true_eq] at g2
      exact ⟨hsee b (mem_keys_of_nbr w g1).1, hsee n hk, ha n hk b g1 g2.1⟩
  · have := (NBelow.iter H hu hz G (i + 1)).reactions.get? n
    have hp := (fl_finalSpec_sched (A := A) w I.trails G i).react n
    rw [if_neg (by rw [← G.mem]; exact hc)] at hp
    rcases this with ⟨e1, _⟩ | ⟨a, b, _, e2, _⟩
    · rw [e1] at hn; simp at hn
    · rw [e2] at hp; simp at hp

/-- Settled states have no NaN if and only if there is no division by zero. -/
theorem flN_noNaN_iff (H : Precise A u) (hu : u ≤ 1 / 100) (hz : ZeroAdds A) (I : ValidInput D) {stage : Int → Nat}
    (St : Staged D stage) {N : Nat} (hN : ∀ n ∈ D.nodes.keys, stage n ≤ N) (G : GoodSched D none L) {i : Nat}
    (hi : N + 1 ≤ i) : NoNaN (flNIter A D L (i + 1)) ↔
      NoDivision D (flIter A D none L (i + 1)).pos (flIter A D none L (i + 1)).res := by
  have w := I.wf
  have V := I.trails
  have hnx : ∀ a, nxtK D none a = trailNext D a := nxtK_none w V
  obtain ⟨i, rfl⟩ : ∃ k, i = k + 1 := ⟨i - 1, by omega⟩
  have X := fl_rounds_iter (A := A) I G
  have fixed : ∀ m ∈ D.nodes.keys, ∀ j k, N ≤ j → N ≤ k →
      (flIter A D none L (j + 1)).pos m = (flIter A D none L (k + 1)).pos m ∧
      (flIter A D none L (j + 1)).res m = (flIter A D none L (k + 1)).res m :=
    fun m hm j k hj hk => FlRounds.agree I St X X m hm j k ((hN m hm).trans hj) ((hN m hm).trans hk)
  have SN := flN_sweep (A := A) G (i + 1)
  have S := fl_finalSpec_sched (A := A) w V G (i + 1)
  have hQ : ∀ n ∈ D.nodes.keys, ∀ x ∈ D.nodes.keys,
      (flStateAt A D (nxtK D none) (decide (i + 1 ≠ 0)) L (flIter A D none L (i + 1)) n).pos x =
        (flIter A D none L (i + 1 + 1)).pos x := by
    intro n hn x hx
    rcases S.seen_any n hn x with e | e <;> rw [e]
    exact (fixed x hx i (i + 1) (by omega) (by omega)).1
  constructor
  · intro hn
    have hpos := (flN_pos_ne (A := A) (L := L) I (i + 1 + 1)).1 hn.1
    have hr : ∀ n ∈ D.nodes.keys,
        flNRAt A D (nxtK D none) (decide (i + 1 ≠ 0)) L (flNIter A D L (i + 1)) n ≠ none := by
      intro n hk e
      have hL := (G.mem n).2 hk
      cases hx : nxtK D none n with
      | none =>
        have := SN.react n
        rw [if_pos ⟨hL, hx⟩, e] at this
        exact hn.2 n this
      | some m =>
        have := hn.1 m
        obtain ⟨x1, _⟩ := SN.next n hL m hx
        have hm := (Follows.mem V ((trailNext_iff w V).1 (by rw [← hnx]; exact hx))).2
        have hp := hpos m hm
        rw [x1, e, lift2_ne_none, lift2_ne_none] at hp
        exact hp.2.2 rfl
    constructor
    · intro n b hb hty
      obtain ⟨hbk, hnk⟩ := mem_keys_of_nbr w hb
      have h := hr n hnk
      rw [SN.out n ((G.mem n).2 hnk)] at h
      obtain ⟨_, h1, h2⟩ := (flOutN_ne_none H hu (below_seen H hu hz G (i + 1) n)).1 h
      rw [← hQ n hnk b hbk, ← hQ n hnk n hnk]
      by_cases hs : seqOf D n = seqOf D b
      · exact (h1 b (List.mem_filter.2 ⟨hb, by simp [hty, hs]⟩)).2.2
      · exact (h2 (by simp) b (List.mem_filter.2 ⟨hb, by simp [hty, hs]⟩)).2.2
    · intro a m ham hp
      have hf := (trailNext_iff w V).1 ham
      obtain ⟨hak, hmk⟩ := Follows.mem V hf
      have hL := (G.mem a).2 hak
      obtain ⟨x1, _⟩ := SN.next a hL m (by rw [hnx]; exact ham)
      obtain ⟨_, y2, _⟩ := S.next a hak m (by rw [hnx]; exact ham)
      have hrb : flNRAt A D (nxtK D none) (decide (i + 1 ≠ 0)) L (flNIter A D L (i + 1)) a =
          some (flRAt A D (nxtK D none) (decide (i + 1 ≠ 0)) L (flIter A D none L (i + 1)) a) := by
        refine Below.eq_some ?_ (hr a hak)
        unfold flNRAt flRAt
        exact flOutN_below hz (below_seen H hu hz G (i + 1) a) (((NBelow.iter H hu hz G (i + 1)).fold H hu hz
          G.sched.inj (decide (i + 1 ≠ 0)) (L.takeWhile (· ≠ a))).res a) a
      have hpm := hpos m hmk
      rw [x1, hrb, Below.eq_some ((NBelow.iter H hu hz G (i + 1 + 1)).pos a) (hpos a hak), lift2_ne_none,
        lift2_ne_none] at hpm
      have := (flLenN_ne_none H hu).1 hpm.2.1 hp
      rw [y2]
      exact this
  · intro C
    have C' : NoDivision D (flIter A D none L (N + 1)).pos (flIter A D none L (N + 1)).res := by
      refine ⟨fun n b hb hty => ?_, fun a m ham hp => ?_⟩
      · obtain ⟨hbk, hnk⟩ := mem_keys_of_nbr w hb
        rw [(fixed b hbk N (i + 1) le_rfl (by omega)).1, (fixed n hnk N (i + 1) le_rfl (by omega)).1]
        exact C.apart n b hb hty
      · rw [(fixed m (Follows.mem V ((trailNext_iff w V).1 ham)).2 N (i + 1) le_rfl (by omega)).2]
        exact C.plane a m ham hp
    have hs := flN_settles H hu hz I St hN G C'
    refine flN_noNaN_of H hu hz I G (fun n hn => (hs n hn i (by have := hN n hn; omega)).1)
      (fun n hn => (hs n hn (i + 1) (by have := hN n hn; omega)).1) fun n hn b hb hty => ?_
    rw [hQ n hn b (mem_keys_of_nbr w hb).1, hQ n hn n hn]
    exact C.apart n b hb hty

end

end CEM
