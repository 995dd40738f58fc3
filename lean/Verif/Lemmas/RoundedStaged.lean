import Verif.Lemmas.RoundedReturn
import Verif.Lemmas.Staged

/-!
# Rounded iterations settle stage by stage

As in `Lemmas/Staged`, for the functions of `Model/Rounded`.
-/

set_option linter.unusedSectionVars false
set_option linter.unusedSimpArgs false

namespace CEM
open Diagram Spec

section
variable {R : Type} [Field R] [LinearOrder R] [PySqrt R] {A : Arith R}

theorem fl_devSum_congr {D : Diagram R} {P P' : Int → Vec R} {n : Int} {l : List Int} {acc : Vec R}
    (hn : P n = P' n) (h : ∀ m ∈ l, P m = P' m) : flDevSum A D P n l acc = flDevSum A D P' n l acc := by
  unfold flDevSum
  induction l generalizing acc with
  | nil => rfl
  | cons b l ih =>
    rw [List.foldl_cons, List.foldl_cons, hn, h b List.mem_cons_self]
    have := ih (acc := A.vadd acc (A.vscale (edgeData D n b).force (A.vnormalize (A.vsub (P' b) (P' n)))))
      fun c hc => h c (List.mem_cons_of_mem _ hc)
    rwa [hn] at this

/-- Positions `P j`, incoming trail vectors `T j` and outgoing ones `r j` of consecutive rounds; in
round `j` node `n` uses the positions `Q j n`. -/
structure FlRounds (A : Arith R) (D : Diagram R) (ind : Nat → Bool) (P T r : Nat → Int → Vec R)
    (Q : Nat → Int → Int → Vec R) : Prop where
  ind_pos : ∀ j, 1 ≤ j → ind j = true
  seen : ∀ j, ∀ n ∈ D.nodes.keys, ∀ m, rankOf D m ≤ rankOf D n → Q j n m = P (j + 1) m
  seen_any : ∀ j, ∀ n ∈ D.nodes.keys, ∀ m, Q j n m = P j m ∨ Q j n m = P (j + 1) m
  out : ∀ j, ∀ n ∈ D.nodes.keys, r j n = flOut A D (ind j) (Q j n) (T (j + 1) n) n
  next : ∀ j, ∀ n ∈ D.nodes.keys, ∀ m, trailNext D n = some m →
    P (j + 1) m = A.vadd (P (j + 1) n)
      (A.vscale (flEffectiveLength A (edgeData D n m) (P (j + 1) n) (r j n)) (A.vnormalize (r j n))) ∧
    T (j + 1) m = r j n
  start : ∀ j, ∀ m ∈ D.nodes.keys, (∀ a, trailNext D a ≠ some m) →
    P (j + 1) m = posOf D m ∧ T (j + 1) m = 0

/-- A node of stage `i` is the same in all rounds from `i` on, whichever rounds these are. -/
theorem FlRounds.agree {D : Diagram R} (I : ValidInput D) {stage : Int → Nat} (St : Staged D stage)
    {ind ind' : Nat → Bool} {P T r P' T' r' : Nat → Int → Vec R} {Q Q' : Nat → Int → Int → Vec R}
    (X : FlRounds A D ind P T r Q) (B : FlRounds A D ind' P' T' r' Q') :
    ∀ n ∈ D.nodes.keys, ∀ i j, stage n ≤ i → stage n ≤ j →
      P (i + 1) n = P' (j + 1) n ∧ T (i + 1) n = T' (j + 1) n := by
  have w := I.wf
  have V := I.trails
  suffices H : ∀ (s k : Nat) (n : Int), n ∈ D.nodes.keys → stage n = s → seqOf D n = some (k : Int) →
      ∀ i j, stage n ≤ i → stage n ≤ j →
        P (i + 1) n = P' (j + 1) n ∧ T (i + 1) n = T' (j + 1) n by
    intro n hn
    obtain ⟨k, hk, h0⟩ := allSequenced_of_valid V n hn
    obtain ⟨k', rfl⟩ := Int.eq_ofNat_of_zero_le h0
    exact H _ k' n hn rfl hk
  intro s
  induction s using Nat.strong_induction_on with
  | _ s ihs =>
  intro k
  induction k using Nat.strong_induction_on with
  | _ k ihk =>
  intro n hn hs hk i j hi hj
  have all : ∀ m ∈ D.nodes.keys, (stage m < stage n ∨ stage m ≤ stage n ∧
      ∃ q : Nat, seqOf D m = some (q : Int) ∧ q < k) → ∀ i j, stage m ≤ i → stage m ≤ j →
        P (i + 1) m = P' (j + 1) m ∧ T (i + 1) m = T' (j + 1) m := by
    intro m hm hc
    have lower : stage m < stage n → ∀ i j, stage m ≤ i → stage m ≤ j →
        P (i + 1) m = P' (j + 1) m ∧ T (i + 1) m = T' (j + 1) m := by
      intro h
      obtain ⟨q, hq, h0⟩ := allSequenced_of_valid V m hm
      obtain ⟨q', rfl⟩ := Int.eq_ofNat_of_zero_le h0
      exact ihs (stage m) (by omega) q' m hm rfl hq
    rcases hc with h | ⟨h, q, hq, hlt⟩
    · exact lower h
    · rcases Nat.lt_or_ge (stage m) (stage n) with h' | h'
      · exact lower h'
      · exact ihk q hlt m hm (by omega) hq
  by_cases hex : ∃ a, trailNext D a = some n
  · obtain ⟨a, ha⟩ := hex
    have hf : Follows D a n := (trailNext_iff w V).1 ha
    have hak := (Follows.mem V hf).1
    obtain ⟨q0, hq0, e1, e2⟩ := Follows.seq V hf
    obtain ⟨q, rfl⟩ := Int.eq_ofNat_of_zero_le hq0
    rw [hk] at e2
    have hqk := Option.some.inj e2
    have hqlt : ∃ q' : Nat, seqOf D a = some (q' : Int) ∧ q' < k := ⟨q, e1, by omega⟩
    have hsa := St.before a n hf
    have ra : rankOf D a = q := by unfold rankOf; rw [e1]; rfl
    have haa := all a hak (Or.inr ⟨hsa, hqlt⟩) i j (by omega) (by omega)
    have nbr : ∀ m ∈ D.neighbors a, (edgeData D a m).type = .deviation →
        EdgeBetween D a m (edgeData D a m) := fun m hm _ => (edgeBetween_iff I.simple).2 ⟨hm, rfl⟩
    have notlater : ∀ m ∈ D.nodes.keys, stage m ≤ stage n → ∀ q' : Nat, seqOf D m = some (q' : Int) →
        (q' : Int) ≤ q → Q i a m = Q' j a m := by
      intro m hm h1 q' hq' h2
      have rm : rankOf D m = q' := by unfold rankOf; rw [hq']; rfl
      rw [X.seen i a hak m (by omega), B.seen j a hak m (by omega)]
      exact (all m hm (Or.inr ⟨h1, q', hq', by omega⟩) i j (by omega) (by omega)).1
    have haQ : Q i a a = Q' j a a := notlater a hak hsa q e1 (le_refl _)
    have hdir : flDevSum A D (Q i a) a (dirNbrs D a) 0 = flDevSum A D (Q' j a) a (dirNbrs D a) 0 := by
      refine fl_devSum_congr haQ ?_
      intro m hm
      obtain ⟨h1, h2⟩ := List.mem_filter.1 hm
      simp only [decide_eq_true_eq] at h2
      exact notlater m (mem_keys_of_nbr w h1).1
        (St.direct a n m _ hf (nbr m h1 h2.1) h2.1 h2.2) q (by rw [← h2.2]; exact e1) (le_refl _)
    have hind : (if ind i = true then flDevSum A D (Q i a) a (indNbrs D a) 0 else 0) =
        if ind' j = true then flDevSum A D (Q' j a) a (indNbrs D a) 0 else 0 := by
      rcases List.eq_nil_or_concat (indNbrs D a) with h0 | h0
      · rw [h0]; simp [flDevSum]
      · have pos : ∀ m ∈ indNbrs D a, 1 ≤ stage n ∧ Q i a m = Q' j a m := by
          intro m hm
          obtain ⟨h1, h2⟩ := List.mem_filter.1 hm
          simp only [decide_eq_true_eq] at h2
          have hmk := (mem_keys_of_nbr w h1).1
          obtain ⟨p, hp, hp0⟩ := allSequenced_of_valid V m hmk
          obtain ⟨p', rfl⟩ := Int.eq_ofNat_of_zero_le hp0
          rcases lt_trichotomy (p' : Int) (q : Int) with hlt | heq | hgt
          · obtain ⟨g1, g2⟩ := St.earlier a n m _ _ _ hf (nbr m h1 h2.1) h2.1 e1 hp hlt
            exact ⟨g1, notlater m hmk g2 p' hp hlt.le⟩
          · exact absurd (by rw [e1, hp, ← heq]) h2.2
          · have g := St.later a n m _ _ _ hf (nbr m h1 h2.1) h2.1 e1 hp hgt
            refine ⟨by omega, ?_⟩
            have hm' := all m hmk (Or.inl g)
            obtain ⟨i', rfl⟩ : ∃ i', i = i' + 1 := ⟨i - 1, by omega⟩
            obtain ⟨j', rfl⟩ : ∃ j', j = j' + 1 := ⟨j - 1, by omega⟩
            have c1 := (hm' i' j' (by omega) (by omega)).1
            have c2 := (hm' i' (j' + 1) (by omega) (by omega)).1
            have c3 := (hm' (i' + 1) j' (by omega) (by omega)).1
            have c4 := (hm' (i' + 1) (j' + 1) (by omega) (by omega)).1
            rcases X.seen_any (i' + 1) a hak m with x | x <;>
            rcases B.seen_any (j' + 1) a hak m with y | y <;> rw [x, y] <;> assumption
        obtain ⟨l, x, hx⟩ := h0
        have h1 : 1 ≤ stage n := (pos x (by rw [hx]; simp)).1
        rw [X.ind_pos i (by omega), B.ind_pos j (by omega), if_pos rfl, if_pos rfl]
        exact fl_devSum_congr haQ fun m hm => (pos m hm).2
    have hr : r i a = r' j a := by
      rw [X.out i a hak, B.out j a hak]
      unfold flOut
      rw [haa.2, hdir, hind]
    obtain ⟨x1, x2⟩ := X.next i a hak n ha
    obtain ⟨y1, y2⟩ := B.next j a hak n ha
    rw [x1, x2, y1, y2, hr, haa.1]
    exact ⟨rfl, rfl⟩
  · have hx : ∀ a, trailNext D a ≠ some n := fun a ha => hex ⟨a, ha⟩
    obtain ⟨x1, x2⟩ := X.start i n hn hx
    obtain ⟨y1, y2⟩ := B.start j n hn hx
    rw [x1, x2, y1, y2]
    exact ⟨rfl, rfl⟩

/-- The outgoing trail vectors agree once all stages are passed. -/
theorem FlRounds.agree_out {D : Diagram R} (I : ValidInput D) {stage : Int → Nat} (St : Staged D stage)
    {ind ind' : Nat → Bool} {P T r P' T' r' : Nat → Int → Vec R} {Q Q' : Nat → Int → Int → Vec R}
    (X : FlRounds A D ind P T r Q) (B : FlRounds A D ind' P' T' r' Q') {N : Nat}
    (hN : ∀ n ∈ D.nodes.keys, stage n ≤ N) {i j : Nat} (hi : N < i) (hj : N < j) :
    ∀ n ∈ D.nodes.keys, r i n = r' j n := by
  intro n hn
  obtain ⟨i, rfl⟩ : ∃ i', i = i' + 1 := ⟨i - 1, by omega⟩
  obtain ⟨j, rfl⟩ : ∃ j', j = j' + 1 := ⟨j - 1, by omega⟩
  have same : ∀ m ∈ D.nodes.keys, Q (i + 1) n m = Q' (j + 1) n m := by
    intro m hm
    have h := hN m hm
    have hm' := FlRounds.agree I St X B m hm
    have c1 := (hm' i j (by omega) (by omega)).1
    have c2 := (hm' i (j + 1) (by omega) (by omega)).1
    have c3 := (hm' (i + 1) j (by omega) (by omega)).1
    have c4 := (hm' (i + 1) (j + 1) (by omega) (by omega)).1
    rcases X.seen_any (i + 1) n hn m with x | x <;>
    rcases B.seen_any (j + 1) n hn m with y | y <;> rw [x, y] <;> assumption
  have hs := hN n hn
  rw [X.out _ n hn, B.out _ n hn]
  unfold flOut
  rw [X.ind_pos _ (by omega), B.ind_pos _ (by omega), if_pos rfl, if_pos rfl,
    (FlRounds.agree I St X B n hn (i + 1) (j + 1) (by omega) (by omega)).2,
    fl_devSum_congr (l := dirNbrs D n) (same n hn) fun m hm =>
      same m (mem_keys_of_nbr I.wf (List.mem_filter.1 hm).1).1,
    fl_devSum_congr (l := indNbrs D n) (same n hn) fun m hm =>
      same m (mem_keys_of_nbr I.wf (List.mem_filter.1 hm).1).1]

/-- The iterates of form finding are rounds. -/
theorem fl_rounds_iter {D : Diagram R} (I : ValidInput D) {L : List Int} (G : GoodSched D none L) :
    FlRounds A D (fun j => decide (j ≠ 0)) (fun j => (flIter A D none L j).pos) (fun j => (flIter A D none L j).res)
      (fun j => flRAt A D (nxtK D none) (decide (j ≠ 0)) L (flIter A D none L j))
      (fun j n => (flStateAt A D (nxtK D none) (decide (j ≠ 0)) L (flIter A D none L j) n).pos) := by
  have w := I.wf
  have V := I.trails
  have hnx : ∀ a, nxtK D none a = trailNext D a := nxtK_none w V
  refine ⟨fun j hj => by simp; omega, fun j => (fl_finalSpec_sched (A := A) w V G j).seen,
    fun j => (fl_finalSpec_sched (A := A) w V G j).seen_any, fun j => (fl_finalSpec_sched (A := A) w V G j).out, ?_, ?_⟩
  · intro j n hn m hm
    obtain ⟨h1, h2, _⟩ := (fl_finalSpec_sched (A := A) w V G j).next n hn m (by rw [hnx]; exact hm)
    exact ⟨h1, h2⟩
  · intro j m hm hx
    obtain ⟨h1, h2⟩ := (fl_finalSpec_sched (A := A) w V G j).start m fun a _ => by rw [hnx]; exact hx a
    exact ⟨by rw [h1, start_position], by rw [h2, start_zero I hm]⟩

/-- A state that reproduces itself gives constant rounds. -/
theorem fl_rounds_fixed {D : Diagram R} (I : ValidInput D) {p s : EqState R} {r : Int → Vec R}
    {Q : Int → Int → Vec R} (S : FlFinalSpec A D none true p s r Q)
    (h : ∀ n ∈ D.nodes.keys, p.pos n = s.pos n) :
    FlRounds A D (fun _ => true) (fun _ => s.pos) (fun _ => s.res) (fun _ => r) (fun _ _ => s.pos) := by
  have w := I.wf
  have V := I.trails
  have hnx : ∀ a, nxtK D none a = trailNext D a := nxtK_none w V
  have hQ : ∀ n ∈ D.nodes.keys, ∀ m ∈ D.nodes.keys, Q n m = s.pos m := by
    intro n hn m hm
    rcases S.seen_any n hn m with e | e
    · rw [e, h m hm]
    · exact e
  refine ⟨fun _ _ => rfl, fun _ _ _ _ _ => rfl, fun _ _ _ _ => Or.inl rfl, ?_, ?_, ?_⟩
  · intro _ n hn
    rw [S.out n hn]
    unfold flOut
    rw [fl_devSum_congr (l := dirNbrs D n) (hQ n hn n hn) fun m hm =>
        hQ n hn m (mem_keys_of_nbr w (List.mem_filter.1 hm).1).1,
      fl_devSum_congr (l := indNbrs D n) (hQ n hn n hn) fun m hm =>
        hQ n hn m (mem_keys_of_nbr w (List.mem_filter.1 hm).1).1]
  · intro _ n hn m hm
    obtain ⟨h1, h2, _⟩ := S.next n hn m (by rw [hnx]; exact hm)
    exact ⟨h1, h2⟩
  · intro _ m hm hx
    obtain ⟨h1, h2⟩ := S.start m fun a _ => by rw [hnx]; exact hx a
    exact ⟨by rw [h1, start_position], by rw [h2, start_zero I hm]⟩

end

end CEM
