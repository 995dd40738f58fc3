import Verif.Spec.Small
import Verif.Lemmas.Small
import Verif.Lemmas.Idle
import Mathlib.Analysis.SpecificLimits.Basic

/-!
# Iterations with small forces of the indirect edges
-/

set_option linter.unusedSectionVars false
set_option linter.unusedSimpArgs false

namespace CEM
open Diagram Spec Filter Topology

section
variable {D E : Diagram ℝ} (I : ValidInput D) (h : SameExcept (IndirectForce D) D E)

include h in
theorem edgeData_apart (n m : Int) :
    (edgeData E n m).type = (edgeData D n m).type ∧
    (¬ Indirect D (edgeKey D n m) → edgeData E n m = edgeData D n m) := by
  unfold edgeData
  rw [edgeKey_same h]
  by_cases hm : edgeKey D n m ∈ D.edges.keys
  · obtain ⟨d, hd⟩ := (Dict.exists_get?_iff _ _).2 hm
    obtain ⟨d1, h1⟩ := (Dict.exists_get?_iff E.edges _).2 (by rw [h.edgeKeys]; exact hm)
    obtain ⟨e1, e2, e3, e4⟩ := h.edge _ d d1 hd h1
    simp only [hd, h1, Option.getD_some]
    refine ⟨e1, fun hi => ?_⟩
    have a3 := e3 (fun hc => hc)
    have a4 := e4 hi
    cases d; cases d1
    simp only at e1 e2 a3 a4
    subst e1 e2 a3 a4
    rfl
  · rw [(Dict.get?_eq_none_iff _ _).2 hm,
      (Dict.get?_eq_none_iff _ _).2 (by rw [h.edgeKeys]; exact hm)]
    simp

theorem indirect_key {n m : Int} (hi : Indirect D (edgeKey D n m)) :
    (edgeData D n m).type = .deviation ∧ seqOf D n ≠ seqOf D m := by
  obtain ⟨d, hd, ht, hs⟩ := hi
  refine ⟨by unfold edgeData; rw [hd]; exact ht, ?_⟩
  rcases edgeKey_ends D n m with e | e <;> rw [e] at hs
  · exact hs
  · exact hs.symm

include h in
theorem dirNbrs_apart (n : Int) : dirNbrs E n = dirNbrs D n := by
  unfold dirNbrs
  simp only [neighbors_same h, seqOf_same h, (edgeData_apart h n _).1]

include h in
theorem indNbrs_apart (n : Int) : indNbrs E n = indNbrs D n := by
  unfold indNbrs
  simp only [neighbors_same h, seqOf_same h, (edgeData_apart h n _).1]

include h in
theorem node_apart (n : Int) : loadOf E n = loadOf D n ∧ posOf E n = posOf D n := by
  unfold loadOf posOf
  by_cases hm : n ∈ D.nodes.keys
  · obtain ⟨d, hd⟩ := (Dict.exists_get?_iff _ _).2 hm
    obtain ⟨d1, h1⟩ := (Dict.exists_get?_iff E.nodes n).2 (by rw [h.nodeKeys]; exact hm)
    obtain ⟨_, _, _, e4, e5, e6, e1, e2, e3⟩ := h.node n d d1 hd h1
    simp only [hd, h1, Option.map_some, Option.getD_some]
    constructor
    · ext
      · exact e1 id
      · exact e2 id
      · exact e3 id
    · ext
      · exact e4 id
      · exact e5 id
      · exact e6 id
  · rw [(Dict.get?_eq_none_iff _ _).2 hm,
      (Dict.get?_eq_none_iff _ _).2 (by rw [h.nodeKeys]; exact hm)]
    simp

include h in
theorem trailNext_apart (n : Int) : trailNext E n = trailNext D n := by
  unfold trailNext
  rw [h.rest.2.2.1]

include h in
theorem rankOf_apart (n : Int) : rankOf E n = rankOf D n := by
  unfold rankOf; rw [seqOf_same h]

/-- The forces of the indirect edges. -/
noncomputable def indForce (E : Diagram ℝ) (n m : Int) : ℝ := (edgeData E n m).force

theorem indForce_le {t : ℝ} (W : WithIndirect D E t) : ∀ n ∈ D.nodes.keys, ∀ m ∈ indNbrs D n,
    |indForce E n m| ≤ t := by
  intro n _ m hm
  obtain ⟨h1, h2⟩ := List.mem_filter.1 hm
  simp only [decide_eq_true_eq] at h2
  have hk := edgeKey_mem h1
  obtain ⟨d, hd⟩ := (Dict.exists_get?_iff E.edges (edgeKey D n m)).2
    (by rw [W.same.edgeKeys]; exact Dict.mem_keys_of_get? hk)
  have hi : Indirect D (edgeKey D n m) := by
    refine ⟨_, hk, h2.1, ?_⟩
    rcases edgeKey_ends D n m with e | e <;> rw [e]
    · exact h2.2
    · exact fun hh => h2.2 hh.symm
  have := W.bound _ d hi hd
  unfold indForce edgeData
  rw [edgeKey_same W.same, hd]
  exact this

theorem sees_devSum (Q : Int → Int → Vec ℝ) :
    Sees D (indForce E) Q fun n => devSum E (Q n) n (indNbrs D n) := by
  intro n _
  change (List.map (devTerm E (Q n) n) (indNbrs D n)).sum = _
  congr 1
  exact List.map_congr_left fun m _ => devTerm_real E (Q n) n m

include I h in
/-- A round solves the problem with additional forces. -/
theorem driven_of {ind : Bool} {P T r : Int → Vec ℝ} {Q : Int → Int → Vec ℝ}
    (seen : ∀ n ∈ E.nodes.keys, ∀ m, rankOf E m ≤ rankOf E n → Q n m = P m)
    (out : ∀ n ∈ E.nodes.keys, r n = outVec E ind (Q n) (T n) n)
    (next : ∀ n ∈ E.nodes.keys, ∀ m, trailNext E n = some m →
      P m = P n + effectiveLength (edgeData E n m) (P n) (r n) • Vec.normalize (r n) ∧ T m = r n)
    (start : ∀ m ∈ E.nodes.keys, (∀ a, trailNext E a ≠ some m) → P m = posOf E m ∧ T m = 0) :
    Driven D (fun n => if ind = true then devSum E (Q n) n (indNbrs D n) else 0) P T r := by
  have w := I.wf
  have V := I.trails
  simp only [h.nodeKeys, trailNext_apart h, rankOf_apart h] at seen out next start
  refine ⟨fun n hn => ?_, fun n hn m hm => ?_, fun m hm hx => ?_⟩
  · rw [out n hn]
    unfold outVec
    rw [(node_apart h n).1, dirNbrs_apart h, indNbrs_apart h]
    congr 2
    unfold devSum
    congr 1
    refine List.map_congr_left fun m hm => ?_
    obtain ⟨h1, h2⟩ := List.mem_filter.1 hm
    simp only [decide_eq_true_eq] at h2
    unfold devTerm
    rw [(edgeData_apart h n m).2 fun hi => (indirect_key hi).2 h2.2, seen n hn n le_rfl,
      seen n hn m (by unfold rankOf; rw [h2.2])]
  · have := next n hn m hm
    rw [(edgeData_apart h n m).2 fun hi => ?_] at this
    · exact this
    · have ht := edgeData_trail w V I.simple hm
      rw [(indirect_key hi).1] at ht
      exact absurd ht (by simp)
  · have := start m hm hx
    rw [(node_apart h m).2] at this
    exact this


/-! ## The iterates -/

variable {σ0 : Sol D} {C δ ρ : ℝ} (K : Contracts σ0 C δ ρ)

theorem residual_eq_gap (w : WF D) {p s : EqState ℝ} (hs : s.xyz.keys = D.nodes.keys) :
    residualDistance p.xyz s.xyz = gap D p.pos s.pos := by
  rw [residualDistance_eq]
  unfold gap
  rw [← hs]
  unfold Dict.keys
  rw [List.map_map]
  congr 1
  refine List.map_congr_left fun q hq => ?_
  have hget := Dict.get?_of_mem (by rw [hs]; exact w.nodesNodup) hq
  simp only [Function.comp]
  unfold EqState.pos
  rw [hget]
  rfl

/-- The solution that a sweep computes. -/
noncomputable def solOf (I : ValidInput D) (h : SameExcept (IndirectForce D) D E) {ind : Bool}
    {p s : EqState ℝ} {r : Int → Vec ℝ}
    {Q : Int → Int → Vec ℝ} (S : FinalSpec E none ind p s r Q) : Sol D where
  κ n := if ind = true then devSum E (Q n) n (indNbrs D n) else 0
  P := s.pos
  T := s.res
  r := r
  driven := by
    have J := validInput_same h I
    have hnx : ∀ a, nxtK E none a = trailNext E a := nxtK_none J.wf J.trails
    refine driven_of I h S.seen S.out (fun n hn m hm => ?_) fun m hm hx => ?_
    · obtain ⟨h1, h2, _⟩ := S.next n hn m (by rw [hnx]; exact hm)
      exact ⟨h1, h2⟩
    · obtain ⟨h1, h2⟩ := S.start m fun a _ => by rw [hnx]; exact hx a
      exact ⟨by rw [h1, start_position], by rw [h2, start_zero J hm]⟩

theorem solOf_small (I : ValidInput D) (W : WithIndirect D E δ) (hδ : 0 ≤ δ) {ind : Bool}
    {p s : EqState ℝ} {r : Int → Vec ℝ} {Q : Int → Int → Vec ℝ}
    (S : FinalSpec E none ind p s r Q) :
    ∀ n ∈ D.nodes.keys, Vec.length ((solOf I W.same S).κ n) ≤ indCount D * δ := by
  cases ind with
  | true =>
    have : (solOf I W.same S).κ = fun n => devSum E (Q n) n (indNbrs D n) := by
      funext n; simp [solOf]
    rw [this]
    exact (sees_devSum Q).bound hδ (indForce_le W)
  | false =>
    intro n _
    have : (solOf I W.same S).κ n = 0 := by simp [solOf]
    rw [this, Vec.length_zero]
    have := indCount_nonneg (D := D)
    positivity

theorem solOf_sees (I : ValidInput D) (h : SameExcept (IndirectForce D) D E)
    {p s : EqState ℝ} {r : Int → Vec ℝ} {Q : Int → Int → Vec ℝ}
    (S : FinalSpec E none true p s r Q) : Sees D (indForce E) Q (solOf I h S).κ := by
  have : (solOf I h S).κ = fun n => devSum E (Q n) n (indNbrs D n) := by
    funext n; simp [solOf]
  rw [this]
  exact sees_devSum Q

/-- The outgoing trail vectors in round `j`. -/
noncomputable def outAt (E : Diagram ℝ) (L : List Int) (j : Nat) : Int → Vec ℝ :=
  rAt E (nxtK E none) (decide (j ≠ 0)) L (iter E none L j)

/-- The positions seen in round `j`. -/
noncomputable def seenAt (E : Diagram ℝ) (L : List Int) (j : Nat) : Int → Int → Vec ℝ :=
  fun n => (stateAt E (nxtK E none) (decide (j ≠ 0)) L (iter E none L j) n).pos

include I in
theorem final_iter (W : WithIndirect D E δ) {L : List Int} (G : GoodSched E none L) (j : Nat) :
    FinalSpec E none (j ≠ 0) (iter E none L j) (iter E none L (j + 1)) (outAt E L j) (seenAt E L j) :=
  finalSpec_sched (validInput_same W.same I).wf (validInput_same W.same I).trails G j

include I in
theorem final_later (W : WithIndirect D E δ) {L : List Int} (G : GoodSched E none L) (j : Nat) :
    FinalSpec E none true (iter E none L (j + 1)) (iter E none L (j + 2)) (outAt E L (j + 1))
      (seenAt E L (j + 1)) := by
  have := final_iter I W G (j + 1)
  simpa using this

include I K in
theorem iter_near (W : WithIndirect D E δ) {L : List Int} (G : GoodSched E none L) (j : Nat) :
    ∀ n ∈ D.nodes.keys, Vec.length ((iter E none L (j + 1)).pos n - σ0.P n) ≤ ρ :=
  (K.near _ (solOf_small I W K.pos.le (final_iter I W G j))).1

include I K in
/-- What a sweep sees is near, if it starts near. -/
theorem seen_near (W : WithIndirect D E δ) {ind : Bool} {p s : EqState ℝ} {r : Int → Vec ℝ}
    {Q : Int → Int → Vec ℝ} (S : FinalSpec E none ind p s r Q)
    (hp : ∀ n ∈ D.nodes.keys, Vec.length (p.pos n - σ0.P n) ≤ ρ) :
    ∀ n ∈ D.nodes.keys, ∀ m ∈ D.nodes.keys, Vec.length (Q n m - σ0.P m) ≤ ρ := by
  intro n hn m hm
  rcases S.seen_any n (by rw [W.same.nodeKeys]; exact hn) m with e | e <;> rw [e]
  · exact hp m hm
  · exact (K.near _ (solOf_small I W K.pos.le S)).1 m hm

include I K in
/-- Two sweeps from near positions: the distance afterwards is at most a quarter of that of what they
see. -/
theorem sweep_quarter (W : WithIndirect D E δ) {p s p' s' : EqState ℝ} {r r' : Int → Vec ℝ}
    {Q Q' : Int → Int → Vec ℝ} (S : FinalSpec E none true p s r Q)
    (S' : FinalSpec E none true p' s' r' Q')
    (hp : ∀ n ∈ D.nodes.keys, Vec.length (p'.pos n - σ0.P n) ≤ ρ) {b : ℝ} (hb : 0 ≤ b)
    (hd : ∀ n ∈ D.nodes.keys, ∀ m ∈ D.nodes.keys, Vec.length (Q n m - Q' n m) ≤ b) :
    gap D s.pos s'.pos + gap D r r' ≤ b / 4 :=
  K.quarter (indForce E) (indForce_le W) (solOf I W.same S) (solOf I W.same S') Q Q'
    (solOf_sees I W.same S) (solOf_sees I W.same S') (seen_near I K W S' hp) b hb hd

include I K in
theorem iter_half (W : WithIndirect D E δ) {L : List Int} (G : GoodSched E none L) (j : Nat) :
    gap D (iter E none L (j + 2)).pos (iter E none L (j + 3)).pos ≤
      gap D (iter E none L (j + 1)).pos (iter E none L (j + 2)).pos / 2 := by
  have S := final_later I W G j
  have S' := final_later I W G (j + 1)
  set x := gap D (iter E none L (j + 1)).pos (iter E none L (j + 2)).pos with hx
  set y := gap D (iter E none L (j + 2)).pos (iter E none L (j + 3)).pos with hy
  have hx0 : 0 ≤ x := gap_nonneg _ _
  have hy0 : 0 ≤ y := gap_nonneg _ _
  have := sweep_quarter I K W S S' (iter_near I K W G (j + 1)) (b := x + y) (by linarith) (by
    intro n hn m hm
    have l1 := le_gap hm (iter E none L (j + 1)).pos (iter E none L (j + 2)).pos
    have l2 := le_gap hm (iter E none L (j + 2)).pos (iter E none L (j + 3)).pos
    have hnE : n ∈ E.nodes.keys := by rw [W.same.nodeKeys]; exact hn
    rcases S.seen_any n hnE m with e | e <;> rcases S'.seen_any n hnE m with e' | e' <;> rw [e, e']
    · linarith
    · have : (iter E none L (j + 1)).pos m - (iter E none L (j + 3)).pos m =
          ((iter E none L (j + 1)).pos m - (iter E none L (j + 2)).pos m) +
          ((iter E none L (j + 2)).pos m - (iter E none L (j + 3)).pos m) := by abel
      change Vec.length ((iter E none L (j + 1)).pos m - (iter E none L (j + 3)).pos m) ≤ _
      rw [this]
      exact (Vec.length_add_le _ _).trans (by linarith)
    · change Vec.length ((iter E none L (j + 2)).pos m - (iter E none L (j + 2)).pos m) ≤ _
      rw [sub_self, Vec.length_zero]; linarith
    · change Vec.length ((iter E none L (j + 2)).pos m - (iter E none L (j + 3)).pos m) ≤ _
      linarith)
  have g := gap_nonneg (D := D) (outAt E L (j + 1)) (outAt E L (j + 1 + 1))
  have : y ≤ (x + y) / 4 := by
    have e : gap D (iter E none L (j + 2)).pos (iter E none L (j + 1 + 2)).pos = y := rfl
    linarith
  linarith

include I K in
theorem iter_step (W : WithIndirect D E δ) {L : List Int} (G : GoodSched E none L) (j : Nat) :
    gap D (iter E none L (j + 1)).pos (iter E none L (j + 2)).pos ≤ 2 * (C * δ) / 2 ^ j := by
  induction j with
  | zero =>
    have c1 := K.close _ δ K.pos.le le_rfl (solOf_small I W K.pos.le (final_iter I W G 0))
    have c2 := K.close _ δ K.pos.le le_rfl (solOf_small I W K.pos.le (final_iter I W G 1))
    have g1 := gap_nonneg (D := D) (outAt E L 0) σ0.r
    have g2 := gap_nonneg (D := D) (outAt E L 1) σ0.r
    change gap D (iter E none L 1).pos σ0.P + gap D (outAt E L 0) σ0.r ≤ _ at c1
    change gap D (iter E none L 2).pos σ0.P + gap D (outAt E L 1) σ0.r ≤ _ at c2
    have t := gap_triangle (D := D) (iter E none L 1).pos σ0.P (iter E none L 2).pos
    rw [gap_comm σ0.P] at t
    simp only [pow_zero, div_one]
    change gap D (iter E none L 1).pos (iter E none L 2).pos ≤ _
    linarith
  | succ j ih =>
    refine (iter_half I K W G j).trans ?_
    rw [pow_succ]
    have : 2 * (C * δ) / (2 ^ j * 2) = 2 * (C * δ) / 2 ^ j / 2 := by rw [div_div]
    rw [this]
    linarith

/-! ## The limit -/

theorem abs_coord_le (v : Vec ℝ) :
    |v.x| ≤ Vec.length v ∧ |v.y| ≤ Vec.length v ∧ |v.z| ≤ Vec.length v := by
  rw [Vec.length_def]
  unfold Vec.dot
  refine ⟨?_, ?_, ?_⟩ <;> rw [← Real.sqrt_sq_eq_abs] <;> apply Real.sqrt_le_sqrt <;>
    nlinarith [mul_self_nonneg v.x, mul_self_nonneg v.y, mul_self_nonneg v.z]

theorem length_le_coords (v : Vec ℝ) : Vec.length v ≤ |v.x| + |v.y| + |v.z| := by
  rw [Vec.length_def]
  unfold Vec.dot
  rw [Real.sqrt_le_left (by positivity)]
  have hx := abs_nonneg v.x
  have hy := abs_nonneg v.y
  have hz := abs_nonneg v.z
  have e1 := abs_mul_abs_self v.x
  have e2 := abs_mul_abs_self v.y
  have e3 := abs_mul_abs_self v.z
  nlinarith [mul_nonneg hx hy, mul_nonneg hx hz, mul_nonneg hy hz]

/-- Points whose steps shrink by half have a limit. -/
theorem exists_limit {u : ℕ → Vec ℝ} {c : ℝ} (hu : ∀ j, Vec.length (u j - u (j + 1)) ≤ c / 2 / 2 ^ j) :
    ∃ v, Approaches u v := by
  have lim : ∀ f : ℕ → ℝ, (∀ j, |f j - f (j + 1)| ≤ c / 2 / 2 ^ j) → ∃ a, Tendsto f atTop (𝓝 a) :=
    fun f hf => cauchySeq_tendsto_of_complete
      (cauchySeq_of_le_geometric_two (C := c) fun n => by rw [Real.dist_eq]; exact hf n)
  obtain ⟨x, hx⟩ := lim (fun j => (u j).x) fun j => (abs_coord_le _).1.trans (hu j)
  obtain ⟨y, hy⟩ := lim (fun j => (u j).y) fun j => (abs_coord_le _).2.1.trans (hu j)
  obtain ⟨z, hz⟩ := lim (fun j => (u j).z) fun j => (abs_coord_le _).2.2.trans (hu j)
  refine ⟨⟨x, y, z⟩, ?_⟩
  have t : Tendsto (fun j => |(u j).x - x| + |(u j).y - y| + |(u j).z - z|) atTop (𝓝 0) := by
    have h1 := ((hx.sub_const x).abs.add (hy.sub_const y).abs).add (hz.sub_const z).abs
    simpa using h1
  exact squeeze_zero (fun _ => Vec.length_nonneg _) (fun j => length_le_coords _) t

include I K in
theorem exists_limits (W : WithIndirect D E δ) {L : List Int} (G : GoodSched E none L) :
    ∃ P : Int → Vec ℝ, ∀ n ∈ D.nodes.keys,
      Approaches (fun j => (iter E none L (j + 1)).pos n) (P n) := by
  have : ∀ n, ∃ v, n ∈ D.nodes.keys → Approaches (fun j => (iter E none L (j + 1)).pos n) v := by
    intro n
    by_cases hn : n ∈ D.nodes.keys
    · obtain ⟨v, hv⟩ := exists_limit (u := fun j => (iter E none L (j + 1)).pos n) (c := 4 * (C * δ))
        fun j => by
          have h1 := (le_gap hn (iter E none L (j + 1)).pos (iter E none L (j + 2)).pos).trans
            (iter_step I K W G j)
          have e : 4 * (C * δ) / 2 = 2 * (C * δ) := by ring
          rw [e]
          exact h1
      exact ⟨v, fun _ => hv⟩
    · exact ⟨0, fun hc => absurd hc hn⟩
  choose P hP using this
  exact ⟨P, hP⟩

theorem tendsto_gap {u : ℕ → Int → Vec ℝ} {P : Int → Vec ℝ}
    (hP : ∀ n ∈ D.nodes.keys, Approaches (fun j => u j n) (P n)) :
    Tendsto (fun j => gap D (u j) P) atTop (𝓝 0) := by
  unfold gap
  generalize D.nodes.keys = l at hP
  induction l with
  | nil => simp
  | cons a l ih =>
    simp only [List.map_cons, List.sum_cons]
    have h1 : Tendsto (fun j => Vec.length (u j a - P a)) atTop (𝓝 0) := hP a (by simp)
    have h2 := ih fun n hn => hP n (by simp [hn])
    simpa using Tendsto.add h1 h2

/-- The state with the positions `P`. -/
noncomputable def stateWith (E : Diagram ℝ) (P : Int → Vec ℝ) : EqState ℝ :=
  { initState E with xyz := E.nodes.map fun q => (q.1, P q.1) }

theorem stateWith_pos (P : Int → Vec ℝ) (n : Int) :
    (stateWith E P).pos n = if n ∈ E.nodes.keys then P n else 0 := by
  unfold EqState.pos stateWith
  simp only
  have : ∀ d : Dict Int (NodeData ℝ), Dict.get? (d.map fun q => (q.1, P q.1) : Dict Int (Vec ℝ)) n =
      if n ∈ d.keys then some (P n) else none := by
    intro d
    induction d with
    | nil => rfl
    | cons q d ih =>
      simp only [List.map_cons, Dict.get?, Dict.keys, List.mem_cons]
      by_cases hq : q.1 = n
      · rw [if_pos hq, if_pos (Or.inl hq.symm), hq]
      · rw [if_neg hq, ih]
        have hq' : ¬ n = q.1 := fun e => hq e.symm
        change _ = if n = q.1 ∨ n ∈ Dict.keys d then _ else _
        by_cases hd : n ∈ Dict.keys d
        · rw [if_pos hd, if_pos (Or.inr hd)]
        · rw [if_neg hd, if_neg (by rintro (e | e); exacts [hq' e, hd e])]
  rw [this]
  split_ifs <;> rfl

include I in
/-- A sweep from any positions that keeps the first nodes of the trails. -/
theorem final_with (h : SameExcept (IndirectForce D) D E) {L : List Int} (G : GoodSched E none L)
    {P : Int → Vec ℝ} (hP : ∀ m ∈ E.nodes.keys, (∀ a ∈ E.nodes.keys, nxtK E none a ≠ some m) →
      P m = posOf E m) :
    ∃ s r Q, FinalSpec E none true (stateWith E P) s r Q := by
  have J := validInput_same h I
  have g : GoodState E (stateWith E P) := by
    refine ⟨?_, (goodState_init E).2⟩
    unfold stateWith Dict.keys
    simp only
    rw [List.map_map]
    rfl
  have S := sweepSpec (D := E) (ind := true) G.sched (stateWith E P)
  refine ⟨L.foldl (proc E (nxtK E none) true) (stateWith E P),
    rAt E (nxtK E none) true L (stateWith E P),
    fun n => (stateAt E (nxtK E none) true L (stateWith E P) n).pos,
    g.fold J.wf J.trails L, ?_, ?_, ?_, ?_, ?_, ?_, ?_,
    (fold_nodup L (s := stateWith E P) List.nodup_nil List.nodup_nil).1,
    (fold_nodup L (s := stateWith E P) List.nodup_nil List.nodup_nil).2⟩
  · exact fun n hn => S.seen n ((G.mem n).2 hn)
  · exact fun n hn => S.seen_any n ((G.mem n).2 hn)
  · exact fun n hn => S.out n ((G.mem n).2 hn)
  · exact fun n hn => S.next n ((G.mem n).2 hn)
  · intro m hm
    obtain ⟨h1, h2⟩ := S.start m fun a ha => hm a ((G.mem a).1 ha)
    refine ⟨?_, h2⟩
    rw [h1, stateWith_pos, start_position]
    split_ifs with hk
    · exact hP m hk hm
    · unfold posOf
      rw [(Dict.get?_eq_none_iff _ _).2 hk]
      rfl
  · intro n
    have := S.react n
    simp only [G.mem] at this
    exact this
  · exact fun e he => (S.force e fun a ha => he a ((G.mem a).1 ha)).1

include I K in
/-- There is a sweep that reproduces the positions it starts from. -/
theorem exists_fixed (W : WithIndirect D E δ) : ∃ p s r Q, FinalSpec E none true p s r Q ∧
    ∀ n ∈ E.nodes.keys, p.pos n = s.pos n := by
  have J := validInput_same W.same I
  obtain ⟨T, N, hT, hN, hg, hlt⟩ := goodSeqs_of_valid J.wf J.trails J.nonempty
  have G := goodSched J.wf J.trails hg none hlt
  set L := sched E T N with hL
  obtain ⟨P, hP⟩ := exists_limits I K W G
  have near : ∀ n ∈ D.nodes.keys, Vec.length (P n - σ0.P n) ≤ ρ := by
    intro n hn
    have t : Tendsto (fun j => Vec.length ((iter E none L (j + 1)).pos n - σ0.P n)) atTop
        (𝓝 (Vec.length (P n - σ0.P n))) := Approach.length (Approach.sub (hP n hn) (Approach.const (σ0.P n)))
    exact le_of_tendsto t (Eventually.of_forall fun j => iter_near I K W G j n hn)
  have hstart : ∀ m ∈ E.nodes.keys, (∀ a ∈ E.nodes.keys, nxtK E none a ≠ some m) →
      P m = posOf E m := by
    intro m hm hx
    rw [W.same.nodeKeys] at hm
    have hc : ∀ j, (iter E none L (j + 1)).pos m = posOf E m := by
      intro j
      rw [((iter_start G (j + 1)).1 m hx).1, start_position]
    have := hP m hm
    simp only [hc] at this
    exact Approach.unique this (Approach.const _)
  obtain ⟨s, r, Q, S⟩ := final_with I W.same G hstart
  refine ⟨_, s, r, Q, S, ?_⟩
  have hp : ∀ n ∈ D.nodes.keys, (stateWith E P).pos n = P n := by
    intro n hn
    rw [stateWith_pos, if_pos (by rw [W.same.nodeKeys]; exact hn)]
  set x := gap D P s.pos with hx
  have hx0 : 0 ≤ x := gap_nonneg _ _
  have e0 := tendsto_gap hP
  have bound : ∀ j, x ≤ gap D (iter E none L (j + 1)).pos P + 2 * gap D (iter E none L (j + 2)).pos P := by
    intro j
    set a := gap D (iter E none L (j + 1)).pos P with ha
    set b := gap D (iter E none L (j + 2)).pos P with hb
    have ha0 : 0 ≤ a := gap_nonneg _ _
    have hb0 : 0 ≤ b := gap_nonneg _ _
    have S1 := final_later I W G j
    have q := sweep_quarter I K W S1 S (by intro n hn; rw [hp n hn]; exact near n hn)
      (b := a + b + x) (by linarith) (by
      intro n hn m hm
      have l1 := le_gap hm (iter E none L (j + 1)).pos P
      have l2 := le_gap hm (iter E none L (j + 2)).pos P
      have l3 := le_gap hm P s.pos
      have hnE : n ∈ E.nodes.keys := by rw [W.same.nodeKeys]; exact hn
      have tri : ∀ u : Vec ℝ, Vec.length (u - s.pos m) ≤ Vec.length (u - P m) +
          Vec.length (P m - s.pos m) := by
        intro u
        have : u - s.pos m = (u - P m) + (P m - s.pos m) := by abel
        rw [this]
        exact Vec.length_add_le _ _
      rcases S1.seen_any n hnE m with e | e <;> rcases S.seen_any n hnE m with e' | e' <;> rw [e, e']
      · rw [hp m hm]; linarith
      · have := tri ((iter E none L (j + 1)).pos m); linarith
      · rw [hp m hm]; linarith
      · have := tri ((iter E none L (j + 2)).pos m); linarith)
    have g := gap_nonneg (D := D) (outAt E L (j + 1)) r
    have t := gap_triangle (D := D) P (iter E none L (j + 2)).pos s.pos
    rw [gap_comm P (iter E none L (j + 2)).pos] at t
    linarith
  have hxle : x ≤ 0 := by
    have e1 : Tendsto (fun j => gap D (iter E none L (j + 2)).pos P) atTop (𝓝 0) :=
      e0.comp (tendsto_add_atTop_nat 1)
    have t := e0.add (e1.const_mul 2)
    simp only [mul_zero, add_zero] at t
    exact ge_of_tendsto t (Eventually.of_forall bound)
  intro n hn
  rw [W.same.nodeKeys] at hn
  rw [hp n hn]
  exact eq_of_gap hxle hn
end
end CEM
