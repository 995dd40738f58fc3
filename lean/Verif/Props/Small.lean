import Verif.Lemmas.SmallRounds
import Verif.Props.Staged

/-!
# Property C69: small forces in indirect deviation edges
-/

set_option linter.unusedSectionVars false
set_option linter.unusedSimpArgs false

namespace CEM
namespace Props
open Diagram Spec EqEx Filter Topology

section
variable {D E G : Diagram ℝ}

/-- An equilibrium solves the problem with the forces of its indirect edges as additional forces. -/
theorem exists_sol (I : ValidInput D) (h : SameExcept (IndirectForce D) D E) (X : EquilibriumOf E G) :
    ∃ σ : Sol D, σ.P = posOf G ∧ Sees D (indForce E) (fun _ => posOf G) σ.κ ∧
      (∀ n, trailNext E n = none → σ.r n = reactionAt G n) ∧
      (∀ n m, trailNext E n = some m → forceIn E G n m ≠ 0 ∧
        AsPrescribed (edgeData E n m) (forceIn E G n m) (posOf G n) (posOf G m) ∧
        σ.r n = forceIn E G n m • unit (posOf G m - posOf G n)) := by
  have J := validInput_same h I
  obtain ⟨T, r, A, h4, h5⟩ := rounds_equilibrium J X
  have d := driven_of I h (A.seen 0) (A.out 0) (A.next 0) (A.start 0)
  refine ⟨⟨_, _, _, _, d⟩, rfl, ?_, h4, h5⟩
  simp only [if_true]
  exact sees_devSum fun _ => posOf G

/-- An equilibrium without forces in the indirect edges does not change abruptly. -/
theorem steady_of (I : ValidInput D)
    (hz : ∀ e d, Indirect D e → D.edges.get? e = some d → d.force = 0)
    (X : EquilibriumOf D G) (hX : Distinct D G) :
    ∃ σ0 : Sol D, σ0.P = posOf G ∧ Steady σ0 ∧
      (∀ n ∈ D.nodes.keys, ∀ m ∈ indNbrs D n, σ0.P m ≠ σ0.P n) ∧
      (∀ n, trailNext D n = none → σ0.r n = reactionAt G n) := by
  have w := I.wf
  have V := I.trails
  obtain ⟨σ, hP, hS, h4, h5⟩ := exists_sol I (SameExcept.refl _ D) X
  have W : WithIndirect D D 0 := ⟨SameExcept.refl _ D, fun e d hi hd => by rw [hz e d hi hd, abs_zero]⟩
  have dev : ∀ n m, m ∈ D.neighbors n → (edgeData D n m).type = .deviation → posOf G m ≠ posOf G n := by
    intro n m hm ht
    have := hX.apart _ _ (edgeKey_mem hm) ht
    rcases edgeKey_ends D n m with e | e <;> rw [e] at this
    · exact this.symm
    · exact this
  refine ⟨σ, hP, ⟨?_, ?_, ?_, ?_⟩, ?_, h4⟩
  · intro n hn
    have := hS.bound le_rfl (indForce_le W) n hn
    rw [mul_zero] at this
    exact Vec.length_eq_zero.1 (le_antisymm this (Vec.length_nonneg _))
  · intro n m hm
    obtain ⟨f1, f2, f3⟩ := h5 n m hm
    have hne := (effectiveLength_of f2 f1).1
    rw [f3]
    intro h0
    have := congrArg Vec.length h0
    rw [Vec.length_smul, length_unit (sub_ne_zero.2 hne), Vec.length_zero, mul_one] at this
    exact f1 (abs_eq_zero.1 this)
  · intro n _ m hm
    obtain ⟨h1, h2⟩ := List.mem_filter.1 hm
    simp only [decide_eq_true_eq] at h2
    rw [hP]
    exact dev n m h1 h2.1
  · intro n m o N hm hp
    obtain ⟨f1, f2, f3⟩ := h5 n m hm
    have hb : EdgeBetween D n m (edgeData D n m) :=
      (edgeBetween_iff I.simple).2 ⟨adj_mem_neighbors (trailNext_adj w V hm), rfl⟩
    have q := hX.planes n m _ o N ((trailNext_iff w V).1 hm) hb hp
    have e : |Vec.dot N (unit (σ.r n))| = |Vec.dot N (unit (posOf G m - posOf G n))| := by
      rw [f3]
      rcases lt_or_gt_of_ne f1 with hn | hp
      · rw [unit_smul_neg hn, unit_unit]
        have : Vec.dot N (-unit (posOf G m - posOf G n)) = -Vec.dot N (unit (posOf G m - posOf G n)) := by
          simp only [Vec.dot, Vec.neg_x, Vec.neg_y, Vec.neg_z]; ring
        rw [this, abs_neg]
      · rw [unit_smul_pos hp, unit_unit]
    rw [e, hP]
    refine q.imp id fun h => ⟨h.1, fun h0 => h.2 ?_⟩
    simp only [Vec.dot, Vec.sub_x, Vec.sub_y, Vec.sub_z] at h0 ⊢
    linarith
  · intro n _ m hm
    obtain ⟨h1, h2⟩ := List.mem_filter.1 hm
    simp only [decide_eq_true_eq] at h2
    rw [hP]
    exact dev n m h1 h2.1

theorem nonzero_apart (h : SameExcept (IndirectForce D) D E) (hl : NonzeroTrails D) :
    NonzeroTrails E := by
  intro e d hd ht
  obtain ⟨d0, h0⟩ := (Dict.exists_get?_iff D.edges e).2 (by rw [← h.edgeKeys]; exact Dict.mem_keys_of_get? hd)
  obtain ⟨e1, _, e3, _⟩ := h.edge e d0 d h0 hd
  rw [e3 (fun hc => hc)]
  exact hl e d0 h0 (by rw [← e1]; exact ht)

variable {σ0 : Sol D} {C δ ρ : ℝ}

/-- A sweep that reproduces the positions that it starts from gives an equilibrium. -/
theorem fixed_equilibrium (I : ValidInput D) (hl : NonzeroTrails D) (K : Contracts σ0 C δ ρ)
    (W : WithIndirect D E δ) {p s : EqState ℝ} {r : Int → Vec ℝ} {Q : Int → Int → Vec ℝ}
    (S : FinalSpec E none true p s r Q) (hp : ∀ n ∈ E.nodes.keys, p.pos n = s.pos n) :
    EquilibriumOf E (formOf E s) := by
  have J := validInput_same W.same I
  have hlE := nonzero_apart W.same hl
  have hc : Computed E (formOf E s) := ⟨_, _, _, _, _, rfl, S⟩
  obtain ⟨k1, k2, _, k4⟩ := computed_keeps_data J hc
  refine equilibriumOf_computed J hlE hc ?_ ?_
  · rintro ⟨a, b⟩ d hd ht
    have hm : (a, b) ∈ E.edges.keys := by rw [← k2]; exact Dict.mem_keys_of_get? hd
    obtain ⟨d0, h0⟩ := (Dict.exists_get?_iff _ _).2 hm
    obtain ⟨d', hd', t1, _⟩ := k4 _ d0 h0
    rw [hd] at hd'
    obtain rfl := Option.some.inj hd'
    obtain ⟨key, tr, htr, hcon⟩ := J.trails.complete a b (Or.inl ⟨d0, h0, by rw [← t1]; exact ht⟩)
    have go : ∀ x y, Consecutive tr x y → ((a, b) = (x, y) ∨ (a, b) = (y, x)) → d.force ≠ 0 := by
      intro x y hxy hends
      have hn : trailNext D x = some y := by
        rw [← trailNext_apart W.same]
        exact (trailNext_iff J.wf J.trails).2 ⟨key, tr, htr, hxy⟩
      have hr := (K.near _ (solOf_small I W K.pos.le S)).2 x y hn
      change r x ≠ 0 at hr
      rw [(trail_form J S htr hxy hends h0 hd).2.1]
      have := Vec.length_pos hr
      unfold copysign
      rw [abs_of_pos this]
      split_ifs <;> linarith
    rcases hcon with hcon | hcon
    · exact go a b hcon (Or.inl rfl)
    · exact go b a hcon (Or.inr rfl)
  · intro n hn
    rw [k1] at hn
    have hQ : ∀ m ∈ E.nodes.keys, Q n m = s.pos m := by
      intro m hm
      rcases S.seen_any n hn m with e | e
      · rw [e, hp m hm]
      · exact e
    rw [imbalance_eq J hlE S hn, if_pos rfl,
      devSum_congr (l := indNbrs E n) (hQ n hn) fun m hm =>
        hQ m (mem_keys_of_nbr J.wf (List.mem_filter.1 hm).1).1, sub_self]

/-- What a sweep that reproduces its positions sees is near. -/
theorem fixed_near (I : ValidInput D) (K : Contracts σ0 C δ ρ)
    (W : WithIndirect D E δ) {p s : EqState ℝ} {r : Int → Vec ℝ} {Q : Int → Int → Vec ℝ}
    (S : FinalSpec E none true p s r Q) (hp : ∀ n ∈ E.nodes.keys, p.pos n = s.pos n) :
    ∀ n ∈ D.nodes.keys, Vec.length (p.pos n - σ0.P n) ≤ ρ := by
  intro n hn
  rw [hp n (by rw [W.same.nodeKeys]; exact hn)]
  exact (K.near _ (solOf_small I W K.pos.le S)).1 n hn

/-- Every equilibrium is the one that a sweep reproduces. -/
theorem fixed_unique (I : ValidInput D) (K : Contracts σ0 C δ ρ)
    (W : WithIndirect D E δ) {p s : EqState ℝ} {r : Int → Vec ℝ} {Q : Int → Int → Vec ℝ}
    (S : FinalSpec E none true p s r Q) (hp : ∀ n ∈ E.nodes.keys, p.pos n = s.pos n)
    (X : EquilibriumOf E G) : SameForm E (formOf E s) G := by
  have J := validInput_same W.same I
  obtain ⟨σ, hP, hS, h4, h5⟩ := exists_sol I W.same X
  have q := K.quarter (indForce E) (indForce_le W) σ (solOf I W.same S) _ Q hS
    (solOf_sees I W.same S) (seen_near I K W S (fixed_near I K W S hp)) (gap D (posOf G) s.pos)
    (gap_nonneg _ _) (by
      intro n hn m hm
      have : Q n m = s.pos m := by
        rcases S.seen_any n (by rw [W.same.nodeKeys]; exact hn) m with e | e
        · rw [e, hp m (by rw [W.same.nodeKeys]; exact hm)]
        · exact e
      rw [this]
      exact le_gap hm _ _)
  rw [hP] at q
  change gap D (posOf G) s.pos + gap D σ.r r ≤ _ at q
  have g1 := gap_nonneg (D := D) (posOf G) s.pos
  have g2 := gap_nonneg (D := D) σ.r r
  refine equal_of_agree J S X h4 h5 fun n hn => ?_
  rw [W.same.nodeKeys] at hn
  exact ⟨(eq_of_gap (P := posOf G) (by linarith) hn).symm, (eq_of_gap (P := σ.r) (by linarith) hn).symm⟩

/-- The distance of an iterate from the positions that a sweep reproduces is at most the last
change. -/
theorem iter_error (I : ValidInput D) (K : Contracts σ0 C δ ρ)
    (W : WithIndirect D E δ) {p s : EqState ℝ} {r : Int → Vec ℝ} {Q : Int → Int → Vec ℝ}
    (S : FinalSpec E none true p s r Q) (hp : ∀ n ∈ E.nodes.keys, p.pos n = s.pos n)
    {L : List Int} (hL : GoodSched E none L) (j : Nat) :
    gap D (iter E none L (j + 2)).pos s.pos + gap D (outAt E L (j + 1)) r ≤
      residualDistance (iter E none L (j + 1)).xyz (iter E none L (j + 2)).xyz := by
  have J := validInput_same W.same I
  have S1 := final_later I W hL j
  rw [residual_eq_gap I.wf (by rw [S1.keys.1, W.same.nodeKeys])]
  set a := gap D (iter E none L (j + 1)).pos (iter E none L (j + 2)).pos with ha
  set y := gap D (iter E none L (j + 2)).pos s.pos with hy
  have a0 : 0 ≤ a := gap_nonneg _ _
  have y0 : 0 ≤ y := gap_nonneg _ _
  have t := gap_triangle (D := D) (iter E none L (j + 1)).pos (iter E none L (j + 2)).pos s.pos
  have q := sweep_quarter I K W S1 S (fixed_near I K W S hp) (b := a + y) (by linarith) (by
    intro n hn m hm
    have hnE : n ∈ E.nodes.keys := by rw [W.same.nodeKeys]; exact hn
    have hQ : Q n m = s.pos m := by
      rcases S.seen_any n hnE m with e | e
      · rw [e, hp m (by rw [W.same.nodeKeys]; exact hm)]
      · exact e
    rw [hQ]
    rcases S1.seen_any n hnE m with e | e <;> rw [e]
    · have := le_gap hm (iter E none L (j + 1)).pos s.pos
      linarith
    · have := le_gap hm (iter E none L (j + 2)).pos s.pos
      linarith)
  have g := gap_nonneg (D := D) (outAt E L (j + 1)) r
  linarith

end

/-- **C69.**  Let `F0` be an equilibrium of a problem whose indirect deviation edges carry no force, in
which no deviation edge has shrunk to a point and every plane clearly is or is not used.  Then there is
a positive force `δ` such that with any forces of the indirect deviation edges up to `δ` the problem has
exactly one equilibrium; form finding returns a form whenever `c / 2 ^ tmax ≤ eta`; and the nodes and
reactions of every form that is returned after at least two iterations are at most `eta` from those of
the equilibrium. -/
theorem C69_converges {D F0 : Diagram ℝ} (I : ValidInput D) (hl : NonzeroTrails D)
    (hz : ∀ e d, Indirect D e → D.edges.get? e = some d → d.force = 0)
    (X0 : EquilibriumOf D F0) (hX : Distinct D F0) :
    ∃ δ c : ℝ, 0 < δ ∧ ∀ E, WithIndirect D E δ → ∃ G, EquilibriumOf E G ∧
      (∀ G', EquilibriumOf E G' → SameForm E G G') ∧
      (∀ (tmax : Nat) (eta : ℝ) (verbose : Bool), 2 ≤ tmax → c / 2 ^ tmax ≤ eta →
        ∃ F, staticEquilibrium E none tmax eta verbose = .ok F) ∧
      (∀ (tmax : Nat) (eta : ℝ) (verbose : Bool) (F : Diagram ℝ), 2 ≤ tmax →
        staticEquilibrium E none tmax eta verbose = .ok F → ∀ n ∈ E.nodes.keys,
          Vec.dist (posOf F n) (posOf G n) ≤ eta ∧
          Vec.dist (reactionAt F n) (reactionAt G n) ≤ eta) := by
  obtain ⟨σ0, hP0, St, hi, _⟩ := steady_of I hz X0 hX
  obtain ⟨C, δ, ρ, K⟩ := contracts I St hi
  refine ⟨δ, 8 * (C * δ), K.pos, fun E W => ?_⟩
  have J := validInput_same W.same I
  have hnx : ∀ a, nxtK E none a = trailNext E a := nxtK_none J.wf J.trails
  obtain ⟨p, s, r, Q, S, hp⟩ := exists_fixed I K W
  refine ⟨formOf E s, fixed_equilibrium I hl K W S hp, fun G' X => fixed_unique I K W S hp X, ?_, ?_⟩
  · intro tmax eta verbose ht he
    obtain ⟨L, G, _, _, h2⟩ := equilibriumState_cases J (kmax := none) (by simp) tmax eta verbose
    obtain ⟨m, hm, hm', _, hor, hr⟩ := h2 ht
    unfold staticEquilibrium
    rw [hr, if_neg]
    · exact ⟨_, rfl⟩
    · rw [gt_iff_lt, not_lt]
      rcases hor with hlt | rfl
      · exact hlt.le
      · obtain ⟨k, rfl⟩ : ∃ k, m = k + 2 := ⟨m - 2, by omega⟩
        refine le_trans ?_ he
        have S1 := final_later I W G k
        have e1 : k + 2 - 1 = k + 1 := by omega
        rw [e1, residual_eq_gap I.wf (by rw [S1.keys.1, W.same.nodeKeys])]
        refine (iter_step I K W G k).trans (le_of_eq ?_)
        rw [pow_add]
        field_simp
        ring
  · intro tmax eta verbose F ht h n hn
    obtain ⟨L, m, G, rfl, _, h2⟩ := returned J (by simp) h
    obtain ⟨h3, h4⟩ := h2 ht
    obtain ⟨j, rfl⟩ : ∃ j, m = j + 1 := ⟨m - 1, by omega⟩
    have S1 := final_later I W G j
    have q := (iter_error I K W S hp G j).trans h4
    have hnD : n ∈ D.nodes.keys := by rw [← W.same.nodeKeys]; exact hn
    have l1 := le_gap hnD (iter E none L (j + 2)).pos s.pos
    have l2 := le_gap hnD (outAt E L (j + 1)) r
    have g1 := gap_nonneg (D := D) (iter E none L (j + 2)).pos s.pos
    have g2 := gap_nonneg (D := D) (outAt E L (j + 1)) r
    constructor
    · change Vec.dist (posOf (formOf E (iter E none L (j + 2))) n) _ ≤ eta
      rw [posOf_form J.wf S1, posOf_form J.wf S]
      unfold Vec.dist
      linarith
    · change Vec.dist (reactionAt (formOf E (iter E none L (j + 2))) n) _ ≤ eta
      rw [reactionAt_form J.wf S1 J.reaction hn, reactionAt_form J.wf S J.reaction hn]
      unfold Vec.dist
      split_ifs
      · linarith
      · rw [sub_self, Vec.length_zero]; linarith

/-- **C69, nearness.**  Under the same hypotheses, the nodes and reactions of every equilibrium with
forces of the indirect deviation edges up to `t ≤ δ` are at most `c * t` from those of the equilibrium
without these forces. -/
theorem C69_near {D F0 : Diagram ℝ} (I : ValidInput D)
    (hz : ∀ e d, Indirect D e → D.edges.get? e = some d → d.force = 0)
    (X0 : EquilibriumOf D F0) (hX : Distinct D F0) :
    ∃ δ c : ℝ, 0 < δ ∧ ∀ t E G, 0 ≤ t → t ≤ δ → WithIndirect D E t → EquilibriumOf E G →
      ∀ n ∈ E.nodes.keys, Vec.dist (posOf G n) (posOf F0 n) ≤ c * t ∧
        Vec.dist (reactionAt G n) (reactionAt F0 n) ≤ c * t := by
  obtain ⟨σ0, hP0, St, hi, h0⟩ := steady_of I hz X0 hX
  obtain ⟨C, δ, ρ, K⟩ := contracts I St hi
  refine ⟨δ, C, K.pos, fun t E G ht0 ht W X n hn => ?_⟩
  have J := validInput_same W.same I
  obtain ⟨σ, hP, hS, h4, _⟩ := exists_sol I W.same X
  have q := K.close σ t ht0 ht (hS.bound ht0 (indForce_le W))
  have hnD : n ∈ D.nodes.keys := by rw [← W.same.nodeKeys]; exact hn
  have g := gap_nonneg (D := D) σ.r σ0.r
  have g' := gap_nonneg (D := D) σ.P σ0.P
  have l := le_gap (D := D) hnD σ.P σ0.P
  have l' := le_gap (D := D) hnD σ.r σ0.r
  rw [hP0, hP] at l
  rw [hP0, hP] at q g'
  unfold Vec.dist
  refine ⟨by linarith, ?_⟩
  have e := trailNext_apart W.same n
  cases hx : trailNext D n with
  | none =>
    rw [hx] at e
    rw [← h4 n e, ← h0 n hx]
    linarith
  | some m =>
    rw [hx] at e
    rw [X.reactions n hn (trailNext_support J.wf J.trails e),
      X0.reactions n hnD (trailNext_support I.wf I.trails hx), sub_self, Vec.length_zero]
    linarith

/-- **C69, no forces.**  If no indirect deviation edge carries a force, form finding always returns
a form after two iterations, whatever the threshold; every returned form is balanced; and every
equilibrium has its positions, reactions and forces. -/
theorem C69_zero {D : Diagram ℝ} (I : ValidInput D) (hl : NonzeroTrails D)
    (hz : ∀ e d, Indirect D e → D.edges.get? e = some d → d.force = 0) :
    (∀ (tmax : Nat) (eta : ℝ) (verbose : Bool), 2 ≤ tmax → 0 ≤ eta →
      ∃ F, staticEquilibrium D none tmax eta verbose = .ok F) ∧
    (∀ (tmax : Nat) (eta : ℝ) (verbose : Bool) (F : Diagram ℝ),
      staticEquilibrium D none tmax eta verbose = .ok F →
      (∀ n ∈ D.nodes.keys, imbalance F n = 0) ∧
      ((∀ e d, F.edges.get? e = some d → d.type = .trail → d.force ≠ 0) → EquilibriumOf D F) ∧
      ∀ G, EquilibriumOf D G → SameForm D F G) := by
  have w := I.wf
  have V := I.trails
  have W : WithIndirect D D 0 := ⟨SameExcept.refl _ D, fun e d hi hd => by rw [hz e d hi hd, abs_zero]⟩
  have dz : ∀ (P : Int → Vec ℝ), ∀ n ∈ D.nodes.keys, devSum D P n (indNbrs D n) = 0 := by
    intro P n hn
    have := (sees_devSum (D := D) (E := D) fun _ => P).bound le_rfl (indForce_le W) n hn
    rw [mul_zero] at this
    exact Vec.length_eq_zero.1 (le_antisymm this (Vec.length_nonneg _))
  have kz : ∀ {ind : Bool} {p s : EqState ℝ} {r : Int → Vec ℝ} {Q : Int → Int → Vec ℝ}
      (S : FinalSpec D none ind p s r Q), ∀ n ∈ D.nodes.keys, (solOf I W.same S).κ n = 0 := by
    intro ind p s r Q S n hn
    change (if ind = true then devSum D (Q n) n (indNbrs D n) else 0) = 0
    rw [dz _ n hn, ite_self]
  refine ⟨?_, ?_⟩
  · intro tmax eta verbose ht he
    obtain ⟨L, G, _, _, h2⟩ := equilibriumState_cases I (kmax := none) (by simp) tmax eta verbose
    obtain ⟨m, hm, hm', _, hor, hr⟩ := h2 ht
    unfold staticEquilibrium
    rw [hr, if_neg]
    · exact ⟨_, rfl⟩
    · rw [gt_iff_lt, not_lt]
      refine le_trans (le_of_eq ?_) he
      obtain ⟨k, rfl⟩ : ∃ k, m = k + 2 := ⟨m - 2, by omega⟩
      refine residual_zero w (goodState_iter w V none L _) fun n hn => ?_
      have S1 := final_iter I W G k
      have S2 := final_iter I W G (k + 1)
      exact (Sol.unique I (solOf I W.same S1) (solOf I W.same S2)
        (fun n hn => by rw [kz S1 n hn, kz S2 n hn]) n hn).1
  · intro tmax eta verbose F h
    obtain ⟨ind, p, s, r, Q, rfl, S, _⟩ := returned_final I (by simp) h
    have hb : ∀ n ∈ D.nodes.keys, imbalance (formOf D s) n = 0 := by
      intro n hn
      rw [imbalance_eq I hl S hn, dz _ n hn, dz _ n hn, ite_self, sub_self]
    refine ⟨hb, fun hf => ?_, fun G X => ?_⟩
    · refine equilibriumOf_of_balanced I hl h hf fun n hn => hb n ?_
      rw [← (C25_keeps_data I h).1]; exact hn
    · obtain ⟨σ, hP, hS, h4, h5⟩ := exists_sol I W.same X
      refine equal_of_agree I S X h4 h5 fun n hn => ?_
      have := Sol.unique I (solOf I W.same S) σ (fun n hn => by
        have := hS.bound le_rfl (indForce_le W) n hn
        rw [mul_zero] at this
        rw [kz S n hn, Vec.length_eq_zero.1 (le_antisymm this (Vec.length_nonneg _))]) n hn
      rw [hP] at this
      exact this

/-! ## Example: two trails that feed back -/

namespace PairEx

/-- Trails `0-1` and `2-3` with loads `u`, and the indirect deviation edges `(0, 3)` with force `f` and
`(2, 1)` with force `g`: node 1 needs node 3 and node 3 needs node 1. -/
noncomputable def pair (u : Vec ℝ) (f g : ℝ) : Diagram ℝ where
  nodes := [(0, ⟨⟨0, 0, 0⟩, u, ⟨0, 0, 0⟩, some 0, .origin⟩),
    (1, ⟨⟨2, 0, 0⟩, ⟨0, 0, 0⟩, ⟨0, 0, 0⟩, some 1, .support⟩),
    (2, ⟨⟨1, 0, 0⟩, u, ⟨0, 0, 0⟩, some 0, .origin⟩),
    (3, ⟨⟨3, 0, 0⟩, ⟨0, 0, 0⟩, ⟨0, 0, 0⟩, some 1, .support⟩)]
  edges := [((0, 1), ⟨.trail, -2, 0, none⟩), ((2, 3), ⟨.trail, -2, 0, none⟩),
    ((0, 3), ⟨.deviation, 0, f, none⟩), ((2, 1), ⟨.deviation, 0, g, none⟩)]
  maxNode := 3
  gkeyNode := [("0", 0), ("2", 1), ("1", 2), ("3", 3)]
  trails := [(0, [0, 1]), (2, [2, 3])]
  auxTrails := []
  auxLength := -1
  auxVector := ⟨1, 1, 1⟩

/-- Its form without forces in the indirect edges. -/
noncomputable def base (u : Vec ℝ) : Diagram ℝ where
  nodes := [(0, ⟨⟨0, 0, 0⟩, u, ⟨0, 0, 0⟩, some 0, .origin⟩),
    (1, ⟨(2 : ℝ) • u, ⟨0, 0, 0⟩, -u, some 1, .support⟩),
    (2, ⟨⟨1, 0, 0⟩, u, ⟨0, 0, 0⟩, some 0, .origin⟩),
    (3, ⟨⟨1, 0, 0⟩ + (2 : ℝ) • u, ⟨0, 0, 0⟩, -u, some 1, .support⟩)]
  edges := [((0, 1), ⟨.trail, -2, -1, none⟩), ((2, 3), ⟨.trail, -2, -1, none⟩),
    ((0, 3), ⟨.deviation, 0, 0, none⟩), ((2, 1), ⟨.deviation, 0, 0, none⟩)]
  maxNode := 3
  gkeyNode := []
  trails := []
  auxTrails := []
  auxLength := -1
  auxVector := ⟨1, 1, 1⟩

variable (u : Vec ℝ) (f g : ℝ)

theorem pair_nodes (n : Int) : (pair u f g).nodes.get? n =
    if n = 0 then some ⟨⟨0, 0, 0⟩, u, ⟨0, 0, 0⟩, some 0, .origin⟩
    else if n = 1 then some ⟨⟨2, 0, 0⟩, ⟨0, 0, 0⟩, ⟨0, 0, 0⟩, some 1, .support⟩
    else if n = 2 then some ⟨⟨1, 0, 0⟩, u, ⟨0, 0, 0⟩, some 0, .origin⟩
    else if n = 3 then some ⟨⟨3, 0, 0⟩, ⟨0, 0, 0⟩, ⟨0, 0, 0⟩, some 1, .support⟩ else none := by
  simp only [pair, Dict.get?, eq_comm (b := n)]

theorem pair_edges (e : Int × Int) : (pair u f g).edges.get? e =
    if e = (0, 1) then some ⟨.trail, -2, 0, none⟩ else if e = (2, 3) then some ⟨.trail, -2, 0, none⟩
    else if e = (0, 3) then some ⟨.deviation, 0, f, none⟩
    else if e = (2, 1) then some ⟨.deviation, 0, g, none⟩ else none := by
  simp only [pair, Dict.get?, eq_comm (b := e)]

theorem base_nodes (n : Int) : (base u).nodes.get? n =
    if n = 0 then some ⟨⟨0, 0, 0⟩, u, ⟨0, 0, 0⟩, some 0, .origin⟩
    else if n = 1 then some ⟨(2 : ℝ) • u, ⟨0, 0, 0⟩, -u, some 1, .support⟩
    else if n = 2 then some ⟨⟨1, 0, 0⟩, u, ⟨0, 0, 0⟩, some 0, .origin⟩
    else if n = 3 then some ⟨⟨1, 0, 0⟩ + (2 : ℝ) • u, ⟨0, 0, 0⟩, -u, some 1, .support⟩ else none := by
  simp only [base, Dict.get?, eq_comm (b := n)]

theorem base_edges (e : Int × Int) : (base u).edges.get? e =
    if e = (0, 1) then some ⟨.trail, -2, -1, none⟩ else if e = (2, 3) then some ⟨.trail, -2, -1, none⟩
    else if e = (0, 3) then some ⟨.deviation, 0, 0, none⟩
    else if e = (2, 1) then some ⟨.deviation, 0, 0, none⟩ else none := by
  simp only [base, Dict.get?, eq_comm (b := e)]

theorem valid_pair : ValidInput (pair u f g) := by
  refine validInput_same (S := fun _ => True) (D := FlipEx.flip) ⟨?_, ?_, ?_, ?_, ?_⟩ FlipEx.valid_flip
  · rw [FlipEx.flip_keys]; rfl
  · rw [FlipEx.flip_edge_keys]; rfl
  · intro n d d' h h'
    rw [FlipEx.flip_nodes] at h
    rw [pair_nodes] at h'
    split_ifs at h h' <;> simp at h h' <;> subst h <;> subst h' <;> simp
  · intro e d d' h h'
    rw [FlipEx.flip_edges] at h
    rw [pair_edges] at h'
    split_ifs at h h' <;> simp at h h' <;> subst h <;> subst h' <;> simp
  · refine ⟨rfl, rfl, rfl, rfl, ?_, ?_⟩
    · simp [pair, FlipEx.flip, FlipEx.flipLit, Diagram.real, Diagram.map]
    · simp [pair, FlipEx.flip, FlipEx.flipLit, Diagram.real, Diagram.map, Vec.map]

theorem nonzero_pair : NonzeroTrails (pair u f g) := by
  intro e d h ht
  rw [pair_edges] at h
  split_ifs at h <;> simp at h <;> subst h <;> simp at ht ⊢

theorem same_pair (f' g' : ℝ) : SameExcept (IndirectForce (pair u f g)) (pair u f g) (pair u f' g') := by
  have s : seqOf (pair u f g) 0 = some 0 ∧ seqOf (pair u f g) 1 = some 1 ∧
      seqOf (pair u f g) 2 = some 0 ∧ seqOf (pair u f g) 3 = some 1 := by
    unfold seqOf; simp [pair_nodes]
  refine ⟨rfl, rfl, ?_, ?_, rfl, rfl, rfl, rfl, rfl, rfl⟩
  · intro n d d' h h'
    rw [pair_nodes] at h h'
    rw [h] at h'
    rw [Option.some.inj h']
    simp
  · intro e d d' h h'
    have hi : d.type = .deviation → seqOf (pair u f g) e.1 ≠ seqOf (pair u f g) e.2 →
        IndirectForce (pair u f g) (.edge e .force) := fun h1 h2 => ⟨d, h, h1, h2⟩
    rw [pair_edges] at h h'
    split_ifs at h h' <;> simp at h h' <;> subst h <;> subst h' <;> rename_i he
    · simp
    · simp
    · subst he; exact ⟨rfl, rfl, fun _ => rfl, fun hn => absurd (hi rfl (by simp [s])) hn⟩
    · subst he; exact ⟨rfl, rfl, fun _ => rfl, fun hn => absurd (hi rfl (by simp [s])) hn⟩

theorem with_pair {t : ℝ} (hf : |f| ≤ t) (hg : |g| ≤ t) : WithIndirect (pair u 0 0) (pair u f g) t := by
  refine ⟨same_pair u 0 0 f g, ?_⟩
  rintro e d ⟨d0, h0, ht, _⟩ h
  rw [pair_edges] at h h0
  split_ifs at h h0 <;> simp at h h0 <;> subst h <;> subst h0 <;> first | exact hf | exact hg | simp at ht

theorem zero_pair : ∀ e d, Indirect (pair u 0 0) e → (pair u 0 0).edges.get? e = some d → d.force = 0 := by
  intro e d _ h
  rw [pair_edges] at h
  split_ifs at h <;> simp at h <;> subst h <;> rfl

theorem base_pos : posOf (base u) 0 = 0 ∧ posOf (base u) 1 = (2 : ℝ) • u ∧
    posOf (base u) 2 = ⟨1, 0, 0⟩ ∧ posOf (base u) 3 = ⟨1, 0, 0⟩ + (2 : ℝ) • u := by
  unfold posOf; simp [base_nodes]; rfl

theorem consecutive_two {x y a b : Int} (h : Consecutive [x, y] a b) : a = x ∧ b = y := by
  obtain ⟨l1, l2, h⟩ := h
  rcases l1 with _ | ⟨x, _ | ⟨y, l1⟩⟩ <;> simp at h
  exact ⟨h.1.symm, h.2.1.symm⟩

variable {u} (hu : Vec.length u = 1)
include hu

theorem unit_of_one : unit u = u := by unfold unit; rw [hu]; simp

theorem equilibrium_base : EquilibriumOf (pair u 0 0) (base u) := by
  obtain ⟨p0, p1, p2, p3⟩ := base_pos u
  have u1 : unit ((2 : ℝ) • u) = u := by rw [unit_smul_pos two_pos, unit_of_one hu]
  have u2 : unit (-((2 : ℝ) • u)) = -u := by rw [unit_neg, u1]
  have s1 : (⟨1, 0, 0⟩ : Vec ℝ) + (2 : ℝ) • u - ⟨1, 0, 0⟩ = (2 : ℝ) • u := by abel
  have s2 : (⟨1, 0, 0⟩ : Vec ℝ) - (⟨1, 0, 0⟩ + (2 : ℝ) • u) = -((2 : ℝ) • u) := by abel
  have z : (⟨0, 0, 0⟩ : Vec ℝ) = 0 := rfl
  have by2 : ∀ a : Vec ℝ, ByLength (-2) (-1) a (a + (2 : ℝ) • u) := by
    intro a
    unfold ByLength Vec.dist
    have : a - (a + (2 : ℝ) • u) = (-2 : ℝ) • u := by rw [neg_smul]; abel
    rw [this, Vec.length_smul, hu]
    norm_num
  refine ⟨List.Perm.refl _, List.Perm.refl _, ?_, ?_, ?_, ?_, ?_, ?_⟩
  · intro n
    unfold loadAt
    rw [base_nodes, pair_nodes]
    split_ifs <;> rfl
  · intro n tr h
    simp only [pair, List.mem_cons, Prod.mk.injEq, List.not_mem_nil, or_false] at h
    rcases h with ⟨rfl, _⟩ | ⟨rfl, _⟩ <;> unfold posOf <;> rw [base_nodes, pair_nodes] <;> rfl
  · intro n _ h
    unfold typeOf at h
    unfold reactionAt
    rw [pair_nodes] at h
    rw [base_nodes]
    split_ifs at h ⊢ <;> simp at h ⊢ <;> rfl
  · intro n hn
    have hk : n = 0 ∨ n = 1 ∨ n = 2 ∨ n = 3 := by
      have : (pair u 0 0).nodes.keys = [0, 1, 2, 3] := rfl
      rw [this] at hn
      simpa using hn
    have he : (base u).edges = [((0, 1), ⟨.trail, -2, -1, none⟩), ((2, 3), ⟨.trail, -2, -1, none⟩),
      ((0, 3), ⟨.deviation, 0, 0, none⟩), ((2, 1), ⟨.deviation, 0, 0, none⟩)] := rfl
    unfold imbalance loadAt reactionAt
    rw [base_nodes, he]
    rcases hk with rfl | rfl | rfl | rfl <;>
      simp [pull, p0, p1, p2, p3, u1, u2, s1, s2, z]
  · intro e d d' h h' _
    rw [base_edges] at h'
    rw [pair_edges] at h
    split_ifs at h h' <;> simp at h h' <;> subst h <;> subst h' <;> simp_all
  · intro key tr a b e d d' htr hc he h h'
    simp only [pair, List.mem_cons, Prod.mk.injEq, List.not_mem_nil, or_false] at htr
    rcases htr with ⟨_, rfl⟩ | ⟨_, rfl⟩
    · obtain ⟨rfl, rfl⟩ := consecutive_two hc
      rw [pair_edges] at h
      rw [base_edges] at h'
      rcases he with rfl | rfl <;> simp at h h'
      subst h; subst h'
      refine ⟨by norm_num, ?_⟩
      have := by2 0
      rw [zero_add] at this
      rw [p0, p1]
      exact this
    · obtain ⟨rfl, rfl⟩ := consecutive_two hc
      rw [pair_edges] at h
      rw [base_edges] at h'
      rcases he with rfl | rfl <;> simp at h h'
      subst h; subst h'
      refine ⟨by norm_num, ?_⟩
      rw [p2, p3]
      exact by2 _

theorem distinct_base : Distinct (pair u 0 0) (base u) := by
  obtain ⟨p0, p1, p2, p3⟩ := base_pos u
  have l1 : Vec.length (⟨1, 0, 0⟩ : Vec ℝ) = 1 := by simp [Vec.length_def, Vec.dot]
  have l2 : Vec.length ((2 : ℝ) • u) = 2 := by rw [Vec.length_smul, hu]; norm_num
  refine ⟨?_, ?_⟩
  · intro e d h ht
    rw [pair_edges] at h
    split_ifs at h with h1 h2 h3 h4 <;> simp at h <;> subst h <;> simp at ht
    · subst h3
      simp only [p0, p3]
      intro h
      have : (⟨1, 0, 0⟩ : Vec ℝ) = -((2 : ℝ) • u) := eq_neg_of_add_eq_zero_left h.symm
      have := congrArg Vec.length this
      rw [l1, Vec.length_neg, l2] at this
      norm_num at this
    · subst h4
      simp only [p1, p2]
      intro h
      have := congrArg Vec.length h
      rw [l1, l2] at this
      norm_num at this
  · intro a b d o N _ hb hp
    unfold EdgeBetween at hb
    rw [pair_edges, pair_edges] at hb
    rcases hb with h | h <;> split_ifs at h <;> simp at h <;> subst h <;> simp at hp

omit hu in
theorem feedback_pair : ¬ Acyclic (pair u f g) := by
  intro hA
  have t : (pair u f g).trails = [(0, [0, 1]), (2, [2, 3])] := rfl
  refine hA 1 (Relation.TransGen.tail (Relation.TransGen.single (b := 3) ?_) ?_)
  · exact ⟨0, ⟨0, [0, 1], by rw [t]; simp, [], [], rfl⟩,
      Or.inr ⟨_, Or.inl (by rw [pair_edges]; simp; rfl), rfl⟩⟩
  · exact ⟨2, ⟨2, [2, 3], by rw [t]; simp, [], [], rfl⟩,
      Or.inr ⟨_, Or.inl (by rw [pair_edges]; simp; rfl), rfl⟩⟩

omit hu in
theorem flip_eq : FlipEx.flip = pair ⟨1, 0, 0⟩ 3 (-3) := by
  simp [pair, FlipEx.flip, FlipEx.flipLit, Diagram.real, Diagram.map, NodeData.map, EdgeData.map, Vec.map]

end PairEx

open PairEx in
/-- Here the form can be found that `C69_converges` starts from. -/
example : ∃ F, staticEquilibrium (pair ⟨0, 1, 0⟩ 0 0) none 100 0 false = .ok F ∧
    SameForm (pair ⟨0, 1, 0⟩ 0 0) F (base ⟨0, 1, 0⟩) := by
  have hu : Vec.length (⟨0, 1, 0⟩ : Vec ℝ) = 1 := by simp [Vec.length_def, Vec.dot]
  obtain ⟨h1, h2⟩ := C69_zero (valid_pair ⟨0, 1, 0⟩ 0 0) (nonzero_pair _ 0 0) (zero_pair _)
  obtain ⟨F, hF⟩ := h1 100 0 false (by norm_num) le_rfl
  exact ⟨F, hF, (h2 _ _ _ F hF).2.2 _ (equilibrium_base hu)⟩

open PairEx in
/-- The trails go along the y axis and the indirect edges join them crosswise.  With small forces in
these edges form finding converges although positions need themselves. -/
example : ∃ δ c : ℝ, 0 < δ ∧ ∀ f g : ℝ, |f| ≤ δ → |g| ≤ δ → ¬ Acyclic (pair ⟨0, 1, 0⟩ f g) ∧
    ∃ G, EquilibriumOf (pair ⟨0, 1, 0⟩ f g) G ∧ ∀ (tmax : Nat) (eta : ℝ), 2 ≤ tmax → c / 2 ^ tmax ≤ eta →
      ∃ F, staticEquilibrium (pair ⟨0, 1, 0⟩ f g) none tmax eta false = .ok F ∧
        ∀ n ∈ (pair ⟨0, 1, 0⟩ f g).nodes.keys, Vec.dist (posOf F n) (posOf G n) ≤ eta := by
  have hu : Vec.length (⟨0, 1, 0⟩ : Vec ℝ) = 1 := by simp [Vec.length_def, Vec.dot]
  obtain ⟨δ, c, hδ, h⟩ := C69_converges (valid_pair ⟨0, 1, 0⟩ 0 0) (nonzero_pair _ 0 0) (zero_pair _)
    (equilibrium_base hu) (distinct_base hu)
  refine ⟨δ, c, hδ, fun f g hf hg => ⟨feedback_pair f g, ?_⟩⟩
  obtain ⟨G, X, _, h1, h2⟩ := h _ (with_pair _ f g hf hg)
  refine ⟨G, X, fun tmax eta ht he => ?_⟩
  obtain ⟨F, hF⟩ := h1 tmax eta false ht he
  exact ⟨F, hF, fun n hn => (h2 tmax eta false F ht hF n hn).1⟩

open PairEx in
/-- **C69, large forces.**  The forces have to be small: there is a problem as in `C69_converges` whose
form finding raises an error with other forces of the indirect edges, with whatever number of
iterations, for all thresholds below 4. -/
theorem C69_large : ∃ D F0 E : Diagram ℝ, ValidInput D ∧ NonzeroTrails D ∧
    (∀ e d, Indirect D e → D.edges.get? e = some d → d.force = 0) ∧ EquilibriumOf D F0 ∧
    Distinct D F0 ∧ SameExcept (IndirectForce D) D E ∧
    ∀ tmax eta verbose, 2 ≤ tmax → eta < 4 →
      staticEquilibrium E none tmax eta verbose = .error .valueError := by
  have hu : Vec.length (⟨1, 0, 0⟩ : Vec ℝ) = 1 := by simp [Vec.length_def, Vec.dot]
  refine ⟨pair ⟨1, 0, 0⟩ 0 0, base ⟨1, 0, 0⟩, pair ⟨1, 0, 0⟩ 3 (-3), valid_pair _ 0 0, nonzero_pair _ 0 0,
    zero_pair _, equilibrium_base hu, distinct_base hu, same_pair _ 0 0 _ _, ?_⟩
  rw [← flip_eq]
  intro tmax eta verbose ht he
  obtain ⟨L, G, _, _, h2⟩ := equilibriumState_cases FlipEx.valid_flip (kmax := none) (by simp) tmax
    eta verbose
  obtain ⟨m, hm, _, _, _, hr⟩ := h2 ht
  obtain ⟨k, rfl⟩ : ∃ k, m = k + 1 + 1 := ⟨m - 2, by omega⟩
  have := FlipEx.flip_moves G (m := k + 1) (by omega)
  unfold staticEquilibrium
  rw [hr, if_pos (by simp only [Nat.add_sub_cancel]; exact lt_of_lt_of_le he this)]

open PairEx in
example : ∃ δ c : ℝ, 0 < δ ∧ ∀ f g : ℝ, |f| ≤ δ → |g| ≤ δ → ∀ G, EquilibriumOf (pair ⟨0, 1, 0⟩ f g) G →
    Vec.dist (posOf G 1) ⟨0, 2, 0⟩ ≤ c * max |f| |g| := by
  have hu : Vec.length (⟨0, 1, 0⟩ : Vec ℝ) = 1 := by simp [Vec.length_def, Vec.dot]
  obtain ⟨δ, c, hδ, h⟩ := C69_near (valid_pair ⟨0, 1, 0⟩ 0 0) (zero_pair _) (equilibrium_base hu)
    (distinct_base hu)
  refine ⟨δ, c, hδ, fun f g hf hg G X => ?_⟩
  have := h (max |f| |g|) _ G (le_max_of_le_left (abs_nonneg _)) (max_le hf hg)
    (with_pair _ f g (le_max_left _ _) (le_max_right _ _)) X 1 (by
      have : (pair ⟨0, 1, 0⟩ f g).nodes.keys = [0, 1, 2, 3] := rfl
      rw [this]; simp)
  replace this := this.1
  rw [(base_pos ⟨0, 1, 0⟩).2.1] at this
  have e : (2 : ℝ) • (⟨0, 1, 0⟩ : Vec ℝ) = ⟨0, 2, 0⟩ := by ext <;> simp
  rwa [e] at this

end Props
end CEM
