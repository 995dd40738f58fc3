import Verif.Lemmas.AutodiffForm
import Verif.Lemmas.AutodiffPenalty
import Verif.Props.Stale

/-!
# Property C80: gradients by automatic differentiation
-/

set_option linter.unusedSectionVars false
set_option linter.unusedSimpArgs false

namespace CEM
namespace Props
open Diagram Spec EqEx Filter Topology

/-! ## Values -/

section
variable {R : Type} [Field R] [LinearOrder R] [PySqrt R]

/-- **C80.**  Form finding on numbers that carry derivatives raises what form finding on numbers raises,
and otherwise returns a state with the same numbers. -/
theorem C80_values (D T : Diagram R) (tmax : Nat) (eta : R) :
    (∀ err, adEquilibriumState D T tmax eta = .error err ↔ npEquilibriumState D tmax eta false = .error err) ∧
    ∀ s, npEquilibriumState D tmax eta false = .ok s →
      ∃ a, adEquilibriumState D T tmax eta = .ok a ∧ Shadows a s := by
  have h := adEquilibriumState_both D T tmax eta
  cases h1 : adEquilibriumState D T tmax eta with
  | error e =>
    cases h2 : npEquilibriumState D tmax eta false with
    | error e' =>
      rw [h1, h2] at h
      have h : e = e' := h
      subst h
      simp
    | ok s => rw [h1, h2] at h; exact h.elim
  | ok a =>
    cases h2 : npEquilibriumState D tmax eta false with
    | error e' => rw [h1, h2] at h; exact h.elim
    | ok s =>
      rw [h1, h2] at h
      refine ⟨by simp, fun s' hs => ?_⟩
      obtain rfl := Except.ok.inj hs
      exact ⟨a, rfl, h⟩

end

/-! ## Errors -/

section
variable {R : Type} [Field R] [LinearOrder R] [PySqrt R]

/-- **C80.**  Differentiating the objective raises what evaluating it raises, and leaves the same diagram; if
the objective is a number or NaN, the gradient has one entry for each entry of the vector. -/
theorem C80_raises (o : Optimizer R) (tmax : Nat) (eta : R) (C : Diagram R) (x : List R) :
    (o.autograd tmax eta C x).1 = (o.optimizeForm tmax eta C x).1 ∧
    (∀ err, (o.autograd tmax eta C x).2 = .error err ↔ (o.optimizeForm tmax eta C x).2 = .error err) ∧
    ∀ v, (o.optimizeForm tmax eta C x).2 = .ok v →
      ∃ g, (o.autograd tmax eta C x).2 = .ok g ∧ g.length = x.length ∧ (v = none → ∀ a ∈ g, a = none) := by
  have listE_total : ∀ {α β : Type} {f : α → Except PyErr β} (q : β → Prop) (l : List α),
      (∀ a ∈ l, ∃ b, f a = .ok b ∧ q b) → ∃ bs, listE f l = .ok bs ∧ bs.length = l.length ∧ ∀ b ∈ bs, q b := by
    intro α β f q l
    induction l with
    | nil => exact fun _ => ⟨[], rfl, rfl, by simp⟩
    | cons a l ih =>
      intro h
      obtain ⟨b, hb, kb⟩ := h a (by simp)
      obtain ⟨bs, hbs, hl, kbs⟩ := ih fun c hc => h c (by simp [hc])
      exact ⟨b :: bs, by simp only [listE, hb, hbs], by simp [hl], by simpa using ⟨kb, kbs⟩⟩
  unfold Optimizer.autograd
  rcases hu : o.optimizeForm tmax eta C x with ⟨D, r⟩
  cases r with
  | error err => simp
  | ok v =>
    have key : ∀ i, ∃ b, o.adEntry tmax eta D x.length i = .ok b ∧ (v = none → b = none) := by
      intro i
      unfold Optimizer.optimizeForm at hu
      rcases hw : o.updateParameters C x with ⟨E, w⟩
      rw [hw] at hu
      cases w with
      | error err => simp at hu
      | ok u =>
        simp only at hu
        cases hn : npEquilibriumState E tmax eta false with
        | error err => rw [hn] at hu; simp at hu
        | ok s =>
          rw [hn] at hu
          simp only [Prod.mk.injEq] at hu
          obtain ⟨rfl, hv⟩ := hu
          obtain ⟨a, ha, hs⟩ := (C80_values E (o.updateParameters E.still (unitList x.length i)).1 tmax eta).2 s hn
          unfold Optimizer.adEntry
          rw [ha]
          have hb := adCalculatePenalty_both hs o.constraints.vals (x := some (.const 0)) (y := some 0)
            (by rintro f hf; cases hf; rfl)
          rw [hv] at hb
          cases hc : adCalculatePenalty a o.constraints.vals (some (.const 0)) with
          | error err => rw [hc] at hb; exact hb.elim
          | ok b =>
            rw [hc] at hb
            refine ⟨b.map Traced.tan, by simp only [hc], ?_⟩
            rintro rfl
            cases b with
            | none => rfl
            | some f => have := hb f rfl; simp at this
    obtain ⟨g, hg, hl, hq⟩ := listE_total (fun b => v = none → b = none) (List.range x.length) fun i _ => key i
    simp only [hg, true_and]
    refine ⟨by simp, fun v' hv => ?_⟩
    obtain rfl := Except.ok.inj hv
    exact ⟨g, rfl, by simpa using hl, fun h a ha => hq a ha h⟩

end

/-! ## Derivatives of written numbers -/

section
variable {o : Optimizer ℝ} {D E F : Diagram ℝ} {n : Nat}

/-- Which entry of the vector is written to a place does not depend on the diagram. -/
theorem slot_places (h0 : ∀ q ∈ o.parameters, 0 ≤ q.1) (hn : ∀ q ∈ o.parameters, q.1 < n) (s : Slot) :
    (∃ i : Fin n, ∀ (D : Diagram ℝ) (x : Fin n → ℝ), (o.updateParameters D (List.ofFn x)).2 = .ok () →
      slotVal (o.updateParameters D (List.ofFn x)).1 s = x i) ∨
    ∀ (D : Diagram ℝ) (x : Fin n → ℝ), (o.updateParameters D (List.ofFn x)).2 = .ok () →
      slotVal (o.updateParameters D (List.ofFn x)).1 s = slotVal D s := by
  by_cases hs : ∃ q ∈ o.parameters, q.2.slot = s
  · left
    obtain ⟨l1, ⟨k, p⟩, l2, e, hp, hl⟩ : ∃ l1 q l2, o.parameters = l1 ++ q :: l2 ∧ q.2.slot = s ∧
        ∀ q' ∈ l2, q'.2.slot ≠ s := by
      have : ∀ l : List (Int × Param ℝ), (∃ q ∈ l, q.2.slot = s) →
          ∃ l1 q l2, l = l1 ++ q :: l2 ∧ q.2.slot = s ∧ ∀ q' ∈ l2, q'.2.slot ≠ s := by
        intro l
        induction l with
        | nil => simp
        | cons a l ih =>
          intro h
          by_cases h' : ∃ q ∈ l, q.2.slot = s
          · obtain ⟨l1, q, l2, rfl, h1, h2⟩ := ih h'
            exact ⟨a :: l1, q, l2, rfl, h1, h2⟩
          · obtain ⟨q, hq, e⟩ := h
            rcases List.mem_cons.1 hq with rfl | hq
            · exact ⟨[], q, l, rfl, e, fun q' hq' e' => h' ⟨q', hq', e'⟩⟩
            · exact absurd ⟨q, hq, e⟩ h'
      exact this _ hs
    have hk : k.toNat < n := by
      have h1 := h0 (k, p) (by rw [e]; simp)
      have h2 := hn (k, p) (by rw [e]; simp)
      simp only at h1 h2
      omega
    refine ⟨⟨k.toNat, hk⟩, fun D x hok => ?_⟩
    obtain ⟨v, h1, h2⟩ := (Optimizer.writeParameters_get (List.ofFn x) o.parameters D h0 hok s).2 l1 k p l2 e hp hl
    unfold slotVal
    rw [show (o.updateParameters D (List.ofFn x)).1.getAttribute s = .ok v from h2]
    rw [List.getElem?_ofFn, dif_pos hk] at h1
    exact (Option.some.inj h1).symm
  · right
    intro D x hok
    unfold slotVal
    have := (Optimizer.writeParameters_get (List.ofFn x) o.parameters D h0 hok s).1
      fun q hq e => hs ⟨q, hq, e⟩
    rw [show (o.updateParameters D (List.ofFn x)).1.getAttribute s = D.getAttribute s from this]

theorem slotVal_still (D : Diagram ℝ) (s : Slot) : slotVal D.still s = 0 := by
  unfold slotVal getAttribute Diagram.still
  cases s with
  | node k name =>
    simp only
    rw [get?_map_val D.nodes fun d => ({ d with pos := 0, load := 0, reaction := 0 } : NodeData ℝ)]
    cases D.nodes.get? k with
    | none => rfl
    | some d => cases name <;> rfl
  | edge k name =>
    simp only
    rw [get?_map_val D.edges fun d => ({ d with length := 0, force := 0 } : EdgeData ℝ)]
    cases D.edges.get? k with
    | none => rfl
    | some d => cases name <;> rfl

theorem hasSlot_still (D : Diagram ℝ) (s : Slot) : HasSlot D.still s ↔ HasSlot D s := by
  cases s with
  | node k name =>
    simp only [HasSlot]
    rw [show D.still.nodes.keys = D.nodes.keys from keys_map_val D.nodes fun d =>
      ({ d with pos := 0, load := 0, reaction := 0 } : NodeData ℝ)]
  | edge k name =>
    simp only [HasSlot]
    rw [show D.still.edges.keys = D.edges.keys from keys_map_val D.edges fun d =>
      ({ d with length := 0, force := 0 } : EdgeData ℝ)]

theorem hasSlot_same {P : Slot → Prop} (h : SameExcept P D E) (s : Slot) : HasSlot E s ↔ HasSlot D s := by
  cases s <;> simp only [HasSlot, h.nodeKeys, h.edgeKeys]

theorem unitList_eq (i : Fin n) : (unitList n i : List ℝ) = List.ofFn (Pi.single i 1 : Fin n → ℝ) := by
  refine List.ext_getElem (by simp [unitList]) fun j h1 h2 => ?_
  have hj : j < n := by simpa using h2
  simp only [unitList, List.getElem_map, List.getElem_range, List.getElem_ofFn, Pi.single_apply, Fin.ext_iff]

/-- The diagram of derivatives of the diagrams into which nearby vectors are written. -/
theorem tangent_written (h0 : ∀ q ∈ o.parameters, 0 ≤ q.1)
    (hs : ∀ q ∈ o.parameters, q.1 < n ∧ HasSlot D q.2.slot) (x0 : Fin n → ℝ) (i : Fin n) :
    Tangent (fun t => (o.updateParameters D (List.ofFn (x0 + t • Pi.single i 1))).1)
      (o.updateParameters (o.updateParameters D (List.ofFn x0)).1.still (unitList n i)).1 := by
  have hok : ∀ x : Fin n → ℝ, (o.updateParameters D (List.ofFn x)).2 = .ok () := fun x =>
    (Optimizer.writeParameters_ok _ _ _ h0).2 fun q hq => ⟨by simpa using (hs q hq).1, (hs q hq).2⟩
  have hsame : ∀ x : Fin n → ℝ, SameExcept (fun s => ∃ q ∈ o.parameters, q.2.slot = s) D
      (o.updateParameters D (List.ofFn x)).1 := fun x =>
    Optimizer.writeParameters_same (List.ofFn x) o.parameters D
  have hstill : ∀ x : Fin n → ℝ, (o.updateParameters (o.updateParameters D (List.ofFn x0)).1.still
      (List.ofFn x)).2 = .ok () := fun x =>
    (Optimizer.writeParameters_ok _ _ _ h0).2 fun q hq => ⟨by simpa using (hs q hq).1,
      (hasSlot_still _ _).2 ((hasSlot_same (hsame x0) _).2 (hs q hq).2)⟩
  have key : ∀ s, HasDerivAt (fun t : ℝ => slotVal (o.updateParameters D
      (List.ofFn (x0 + t • Pi.single i 1))).1 s) (slotVal (o.updateParameters
        (o.updateParameters D (List.ofFn x0)).1.still (unitList n i)).1 s) 0 := by
    intro s
    rw [unitList_eq]
    rcases slot_places h0 (fun q hq => (hs q hq).1) s with ⟨j, h⟩ | h
    · simp only [h _ _ (hok _), h _ _ (hstill _), Pi.add_apply, Pi.smul_apply, smul_eq_mul]
      simpa using ((hasDerivAt_id (0 : ℝ)).mul_const ((Pi.single i 1 : Fin n → ℝ) j)).const_add (x0 j)
    · simp only [h _ _ (hok _), h _ _ (hstill _), slotVal_still]
      exact hasDerivAt_const _ _
  refine ⟨fun t => ?_, fun m => ?_, fun m => ?_, fun e => ?_, fun e => ?_⟩
  · exact ((hsame _).symm.trans (hsame _)).mono fun _ _ => trivial
  · change Moves _ (posOf _ m)
    simp only [posOf_slots]
    exact ⟨key _, key _, key _⟩
  · change Moves _ (loadAt _ m)
    simp only [loadAt_slots]
    exact ⟨key _, key _, key _⟩
  · change HasDerivAt _ (lengthAt _ e) 0
    simp only [lengthAt_slots]
    exact key _
  · change HasDerivAt _ (forceAt _ e) 0
    simp only [forceAt_slots]
    exact key _

end

/-! ## Forms -/

section
variable {D : ℝ → Diagram ℝ} {E : Diagram ℝ} {G : ℝ → Diagram ℝ} {q : ℝ → EqState ℝ × (Int → Vec ℝ)}

/-- The edge between two consecutive nodes of a trail of a form. -/
theorem final_edge {D : Diagram ℝ} (I : ValidInput D) {ind : Bool} {p s : EqState ℝ} {r : Int → Vec ℝ}
    {Q : Int → Int → Vec ℝ} (S : FinalSpec D none ind p s r Q) {a b : Int} (hn : trailNext D a = some b) :
    ∃ d, (formOf D s).edges.get? (edgeKey D a b) = some d ∧ d.type = .trail ∧
      d.force = copysign (Vec.length (r a)) (effectiveLength (edgeData D a b) (s.pos a) (r a)) := by
  obtain ⟨e1, e2⟩ := edgeData_trail I.wf I.trails I.simple hn
  obtain ⟨d, hd⟩ := (Dict.exists_get?_iff (formOf D s).edges (edgeKey D a b)).2 (by
    rw [show (formOf D s).edges.keys = D.edges.keys from formEdges_keys _ _]
    exact Dict.mem_keys_of_get? e1)
  obtain ⟨key, tr, htr, hc⟩ := (trailNext_iff I.wf I.trails).1 hn
  obtain ⟨_, f2, f3⟩ := trail_form I S htr hc (edgeKey_ends D a b) e1 hd
  rw [posOf_form I.wf S] at f2
  exact ⟨d, hd, by rw [f3, e2], f2⟩

/-- A state with the derivatives of the numbers of forms. -/
theorem form_along (I : ValidInput (D 0)) (hs : ∀ t, SameExcept (fun _ => True) (D 0) (D t))
    (hS : ∀ t, G t = formOf (D t) (q t).1 ∧ ∃ ind p Q, FinalSpec (D t) none ind p (q t).1 (q t).2 Q) {s : AState ℝ}
    (h : StateAlong (D 0) (fun t => (q t).1.pos) (fun t => (q t).2) (fun t a b => copysign (Vec.length ((q t).2 a))
      (effectiveLength (edgeData (D t) a b) ((q t).1.pos a) ((q t).2 a))) s) :
    FormAlong (D 0) G s := by
  have J : ∀ t, ValidInput (D t) := fun t => validInput_same (hs t) I
  refine ⟨fun n hn => ?_, fun e he => ?_, fun n hn => ?_⟩
  · obtain ⟨v, h1, h2⟩ := h.pos n hn
    obtain ⟨b, rfl, k⟩ := h2.congr (q := fun t => posOf (G t) n) (.of_forall fun t => by
      obtain ⟨eF, ind, p, Q, S⟩ := hS t
      rw [eF]
      exact posOf_form (J t).wf S n)
    exact ⟨b, h1, k⟩
  · obtain ⟨d, hd, ht⟩ := he
    obtain ⟨a, b, hab, hk⟩ := trail_ends I hd ht
    obtain rfl : e = edgeKey (D 0) a b := hk.symm
    obtain ⟨v, h1, h2⟩ := h.force a b hab
    obtain ⟨c, rfl, k⟩ := h2.congr (q := fun t => forceAt (G t) (edgeKey (D 0) a b)) (.of_forall fun t => by
      obtain ⟨eF, ind, p, Q, S⟩ := hS t
      obtain ⟨d', g1, _, g3⟩ := final_edge (J t) S (by rw [trailNext_shape (hs t)]; exact hab)
      rw [edgeKey_same (hs t)] at g1
      unfold forceAt
      rw [eF, g1]
      exact g3)
    exact ⟨c, h1, k⟩
  · obtain ⟨v, h1, h2⟩ := h.reaction n hn
    have hnk := mem_of_typeOf hn
    obtain ⟨c, rfl, k⟩ := h2.congr (q := fun t => reactionAt (G t) n) (.of_forall fun t => by
      obtain ⟨eF, ind, p, Q, S⟩ := hS t
      have hx : nxtK (D t) none n = none := by
        unfold nxtK; rw [if_pos (Or.inl (by rw [typeOf_same (hs t)]; exact hn))]
      rw [eF, reactionAt_form (J t).wf S (J t).reaction (by rw [(hs t).nodeKeys]; exact hnk), if_pos hx])
    exact ⟨c, h1, k⟩

/-- Which iterate is returned. -/
theorem ad_returned {D E : Diagram ℝ} (I : ValidInput D) {tmax : Nat} {eta : ℝ} {s : AState ℝ}
    (h : adEquilibriumState D E tmax eta = .ok s) :
    ∃ L i, GoodSched D none L ∧ s = aIter D E L (i + 1) ∧ (eta ≤ 0 → i + 1 = tmax) := by
  obtain ⟨T, N, hT, hN, hg, hlt⟩ := goodSeqs_of_valid I.wf I.trails I.nonempty
  have S := goodSched I.wf I.trails hg none hlt
  obtain ⟨a0, a1, a2⟩ := adEquilibriumState_cases (E := E) I hT hN hg tmax eta
  rcases Nat.lt_trichotomy tmax 1 with h1 | h1 | h1
  · rw [a0 (by omega)] at h; simp at h
  · rw [a1 h1] at h
    exact ⟨_, 0, S, (Except.ok.inj h).symm, fun _ => by omega⟩
  · obtain ⟨m, hm, hmt, _, hl, he⟩ := a2 h1
    rw [he] at h
    split_ifs at h
    obtain ⟨i, rfl⟩ : ∃ i, m = i + 1 := ⟨m - 1, by omega⟩
    refine ⟨_, i, S, (Except.ok.inj h).symm, fun h0 => ?_⟩
    rcases hl with hl | hl
    · exfalso
      cases hd : aDist D E (sched D T N) (i + 1) with
      | none => rw [hd] at hl; simp [Num.lt] at hl
      | some d =>
        rw [hd, lt_iff_some] at hl
        have := npDistance_nonneg hd
        linarith
    · exact hl

theorem staged_direct {D : Diagram ℝ} (hd : DirectOnly D) (g : SimpleGraph D) : Staged D fun _ => 0 := by
  refine ⟨fun _ _ _ => le_rfl, fun _ _ _ _ _ _ _ _ => le_rfl, ?_, ?_⟩
  · intro a b m d i j _ he ht h1 h2 h3
    have hm := (edgeBetween_iff g).1 he
    have : m ∈ indNbrs D a := List.mem_filter.2 ⟨hm.1, by
      simp only [decide_eq_true_eq]
      refine ⟨by rw [hm.2]; exact ht, ?_⟩
      rw [h1, h2]
      intro h; cases h; omega⟩
    rw [indNbrs_direct hd] at this
    simp at this
  · intro a b m d i j _ he ht h1 h2 h3
    have hm := (edgeBetween_iff g).1 he
    have : m ∈ indNbrs D a := List.mem_filter.2 ⟨hm.1, by
      simp only [decide_eq_true_eq]
      refine ⟨by rw [hm.2]; exact ht, ?_⟩
      rw [h1, h2]
      intro h; cases h; omega⟩
    rw [indNbrs_direct hd] at this
    simp at this

/-- A problem on which form finding settles: its derivatives are found. -/
theorem ad_settles (I : ValidInput (D 0)) (H : Tangent D E) {tmax : Nat} {eta : ℝ} (K : Settles (D 0) tmax eta)
    (hl : NonzeroTrails (D 0)) (hS : ∀ t, SettledForm (D t) (G t) (q t).1 (q t).2)
    (hf : TrailsCarry (G 0)) (hX : Distinct (D 0) (G 0)) {s : AState ℝ}
    (h : adEquilibriumState (D 0) E tmax eta = .ok s) : FormAlong (D 0) G s := by
  obtain ⟨L, i, S, rfl, ht⟩ := ad_returned I h
  have R := regular_of I hl (hS 0) hf hX
  refine form_along I H.same (fun t => ⟨(hS t).form, (hS t).final⟩) ?_
  rcases K with ⟨h1, _, _⟩ | ⟨h1, h2, h3⟩
  · exact along_iter I H (staged_direct h1 I.simple) (T := fun t => (q t).1.res)
      (.of_forall fun t => (hS t).settled) R hl S i (Or.inr ⟨h1, fun _ _ => Nat.zero_le _⟩)
  · obtain ⟨St, hb⟩ := staged_of_acyclic I h1
    have := ht h3.le
    exact along_iter I H St (T := fun t => (q t).1.res) (.of_forall fun t => (hS t).settled) R hl S i
      (Or.inl fun n hn => by have := hb n hn; omega)

end

/-! ## Gradients -/

section
variable {o : Optimizer ℝ} {h : List (RegOp (Param ℝ))} {D E F : Diagram ℝ} {n : Nat}
  {x0 : Fin n → ℝ} {tmax : Nat} {eta : ℝ}

theorem listE_ok {α β : Type} {f : α → Except PyErr β} {g : α → β} {l : List α} (h : ∀ a ∈ l, f a = .ok (g a)) :
    listE f l = .ok (l.map g) := by
  induction l with
  | nil => rfl
  | cons a l ih =>
    simp only [listE, h a (by simp), ih fun b hb => h b (by simp [hb]), List.map_cons]

/-- One entry of the gradient, if the derivatives of the form are found. -/
theorem entry_of {G : (Fin n → ℝ) → Diagram ℝ}
    (hf : ContDiffAt ℝ 1 (fun x => (o.constraints.vals.map (formPenalty (G x))).sum) x0) {i : Fin n} {a : AState ℝ}
    (ha : adEquilibriumState E (o.updateParameters E.still (unitList n i)).1 tmax eta = .ok a)
    (A : FormAlong E (fun t => G (x0 + t • Pi.single i 1)) a)
    (hc : ∀ c ∈ o.constraints.vals, Posed E c ∧ Clear 1 (G x0) c) :
    o.adEntry tmax eta E n i =
      .ok (some (partialAt (fun x => (o.constraints.vals.map (formPenalty (G x))).sum) x0 i)) := by
  obtain ⟨v, h1, h2⟩ := follow_penalties A o.constraints.vals (fun c h =>
    ⟨(hc c h).1, by simp only [zero_smul, add_zero]; exact (hc c h).2⟩) (FollowN.const 0)
  unfold Optimizer.adEntry
  rw [ha]
  simp only [h1, Option.map_some]
  congr 2
  refine h2.tan.unique ?_
  have hd : HasFDerivAt (fun x => (o.constraints.vals.map (formPenalty (G x))).sum)
      (fderiv ℝ (fun x => (o.constraints.vals.map (formPenalty (G x))).sum) x0)
      (x0 + (0 : ℝ) • (Pi.single i 1 : Fin n → ℝ)) := by
    rw [zero_smul, add_zero]
    exact (hf.differentiableAt one_ne_zero).hasFDerivAt
  have hline : HasDerivAt (fun t : ℝ => x0 + t • (Pi.single i 1 : Fin n → ℝ)) (Pi.single i 1) 0 := by
    simpa using ((hasDerivAt_id (0 : ℝ)).smul_const (Pi.single i 1 : Fin n → ℝ)).const_add x0
  have := hd.comp_hasDerivAt (0 : ℝ) hline
  simp only [zero_add]
  exact this

/-- One entry of the gradient. -/
theorem ad_entry (P : SmoothPoint 1 o h D E F x0 tmax eta) (G : (Fin n → ℝ) → Diagram ℝ)
    (hG : ∀ x, staticEquilibrium (o.updateParameters D (List.ofFn x)).1 none tmax eta false = .ok (G x))
    (hf : ContDiffAt ℝ 1 (fun x => (o.constraints.vals.map (formPenalty (G x))).sum) x0)
    (hv : (o.optimizeForm tmax eta D (List.ofFn x0)).2 =
      .ok (some ((o.constraints.vals.map (formPenalty (G x0))).sum))) (i : Fin n) :
    o.adEntry tmax eta E n i =
      .ok (some (partialAt (fun x => (o.constraints.vals.map (formPenalty (G x))).sum) x0 i)) := by
  have h0 := P.history.nonneg
  have hok := P.written
  have hsl : ∀ q ∈ o.parameters, q.1 < n ∧ HasSlot D q.2.slot := by
    intro q hq
    refine P.slots _ _ ?_
    rw [← (regInv h).get, ← P.history]
    exact Dict.get?_of_mem P.history.nodup hq
  have hs : ∀ x : Fin n → ℝ, SameExcept (fun s => ∃ q ∈ o.parameters, q.2.slot = s) D
      (o.updateParameters D (List.ofFn x)).1 := fun x =>
    Optimizer.writeParameters_same (List.ofFn x) o.parameters D
  have J : ∀ x : Fin n → ℝ, ValidInput (o.updateParameters D (List.ofFn x)).1 := fun x =>
    validInput_same (hs x) P.valid
  have K : ∀ x : Fin n → ℝ, Settles (o.updateParameters D (List.ofFn x)).1 tmax eta := fun x =>
    P.settles.same (hs x)
  have hE : (o.updateParameters D (List.ofFn x0)).1 = E :=
    Spec.Carries.unique P.valid.wf.nodesNodup P.valid.wf.edgesNodup (carries_of_write h0 (hok x0)) P.carries
  have hF : G x0 = F := by
    have := hG x0
    rw [hE, P.form] at this
    exact (Except.ok.inj this).symm
  have hx : (fun t : ℝ => x0 + t • (Pi.single i 1 : Fin n → ℝ)) 0 = x0 := by simp
  have T := tangent_written h0 hsl x0 i
  have hset : ∀ t : ℝ, ∃ q : EqState ℝ × (Int → Vec ℝ),
      SettledForm (o.updateParameters D (List.ofFn (x0 + t • Pi.single i 1))).1
        (G (x0 + t • Pi.single i 1)) q.1 q.2 := fun t => (K _).settled (J _) (hG _)
  choose q hq using hset
  obtain ⟨s, hsn⟩ : ∃ s, npEquilibriumState E tmax eta false = .ok s := by
    unfold Optimizer.optimizeForm at hv
    rcases hu : o.updateParameters D (List.ofFn x0) with ⟨D', r⟩
    have hr := hok x0
    rw [hu] at hr hE hv
    simp only at hr hE
    subst hr hE
    simp only at hv
    cases hn : npEquilibriumState D' tmax eta false with
    | error err => rw [hn] at hv; simp at hv
    | ok s => exact ⟨s, rfl⟩
  obtain ⟨a, ha, _⟩ := (C80_values E (o.updateParameters E.still (unitList n i)).1 tmax eta).2 s hsn
  have T0 : (o.updateParameters D (List.ofFn (x0 + (0 : ℝ) • Pi.single i 1))).1 = E := by
    rw [zero_smul, add_zero, hE]
  rw [hE] at T
  have A : FormAlong E (fun t => G (x0 + t • Pi.single i 1)) a := by
    have := ad_settles (D := fun t => (o.updateParameters D (List.ofFn (x0 + t • Pi.single i 1))).1)
      (G := fun t => G (x0 + t • Pi.single i 1)) (q := q) (s := a) (J _) T (K _)
      (by simp only [T0]; exact P.nonzero) hq
      (by simp only [zero_smul, add_zero, hF]; exact P.carry)
      (by simp only [zero_smul, add_zero, hE, hF]; exact P.distinct) (by simp only [T0]; exact ha)
    simp only [T0] at this
    exact this
  exact entry_of hf ha A fun c hc =>
    ⟨by have := posed_same (hs x0) (P.posed c hc); rw [hE] at this; exact this, by rw [hF]; exact P.clear c hc⟩

/-- All entries of the gradient. -/
theorem autograd_of (h0 : ∀ q ∈ o.parameters, 0 ≤ q.1) (I : ValidInput D)
    (hc : Spec.Carries o.parameters D (List.ofFn x0) E) {v : Num ℝ}
    (hv : (o.optimizeForm tmax eta D (List.ofFn x0)).2 = .ok v) {g : Fin n → ℝ}
    (he : ∀ i : Fin n, o.adEntry tmax eta E n i = .ok (some (g i))) {E1 : Diagram ℝ}
    (hs : SameExcept (fun s => ∃ q ∈ o.parameters, q.2.slot = s) D E1) :
    o.autograd tmax eta E1 (List.ofFn x0) = (E, .ok (List.ofFn fun i => some (g i))) := by
  have h1 := optimizeForm_state h0 tmax eta (validInput_same hs I).wf hs.symm hv
  have hD : (o.optimizeForm tmax eta E1 (List.ofFn x0)).1 = E := by
    have hok : (o.updateParameters E1 (List.ofFn x0)).2 = .ok () := by
      unfold Optimizer.optimizeForm at h1
      rcases hu : o.updateParameters E1 (List.ofFn x0) with ⟨D', r⟩
      rw [hu] at h1
      cases r with
      | error err => simp at h1
      | ok u => rfl
    have e1 : (o.optimizeForm tmax eta E1 (List.ofFn x0)).1 = (o.updateParameters E1 (List.ofFn x0)).1 := by
      unfold Optimizer.optimizeForm
      rcases hu : o.updateParameters E1 (List.ofFn x0) with ⟨D', r⟩
      cases r with
      | error err => rfl
      | ok u =>
        simp only
        cases npEquilibriumState D' tmax eta false <;> rfl
    rw [e1]
    have c := carries_of_write h0 hok
    exact Spec.Carries.unique I.wf.nodesNodup I.wf.edgesNodup ⟨hs.trans c.1, c.2⟩ hc
  unfold Optimizer.autograd
  rcases hu : o.optimizeForm tmax eta E1 (List.ofFn x0) with ⟨D', r⟩
  rw [hu] at h1 hD
  simp only at h1 hD
  subst h1 hD
  simp only [List.length_ofFn]
  rw [listE_ok (g := fun i => if hi : i < n then some (g ⟨i, hi⟩) else none)]
  · congr 2
    refine List.ext_getElem (by simp) fun j g1 g2 => ?_
    have hj : j < n := by simpa using g2
    simp [hj]
  · intro i hi
    have hi := List.mem_range.1 hi
    rw [dif_pos hi]
    exact he ⟨i, hi⟩

/-- **C80.**  Where C71 shows the objective to be differentiable, automatic differentiation returns its
partial derivatives exactly, whatever values of the parameters were written into the diagram before. -/
theorem C80_gradient (P : SmoothPoint 1 o h D E F x0 tmax eta) :
    ∃ f : (Fin n → ℝ) → ℝ, ContDiffAt ℝ 1 f x0 ∧
      (∀ᶠ x in 𝓝 x0, (o.optimizeForm tmax eta D (List.ofFn x)).2 = .ok (some (f x))) ∧
      ∀ E1, SameExcept (fun s => ∃ q ∈ o.parameters, q.2.slot = s) D E1 →
        o.autograd tmax eta E1 (List.ofFn x0) = (E, .ok (List.ofFn fun i => some (partialAt f x0 i))) := by
  obtain ⟨G, hG, hf, hv⟩ := smooth_objective P
  exact ⟨_, hf, hv, fun E1 hs => autograd_of P.history.nonneg P.valid P.carries hv.self_of_nhds
    (ad_entry P G hG hf hv.self_of_nhds) hs⟩

end

open TieEx in
/-- The gradient of eight constraints with respect to a force and a load. -/
example {tmax : Nat} (ht : 1 ≤ tmax) : ∃ f : (Fin 2 → ℝ) → ℝ, ContDiffAt ℝ 1 f ![3, -4] ∧
    (∀ᶠ x in 𝓝 ![3, -4], (tieOpt.optimizeForm tmax 0 (tie 2 3 4) (List.ofFn x)).2 = .ok (some (f x))) ∧
    tieOpt.autograd tmax 0 (tie 2 3 4) [3, -4] =
      (tie 2 3 4, .ok [some (partialAt f ![3, -4] 0), some (partialAt f ![3, -4] 1)]) := by
  obtain ⟨F, hF⟩ := C20_returns_without_indirect (valid_tie 3 4 (Or.inl rfl)) (direct_tie 3 4) ht
    (le_refl (0 : ℝ))
  obtain ⟨f, h1, h2, H⟩ := C80_gradient (tie_point ht 1 hF)
  exact ⟨f, h1, h2, by simpa using H _ (SameExcept.refl _ _)⟩

end Props
end CEM
