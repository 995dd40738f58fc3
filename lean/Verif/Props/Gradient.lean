import Verif.Lemmas.Gradient
import Verif.Lemmas.IdleParams
import Verif.Props.Smooth
import Verif.Props.NumpyStaged
import Verif.Props.Grad
import Verif.Props.Solve
import Mathlib.Analysis.Calculus.MeanValue
import Mathlib.Analysis.Calculus.ContDiff.RCLike

/-!
# Property C71: finite difference gradients approximate the derivative of the objective
-/

set_option linter.unusedSectionVars false
set_option linter.unusedSimpArgs false

namespace CEM
namespace Props
open Diagram Spec EqEx Filter Topology

/-! ## Written parameters -/

/-- The number at a place of the diagram. -/
noncomputable def slotVal (D : Diagram ℝ) (s : Slot) : ℝ :=
  match D.getAttribute s with
  | .ok v => v
  | .error _ => 0

theorem posOf_slots (D : Diagram ℝ) (n : Int) :
    posOf D n = ⟨slotVal D (.node n .x), slotVal D (.node n .y), slotVal D (.node n .z)⟩ := by
  unfold posOf slotVal getAttribute
  cases h : D.nodes.get? n <;> simp only [h] <;> rfl

theorem loadAt_slots (D : Diagram ℝ) (n : Int) :
    loadAt D n = ⟨slotVal D (.node n .qx), slotVal D (.node n .qy), slotVal D (.node n .qz)⟩ := by
  unfold loadAt slotVal getAttribute
  cases h : D.nodes.get? n <;> simp only [h] <;> rfl

theorem lengthAt_slots (D : Diagram ℝ) (e : Int × Int) : lengthAt D e = slotVal D (.edge e .length) := by
  unfold lengthAt slotVal getAttribute
  cases h : D.edges.get? e <;> simp only [h] <;> rfl

theorem forceAt_slots (D : Diagram ℝ) (e : Int × Int) : forceAt D e = slotVal D (.edge e .force) := by
  unfold forceAt slotVal getAttribute
  cases h : D.edges.get? e <;> simp only [h] <;> rfl

section
variable {o : Optimizer ℝ} {D : Diagram ℝ} {n : Nat}

/-- Every number of the diagram is an entry of the vector or stays as it is. -/
theorem slot_written (h0 : ∀ q ∈ o.parameters, 0 ≤ q.1)
    (hok : ∀ x : Fin n → ℝ, (o.updateParameters D (List.ofFn x)).2 = .ok ()) (s : Slot) :
    (∃ i : Fin n, ∀ x : Fin n → ℝ, slotVal (o.updateParameters D (List.ofFn x)).1 s = x i) ∨
    ∀ x : Fin n → ℝ, slotVal (o.updateParameters D (List.ofFn x)).1 s = slotVal D s := by
  by_cases hs : ∃ q ∈ o.parameters, q.2.slot = s
  · left
    obtain ⟨l1, ⟨k, p⟩, l2, e, hp, hl⟩ : ∃ l1 q l2, o.parameters = l1 ++ q :: l2 ∧ q.2.slot = s ∧
        ∀ q' ∈ l2, q'.2.slot ≠ s := by
      have : ∀ l : List (Int × Param ℝ), (∃ q ∈ l, q.2.slot = s) →
          ∃ l1 q l2, l = l1 ++ q :: l2 ∧ q.2.slot = s ∧ ∀ q' ∈ l2, q'.2.slot ≠ s := by
        intro l
        induction l with
        | nil => simp
        | cons a l ih =>
          intro h
          by_cases h' : ∃ q ∈ l, q.2.slot = s
          · obtain ⟨l1, q, l2, rfl, h1, h2⟩ := ih h'
            exact ⟨a :: l1, q, l2, rfl, h1, h2⟩
          · obtain ⟨q, hq, e⟩ := h
            rcases List.mem_cons.1 hq with rfl | hq
            · exact ⟨[], q, l, rfl, e, fun q' hq' e' => h' ⟨q', hq', e'⟩⟩
            · exact absurd ⟨q, hq, e⟩ h'
      exact this _ hs
    have hw : ∀ x : Fin n → ℝ, ∃ v, (List.ofFn x)[k.toNat]? = some v ∧
        (o.updateParameters D (List.ofFn x)).1.getAttribute s = .ok v := fun x =>
      (Optimizer.writeParameters_get (List.ofFn x) o.parameters D h0 (hok x) s).2 l1 k p l2 e hp hl
    have hk : k.toNat < n := by
      obtain ⟨v, hv, _⟩ := hw 0
      have := (List.getElem?_eq_some_iff.1 hv).1
      simpa using this
    refine ⟨⟨k.toNat, hk⟩, fun x => ?_⟩
    obtain ⟨v, h1, h2⟩ := hw x
    unfold slotVal
    rw [h2]
    rw [List.getElem?_ofFn, dif_pos hk] at h1
    exact (Option.some.inj h1).symm
  · right
    intro x
    unfold slotVal
    have := (Optimizer.writeParameters_get (List.ofFn x) o.parameters D h0 (hok x) s).1
      fun q hq e => hs ⟨q, hq, e⟩
    rw [show (o.updateParameters D (List.ofFn x)).1.getAttribute s = D.getAttribute s from this]

theorem smooth_slot (h0 : ∀ q ∈ o.parameters, 0 ≤ q.1)
    (hok : ∀ x : Fin n → ℝ, (o.updateParameters D (List.ofFn x)).2 = .ok ()) (k : WithTop ℕ∞)
    (x0 : Fin n → ℝ) (s : Slot) :
    ContDiffAt ℝ k (fun x : Fin n → ℝ => slotVal (o.updateParameters D (List.ofFn x)).1 s) x0 := by
  rcases slot_written h0 hok s with ⟨i, h⟩ | h
  · simp only [h]
    exact contDiffAt_apply ℝ ℝ i x0
  · simp only [h]
    exact contDiffAt_const

/-- The problem depends smoothly on the vector that is written into it. -/
theorem smooth_written (h0 : ∀ q ∈ o.parameters, 0 ≤ q.1)
    (hok : ∀ x : Fin n → ℝ, (o.updateParameters D (List.ofFn x)).2 = .ok ()) (k : WithTop ℕ∞)
    (x0 : Fin n → ℝ) :
    SmoothFamily k (fun x : Fin n → ℝ => (o.updateParameters D (List.ofFn x)).1) x0 := by
  have sm := smooth_slot h0 hok k x0
  refine ⟨fun x => ?_, fun m _ _ => ?_, fun m _ => ?_, fun e _ _ _ => ?_, fun e _ _ _ => ?_⟩
  · exact ((Optimizer.writeParameters_same (List.ofFn x0) o.parameters D).symm.trans
      (Optimizer.writeParameters_same (List.ofFn x) o.parameters D)).mono fun _ _ => trivial
  · simp only [posOf_slots]
    exact ⟨sm _, sm _, sm _⟩
  · simp only [loadAt_slots]
    exact ⟨sm _, sm _, sm _⟩
  · simp only [lengthAt_slots]
    exact sm _
  · simp only [forceAt_slots]
    exact sm _

end

/-! ## The state of the numpy solver -/

theorem mem_of_typeOf {D : Diagram ℝ} {n : Int} {t : NodeType} (h : typeOf D n = some t) :
    n ∈ D.nodes.keys := by
  unfold typeOf at h
  rw [Option.map_eq_some_iff] at h
  obtain ⟨d, hd, _⟩ := h
  exact Dict.mem_keys_of_get? hd

/-- A state with the numbers of an iterate of the plain solver has the numbers of its form. -/
theorem stateOf_iter {D : Diagram ℝ} (I : ValidInput D) {L : List Int} (G : GoodSched D none L) (i : Nat)
    {t : NState ℝ} (hx : t.xyz = (liftS (iter D none L (i + 1))).xyz)
    (hr : t.reactions = (liftS (iter D none L (i + 1))).reactions)
    (hf : t.trailForces = (liftS (iter D none L (i + 1))).trailForces) :
    StateOf D (formOf D (iter D none L (i + 1))) t := by
  have S := finalSpec_sched I.wf I.trails G i
  refine ⟨fun m hm => ?_, fun e he => ?_, fun m hm => ?_⟩
  · obtain ⟨v, hv⟩ := (Dict.exists_get?_iff (iter D none L (i + 1)).xyz m).2 (by
      rw [S.keys.1]; exact hm)
    unfold At
    rw [hx]
    unfold liftS
    simp only [mapVal_get?, hv, Option.map_some]
    rw [posOf_form I.wf S]
    simp [EqState.pos, hv]
  · obtain ⟨d, hd', ht⟩ := he
    obtain ⟨a, b, hab, hk⟩ := trail_ends I hd' ht
    have ha := (Follows.mem I.trails ((trailNext_iff I.wf I.trails).1 hab)).1
    have h3 := (S.next a ha b (by rw [nxtK_none I.wf I.trails]; exact hab)).2.2.1
    rw [hk] at h3
    rw [hf]
    unfold liftS forceAt
    simp only [mapVal_get?, h3, Option.map_some]
    rw [formOf_edge S e, hd', h3]
    simp only [Option.map_some, Option.getD_some, signedLength]
    split <;> rfl
  · have hmk := mem_of_typeOf hm
    have hx : nxtK D none m = none := by unfold nxtK; rw [if_pos (Or.inl hm)]
    rw [hr]
    unfold liftS
    simp only [mapVal_get?]
    rw [S.react m, if_pos ⟨hmk, hx⟩, reactionAt_form I.wf S I.reaction hmk, if_pos hx]
    rfl

/-- The plain solver and the numpy solver arrive at the same numbers. -/
theorem npState_direct {D : Diagram ℝ} (I : ValidInput D) (hd : DirectOnly D) {tmax : Nat} {eta : ℝ}
    {verbose : Bool} {F : Diagram ℝ} (hF : staticEquilibrium D none tmax eta verbose = .ok F)
    (hn : Nondegenerate F) : ∃ s, npEquilibriumState D tmax eta verbose = .ok s ∧ StateOf D F s := by
  obtain ⟨T, N, hT, hN, hg, hlt⟩ := goodSeqs_of_valid I.wf I.trails I.nonempty
  have G := goodSched I.wf I.trails hg none hlt
  obtain ⟨a0, a1, a2⟩ := equilibriumState_sched I (kmax := none) (by simp) hT hN hg tmax eta verbose
  obtain ⟨b0, b1, b2⟩ := npEquilibriumState_cases I hT hN hg tmax eta verbose
  obtain ⟨s, hs, hFs⟩ := staticEquilibrium_ok hF
  have close : ∀ i, s = iter D none (sched D T N) (i + 1) →
      npEquilibriumState D tmax eta verbose = .ok (nIter D (sched D T N) (i + 1)) →
      ∃ s, npEquilibriumState D tmax eta verbose = .ok s ∧ StateOf D F s := by
    intro i hsi hni
    have hFi : F = formOf D (iter D none (sched D T N) (i + 1)) := by rw [hFs, hsi]
    refine ⟨_, hni, ?_⟩
    have e := nIter_lift I hd G i (by rw [← hFi]; exact hn) (i + 1)
    rw [hFi]
    exact stateOf_iter I G i (by rw [e]) (by rw [e]) (by rw [e])
  rcases Nat.lt_trichotomy tmax 1 with h | h | h
  · have h0 : tmax = 0 := by omega
    rw [a0 h0] at hs; simp at hs
  · have e1 := a1 h
    have e2 := b1 h
    rw [hs] at e1
    cases verbose with
    | true => simp at e1
    | false =>
      simp only [Bool.false_eq_true, if_false] at e1 e2
      exact close 0 (Except.ok.inj e1) e2
  · obtain ⟨m, hm2, hmt, hb, hl, he⟩ := a2 h
    obtain ⟨m', hm2', hmt', hb', hl', he'⟩ := b2 h
    have hres : ∀ j, 2 ≤ j → residualDistance (iter D none (sched D T N) (j - 1)).xyz
        (iter D none (sched D T N) j).xyz = 0 := by
      intro j hj
      obtain ⟨i, rfl⟩ : ∃ i, j = i + 2 := ⟨j - 2, by omega⟩
      exact residual_direct I hd G i
    rw [hres m hm2] at hl he
    rw [hs] at he
    have heta : ¬ (0 : ℝ) > eta := by intro hc; rw [if_pos hc] at he; simp at he
    rw [if_neg heta] at he
    have hgt : ¬ (nDist D (sched D T N) m').gt eta = true := by
      rcases nDist_direct I hd G m' hm2' with hd' | hd' <;> rw [hd']
      · simp [Num.gt]
      · rw [gt_iff_some]; exact heta
    rw [if_neg hgt] at he'
    obtain ⟨i, rfl⟩ : ∃ i, m = i + 1 := ⟨m - 1, by omega⟩
    have hFi : F = formOf D (iter D none (sched D T N) (i + 1)) := by
      rw [hFs, Except.ok.inj he]
    have hlift := nIter_lift I hd G i (by rw [← hFi]; exact hn)
    have hdist : ∀ j, 2 ≤ j → nDist D (sched D T N) j = some 0 := by
      intro j hj
      unfold nDist
      rw [hlift, hlift]
      obtain ⟨d, h1, h2, h3⟩ := npDistance_le _ _ (iter_keys_sub I (sched D T N) j (j - 1))
      rw [hres j hj] at h3
      rw [le_antisymm h3 h2] at h1
      exact h1
    have hmm : m' = i + 1 := by
      rw [hdist m' hm2', lt_iff_some] at hl'
      by_cases hpos : 0 < eta
      · have e1 : i + 1 = 2 := by
          by_contra hc
          exact hb 2 le_rfl (by omega) (by rw [hres 2 le_rfl]; exact hpos)
        have e2 : m' = 2 := by
          by_contra hc
          exact hb' 2 le_rfl (by omega) (by rw [hdist 2 le_rfl, lt_iff_some]; exact hpos)
        omega
      · rcases hl with hl | hl
        · exact absurd hl hpos
        · rcases hl' with hl' | hl'
          · exact absurd hl' hpos
          · omega
    rw [hmm] at he'
    exact close i (Except.ok.inj he) he'

/-- The same with indirect deviation edges but without feedback. -/
theorem npState_acyclic {D : Diagram ℝ} (I : ValidInput D) (hA : Acyclic D) {tmax : Nat}
    (ht : D.nodes.length < tmax) {verbose : Bool} {F : Diagram ℝ}
    (hF : staticEquilibrium D none tmax 0 verbose = .ok F) (hn : Nondegenerate F) :
    ∃ s, npEquilibriumState D tmax 0 verbose = .ok s ∧ StateOf D F s := by
  obtain ⟨St, hb⟩ := staged_of_acyclic I hA
  have h1 := nodes_pos I
  obtain ⟨M, rfl⟩ : ∃ M, tmax = M + 1 := ⟨tmax - 1, by omega⟩
  have hN : ∀ n ∈ D.nodes.keys, (needed D n).card ≤ D.nodes.length - 1 := fun n hn => by
    have := hb n hn; omega
  obtain ⟨L, G, e1, e2⟩ := both_staged I St hN (M := M) (by omega) verbose
  rw [hF] at e1
  obtain rfl := Except.ok.inj e1
  obtain ⟨k1, k2, k3⟩ := (nIter_settled I St hN G (m := M) (by omega)).1 hn
  exact ⟨_, e2, stateOf_iter I G M k1 k2 k3⟩

theorem acyclic_same {P : Slot → Prop} {D E : Diagram ℝ} (h : SameExcept P D E) (hA : Acyclic D) :
    Acyclic E := by
  have key : ∀ b x, Needs E b x → Needs D b x := by
    rintro b x ⟨a, ⟨t, tr, htr, hc⟩, hx⟩
    refine ⟨a, ⟨t, tr, by rw [← h.rest.2.2.1]; exact htr, hc⟩, ?_⟩
    rcases hx with rfl | ⟨d, hd | hd, ht⟩
    · exact Or.inl rfl
    · obtain ⟨d', h1, h2⟩ := (edgeType_same h (a, x) .deviation).1 ⟨d, hd, ht⟩
      exact Or.inr ⟨d', Or.inl h1, h2⟩
    · obtain ⟨d', h1, h2⟩ := (edgeType_same h (x, a) .deviation).1 ⟨d, hd, ht⟩
      exact Or.inr ⟨d', Or.inr h1, h2⟩
  exact fun n hn => hA n (Relation.TransGen.mono key _ _ hn)

/-- Problems on which form finding settles: those without indirect deviation edges, and with threshold
zero and more iterations than nodes those in which no position needs itself. -/
def Settles (D : Diagram ℝ) (tmax : Nat) (eta : ℝ) : Prop :=
  DirectOnly D ∧ 1 ≤ tmax ∧ 0 ≤ eta ∨ Acyclic D ∧ D.nodes.length < tmax ∧ eta = 0

section
variable {D : Diagram ℝ} {tmax : Nat} {eta : ℝ}

theorem Settles.same {P : Slot → Prop} {E : Diagram ℝ} (h : SameExcept P D E) (H : Settles D tmax eta) :
    Settles E tmax eta := by
  rcases H with ⟨h1, h2, h3⟩ | ⟨h1, h2, h3⟩
  · exact Or.inl ⟨directOnly_same h h1, h2, h3⟩
  · refine Or.inr ⟨acyclic_same h h1, ?_, h3⟩
    have := congrArg List.length h.nodeKeys
    simp only [Dict.keys, List.length_map] at this
    omega

theorem Settles.acyclic (I : ValidInput D) (H : Settles D tmax eta) : Acyclic D := by
  rcases H with ⟨h1, _, _⟩ | ⟨h1, _, _⟩
  · exact acyclic_of_direct I h1
  · exact h1

theorem Settles.returns (I : ValidInput D) (H : Settles D tmax eta) :
    ∃ F, staticEquilibrium D none tmax eta false = .ok F := by
  rcases H with ⟨h1, h2, h3⟩ | ⟨h1, h2, rfl⟩
  · exact C20_returns_without_indirect I h1 h2 h3
  · obtain ⟨F, _, h, _⟩ := C33_acyclic I h1 h2 false
    exact ⟨F, h⟩

theorem Settles.settled (I : ValidInput D) (H : Settles D tmax eta) {F : Diagram ℝ}
    (h : staticEquilibrium D none tmax eta false = .ok F) :
    ∃ q : EqState ℝ × (Int → Vec ℝ), SettledForm D F q.1 q.2 := by
  rcases H with ⟨h1, _, _⟩ | ⟨_, h2, rfl⟩
  · exact settled_direct I h1 h
  · have := nodes_pos I
    exact settled_zero I (by omega) le_rfl h

theorem Settles.state (I : ValidInput D) (H : Settles D tmax eta) {F : Diagram ℝ}
    (h : staticEquilibrium D none tmax eta false = .ok F) (hn : Nondegenerate F) :
    ∃ s, npEquilibriumState D tmax eta false = .ok s ∧ StateOf D F s := by
  rcases H with ⟨h1, _, _⟩ | ⟨h1, h2, rfl⟩
  · exact npState_direct I h1 h hn
  · exact npState_acyclic I h1 h2 h hn

end

/-! ## The objective -/

theorem posed_same {P : Slot → Prop} {D E : Diagram ℝ} (h : SameExcept P D E) {c : Constraint ℝ}
    (hc : Posed D c) : Posed E c := by
  cases c <;> simp only [Posed, h.nodeKeys, typeOf_same h] at hc ⊢ <;> try exact hc
  exact (edgeType_same h _ .trail).2 hc

theorem nondegenerate_near {V : Type} [NormedAddCommGroup V] [NormedSpace ℝ V] {k : WithTop ℕ∞} {t0 : V}
    {D : Diagram ℝ} {F : V → Diagram ℝ} (w : WF D) (S : SmoothForm k D F t0)
    (hc : ∀ᶠ t in 𝓝 t0, TrailsCarry (F t)) (hX : Distinct D (F t0))
    (hF : ∀ t e d, (F t).edges.get? e = some d → ∃ d', D.edges.get? e = some d' ∧ d'.type = d.type) :
    ∀ᶠ t in 𝓝 t0, Nondegenerate (F t) := by
  have h1 : ∀ᶠ t in 𝓝 t0, ∀ e ∈ D.edges.keys.toFinset, (∃ d, D.edges.get? e = some d ∧
      d.type = .deviation) → posOf (F t) e.1 - posOf (F t) e.2 ≠ 0 := by
    rw [eventually_all_finset]
    intro e he
    by_cases h : ∃ d, D.edges.get? e = some d ∧ d.type = .deviation
    · obtain ⟨d, hd, ht⟩ := h
      have hm := List.mem_toFinset.1 he
      exact (((S.positions _ (w.edge_left e hm)).sub (S.positions _ (w.edge_right e hm))).eventually_ne
        (sub_ne_zero.2 (hX.apart e d hd ht))).mono fun t h _ => h
    · exact Eventually.of_forall fun t h' => absurd h' h
  filter_upwards [h1, hc] with t h2 h3
  refine ⟨fun a b d hd ht => ?_, fun e d hd ht _ => h3 e d hd ht⟩
  obtain ⟨d', hd', ht'⟩ := hF t _ d hd
  exact sub_ne_zero.1 (h2 (a, b) (List.mem_toFinset.2 (Dict.mem_keys_of_get? hd'))
    ⟨d', hd', ht'.trans ht⟩)

/-- What C71 asks for: a problem on which form finding settles, the diagram `E` that carries the
values `x0` of `n` parameters, and the form `F` of `E`, which is at no kink of the form finding and of
the constraints. -/
structure SmoothPoint (k : WithTop ℕ∞) (o : Optimizer ℝ) (h : List (RegOp (Param ℝ))) (D E F : Diagram ℝ)
    {n : Nat} (x0 : Fin n → ℝ) (tmax : Nat) (eta : ℝ) : Prop where
  history : HasHistory o h
  slots : ∀ j p, Registered h j p → j < n ∧ HasSlot D p.slot
  valid : ValidInput D
  settles : Settles D tmax eta
  carries : Spec.Carries o.parameters D (List.ofFn x0) E
  nonzero : NonzeroTrails E
  form : staticEquilibrium E none tmax eta false = .ok F
  carry : TrailsCarry F
  distinct : Distinct E F
  posed : ∀ c ∈ o.constraints.vals, Posed D c
  clear : ∀ c ∈ o.constraints.vals, Clear k F c

/-- The derivatives that finite differences approximate. -/
noncomputable def partialAt {n : Nat} (f : (Fin n → ℝ) → ℝ) (x : Fin n → ℝ) (i : Fin n) : ℝ :=
  fderiv ℝ f x (Pi.single i 1)

section
variable {k : WithTop ℕ∞} {o : Optimizer ℝ} {h : List (RegOp (Param ℝ))} {D E F : Diagram ℝ} {n : Nat}
  {x0 : Fin n → ℝ} {tmax : Nat} {eta : ℝ}

theorem SmoothPoint.written (P : SmoothPoint k o h D E F x0 tmax eta) (x : Fin n → ℝ) :
    (o.updateParameters D (List.ofFn x)).2 = .ok () := by
  unfold Optimizer.updateParameters
  rw [Optimizer.writeParameters_ok _ _ _ P.history.nonneg]
  intro q hq
  have hr : Registered h q.1 q.2 := by
    rw [← (regInv h).get, ← P.history]
    exact Dict.get?_of_mem P.history.nodup hq
  have := P.slots _ _ hr
  exact ⟨by simpa using this.1, this.2⟩

/-- The objective is the sum of the penalties of the forms. -/
theorem smooth_objective (P : SmoothPoint k o h D E F x0 tmax eta) :
    ∃ G : (Fin n → ℝ) → Diagram ℝ,
      (∀ x, staticEquilibrium (o.updateParameters D (List.ofFn x)).1 none tmax eta false = .ok (G x)) ∧
      ContDiffAt ℝ k (fun x => (o.constraints.vals.map (formPenalty (G x))).sum) x0 ∧
      ∀ᶠ x in 𝓝 x0, (o.optimizeForm tmax eta D (List.ofFn x)).2 =
        .ok (some ((o.constraints.vals.map (formPenalty (G x))).sum)) := by
  have h0 := P.history.nonneg
  have hok := P.written
  have S := smooth_written h0 hok k x0
  have hs : ∀ x : Fin n → ℝ, SameExcept (fun s => ∃ q ∈ o.parameters, q.2.slot = s) D
      (o.updateParameters D (List.ofFn x)).1 := fun x =>
    Optimizer.writeParameters_same (List.ofFn x) o.parameters D
  have J : ∀ x : Fin n → ℝ, ValidInput (o.updateParameters D (List.ofFn x)).1 := fun x =>
    validInput_same (hs x) P.valid
  have K : ∀ x : Fin n → ℝ, Settles (o.updateParameters D (List.ofFn x)).1 tmax eta := fun x =>
    P.settles.same (hs x)
  have hret : ∀ x : Fin n → ℝ, ∃ G,
      staticEquilibrium (o.updateParameters D (List.ofFn x)).1 none tmax eta false = .ok G := fun x =>
    (K x).returns (J x)
  choose G hG using hret
  have hE : (o.updateParameters D (List.ofFn x0)).1 = E :=
    Spec.Carries.unique P.valid.wf.nodesNodup P.valid.wf.edgesNodup (carries_of_write h0 (hok x0)) P.carries
  have hF : G x0 = F := by
    have := hG x0
    rw [hE, P.form] at this
    exact (Except.ok.inj this).symm
  obtain ⟨h1, h2⟩ := smooth_form (F := G) (J x0) (by rw [hE]; exact P.nonzero)
    ((K x0).acyclic (J x0)) S (.of_forall fun x => (K x).settled (J x) (hG x))
    (by rw [hF]; exact P.carry) (by rw [hE, hF]; exact P.distinct)
  have hX := P.distinct
  rw [← hE, ← hF] at hX
  have h3 := nondegenerate_near (J x0).wf h1 h2 hX fun x e d hd => by
    obtain ⟨_, hk, _, hedges⟩ := C25_keeps_data (J x) (hG x)
    obtain ⟨d', hd'⟩ := (Dict.exists_get?_iff (o.updateParameters D (List.ofFn x)).1.edges e).2
      (by rw [← hk]; exact Dict.mem_keys_of_get? hd)
    obtain ⟨d1, e1, e2, _⟩ := hedges e d' hd'
    rw [hd] at e1
    cases e1
    obtain ⟨d0, hd0, ht0⟩ := (edgeType_same (S.same x) e d'.type).1 ⟨d', hd', rfl⟩
    exact ⟨d0, hd0, by rw [ht0, e2]⟩
  have h4 : ∀ c ∈ o.constraints.vals, ContDiffAt ℝ k (fun x => formPenalty (G x) c) x0 ∧
      ∀ᶠ x in 𝓝 x0, Clear 0 (G x) c := fun c hc =>
    smooth_penalty h1.numbers (posed_same (hs x0) (P.posed c hc)) (fun m hm => mem_of_typeOf hm)
      (by rw [hF]; exact P.clear c hc)
  have h5 : ∀ᶠ x in 𝓝 x0, ∀ c ∈ o.constraints.vals, Clear 0 (G x) c := by
    have : ∀ l : List (Constraint ℝ), (∀ c ∈ l, ∀ᶠ x in 𝓝 x0, Clear 0 (G x) c) →
        ∀ᶠ x in 𝓝 x0, ∀ c ∈ l, Clear 0 (G x) c := by
      intro l
      induction l with
      | nil => simp
      | cons c l ih =>
        intro hl
        filter_upwards [hl c (by simp), ih fun c' hc' => hl c' (by simp [hc'])] with x a1 a2
        simpa using ⟨a1, a2⟩
    exact this _ fun c hc => (h4 c hc).2
  refine ⟨G, hG, ?_, ?_⟩
  · have : ∀ l : List (Constraint ℝ), (∀ c ∈ l, ContDiffAt ℝ k (fun x => formPenalty (G x) c) x0) →
        ContDiffAt ℝ k (fun x => (l.map (formPenalty (G x))).sum) x0 := by
      intro l
      induction l with
      | nil => intro _; simpa using contDiffAt_const
      | cons c l ih =>
        intro hl
        simp only [List.map_cons, List.sum_cons]
        exact (hl c (by simp)).add (ih fun c' hc' => hl c' (by simp [hc']))
    exact this _ fun c hc => (h4 c hc).1
  · filter_upwards [h3, h5] with x a1 a2
    obtain ⟨s, b1, b2⟩ := (K x).state (J x) (hG x) a1
    unfold Optimizer.optimizeForm
    rcases hu : o.updateParameters D (List.ofFn x) with ⟨D', r⟩
    have hr := hok x
    rw [hu] at hr b1 b2
    simp only at hr b1 b2
    subst hr
    simp only [b1]
    refine penalties_form b2 fun c hc => ⟨?_, a2 c hc⟩
    have := posed_same (hs x) (P.posed c hc)
    rw [hu] at this
    exact this

/-- **C71.**  The value of the objective is a smooth function of the values of the parameters. -/
theorem C71_smooth (P : SmoothPoint k o h D E F x0 tmax eta) :
    ∃ f : (Fin n → ℝ) → ℝ, ContDiffAt ℝ k f x0 ∧
      ∀ᶠ x in 𝓝 x0, (o.optimizeForm tmax eta D (List.ofFn x)).2 = .ok (some (f x)) := by
  obtain ⟨G, _, h1, h2⟩ := smooth_objective P
  exact ⟨_, h1, h2⟩

end

/-! ## Finite differences -/

theorem bump_ofFn {n : Nat} (x : Fin n → ℝ) (i : Fin n) (d : ℝ) :
    bump (List.ofFn x) i d = List.ofFn (x + d • Pi.single i 1) := by
  refine List.ext_getElem (by simp [bump]) fun j h1 h2 => ?_
  have hj : j < n := by simpa using h2
  simp only [bump, List.getElem_mapIdx, List.getElem_ofFn, Pi.add_apply, Pi.smul_apply, Pi.single_apply,
    Fin.ext_iff]
  split_ifs <;> simp

theorem fd_converges {n : Nat} {f : (Fin n → ℝ) → ℝ} {x0 : Fin n → ℝ} (hf : DifferentiableAt ℝ f x0)
    {ε : ℝ} (hε : 0 < ε) : ∀ᶠ d in 𝓝[≠] (0 : ℝ), ∀ i : Fin n,
      |(f (x0 + d • Pi.single i 1) - f x0) / d - partialAt f x0 i| ≤ ε := by
  rw [eventually_all]
  intro i
  have h1 := hf.hasFDerivAt.isLittleO.def hε
  have hc : Tendsto (fun d : ℝ => x0 + d • (Pi.single i 1 : Fin n → ℝ)) (𝓝[≠] 0) (𝓝 x0) := by
    have : Continuous fun d : ℝ => x0 + d • (Pi.single i 1 : Fin n → ℝ) := by fun_prop
    have := this.tendsto 0
    simp only [zero_smul, add_zero] at this
    exact this.mono_left nhdsWithin_le_nhds
  filter_upwards [hc.eventually h1, self_mem_nhdsWithin] with d hd h0
  have hd0 : d ≠ 0 := h0
  rw [add_sub_cancel_left, norm_smul, Pi.norm_single, norm_one, mul_one, map_smul, smul_eq_mul,
    Real.norm_eq_abs, Real.norm_eq_abs] at hd
  have e : (f (x0 + d • Pi.single i 1) - f x0) / d - partialAt f x0 i =
      (f (x0 + d • Pi.single i 1) - f x0 - d * fderiv ℝ f x0 (Pi.single i 1)) / d := by
    unfold partialAt
    field_simp
  rw [e, abs_div, div_le_iff₀ (abs_pos.2 hd0)]
  exact hd

theorem fd_order {n : Nat} {f : (Fin n → ℝ) → ℝ} {x0 : Fin n → ℝ} (hf : ContDiffAt ℝ 2 f x0) :
    ∃ C : ℝ, ∀ᶠ d in 𝓝[≠] (0 : ℝ), ∀ i : Fin n,
      |(f (x0 + d • Pi.single i 1) - f x0) / d - partialAt f x0 i| ≤ C * |d| := by
  obtain ⟨K, t, ht, hL⟩ := (hf.fderiv_right (m := 1) (by norm_num)).exists_lipschitzOnWith
  have hdiff : ∀ᶠ x in 𝓝 x0, DifferentiableAt ℝ f x :=
    (hf.eventually (by simp)).mono fun x h => h.differentiableAt (by norm_num)
  obtain ⟨r, hr, hball⟩ := Metric.mem_nhds_iff.1 (Filter.inter_mem ht hdiff)
  refine ⟨K, ?_⟩
  have hsmall : ∀ᶠ d in 𝓝[≠] (0 : ℝ), |d| < r := by
    have : ∀ᶠ d in 𝓝 (0 : ℝ), |d| < r := by
      filter_upwards [Metric.ball_mem_nhds (0 : ℝ) hr] with d hd
      simpa [Real.norm_eq_abs] using hd
    exact this.filter_mono nhdsWithin_le_nhds
  filter_upwards [hsmall, self_mem_nhdsWithin] with d hd h0 i
  have hd0 : d ≠ 0 := h0
  have hin : ∀ x ∈ Metric.closedBall x0 |d|, x ∈ t ∧ DifferentiableAt ℝ f x := fun x hx =>
    hball (Metric.closedBall_subset_ball hd hx)
  have hx0 : x0 ∈ Metric.closedBall x0 |d| := Metric.mem_closedBall_self (abs_nonneg d)
  have hm := Convex.norm_image_sub_le_of_norm_fderiv_le' (𝕜 := ℝ) (f := f) (φ := fderiv ℝ f x0)
    (C := K * |d|) (fun x hx => (hin x hx).2) (fun x hx => by
      have := hL.dist_le_mul x (hin x hx).1 x0 (hin x0 hx0).1
      rw [dist_eq_norm] at this
      exact this.trans (mul_le_mul_of_nonneg_left hx K.2)) (convex_closedBall x0 |d|) hx0
    (y := x0 + d • Pi.single i 1) (by
      rw [Metric.mem_closedBall, dist_eq_norm, add_sub_cancel_left, norm_smul, Pi.norm_single, norm_one,
        mul_one, Real.norm_eq_abs])
  rw [add_sub_cancel_left, norm_smul, Pi.norm_single, norm_one, mul_one, map_smul, smul_eq_mul,
    Real.norm_eq_abs, Real.norm_eq_abs] at hm
  have e : (f (x0 + d • Pi.single i 1) - f x0) / d - partialAt f x0 i =
      (f (x0 + d • Pi.single i 1) - f x0 - d * fderiv ℝ f x0 (Pi.single i 1)) / d := by
    unfold partialAt
    field_simp
  rw [e, abs_div, div_le_iff₀ (abs_pos.2 hd0)]
  exact hm

section
variable {k : WithTop ℕ∞} {o : Optimizer ℝ} {h : List (RegOp (Param ℝ))} {D E F : Diagram ℝ} {n : Nat}
  {x0 : Fin n → ℝ} {tmax : Nat} {eta : ℝ}

theorem evalAll_ok (h0 : ∀ q ∈ o.parameters, 0 ≤ q.1) (I : ValidInput D) {v : List ℝ → Num ℝ}
    (ys : List (List ℝ)) (hv : ∀ y ∈ ys, (o.optimizeForm tmax eta D y).2 = .ok (v y)) {E' : Diagram ℝ}
    (hs : SameExcept (fun s => ∃ q ∈ o.parameters, q.2.slot = s) D E') :
    ∃ E2, evalAll (o.optimizeForm tmax eta) E' ys = (E2, .ok (ys.map v)) := by
  induction ys generalizing E' with
  | nil => exact ⟨E', rfl⟩
  | cons y ys ih =>
    have h1 := optimizeForm_state h0 tmax eta (validInput_same hs I).wf hs.symm (hv y (by simp))
    have h2 := hs.trans (Optimizer.optimizeForm_same o tmax eta E' y)
    obtain ⟨E2, h3⟩ := ih (fun z hz => hv z (by simp [hz])) h2
    refine ⟨E2, ?_⟩
    simp only [evalAll]
    rcases hf : o.optimizeForm tmax eta E' y with ⟨E1, r⟩
    rw [hf] at h1 h3
    simp only at h1 h3
    subst h1
    simp only [h3, List.map_cons]

/-- What `grad_finite_differences` returns if form finding returns. -/
theorem quotients_of (h0 : ∀ q ∈ o.parameters, 0 ≤ q.1) (I : ValidInput D) {J : (Fin n → ℝ) → ℝ} {d : ℝ}
    (hd0 : d ≠ 0) (hx : (o.optimizeForm tmax eta D (List.ofFn x0)).2 = .ok (some (J x0)))
    (hd : ∀ i : Fin n, (o.optimizeForm tmax eta D (List.ofFn (x0 + d • Pi.single i 1))).2 =
      .ok (some (J (x0 + d • Pi.single i 1)))) {E1 : Diagram ℝ}
    (hs : SameExcept (fun s => ∃ q ∈ o.parameters, q.2.slot = s) D E1) {grad : List (Num ℝ)}
    (hg : grad.length = n) : ∃ E2, gradFiniteDifferences (o.optimizeForm tmax eta) d E1 (List.ofFn x0) grad =
      ((E2, List.ofFn x0), .ok (List.ofFn fun i : Fin n =>
        some ((J (x0 + d • Pi.single i 1) - J x0) / d))) := by
  have hl : (List.ofFn x0).length = n := by simp
  let v : List ℝ → Num ℝ := fun y => match (o.optimizeForm tmax eta D y).2 with
    | .ok u => u
    | .error _ => none
  have hv : ∀ y ∈ List.ofFn x0 :: (List.range (List.ofFn x0).length).map
      (fun i => bump (List.ofFn x0) i d), (o.optimizeForm tmax eta D y).2 = .ok (v y) := by
    have : ∀ y u, (o.optimizeForm tmax eta D y).2 = .ok u → (o.optimizeForm tmax eta D y).2 = .ok (v y) := by
      intro y u hu
      simp only [v, hu]
    intro y hy
    rcases List.mem_cons.1 hy with rfl | hy
    · exact this _ _ hx
    · obtain ⟨i, hi, rfl⟩ := List.mem_map.1 hy
      rw [hl, List.mem_range] at hi
      have e := bump_ofFn x0 ⟨i, hi⟩ d
      simp only at e
      rw [e]
      exact this _ _ (hd ⟨i, hi⟩)
  obtain ⟨E2, h2⟩ := evalAll_ok h0 I _ hv hs
  refine ⟨E2, ?_⟩
  rw [C42_trace _ _ _ _ _ (by rw [hl]; exact hg), h2]
  simp only [List.map_cons, List.map_map]
  congr 2
  refine List.ext_getElem (by simp) fun j h3 h4 => ?_
  have hj : j < n := by simpa using h4
  have e := bump_ofFn x0 ⟨j, hj⟩ d
  simp only at e
  simp only [List.getElem_map, List.getElem_range, Function.comp, List.getElem_ofFn, e]
  simp only [v, hx, hd ⟨j, hj⟩]
  simp [fdQuotient, lift2, hd0]

theorem steps_tend (x0 : Fin n → ℝ) (i : Fin n) :
    Tendsto (fun d : ℝ => x0 + d • (Pi.single i 1 : Fin n → ℝ)) (𝓝[≠] 0) (𝓝 x0) := by
  have : Continuous fun d : ℝ => x0 + d • (Pi.single i 1 : Fin n → ℝ) := by fun_prop
  have := this.tendsto 0
  simp only [zero_smul, add_zero] at this
  exact this.mono_left nhdsWithin_le_nhds

/-- What `grad_finite_differences` returns for small steps. -/
theorem gradient_quotients (P : SmoothPoint k o h D E F x0 tmax eta) {f : (Fin n → ℝ) → ℝ}
    (hf : ∀ᶠ x in 𝓝 x0, (o.optimizeForm tmax eta D (List.ofFn x)).2 = .ok (some (f x))) :
    ∀ᶠ d in 𝓝[≠] (0 : ℝ), ∀ E1, SameExcept (fun s => ∃ q ∈ o.parameters, q.2.slot = s) D E1 →
      ∀ grad : List (Num ℝ), grad.length = n → ∃ E2,
        gradFiniteDifferences (o.optimizeForm tmax eta) d E1 (List.ofFn x0) grad =
          ((E2, List.ofFn x0), .ok (List.ofFn fun i : Fin n =>
            some ((f (x0 + d • Pi.single i 1) - f x0) / d))) := by
  have hstep : ∀ᶠ d in 𝓝[≠] (0 : ℝ), ∀ i : Fin n,
      (o.optimizeForm tmax eta D (List.ofFn (x0 + d • Pi.single i 1))).2 =
        .ok (some (f (x0 + d • Pi.single i 1))) := by
    rw [eventually_all]
    exact fun i => (steps_tend x0 i).eventually hf
  filter_upwards [hstep, self_mem_nhdsWithin] with d hd hd0 E1 hs grad hg
  exact quotients_of P.history.nonneg P.valid hd0 hf.self_of_nhds hd hs hg

/-- **C71.**  The entries of the finite difference gradient come as close as one likes to the partial
derivatives of the objective, for all small enough steps, whatever values of the parameters were written
into the diagram before. -/
theorem C71_gradient (P : SmoothPoint k o h D E F x0 tmax eta) (hk : 1 ≤ k) :
    ∃ f : (Fin n → ℝ) → ℝ, ContDiffAt ℝ k f x0 ∧
      (∀ᶠ x in 𝓝 x0, (o.optimizeForm tmax eta D (List.ofFn x)).2 = .ok (some (f x))) ∧
      ∀ ε > 0, ∃ δ > 0, ∀ step : ℝ, 0 < |step| → |step| < δ →
        ∀ E1, SameExcept (fun s => ∃ q ∈ o.parameters, q.2.slot = s) D E1 →
        ∀ grad : List (Num ℝ), grad.length = n → ∃ (E2 : Diagram ℝ) (g : Fin n → ℝ),
          gradFiniteDifferences (o.optimizeForm tmax eta) step E1 (List.ofFn x0) grad =
            ((E2, List.ofFn x0), .ok (List.ofFn fun i => some (g i))) ∧
          ∀ i, |g i - partialAt f x0 i| ≤ ε := by
  obtain ⟨f, hf, hv⟩ := C71_smooth P
  refine ⟨f, hf, hv, fun ε hε => ?_⟩
  have hd : DifferentiableAt ℝ f x0 := hf.differentiableAt (by
    rintro rfl
    simp at hk)
  have := (gradient_quotients P hv).and (fd_converges hd hε)
  rw [eventually_nhdsWithin_iff, Metric.eventually_nhds_iff] at this
  obtain ⟨δ, hδ, H⟩ := this
  refine ⟨δ, hδ, fun step h1 h2 E1 hE1 grad hg => ?_⟩
  obtain ⟨a, b⟩ := H (y := step) (by simpa [Real.dist_eq] using h2) (abs_pos.1 h1)
  obtain ⟨E2, hE2⟩ := a E1 hE1 grad hg
  exact ⟨E2, _, hE2, b⟩

/-- **C71, order.**  If the objective is twice continuously differentiable, the error of the gradient is at
most proportional to the step. -/
theorem C71_order (P : SmoothPoint k o h D E F x0 tmax eta) (hk : 2 ≤ k) :
    ∃ f : (Fin n → ℝ) → ℝ, ContDiffAt ℝ k f x0 ∧
      (∀ᶠ x in 𝓝 x0, (o.optimizeForm tmax eta D (List.ofFn x)).2 = .ok (some (f x))) ∧
      ∃ C, ∃ δ > 0, ∀ step : ℝ, 0 < |step| → |step| < δ →
        ∀ E1, SameExcept (fun s => ∃ q ∈ o.parameters, q.2.slot = s) D E1 →
        ∀ grad : List (Num ℝ), grad.length = n → ∃ (E2 : Diagram ℝ) (g : Fin n → ℝ),
          gradFiniteDifferences (o.optimizeForm tmax eta) step E1 (List.ofFn x0) grad =
            ((E2, List.ofFn x0), .ok (List.ofFn fun i => some (g i))) ∧
          ∀ i, |g i - partialAt f x0 i| ≤ C * |step| := by
  obtain ⟨f, hf, hv⟩ := C71_smooth P
  obtain ⟨C, hC⟩ := fd_order (hf.of_le hk)
  refine ⟨f, hf, hv, C, ?_⟩
  have := (gradient_quotients P hv).and hC
  rw [eventually_nhdsWithin_iff, Metric.eventually_nhds_iff] at this
  obtain ⟨δ, hδ, H⟩ := this
  refine ⟨δ, hδ, fun step h1 h2 E1 hE1 grad hg => ?_⟩
  obtain ⟨a, b⟩ := H (y := step) (by simpa [Real.dist_eq] using h2) (abs_pos.1 h1)
  obtain ⟨E2, hE2⟩ := a E1 hE1 grad hg
  exact ⟨E2, _, hE2, b⟩

end

/-! ## Example: the force of a tie and a load -/

namespace TieEx

/-- The force of the deviation edge and the load at node 0 are parameters. -/
def tieHistory : List (RegOp (Param ℝ)) :=
  [.add (deviationEdgeParameter (0, 2) none none), .add (nodeLoadZParameter 0 none none)]

/-- One constraint of each kind. -/
def tieGoals : List (Constraint ℝ) := [.point 1 ⟨0, 0, -5⟩ 1, .plane 3 (⟨0, 0, 1⟩, ⟨1, 0, 1⟩) 2,
  .line 3 (⟨0, 0, 0⟩, ⟨0, 1, 0⟩) 1, .polyline 1 [⟨3, 1, 0⟩, ⟨3, 1, -10⟩] 1, .trailForce (0, 1) (-4) 1,
  .reaction 3 ⟨0, 0, 1⟩ 1, .length (1, 3) 4 1, .direction (0, 1) ⟨1, 0, 0⟩ 1]

def tieOpt : Optimizer ℝ :=
  runConstraintOps (runOps Optimizer.empty tieHistory) (tieGoals.map .add)

theorem tie_registered : tieOpt.parameters =
    [(0, deviationEdgeParameter (0, 2) none none), (1, nodeLoadZParameter 0 none none)] := by
  simp [tieOpt, tieGoals, tieHistory, runConstraintOps, runOps, Optimizer.addConstraint,
    Optimizer.addParameter, Optimizer.empty, Dict.set]

theorem tie_goals : tieOpt.constraints.vals = tieGoals := by
  simp [tieOpt, tieGoals, tieHistory, runConstraintOps, runOps, Optimizer.addConstraint,
    Optimizer.addParameter, Optimizer.empty, Dict.set, Dict.vals]

/-- The positions in the form of the trails with a direct deviation edge. -/
theorem tie_form {f w : ℝ} {F : Diagram ℝ} {tmax : Nat} {eta : ℝ}
    (hF : staticEquilibrium (tie 2 f w) none tmax eta false = .ok F) :
    posOf F 0 = ⟨0, 0, 0⟩ ∧ posOf F 2 = ⟨1, 0, 0⟩ ∧ posOf F 1 = (-5 : ℝ) • unit ⟨-f, 0, w⟩ ∧
    posOf F 3 = ⟨1, 0, 0⟩ + (-5 : ℝ) • unit ⟨f, 0, w⟩ ∧ (w ≠ 0 → TrailsCarry F) ∧
    Distinct (tie 2 f w) F := by
  obtain ⟨q, S⟩ := settled_direct (valid_tie f w (Or.inl rfl)) (direct_tie f w) hF
  obtain ⟨p0, p2, p1, p3, h, _⟩ := tie_out f w (Or.inl rfl) S
  obtain ⟨r0, r2⟩ := h rfl
  have hp : ∀ n, posOf F n = q.1.pos n := by
    obtain ⟨eF, ⟨ind, p, Q, G⟩, -⟩ := S
    intro n
    rw [eF, posOf_form (valid_tie f w (Or.inl rfl)).wf G]
  refine ⟨by rw [hp, p0], by rw [hp, p2], by rw [hp, p1, r0], by rw [hp, p3, r2], fun hw => ?_, ?_⟩
  · exact tie_carries f w (Or.inl rfl) S (by rw [r0]; intro h; exact hw (congrArg Vec.z h))
      (by rw [r2]; intro h; exact hw (congrArg Vec.z h))
  · refine tie_distinct f w ?_
    rw [hp, hp, p0, p2]
    intro h
    simpa using congrArg Vec.x h

theorem unit_345 (s : ℝ) (hs : s = 1 ∨ s = -1) :
    (-5 : ℝ) • unit (⟨3 * s, 0, 4⟩ : Vec ℝ) = ⟨-3 * s, 0, -4⟩ := by
  have : Vec.length (⟨3 * s, 0, 4⟩ : Vec ℝ) = 5 := by
    rw [Vec.length_def, Vec.dot, show (3 * s * (3 * s) + 0 * 0 + 4 * 4 : ℝ) = 5 ^ 2 by
      rcases hs with rfl | rfl <;> norm_num]
    exact Real.sqrt_sq (by norm_num)
  unfold unit
  rw [this]
  ext <;> simp

theorem tie_point {F : Diagram ℝ} {tmax : Nat} (ht : 1 ≤ tmax) (k : WithTop ℕ∞)
    (hF : staticEquilibrium (tie 2 3 4) none tmax 0 false = .ok F) :
    SmoothPoint k tieOpt tieHistory (tie 2 3 4) (tie 2 3 4) F ![3, -4] tmax 0 := by
  obtain ⟨p0, p2, p1, p3, hc, hX⟩ := tie_form hF
  rw [show (⟨-3, 0, 4⟩ : Vec ℝ) = ⟨3 * -1, 0, 4⟩ by norm_num, unit_345 _ (Or.inr rfl)] at p1
  rw [show (⟨3, 0, 4⟩ : Vec ℝ) = ⟨3 * 1, 0, 4⟩ by norm_num, unit_345 _ (Or.inl rfl)] at p3
  refine ⟨?_, ?_, valid_tie 3 4 (Or.inl rfl), Or.inl ⟨direct_tie 3 4, ht, le_rfl⟩, ⟨SameExcept.refl _ _, ?_⟩,
    nonzero_tie 3 4, hF, hc (by norm_num), hX, ?_, ?_⟩
  · unfold HasHistory
    rw [tie_registered]
    simp [tieHistory, runOps, Optimizer.addParameter, Optimizer.empty, Dict.set]
  · intro j p hr
    rw [← (regInv tieHistory).get] at hr
    have e : (runOps (Optimizer.empty : Optimizer ℝ) tieHistory).parameters =
        [(0, deviationEdgeParameter (0, 2) none none), (1, nodeLoadZParameter 0 none none)] := by
      simp [tieHistory, runOps, Optimizer.addParameter, Optimizer.empty, Dict.set]
    rw [e] at hr
    simp only [Dict.get?] at hr
    split_ifs at hr with h1 h2
    · cases hr
      subst h1
      exact ⟨by norm_num, by simp [deviationEdgeParameter, HasSlot, tie_edge_keys]⟩
    · cases hr
      subst h2
      exact ⟨by norm_num, by simp [nodeLoadZParameter, HasSlot, tie_keys]⟩
  · intro l1 j p l2 e _
    have hm : (j, p) ∈ tieOpt.parameters := by rw [e]; simp
    rw [tie_registered] at hm
    simp only [List.mem_cons, Prod.mk.injEq, List.not_mem_nil, or_false] at hm
    rcases hm with ⟨rfl, rfl⟩ | ⟨rfl, rfl⟩
    · exact ⟨3, by simp, ⟨_, by rw [tie_edges]; simp; rfl, rfl⟩⟩
    · exact ⟨-4, by simp, ⟨_, by rw [tie_nodes]; simp; rfl, rfl⟩⟩
  · rw [tie_goals]
    simp only [tieGoals, List.mem_cons, List.not_mem_nil, or_false, forall_eq_or_imp, forall_eq, Posed,
      tie_keys, IsTrail, typeOf, tie_nodes, tie_edges]
    simp
  · rw [tie_goals]
    simp only [tieGoals, List.mem_cons, List.not_mem_nil, or_false, forall_eq_or_imp, forall_eq, Clear,
      p0, p1, p3, true_and]
    refine ⟨fun h => ?_, ?_, fun h => ?_, fun h => ?_, ?_⟩
    · simpa using congrArg Vec.x h
    · refine ⟨fun q => (q.1 - 3) * (q.1 - 3) + (q.2.1 - 1) * (q.2.1 - 1), ?_, ?_⟩
      · exact ((contDiffAt_fst.sub contDiffAt_const).mul (contDiffAt_fst.sub contDiffAt_const)).add
          ((contDiffAt_snd.fst.sub contDiffAt_const).mul (contDiffAt_snd.fst.sub contDiffAt_const))
      · have hz : ∀ᶠ q : ℝ × ℝ × ℝ in 𝓝 (-3 * -1, 0, -4), -10 < q.2.2 ∧ q.2.2 < 0 := by
          have : ContinuousAt (fun q : ℝ × ℝ × ℝ => q.2.2) (-3 * -1, 0, -4) := by fun_prop
          exact (continuousAt_const.eventually_lt this (by norm_num)).and
            (this.eventually_lt continuousAt_const (by norm_num))
        filter_upwards [hz] with q hq
        refine ⟨⟨⟨3, 1, q.2.2⟩, ⟨0, _, _, rfl, rfl, -q.2.2 / 10, by linarith, by linarith, ?_⟩, ?_⟩, ?_⟩
        · ext <;> simp
        · simp [sqDist, Vec.dot, pow_two]
        · rintro p ⟨i, a, b, h1, h2, t, _, _, rfl⟩
          rcases i with _ | _ | i <;> simp at h1 h2
          subst h1
          subst h2
          simp only [sqDist, Vec.dot, Vec.sub_x, Vec.sub_y, Vec.sub_z, Vec.add_x, Vec.add_y, Vec.add_z,
            Vec.smul_x, Vec.smul_y, Vec.smul_z]
          nlinarith [mul_self_nonneg (q.2.2 - (0 + t * (-10 - 0)))]
    · have := congrArg Vec.x h
      norm_num at this
    · have := congrArg Vec.x h
      norm_num at this
    · norm_num [Vec.dot]

end TieEx

open TieEx in
/-- The finite difference gradient of eight constraints with respect to a force and a load. -/
example {tmax : Nat} (ht : 1 ≤ tmax) : ∃ f : (Fin 2 → ℝ) → ℝ, ContDiffAt ℝ 2 f ![3, -4] ∧
    ∃ C, ∃ δ > 0, ∀ step : ℝ, 0 < |step| → |step| < δ → ∀ grad : List (Num ℝ), grad.length = 2 →
      ∃ (E2 : Diagram ℝ) (g : Fin 2 → ℝ),
        gradFiniteDifferences (tieOpt.optimizeForm tmax 0) step (tie 2 3 4) [3, -4] grad =
          ((E2, [3, -4]), .ok [some (g 0), some (g 1)]) ∧
        ∀ i, |g i - partialAt f ![3, -4] i| ≤ C * |step| := by
  obtain ⟨F, hF⟩ := C20_returns_without_indirect (valid_tie 3 4 (Or.inl rfl)) (direct_tie 3 4) ht
    (le_refl (0 : ℝ))
  obtain ⟨f, h1, _, C, δ, hδ, H⟩ := C71_order (tie_point ht 2 hF) le_rfl
  refine ⟨f, h1, C, δ, hδ, fun step a b grad hg => ?_⟩
  obtain ⟨E2, g, e, hgr⟩ := H step a b _ (SameExcept.refl _ _) grad hg
  exact ⟨E2, g, by simpa using e, hgr⟩

namespace TieEx

/-- The same parameters for the tie between different sequences. -/
def indirectHistory : List (RegOp (Param ℝ)) :=
  [.add (deviationEdgeParameter (0, 3) none none), .add (nodeLoadZParameter 0 none none)]

def indirectGoals : List (Constraint ℝ) := [.point 1 ⟨0, 0, -5⟩ 1, .reaction 3 ⟨0, 0, 1⟩ 1]

def indirectOpt : Optimizer ℝ :=
  runConstraintOps (runOps Optimizer.empty indirectHistory) (indirectGoals.map .add)

theorem indirect_registered : indirectOpt.parameters =
    [(0, deviationEdgeParameter (0, 3) none none), (1, nodeLoadZParameter 0 none none)] := by
  simp [indirectOpt, indirectGoals, indirectHistory, runConstraintOps, runOps, Optimizer.addConstraint,
    Optimizer.addParameter, Optimizer.empty, Dict.set]

theorem indirect_goals : indirectOpt.constraints.vals = indirectGoals := by
  simp [indirectOpt, indirectGoals, indirectHistory, runConstraintOps, runOps, Optimizer.addConstraint,
    Optimizer.addParameter, Optimizer.empty, Dict.set, Dict.vals]

theorem indirect_point (k : WithTop ℕ∞) :
    ∃ F, SmoothPoint k indirectOpt indirectHistory (tie 3 3 4) (tie 3 3 4) F ![3, -4] 5 0 := by
  obtain ⟨F, hF, hc, hX⟩ := tie_found
  refine ⟨F (3, 4), ?_, ?_, valid_tie 3 4 (Or.inr rfl), Or.inr ⟨acyclic_tie 3 4, by change 4 < 5; norm_num,
    rfl⟩, ⟨SameExcept.refl _ _, ?_⟩, nonzero_tie 3 4, hF (3, 4), hc, hX, ?_, ?_⟩
  · unfold HasHistory
    rw [indirect_registered]
    simp [indirectHistory, runOps, Optimizer.addParameter, Optimizer.empty, Dict.set]
  · intro j p hr
    rw [← (regInv indirectHistory).get] at hr
    have e : (runOps (Optimizer.empty : Optimizer ℝ) indirectHistory).parameters =
        [(0, deviationEdgeParameter (0, 3) none none), (1, nodeLoadZParameter 0 none none)] := by
      simp [indirectHistory, runOps, Optimizer.addParameter, Optimizer.empty, Dict.set]
    rw [e] at hr
    simp only [Dict.get?] at hr
    split_ifs at hr with h1 h2
    · cases hr
      subst h1
      exact ⟨by norm_num, by simp [deviationEdgeParameter, HasSlot, tie_edge_keys]⟩
    · cases hr
      subst h2
      exact ⟨by norm_num, by simp [nodeLoadZParameter, HasSlot, tie_keys]⟩
  · intro l1 j p l2 e _
    have hm : (j, p) ∈ indirectOpt.parameters := by rw [e]; simp
    rw [indirect_registered] at hm
    simp only [List.mem_cons, Prod.mk.injEq, List.not_mem_nil, or_false] at hm
    rcases hm with ⟨rfl, rfl⟩ | ⟨rfl, rfl⟩
    · exact ⟨3, by simp, ⟨_, by rw [tie_edges]; simp; rfl, rfl⟩⟩
    · exact ⟨-4, by simp, ⟨_, by rw [tie_nodes]; simp; rfl, rfl⟩⟩
  · rw [indirect_goals]
    simp only [indirectGoals, List.mem_cons, List.not_mem_nil, or_false, forall_eq_or_imp, forall_eq, Posed,
      tie_keys, typeOf, tie_nodes]
    simp
  · rw [indirect_goals]
    simp only [indirectGoals, List.mem_cons, List.not_mem_nil, or_false, forall_eq_or_imp, forall_eq, Clear,
      and_self]

end TieEx

open TieEx in
/-- The same with an indirect edge, whose other end moves with the parameters. -/
example : ¬ DirectOnly (tie 3 3 4) ∧ ∃ f : (Fin 2 → ℝ) → ℝ, ContDiffAt ℝ 2 f ![3, -4] ∧
    ∃ C, ∃ δ > 0, ∀ step : ℝ, 0 < |step| → |step| < δ → ∀ grad : List (Num ℝ), grad.length = 2 →
      ∃ (E2 : Diagram ℝ) (g : Fin 2 → ℝ),
        gradFiniteDifferences (indirectOpt.optimizeForm 5 0) step (tie 3 3 4) [3, -4] grad =
          ((E2, [3, -4]), .ok [some (g 0), some (g 1)]) ∧
        ∀ i, |g i - partialAt f ![3, -4] i| ≤ C * |step| := by
  constructor
  · intro h
    have := h 0 3 ⟨.deviation, 0, 3, none⟩ (by rw [tie_edges]; simp) rfl
    simp [seqOf, tie_nodes] at this
  · obtain ⟨F, P⟩ := indirect_point 2
    obtain ⟨f, h1, _, C, δ, hδ, H⟩ := C71_order P le_rfl
    refine ⟨f, h1, C, δ, hδ, fun step a b grad hg => ?_⟩
    obtain ⟨E2, g, e, hgr⟩ := H step a b _ (SameExcept.refl _ _) grad hg
    exact ⟨E2, g, by simpa using e, hgr⟩

/-! ## A kink -/

namespace TieEx

/-- Only the force of the deviation edge is a parameter, and the first trail edge should point along x. -/
def kinkOpt : Optimizer ℝ := (Optimizer.empty.addParameter (deviationEdgeParameter (0, 2) none none)).addConstraint
  (.direction (0, 1) ⟨1, 0, 0⟩ 1)

theorem kink_write (f x : ℝ) : kinkOpt.updateParameters (tie 2 f 4) [x] = (tie 2 x 4, .ok ()) := by
  simp [kinkOpt, Optimizer.updateParameters, Optimizer.addParameter, Optimizer.addConstraint,
    Optimizer.empty, Dict.set, Optimizer.writeParameters, npGet, npIndex, deviationEdgeParameter,
    Diagram.setAttribute, tie, Dict.has, Dict.get?, Dict.modify, EdgeAttr.set]

theorem kink_value {tmax : Nat} (ht : 1 ≤ tmax) (f x : ℝ) :
    kinkOpt.optimizeForm tmax 0 (tie 2 f 4) [x] =
      (tie 2 x 4, .ok (some (2 - 2 * (|x| / Real.sqrt (x * x + 16))))) := by
  obtain ⟨F, hF⟩ := C20_returns_without_indirect (valid_tie x 4 (Or.inl rfl)) (direct_tie x 4) ht
    (le_refl (0 : ℝ))
  obtain ⟨p0, p2, p1, p3, hc, hX⟩ := tie_form hF
  have hnd : Nondegenerate F := by
    refine ⟨fun a b d hd hty => ?_, fun e d hd hty _ => hc (by norm_num) e d hd hty⟩
    obtain ⟨_, hk, _, hedges⟩ := C25_keeps_data (valid_tie x 4 (Or.inl rfl)) hF
    obtain ⟨d', hd'⟩ := (Dict.exists_get?_iff (tie 2 x 4).edges (a, b)).2
      (by rw [← hk]; exact Dict.mem_keys_of_get? hd)
    obtain ⟨d1, e1, e2, _⟩ := hedges _ d' hd'
    rw [hd] at e1
    cases e1
    exact hX.apart (a, b) d' hd' (by rw [← e2]; exact hty)
  obtain ⟨s, h1, h2⟩ := npState_direct (valid_tie x 4 (Or.inl rfl)) (direct_tie x 4) hF hnd
  unfold Optimizer.optimizeForm
  rw [kink_write]
  simp only [h1]
  have hl : (0 : ℝ) < x * x + 16 := by nlinarith [mul_self_nonneg x]
  have hlen : Vec.length (⟨-x, 0, 4⟩ : Vec ℝ) = Real.sqrt (x * x + 16) := by
    rw [Vec.length_def]
    congr 1
    simp only [Vec.dot]
    ring
  have hv : (⟨-x, 0, 4⟩ : Vec ℝ) ≠ 0 := fun h => by simpa using congrArg Vec.z h
  have u1 : unit (⟨1, 0, 0⟩ : Vec ℝ) = ⟨1, 0, 0⟩ := by
    have : Vec.length (⟨1, 0, 0⟩ : Vec ℝ) = 1 := by simp [Vec.length_def, Vec.dot]
    unfold unit; rw [this]; simp
  have hd : |Vec.dot (unit (posOf F 1 - posOf F 0)) (unit (⟨1, 0, 0⟩ : Vec ℝ))| =
      |x| / Real.sqrt (x * x + 16) := by
    rw [p1, p0, show (⟨0, 0, 0⟩ : Vec ℝ) = 0 from rfl, sub_zero, unit_smul_neg (by norm_num), unit_unit, u1]
    unfold unit
    rw [hlen]
    simp only [Vec.dot, Vec.neg_x, Vec.neg_y, Vec.neg_z, Vec.smul_x, Vec.smul_y, Vec.smul_z]
    rw [show -((Real.sqrt (x * x + 16))⁻¹ * -x) * 1 + -((Real.sqrt (x * x + 16))⁻¹ * 0) * 0 +
      -((Real.sqrt (x * x + 16))⁻¹ * 4) * 0 = x / Real.sqrt (x * x + 16) by ring, abs_div,
      abs_of_nonneg (Real.sqrt_nonneg _)]
  have hab : posOf F 0 ≠ posOf F 1 := by
    rw [p0, p1]
    intro h
    have := congrArg Vec.z h
    unfold unit at this
    rw [hlen] at this
    simp only [Vec.smul_z] at this
    have hp := Real.sqrt_pos.2 hl
    have : (Real.sqrt (x * x + 16))⁻¹ = 0 := by linarith
    exact (inv_ne_zero hp.ne') this
  have hpen := direction_penalty (e := (0, 1)) (t := ⟨1, 0, 0⟩) (1 : ℝ) (h2.pos 0 (by rw [tie_keys]; simp))
    (h2.pos 1 (by rw [tie_keys]; simp)) hab (fun h => by simpa using congrArg Vec.x h)
  rw [hd] at hpen
  have hvals : kinkOpt.constraints.vals = [.direction (0, 1) ⟨1, 0, 0⟩ 1] := by
    simp [kinkOpt, Optimizer.addConstraint, Optimizer.addParameter, Optimizer.empty, Dict.set, Dict.vals]
  rw [hvals]
  simp only [calculatePenalty, hpen]
  simp [lift2]

end TieEx

open TieEx in
/-- **C71, kinks.**  Where an edge is perpendicular to the direction asked for, the objective has no
derivative, and the sign of the finite difference gradient depends on the sign of the step. -/
theorem C71_kink {tmax : Nat} (ht : 1 ≤ tmax) {step : ℝ} (h0 : step ≠ 0) (h1 : |step| ≤ 1) (g : Num ℝ) :
    ∃ v, gradFiniteDifferences (kinkOpt.optimizeForm tmax 0) step (tie 2 0 4) [0] [g] =
        ((tie 2 step 4, [0]), .ok [some v]) ∧
      (0 < step → v ≤ -(2 / 5)) ∧ (step < 0 → 2 / 5 ≤ v) := by
  have hl : (0 : ℝ) < step * step + 16 := by nlinarith [mul_self_nonneg step]
  have hp := Real.sqrt_pos.2 hl
  have h5 : Real.sqrt (step * step + 16) ≤ 5 := by
    rw [Real.sqrt_le_left (by norm_num)]
    have := abs_le.1 h1
    nlinarith
  refine ⟨-(2 * (|step| / Real.sqrt (step * step + 16))) / step, ?_, fun hs => ?_, fun hs => ?_⟩
  · rw [C42_trace _ _ _ _ _ rfl]
    simp only [List.length_cons, List.length_nil, List.range_one, List.map_cons, List.map_nil, bump,
      List.mapIdx_cons, List.mapIdx_nil, if_true, zero_add, evalAll, kink_value ht]
    simp [fdQuotient, lift2, h0]
  · rw [abs_of_pos hs, show -(2 * (step / Real.sqrt (step * step + 16))) / step =
      -(2 / Real.sqrt (step * step + 16)) by field_simp]
    exact neg_le_neg (div_le_div_of_nonneg_left (by norm_num) hp h5)
  · rw [abs_of_neg hs, show -(2 * (-step / Real.sqrt (step * step + 16))) / step =
      2 / Real.sqrt (step * step + 16) by field_simp]
    exact div_le_div_of_nonneg_left (by norm_num) hp h5

end Props
end CEM
