import Verif.Lemmas.Callback
import Verif.Lemmas.Returned
import Verif.Lemmas.Solve
import Verif.Lemmas.Idle

/-!
# The plain solver with a callback that sets the loads
-/

namespace CEM
open Diagram Spec
set_option linter.unusedSectionVars false
set_option linter.unusedSimpArgs false

section
variable {R W : Type} [Field R] [LinearOrder R] [IsStrictOrderedRing R] [PySqrt R]

theorem withLoads_twice (q : Int → Vec R) (D : Diagram R) : withLoads q (withLoads q D) = withLoads q D := by
  simp [withLoads, Function.comp_def]

theorem times_loading (q : Int → Vec R) (n : Nat) (w : Diagram R × W) :
    times (loading q) (n + 1) w = .ok (withLoads q w.1, w.2) := by
  induction n generalizing w with
  | zero => rfl
  | succ n ih =>
    have : times (loading q) (n + 1 + 1) w = times (loading q) (n + 1) (withLoads q w.1, w.2) := rfl
    rw [this, ih]
    show Except.ok (withLoads q (withLoads q w.1), w.2) = _
    rw [withLoads_twice]

theorem withLoads_get? (q : Int → Vec R) (F : Diagram R) (m : Int) :
    (withLoads q F).nodes.get? m = (F.nodes.get? m).map fun d => { d with load := q m } :=
  get?_map_key F.nodes (fun m (d : NodeData R) => ({ d with load := q m } : NodeData R)) m

theorem withLoads_keys (q : Int → Vec R) (F : Diagram R) : (withLoads q F).nodes.keys = F.nodes.keys := by
  simp [withLoads, Dict.keys, Function.comp_def]

theorem withLoads_same (q : Int → Vec R) (D : Diagram R) : SameExcept (fun _ => True) D (withLoads q D) := by
  refine ⟨withLoads_keys q D, rfl, fun n d d' h h' => ?_, fun e d d' h h' => ?_, ⟨rfl, rfl, rfl, rfl, rfl, rfl⟩⟩
  · rw [withLoads_get?, h] at h'
    cases h'
    simp
  · have : D.edges.get? e = some d' := h'
    rw [h] at this
    cases this
    simp

theorem withLoads_nxtK (q : Int → Vec R) (D : Diagram R) (kmax : Option Int) : nxtK (withLoads q D) kmax = nxtK D kmax := by
  funext n
  unfold nxtK
  rw [typeOf_same (withLoads_same q D), seqOf_same (withLoads_same q D)]
  rfl

theorem withLoads_init (q : Int → Vec R) (D : Diagram R) : initState (withLoads q D) = initState D := by
  simp [initState, withLoads, Function.comp_def]

/-- A state between two sweeps. -/
structure Between (D : Diagram R) (s : EqState R) : Prop where
  good : GoodState D s
  start : ∀ a, (∀ n ∈ D.nodes.keys, nxtK D none n ≠ some a) →
    s.pos a = (initState D).pos a ∧ s.res a = (initState D).res a
  react : ∀ n, ¬ (n ∈ D.nodes.keys ∧ nxtK D none n = none) → s.reactions.get? n = none
  force : ∀ e, (∀ a ∈ D.nodes.keys, ∀ m, nxtK D none a = some m → edgeKey D a m ≠ e) → s.trailForces.get? e = none
  nodup : s.reactions.keys.Nodup ∧ s.trailForces.keys.Nodup

theorem Between.init (D : Diagram R) : Between D (initState D) :=
  ⟨goodState_init D, fun _ _ => ⟨rfl, rfl⟩, fun _ _ => rfl, fun _ _ => rfl, ⟨List.nodup_nil, List.nodup_nil⟩⟩

theorem between_loads {D : Diagram R} {s : EqState R} (q : Int → Vec R) : Between (withLoads q D) s ↔ Between D s := by
  have hk := withLoads_keys q D
  have hx := withLoads_nxtK q D none
  have he : ∀ a b, edgeKey (withLoads q D) a b = edgeKey D a b := fun _ _ => rfl
  constructor <;> intro h
  · refine ⟨?_, ?_, ?_, ?_, h.nodup⟩
    · have := h.good; unfold GoodState at this ⊢; rwa [hk] at this
    · have := h.start; rwa [hk, hx, withLoads_init] at this
    · have := h.react; rwa [hk, hx] at this
    · have := h.force; rwa [hk, hx] at this
  · refine ⟨?_, ?_, ?_, ?_, h.nodup⟩
    · have := h.good; unfold GoodState; rwa [hk]
    · have := h.start; rwa [hk, hx, withLoads_init]
    · have := h.react; rwa [hk, hx]
    · have := h.force; rwa [hk, hx]

theorem Between.proc {D : Diagram R} (w : WF D) (V : ValidTrails D) {s : EqState R} (h : Between D s) {n : Int}
    (hn : n ∈ D.nodes.keys) (ind : Bool) : Between D (CEM.proc D (nxtK D none) ind s n) := by
  refine ⟨h.good.proc w V n, fun a ha => ?_, fun m hm => ?_, fun e he => ?_, proc_nodup n h.nodup.1 h.nodup.2⟩
  · cases hx : nxtK D none n with
    | none => rw [proc_none hx]; exact h.start a ha
    | some m =>
      have hne : m ≠ a := fun e => ha n hn (e ▸ hx)
      have := h.start a ha
      rw [proc_some hx]
      unfold EqState.pos EqState.res at this ⊢
      simp only [Dict.get?_set_ne _ _ hne]
      exact this
  · cases hx : nxtK D none n with
    | none =>
      have hne : n ≠ m := fun e => hm ⟨e ▸ hn, e ▸ hx⟩
      rw [proc_none hx]
      simp only [Dict.get?_set_ne _ _ hne]
      exact h.react m hm
    | some b => rw [proc_some hx]; exact h.react m hm
  · cases hx : nxtK D none n with
    | none => rw [proc_none hx]; exact h.force e he
    | some b =>
      rw [proc_some hx]
      simp only [Dict.get?_set_ne _ _ (he n hn b hx)]
      exact h.force e he

theorem Between.fold {D : Diagram R} (w : WF D) (V : ValidTrails D) {s : EqState R} (h : Between D s) (ind : Bool)
    {L : List Int} (hL : ∀ n ∈ L, n ∈ D.nodes.keys) : Between D (L.foldl (CEM.proc D (nxtK D none) ind) s) := by
  induction L generalizing s with
  | nil => exact h
  | cons n L ih =>
    exact ih (h.proc w V (hL n (by simp)) ind) fun m hm => hL m (by simp [hm])

/-- What is known after a sweep. -/
theorem Between.final {D : Diagram R} (w : WF D) (V : ValidTrails D) {L : List Int} (G : GoodSched D none L)
    {s : EqState R} (h : Between D s) (ind : Bool) :
    ∃ r Q, FinalSpec D none ind s (L.foldl (CEM.proc D (nxtK D none) ind) s) r Q := by
  have S := sweepSpec (D := D) (ind := ind) G.sched s
  have h' := h.fold w V ind (L := L) fun n hn => (G.mem n).1 hn
  refine ⟨_, _, h'.good, fun n hn => S.seen n ((G.mem n).2 hn), fun n hn => S.seen_any n ((G.mem n).2 hn),
    fun n hn => S.out n ((G.mem n).2 hn), fun n hn => S.next n ((G.mem n).2 hn), h'.start, fun n => ?_, h'.force,
    h'.nodup.1, h'.nodup.2⟩
  by_cases hc : n ∈ D.nodes.keys ∧ nxtK D none n = none
  · rw [if_pos hc]
    have := S.react n
    rw [if_pos (by rw [G.mem]; exact hc)] at this
    exact this
  · rw [if_neg hc]; exact h'.react n hc

/-- Without indirect edges all sweeps end in the same form. -/
theorem final_unique {D : Diagram R} (I : ValidInput D) (hd : DirectOnly D) {ind ind' : Bool} {p s p' s' : EqState R}
    {r r' : Int → Vec R} {Q Q' : Int → Int → Vec R} (S : FinalSpec D none ind p s r Q)
    (S' : FinalSpec D none ind' p' s' r' Q') :
    (∀ n ∈ D.nodes.keys, s.pos n = s'.pos n) ∧ formOf D s = formOf D s' := by
  have hsame : SameProblem D D :=
    ⟨fun _ => rfl, fun _ _ _ => rfl, fun _ => Iff.rfl, fun _ => Iff.rfl,
      fun _ _ _ h h' => by rw [h] at h'; rw [Option.some.inj h'],
      fun _ _ _ h h' _ => by rw [h] at h'; rw [Option.some.inj h']; exact ⟨rfl, rfl⟩,
      fun _ _ _ h h' _ => by rw [h] at h'; rw [Option.some.inj h']⟩
  have U := solves_unique hsame I.simple I.wf I.trails I.wf I.trails (S.solves hd) (S'.solves hd) (fun a _ ha => by
    obtain ⟨h1, h2⟩ := S.start a ha
    obtain ⟨h3, h4⟩ := S'.start a ha
    exact ⟨h1.trans h3.symm, h2.trans h4.symm⟩)
  refine ⟨fun n hn => (U n hn).1, ?_⟩
  have hr : ∀ n, s.reactions.get? n = s'.reactions.get? n := by
    intro n
    rw [S.react, S'.react]
    by_cases hc : n ∈ D.nodes.keys ∧ nxtK D none n = none
    · rw [if_pos hc, if_pos hc, (U n hc.1).2.2]
    · rw [if_neg hc, if_neg hc]
  have hf : ∀ e, s.trailForces.get? e = s'.trailForces.get? e := by
    intro e
    by_cases hc : ∃ a ∈ D.nodes.keys, ∃ m, nxtK D none a = some m ∧ edgeKey D a m = e
    · obtain ⟨a, ha, m, hm, rfl⟩ := hc
      obtain ⟨-, -, h1, -⟩ := S.next a ha m hm
      obtain ⟨-, -, h2, -⟩ := S'.next a ha m hm
      rw [h1, h2, (U a ha).1, (U a ha).2.2]
    · push Not at hc
      rw [S.force e hc, S'.force e hc]
  have hnodes : (formOf D s).nodes = (formOf D s').nodes := by
    refine Dict.ext_get? ?_ ?_ fun n _ => ?_
    · rw [show (formOf D s).nodes.keys = D.nodes.keys from formNodes_keys _ _]; exact I.wf.nodesNodup
    · exact (formNodes_keys (formFromTopology D) s).trans (formNodes_keys (formFromTopology D) s').symm
    · rw [formOf_get? I.wf S, formOf_get? I.wf S', hr]
      cases hn : D.nodes.get? n with
      | none => rfl
      | some d => rw [(U n (Dict.mem_keys_of_get? hn)).1]
  have hedges : (formOf D s).edges = (formOf D s').edges := by
    refine Dict.ext_get? ?_ ?_ fun e _ => ?_
    · rw [show (formOf D s).edges.keys = D.edges.keys from formEdges_keys _ _]; exact I.wf.edgesNodup
    · exact (formEdges_keys (formFromTopology D) s).trans (formEdges_keys (formFromTopology D) s').symm
    · rw [formOf_edge S, formOf_edge S', hnodes, hf]
  have ext : ∀ F : Diagram R, ∀ t, formUpdate F t = { F with nodes := (formUpdate F t).nodes, edges := (formUpdate F t).edges } :=
    fun _ _ => rfl
  unfold formOf at *
  rw [ext _ s, ext _ s', hnodes, hedges]

theorem liveFor {α : Type} {D E : Diagram R} {x : W} {F : EqState R × (Diagram R × W) → α → Except PyErr (EqState R × (Diagram R × W))}
    {c : α → Nat} {l : List α}
    (hF : ∀ s A a, Between D s → (A = D ∨ A = E) → a ∈ l →
      ∃ s', F (s, (A, x)) a = .ok (s', (if c a = 0 then A else E, x)) ∧ Between D s')
    {s : EqState R} {A : Diagram R} (hs : Between D s) (hA : A = D ∨ A = E) :
    ∃ s', forE F l (s, (A, x)) = .ok (s', (if (l.map c).sum = 0 then A else E, x)) ∧ Between D s' := by
  induction l generalizing s A with
  | nil => exact ⟨s, rfl, hs⟩
  | cons a l ih =>
    obtain ⟨s', h1, h2⟩ := hF s A a hs hA (by simp)
    obtain ⟨s'', h3, h4⟩ := ih (fun s A b hs hA hb => hF s A b hs hA (by simp [hb])) (A := if c a = 0 then A else E) h2 (by
      split_ifs
      · exact hA
      · exact Or.inr rfl)
    refine ⟨s'', ?_, h4⟩
    simp only [forE, h1, h3, List.map_cons, List.sum_cons]
    congr 3
    by_cases ha : c a = 0
    · simp [ha]
    · simp [ha]

/-- The first sweep. -/
theorem liveSweep {D : Diagram R} (I : ValidInput D) (q : Int → Vec R) {T : Dict Int (Dict Int Int)} (hT : GoodSeqs D T)
    (ind : Bool) (N : Int) {s : EqState R} (hs : Between D s) (x : W) :
    ∃ s', cbSweep (some (loading q)) T none ind N (s, (D, x)) =
      .ok (s', (if callsIn D none (sched D T N) = 0 then D else withLoads q D, x)) ∧ Between D s' := by
  have J := validInput_same (withLoads_same q D) I
  have hT' : GoodSeqs (withLoads q D) T := by
    intro key tr h
    obtain ⟨m, h1, h2⟩ := hT key tr h
    exact ⟨m, h1, fun k n => by rw [h2, seqOf_same (withLoads_same q D)]⟩
  have hcalls : ∀ o, callsOf (withLoads q D) none o = callsOf D none o := by
    intro o
    cases o <;> simp only [callsOf, callsAt, withLoads_nxtK]
  have htimes : ∀ c A, (A = D ∨ A = withLoads q D) →
      times (loading q) c (A, x) = .ok (if c = 0 then A else withLoads q D, x) := by
    intro c A hA
    cases c with
    | zero => rfl
    | succ c =>
      rw [times_loading]
      rcases hA with rfl | rfl
      · rfl
      · simp [withLoads_twice]
  have step : ∀ k s A key, Between D s → (A = D ∨ A = withLoads q D) → key ∈ D.trails.keys →
      ∃ s', cbStep (some (loading q)) T none ind k (s, (A, x)) key =
        .ok (s', (if callsOf D none ((T.get? key).bind (·.get? k)) = 0 then A else withLoads q D, x)) ∧ Between D s' := by
    intro k s A key hs hA hkey
    have hmem : ∀ n, (T.get? key).bind (·.get? k) = some n → n ∈ D.nodes.keys := by
      intro n hn
      obtain ⟨tr, ht⟩ := Dict.mem_keys_iff.1 hkey
      obtain ⟨m, hm, hspec⟩ := hT key tr ht
      rw [hm] at hn
      exact I.trails.mem_keys ht ((hspec k n).1 hn).1
    rcases hA with rfl | rfl
    · rw [cbStep_eq I.wf I.trails hT none ind k hs.good hkey, htimes _ _ (Or.inl rfl)]
      refine ⟨_, rfl, ?_⟩
      cases hn : (T.get? key).bind (·.get? k) with
      | none => exact hs
      | some n => exact hs.proc I.wf I.trails (hmem n hn) ind
    · have hs' := (between_loads q).2 hs
      rw [cbStep_eq J.wf J.trails hT' none ind k hs'.good hkey, hcalls, htimes _ _ (Or.inr rfl)]
      refine ⟨_, rfl, ?_⟩
      cases hn : (T.get? key).bind (·.get? k) with
      | none => exact hs
      | some n =>
        exact (between_loads q).1 (hs'.proc J.wf J.trails (by rw [withLoads_keys]; exact hmem n hn) ind)
  have := liveFor (D := D) (E := withLoads q D) (x := x)
    (F := fun p k => forE (cbStep (some (loading q)) T none ind k) p.2.1.trails.keys p)
    (c := fun k => callsIn D none (level D T k)) (l := pyRange N) (fun s A k hs hA _ => by
      have hA' : A.trails.keys = D.trails.keys := by rcases hA with rfl | rfl <;> rfl
      obtain ⟨s', h1, h2⟩ := liveFor (D := D) (E := withLoads q D) (x := x) (F := cbStep (some (loading q)) T none ind k)
        (c := fun key => callsOf D none ((T.get? key).bind (·.get? k))) (l := D.trails.keys)
        (fun s A key hs hA hk => step k s A key hs hA hk) hs hA
      refine ⟨s', ?_, h2⟩
      show forE _ A.trails.keys _ = _
      rw [hA', h1, callsIn_level]
      rfl) hs (Or.inl rfl)
  obtain ⟨s', h1, h2⟩ := this
  refine ⟨s', ?_, h2⟩
  unfold cbSweep
  rw [h1, callsIn_flatMap]
  rfl

end

section
variable {W : Type}

theorem residual_same {D : Diagram ℝ} (w : WF D) {s t : EqState ℝ} (ht : GoodState D t)
    (h : ∀ n ∈ D.nodes.keys, s.pos n = t.pos n) : residualDistance s.xyz t.xyz = 0 := by
  rw [residualDistance_eq]
  apply List.sum_eq_zero
  intro x hx
  obtain ⟨⟨n, v⟩, hm, rfl⟩ := List.mem_map.1 hx
  have hk : n ∈ t.xyz.keys := List.mem_map.2 ⟨_, hm, rfl⟩
  have hget := Dict.get?_of_mem (by rw [ht.1]; exact w.nodesNodup) hm
  have := h n (by rw [← ht.1]; exact hk)
  have hp : t.pos n = v := by unfold EqState.pos; rw [hget]; rfl
  rw [hp] at this
  unfold EqState.pos at this
  simp only
  rw [this]
  unfold Vec.dist
  rw [sub_self, Vec.length_zero]

theorem times_fix {A : Type} {f : A → Except PyErr A} {a : A} (h : f a = .ok a) (n : Nat) : times f n a = .ok a := by
  induction n with
  | zero => rfl
  | succ n ih => simp only [times, h, Except.bind, ih]

/-- The later sweeps. -/
theorem liveLoop {E : Diagram ℝ} (J : ValidInput E) (hd : DirectOnly E) {f : Callback ℝ W}
    (hf : ∀ x, f (E, x) = .ok (E, x)) {T : Dict Int (Dict Int Int)} {N : Int} (hT : GoodSeqs E T)
    (hN : E.numberOfSequences = .ok N) (G : GoodSched E none (sched E T N)) {eta : ℝ} (x : W) (fuel : Nat)
    {t : Nat} (ht : t ≠ 0) {ind : Bool} {p s : EqState ℝ} {r : Int → Vec ℝ} {Q : Int → Int → Vec ℝ}
    (S : FinalSpec E none ind p s r Q) (hs : Between E s) (info : Option (LoopInfo ℝ)) :
    ∃ s' t', cbLoop (some f) T none eta (fuel + 1) t (s, (E, x)) info = .ok ((s', some ⟨t', some 0⟩), (E, x)) ∧
      t' ≠ 0 ∧ formOf E s' = formOf E s := by
  induction fuel generalizing t ind p s r Q info with
  | zero =>
    have hsw := cbSweep_gen (W := W) J.wf J.trails hT none (decide (t ≠ 0)) N hs.good (f := f)
      (by rintro ⟨A, y⟩ z rfl h; rw [hf] at h; cases h; rfl) x
    rw [times_fix (hf x)] at hsw
    obtain ⟨r', Q', S'⟩ := hs.final J.wf J.trails G (decide (t ≠ 0))
    obtain ⟨u1, u2⟩ := final_unique J hd S S'
    have hdist := residual_same J.wf S'.keys u1
    refine ⟨_, t, ?_, ht, u2.symm⟩
    simp only [cbLoop, hN, hsw, Except.map, if_neg ht, hdist]
    split_ifs <;> rfl
  | succ fuel ih =>
    have hsw := cbSweep_gen (W := W) J.wf J.trails hT none (decide (t ≠ 0)) N hs.good (f := f)
      (by rintro ⟨A, y⟩ z rfl h; rw [hf] at h; cases h; rfl) x
    rw [times_fix (hf x)] at hsw
    obtain ⟨r', Q', S'⟩ := hs.final J.wf J.trails G (decide (t ≠ 0))
    obtain ⟨u1, u2⟩ := final_unique J hd S S'
    have hdist := residual_same J.wf S'.keys u1
    by_cases he : (0 : ℝ) < eta
    · refine ⟨_, t, ?_, ht, u2.symm⟩
      rw [cbLoop]
      simp only [hN, hsw, Except.map, if_neg ht, hdist, if_pos he]
    · obtain ⟨s', t', h1, h2, h3⟩ := ih (t := t + 1) (by omega) S'
        (hs.fold J.wf J.trails _ fun n hn => (G.mem n).1 hn) (some ⟨t, some 0⟩)
      refine ⟨s', t', ?_, h2, h3.trans u2.symm⟩
      rw [cbLoop]
      simp only [hN, hsw, Except.map, if_neg ht, hdist, if_neg he]
      exact h1

theorem live_equilibrium {D : Diagram ℝ} (I : ValidInput D) (hd : DirectOnly D) {T : Dict Int (Dict Int Int)} {N : Int}
    (hTs : D.trailsSequences = .ok T) (hNs : D.numberOfSequences = .ok N) (hT : GoodSeqs D T)
    (hc : callsIn D none (sched D T N) ≠ 0) (q : Int → Vec ℝ)
    {tmax : Nat} (ht : 3 ≤ tmax) {eta : ℝ} (he : 0 ≤ eta) (verbose : Bool) (x : W) :
    ∃ F, staticEquilibrium (withLoads q D) none tmax eta verbose = .ok F ∧
      staticEquilibriumCb (some (loading q)) D x none tmax eta verbose = .ok (F, (withLoads q D, x)) := by
  have same := withLoads_same q D
  have J := validInput_same same I
  have hd' := directOnly_same same hd
  have hTs' : (withLoads q D).trailsSequences = .ok T := by rw [trailsSequences_same same]; exact hTs
  have hNs' : (withLoads q D).numberOfSequences = .ok N := by rw [numberOfSequences_same same I.wf]; exact hNs
  have hT' : GoodSeqs (withLoads q D) T := by
    intro key tr h
    obtain ⟨m, h1, h2⟩ := hT key tr h
    exact ⟨m, h1, fun k n => by rw [h2, seqOf_same same]⟩
  have G' : GoodSched (withLoads q D) none (sched (withLoads q D) T N) := by
    obtain ⟨T2, N2, e1, e2, e3, e4⟩ := goodSeqs_of_valid J.wf J.trails J.nonempty
    rw [hTs'] at e1
    rw [hNs'] at e2
    cases e1
    cases e2
    exact goodSched J.wf J.trails e3 none e4
  obtain ⟨M, rfl⟩ : ∃ M, tmax = M + 3 := ⟨tmax - 3, by omega⟩
  -- the run with the new loads from the beginning
  obtain ⟨-, -, h⟩ := equilibriumState_sched J (kmax := none) (by simp) hTs' hNs' hT' (M + 3) eta verbose
  obtain ⟨m, m1, -, -, -, m5⟩ := h (by omega)
  have hres : residualDistance (iter (withLoads q D) none (sched (withLoads q D) T N) (m - 1)).xyz
      (iter (withLoads q D) none (sched (withLoads q D) T N) m).xyz = 0 := by
    obtain ⟨i, rfl⟩ : ∃ i, m = i + 2 := ⟨m - 2, by omega⟩
    exact residual_direct J hd' G' i
  rw [hres, if_neg (not_lt.2 he)] at m5
  obtain ⟨i, rfl⟩ : ∃ i, m = i + 1 := ⟨m - 1, by omega⟩
  obtain ⟨r0, Q0, S0⟩ := finalSpec J.wf J.trails G' i
  refine ⟨formOf (withLoads q D) (iter (withLoads q D) none (sched (withLoads q D) T N) (i + 1)), ?_, ?_⟩
  · unfold staticEquilibrium
    rw [m5]
  -- the first two sweeps
  obtain ⟨s1, k1, k2⟩ := liveSweep I q hT (decide ((0 : Nat) ≠ 0)) N (Between.init D) x
  rw [if_neg hc] at k1
  have b1 := (between_loads q).2 k2
  have fix : ∀ y : W, loading q (withLoads q D, y) = .ok (withLoads q D, y) := fun y => by
    show Except.ok (withLoads q (withLoads q D), y) = _
    rw [withLoads_twice]
  have l1 := cbSweep_gen (W := W) J.wf J.trails hT' none (decide (1 ≠ 0)) N b1.good (f := loading q)
    (by rintro ⟨A, y⟩ z rfl h; rw [fix] at h; cases h; rfl) x
  rw [times_fix (fix x)] at l1
  obtain ⟨r2, Q2, S2⟩ := b1.final J.wf J.trails G' (decide (1 ≠ 0))
  have b2 := b1.fold J.wf J.trails (decide (1 ≠ 0)) (L := sched (withLoads q D) T N) fun n hn => (G'.mem n).1 hn
  have last : ∀ s' t' d, ¬ d > eta → t' ≠ 0 → formOf (withLoads q D) s' =
        formOf (withLoads q D) ((sched (withLoads q D) T N).foldl (proc (withLoads q D) (nxtK (withLoads q D) none)
          (decide (1 ≠ 0))) s1) →
      cbLoop (some (loading q)) T none eta (M + 3) 0 (initState D, (D, x)) none =
        .ok ((s', some ⟨t', some d⟩), (withLoads q D, x)) →
      staticEquilibriumCb (some (loading q)) D x none (M + 3) eta verbose =
        .ok (formOf (withLoads q D) (iter (withLoads q D) none (sched (withLoads q D) T N) (i + 1)), (withLoads q D, x)) := by
    intro s' t' d g1 g2 g3 g4
    have hnt : D.numberOfTrails ≠ 0 := by
      unfold numberOfTrails
      have := I.nonempty
      simpa [Dict.vals] using this
    unfold staticEquilibriumCb
    simp only [if_neg hnt, hTs, hNs, Option.any_none, Bool.false_eq_true, if_false, g4, eqFinish,
      if_pos (Nat.pos_of_ne_zero g2), if_neg g1]
    rw [(final_unique J hd' S0 S2).2]
    exact congrArg _ (congrArg (·, (withLoads q D, x)) g3)
  generalize hs2 : (sched (withLoads q D) T N).foldl (proc (withLoads q D) (nxtK (withLoads q D) none)
    (decide (1 ≠ 0))) s1 = s2 at *
  have c0 : cbLoop (some (loading q)) T none eta (M + 3) 0 (initState D, (D, x)) none =
      cbLoop (some (loading q)) T none eta (M + 2) 1 (s1, (withLoads q D, x)) (some ⟨0, none⟩) := by
    rw [cbLoop]
    simp only [hNs, k1, if_true]
  have c1 : cbLoop (some (loading q)) T none eta (M + 2) 1 (s1, (withLoads q D, x)) (some ⟨0, none⟩) =
      if residualDistance s1.xyz s2.xyz < eta then
        .ok ((s2, some ⟨1, some (residualDistance s1.xyz s2.xyz)⟩), (withLoads q D, x))
      else cbLoop (some (loading q)) T none eta (M + 1) 2 (s2, (withLoads q D, x))
        (some ⟨1, some (residualDistance s1.xyz s2.xyz)⟩) := by
    rw [cbLoop]
    simp only [hNs', l1, Except.map, one_ne_zero, if_false]
  by_cases hlt : residualDistance s1.xyz s2.xyz < eta
  · exact last s2 1 _ (not_lt.2 hlt.le) one_ne_zero rfl (by rw [c0, c1, if_pos hlt])
  · obtain ⟨s', t', g1, g2, g3⟩ := liveLoop (eta := eta) J hd' fix hT' hNs' G' x M (t := 2) (by norm_num) S2 b2
      (some ⟨1, some (residualDistance s1.xyz s2.xyz)⟩)
    exact last s' t' 0 (not_lt.2 he) g2 g3 (by rw [c0, c1, if_neg hlt, g1])

end
end CEM
