import Verif.Lemmas.EqStep

/-!
# The iterations of form finding
-/

set_option linter.unusedSectionVars false
set_option linter.unusedSimpArgs false

namespace CEM
open Diagram Spec

variable {R : Type} [Field R] [LinearOrder R] [PySqrt R]

/-! ## Any diagram -/

/-- The state after `m` sweeps. -/
def sweepsN (D : Diagram R) (T : Dict Int (Dict Int Int)) (kmax : Option Int) (N : Int) :
    Nat → Except PyErr (EqState R)
  | 0 => .ok (initState D)
  | m + 1 =>
    match sweepsN D T kmax N m with
    | .error e => .error e
    | .ok s => sweep D T kmax (m ≠ 0) N s

theorem sweepsN_succ {D : Diagram R} {T : Dict Int (Dict Int Int)} {kmax : Option Int} {N : Int}
    {m : Nat} {s : EqState R} (h : sweepsN D T kmax N m = .ok s) :
    sweepsN D T kmax N (m + 1) = sweep D T kmax (m ≠ 0) N s := by
  rw [sweepsN, h]

/-- What the loop over `t` returns. -/
structure LoopSpec (D : Diagram R) (T : Dict Int (Dict Int Int)) (kmax : Option Int) (eta : R)
    (N : Int) (t tmax m : Nat) (s : EqState R) (info : Option (LoopInfo R)) : Prop where
  le : m ≤ tmax
  ge : t ≤ m
  state : sweepsN D T kmax N m = .ok s
  none_iff : t < m → info ≠ none
  first : t < m → m = 1 → info = some ⟨0, none⟩
  later : t < m → 2 ≤ m → ∃ p, sweepsN D T kmax N (m - 1) = .ok p ∧
    info = some ⟨m - 1, some (residualDistance p.xyz s.xyz)⟩ ∧
    (residualDistance p.xyz s.xyz < eta ∨ m = tmax)
  stop : t = m → m = tmax
  one : m = 1 → t < m → tmax = 1
  /-- no earlier iteration met the stopping criterion -/
  before : ∀ j p q, t < j → 2 ≤ j → j < m → sweepsN D T kmax N (j - 1) = .ok p →
    sweepsN D T kmax N j = .ok q → ¬ residualDistance p.xyz q.xyz < eta

theorem eqLoop_ok {D : Diagram R} {T : Dict Int (Dict Int Int)} {kmax : Option Int} {eta : R}
    {N : Int} (fuel t : Nat) (s : EqState R) (info : Option (LoopInfo R))
    (hs : sweepsN D T kmax N t = .ok s) {r : EqState R × Option (LoopInfo R)}
    (h : eqLoop D T kmax eta N fuel t s info = .ok r) :
    ∃ m, LoopSpec D T kmax eta N t (t + fuel) m r.1 r.2 ∧ (m = t → r.2 = info) := by
  induction fuel generalizing t s info with
  | zero =>
    simp only [eqLoop, Except.ok.injEq] at h
    subst h
    refine ⟨t, ⟨by simp, le_rfl, hs, by simp, by simp, by simp, by simp, by simp, ?_⟩, fun _ => rfl⟩
    intro j p q h1 _ h2; omega
  | succ fuel ih =>
    rw [eqLoop] at h
    cases hsw : sweep D T kmax (t ≠ 0) N s with
    | error e => rw [hsw] at h; simp at h
    | ok s' =>
      rw [hsw] at h
      have hs' : sweepsN D T kmax N (t + 1) = .ok s' := by rw [sweepsN_succ hs]; exact hsw
      have hlift : ∀ info', (∀ (_ : t + 1 = 1), info' = some ⟨0, none⟩) →
          (2 ≤ t + 1 → info' = some ⟨t, some (residualDistance s.xyz s'.xyz)⟩ ∧
            ¬ residualDistance s.xyz s'.xyz < eta) →
          eqLoop D T kmax eta N fuel (t + 1) s' info' = .ok r →
          ∃ m, LoopSpec D T kmax eta N t (t + (fuel + 1)) m r.1 r.2 ∧ (m = t → r.2 = info) := by
        intro info' h1 h2 hr
        obtain ⟨m, L, hm⟩ := ih (t + 1) s' info' hs' hr
        have hge := L.ge
        refine ⟨m, ⟨by have := L.le; omega, by omega, L.state, ?_, ?_, ?_, by omega, ?_, ?_⟩,
          by omega⟩
        · intro _
          rcases Nat.lt_or_ge (t + 1) m with hlt | hle
          · exact L.none_iff hlt
          · have : m = t + 1 := by omega
            rw [hm this]
            rcases Nat.eq_zero_or_pos t with h0 | h0
            · rw [h1 (by omega)]; simp
            · rw [(h2 (by omega)).1]; simp
        · intro _ hm1
          rw [hm (by omega), h1 (by omega)]
        · intro _ hm2
          rcases Nat.lt_or_ge (t + 1) m with hlt | hle
          · obtain ⟨p, hp, hi, hd⟩ := L.later hlt hm2
            exact ⟨p, hp, hi, hd.imp id (by omega)⟩
          · have hmt : m = t + 1 := by omega
            subst hmt
            have hst := L.state
            rw [hs'] at hst
            obtain rfl := Except.ok.inj hst
            refine ⟨s, by simpa using hs, ?_, Or.inr ?_⟩
            · rw [hm rfl, (h2 hm2).1]; rfl
            · have := L.stop rfl; omega
        · intro hm1 _
          have := L.stop (by omega); omega
        · intro j p q hj1 hj2 hj3 hp hq
          rcases Nat.lt_or_ge (t + 1) j with hlt | hle
          · exact L.before j p q hlt hj2 hj3 hp hq
          · have hjt : j = t + 1 := by omega
            subst hjt
            rw [hs'] at hq
            obtain rfl := Except.ok.inj hq
            have hp' : sweepsN D T kmax N t = .ok p := by simpa using hp
            rw [hs] at hp'
            obtain rfl := Except.ok.inj hp'
            exact (h2 hj2).2
      simp only at h
      by_cases ht : t = 0
      · rw [if_pos ht] at h
        exact hlift _ (fun _ => rfl) (by omega) h
      · rw [if_neg ht] at h
        by_cases hd : residualDistance s.xyz s'.xyz < eta
        · rw [if_pos hd] at h
          obtain rfl := Except.ok.inj h
          refine ⟨t + 1, ⟨by omega, by omega, hs', by simp, by intro _ h; omega, ?_, by omega, by omega,
            by intro j p q h1 _ h2; omega⟩, by omega⟩
          intro _ _
          exact ⟨s, by simpa using hs, by simp, Or.inl hd⟩
        · rw [if_neg hd] at h
          exact hlift _ (by omega) (fun _ => ⟨rfl, hd⟩) h

theorem eqLoop_error {D : Diagram R} {T : Dict Int (Dict Int Int)} {kmax : Option Int} {eta : R}
    {N : Int} (fuel t : Nat) (s : EqState R) (info : Option (LoopInfo R))
    (hs : sweepsN D T kmax N t = .ok s) {e : PyErr}
    (h : eqLoop D T kmax eta N fuel t s info = .error e) :
    ∃ m, sweepsN D T kmax N m = .error e := by
  induction fuel generalizing t s info with
  | zero => simp [eqLoop] at h
  | succ fuel ih =>
    rw [eqLoop] at h
    cases hsw : sweep D T kmax (t ≠ 0) N s with
    | error e' =>
      rw [hsw] at h
      obtain rfl := Except.error.inj h
      exact ⟨t + 1, by rw [sweepsN_succ hs]; exact hsw⟩
    | ok s' =>
      rw [hsw] at h
      have hs' : sweepsN D T kmax N (t + 1) = .ok s' := by rw [sweepsN_succ hs]; exact hsw
      simp only at h
      split_ifs at h
      · exact ih _ _ _ hs' h
      · exact ih _ _ _ hs' h

/-! ## Valid diagrams -/

theorem goodSeqs_of_valid {D : Diagram R} (w : WF D) (V : ValidTrails D) (hne : D.trails ≠ []) :
    ∃ T N, D.trailsSequences = .ok T ∧ D.numberOfSequences = .ok N ∧ GoodSeqs D T ∧
      ∀ n ∈ D.nodes.keys, ∀ k, seqOf D n = some k → k < N := by
  obtain ⟨T, hT, _, hspec⟩ := Props.C19_inverse w V
  obtain ⟨L, _, hN, hL, hperm, _, _⟩ :=
    Props.C18_sequences w (nodes_ne_nil V hne) (allSequenced_of_valid V)
  refine ⟨T, _, hT, hN, ?_, ?_⟩
  · intro key tr h
    obtain ⟨m, hm, _, hs⟩ := hspec key tr h
    exact ⟨m, hm, hs⟩
  · intro n hn k hk
    obtain ⟨l, hl, hnl⟩ := List.mem_flatten.1 (hperm.mem_iff.2 hn)
    obtain ⟨i, hi, rfl⟩ := List.getElem_of_mem hl
    rw [hL i hi] at hnl
    rw [hk] at hnl
    have := Option.some.inj hnl
    omega

/-- Properties of a schedule for the valid diagram `D`. -/
structure GoodSched (D : Diagram R) (kmax : Option Int) (L : List Int) : Prop where
  sched : Sched (nxtK D kmax) (rankOf D) L
  mem : ∀ n, n ∈ L ↔ n ∈ D.nodes.keys

/-- The iterates for a schedule. -/
def iter (D : Diagram R) (kmax : Option Int) (L : List Int) : Nat → EqState R
  | 0 => initState D
  | m + 1 => L.foldl (proc D (nxtK D kmax) (m ≠ 0)) (iter D kmax L m)

theorem keys_map_val {K V W : Type} [DecidableEq K] (d : Dict K V) (f : V → W) :
    Dict.keys (d.map fun p => (p.1, f p.2) : Dict K W) = d.keys := by
  unfold Dict.keys; rw [List.map_map]; rfl

theorem get?_map_val {K V W : Type} [DecidableEq K] (d : Dict K V) (f : V → W) (k : K) :
    Dict.get? (d.map fun p => (p.1, f p.2) : Dict K W) k = (d.get? k).map f := by
  induction d with
  | nil => rfl
  | cons p d ih =>
    simp only [List.map_cons, Dict.get?]
    split_ifs
    · rfl
    · exact ih

theorem goodState_init (D : Diagram R) : GoodState D (initState D) :=
  ⟨keys_map_val _ _, keys_map_val _ _⟩

theorem goodState_iter {D : Diagram R} (w : WF D) (V : ValidTrails D) (kmax : Option Int)
    (L : List Int) (m : Nat) : GoodState D (iter D kmax L m) := by
  induction m with
  | zero => exact goodState_init D
  | succ m ih => exact ih.fold w V L

theorem sweepsN_eq {D : Diagram R} (w : WF D) (V : ValidTrails D) {T : Dict Int (Dict Int Int)}
    (hT : GoodSeqs D T) (kmax : Option Int) (N : Int) (m : Nat) :
    sweepsN D T kmax N m = .ok (iter D kmax (sched D T N) m) := by
  induction m with
  | zero => rfl
  | succ m ih =>
    rw [sweepsN_succ ih, sweep_eq w V hT kmax _ N (goodState_iter w V kmax _ m)]
    rfl

theorem goodSched {D : Diagram R} (w : WF D) (V : ValidTrails D) {T : Dict Int (Dict Int Int)}
    (hT : GoodSeqs D T) (kmax : Option Int) {N : Int}
    (hN : ∀ n ∈ D.nodes.keys, ∀ k, seqOf D n = some k → k < N) :
    GoodSched D kmax (sched D T N) :=
  ⟨sched_sched w V hT kmax N, fun _ => mem_sched V hT hN⟩

/-- The result of `equilibrium_state` on a valid diagram in terms of the iterates. -/
theorem equilibriumState_sched {D : Diagram R} (I : ValidInput D) {kmax : Option Int}
    (hk : ∀ k, kmax = some k → 0 ≤ k) {T : Dict Int (Dict Int Int)} {N : Int}
    (hT : D.trailsSequences = .ok T) (hN : D.numberOfSequences = .ok N) (hg : GoodSeqs D T)
    (tmax : Nat) (eta : R) (verbose : Bool) :
      (tmax = 0 → equilibriumState D kmax tmax eta verbose = .error .unboundLocal) ∧
      (tmax = 1 → equilibriumState D kmax tmax eta verbose =
        if verbose then .error .unboundLocal else .ok (iter D kmax (sched D T N) 1)) ∧
      (2 ≤ tmax → ∃ m, 2 ≤ m ∧ m ≤ tmax ∧
        (∀ j, 2 ≤ j → j < m →
          ¬ residualDistance (iter D kmax (sched D T N) (j - 1)).xyz (iter D kmax (sched D T N) j).xyz < eta) ∧
        (residualDistance (iter D kmax (sched D T N) (m - 1)).xyz (iter D kmax (sched D T N) m).xyz < eta ∨ m = tmax) ∧
        equilibriumState D kmax tmax eta verbose =
          if residualDistance (iter D kmax (sched D T N) (m - 1)).xyz (iter D kmax (sched D T N) m).xyz > eta
          then .error .valueError else .ok (iter D kmax (sched D T N) m)) := by
  have hnum : D.numberOfTrails ≠ 0 := by
    unfold numberOfTrails
    have := I.nonempty
    simpa [Dict.vals] using this
  have hk' : ¬ (kmax.any (· < 0) = true) := by
    cases kmax with
    | none => simp
    | some k => simpa using hk k rfl
  have hunf : equilibriumState D kmax tmax eta verbose =
      match eqLoop D T kmax eta N tmax 0 (initState D) none with
      | .error err => .error err
      | .ok r => eqFinish eta verbose r := by
    unfold equilibriumState
    rw [if_neg hnum, hT, hN]
    simp only
    rw [if_neg hk']
    try rfl
  cases hloop : eqLoop D T kmax eta N tmax 0 (initState D) none with
  | error e =>
    obtain ⟨m, hm⟩ := eqLoop_error tmax 0 _ _ rfl hloop
    rw [sweepsN_eq I.wf I.trails hg] at hm
    simp at hm
  | ok r =>
    rw [hloop] at hunf
    simp only at hunf
    obtain ⟨s, info⟩ := r
    obtain ⟨m, S, hm⟩ := eqLoop_ok tmax 0 _ _ rfl hloop
    have hst := S.state
    rw [sweepsN_eq I.wf I.trails hg] at hst
    have hst := Except.ok.inj hst
    simp only at hst
    subst hst
    have hle := S.le
    refine ⟨?_, ?_, ?_⟩
    · intro h0
      have : m = 0 := by omega
      have := hm this
      simp only at this
      subst this
      rw [hunf]; rfl
    · intro h1
      have hm1 : m = 1 := by
        rcases Nat.eq_zero_or_pos m with h | h
        · have := S.stop h.symm; omega
        · omega
      have := S.first (by omega) hm1
      simp only at this
      subst this hm1
      rw [hunf]
      cases verbose <;> simp [eqFinish]
    · intro h2
      have hm2 : 2 ≤ m := by
        rcases Nat.lt_or_ge 0 m with h | h
        · by_contra hc
          have := S.one (by omega) h
          omega
        · have := S.stop (by omega); omega
      obtain ⟨p, hp, hinfo, hd⟩ := S.later (by omega) hm2
      rw [sweepsN_eq I.wf I.trails hg] at hp
      have hp := Except.ok.inj hp
      subst hp
      refine ⟨m, hm2, by omega, ?_, hd.imp id (by omega), ?_⟩
      · intro j hj1 hj2
        exact S.before j _ _ (by omega) hj1 hj2 (sweepsN_eq I.wf I.trails hg _ _ _)
          (sweepsN_eq I.wf I.trails hg _ _ _)
      · rw [hunf]
        simp only at hinfo
        rw [hinfo]
        have : m - 1 > 0 := by omega
        simp only [eqFinish, if_pos this]

/-- The same for some schedule. -/
theorem equilibriumState_cases {D : Diagram R} (I : ValidInput D) {kmax : Option Int}
    (hk : ∀ k, kmax = some k → 0 ≤ k) (tmax : Nat) (eta : R) (verbose : Bool) :
    ∃ L, GoodSched D kmax L ∧
      (tmax = 0 → equilibriumState D kmax tmax eta verbose = .error .unboundLocal) ∧
      (tmax = 1 → equilibriumState D kmax tmax eta verbose =
        if verbose then .error .unboundLocal else .ok (iter D kmax L 1)) ∧
      (2 ≤ tmax → ∃ m, 2 ≤ m ∧ m ≤ tmax ∧
        (∀ j, 2 ≤ j → j < m →
          ¬ residualDistance (iter D kmax L (j - 1)).xyz (iter D kmax L j).xyz < eta) ∧
        (residualDistance (iter D kmax L (m - 1)).xyz (iter D kmax L m).xyz < eta ∨ m = tmax) ∧
        equilibriumState D kmax tmax eta verbose =
          if residualDistance (iter D kmax L (m - 1)).xyz (iter D kmax L m).xyz > eta
          then .error .valueError else .ok (iter D kmax L m)) := by
  obtain ⟨T, N, hT, hN, hg, hlt⟩ := goodSeqs_of_valid I.wf I.trails I.nonempty
  exact ⟨sched D T N, goodSched I.wf I.trails hg kmax hlt,
    equilibriumState_sched I hk hT hN hg tmax eta verbose⟩

/-- What is known about the last iterate. -/
structure FinalSpec (D : Diagram R) (kmax : Option Int) (ind : Bool) (p s : EqState R)
    (r : Int → Vec R) (Q : Int → Int → Vec R) : Prop where
  keys : GoodState D s
  /-- positions of nodes that are not later are final -/
  seen : ∀ n ∈ D.nodes.keys, ∀ m, rankOf D m ≤ rankOf D n → Q n m = s.pos m
  seen_any : ∀ n ∈ D.nodes.keys, ∀ m, Q n m = p.pos m ∨ Q n m = s.pos m
  out : ∀ n ∈ D.nodes.keys, r n = outVec D ind (Q n) (s.res n) n
  next : ∀ n ∈ D.nodes.keys, ∀ m, nxtK D kmax n = some m →
    s.pos m = s.pos n + effectiveLength (edgeData D n m) (s.pos n) (r n) • Vec.normalize (r n) ∧
    s.res m = r n ∧
    s.trailForces.get? (edgeKey D n m) =
      some (copysign (Vec.length (r n)) (effectiveLength (edgeData D n m) (s.pos n) (r n))) ∧
    s.trailDirs.get? (edgeKey D n m) = some (Vec.normalize (r n))
  start : ∀ m, (∀ a ∈ D.nodes.keys, nxtK D kmax a ≠ some m) →
    s.pos m = (initState D).pos m ∧ s.res m = (initState D).res m
  react : ∀ n, s.reactions.get? n =
    if n ∈ D.nodes.keys ∧ nxtK D kmax n = none then some (r n) else none
  force : ∀ e, (∀ a ∈ D.nodes.keys, ∀ m, nxtK D kmax a = some m → edgeKey D a m ≠ e) →
    s.trailForces.get? e = none
  reactNodup : s.reactions.keys.Nodup
  forceNodup : s.trailForces.keys.Nodup

theorem iter_start {D : Diagram R} {kmax : Option Int} {L : List Int} (G : GoodSched D kmax L)
    (m : Nat) : (∀ a, (∀ n ∈ D.nodes.keys, nxtK D kmax n ≠ some a) →
      (iter D kmax L m).pos a = (initState D).pos a ∧
      (iter D kmax L m).res a = (initState D).res a) ∧
    (∀ n, ¬ (n ∈ D.nodes.keys ∧ nxtK D kmax n = none) →
      (iter D kmax L m).reactions.get? n = none) ∧
    (∀ e, (∀ a ∈ D.nodes.keys, ∀ b, nxtK D kmax a = some b → edgeKey D a b ≠ e) →
      (iter D kmax L m).trailForces.get? e = none) := by
  induction m with
  | zero => exact ⟨fun _ _ => ⟨rfl, rfl⟩, fun _ _ => rfl, fun _ _ => rfl⟩
  | succ m ih =>
    have S := sweepSpec (D := D) (ind := decide (m ≠ 0)) G.sched (iter D kmax L m)
    refine ⟨?_, ?_, ?_⟩
    · intro a ha
      have h1 := S.start a fun n hn => ha n ((G.mem n).1 hn)
      have h2 := ih.1 a ha
      exact ⟨h1.1.trans h2.1, h1.2.trans h2.2⟩
    · intro n hn
      have h1 := S.react n
      rw [if_neg (by rw [G.mem]; exact hn), ih.2.1 n hn] at h1
      exact h1
    · intro e he
      exact (S.force e fun a ha => he a ((G.mem a).1 ha)).1.trans (ih.2.2 e he)

theorem proc_nodup {D : Diagram R} {nxt : Int → Option Int} {ind : Bool} {s : EqState R} (n : Int)
    (h1 : s.reactions.keys.Nodup) (h2 : s.trailForces.keys.Nodup) :
    (proc D nxt ind s n).reactions.keys.Nodup ∧ (proc D nxt ind s n).trailForces.keys.Nodup := by
  cases hn : nxt n with
  | none => rw [proc_none hn]; exact ⟨Dict.nodup_keys_set h1, h2⟩
  | some m => rw [proc_some hn]; exact ⟨h1, Dict.nodup_keys_set h2⟩

theorem fold_nodup {D : Diagram R} {nxt : Int → Option Int} {ind : Bool} (l : List Int)
    {s : EqState R} (h1 : s.reactions.keys.Nodup) (h2 : s.trailForces.keys.Nodup) :
    (l.foldl (proc D nxt ind) s).reactions.keys.Nodup ∧
    (l.foldl (proc D nxt ind) s).trailForces.keys.Nodup := by
  induction l generalizing s with
  | nil => exact ⟨h1, h2⟩
  | cons n l ih =>
    obtain ⟨h3, h4⟩ := proc_nodup (D := D) (nxt := nxt) (ind := ind) n h1 h2
    exact ih h3 h4

theorem iter_nodup {D : Diagram R} {kmax : Option Int} {L : List Int} (m : Nat) :
    (iter D kmax L m).reactions.keys.Nodup ∧ (iter D kmax L m).trailForces.keys.Nodup := by
  induction m with
  | zero => exact ⟨List.nodup_nil, List.nodup_nil⟩
  | succ m ih => exact fold_nodup L ih.1 ih.2

theorem finalSpec_sched {D : Diagram R} (w : WF D) (V : ValidTrails D) {kmax : Option Int}
    {L : List Int} (G : GoodSched D kmax L) (m : Nat) :
    FinalSpec D kmax (m ≠ 0) (iter D kmax L m) (iter D kmax L (m + 1))
      (rAt D (nxtK D kmax) (decide (m ≠ 0)) L (iter D kmax L m))
      (fun n => (stateAt D (nxtK D kmax) (decide (m ≠ 0)) L (iter D kmax L m) n).pos) := by
  have S := sweepSpec (D := D) (ind := decide (m ≠ 0)) G.sched (iter D kmax L m)
  have I := iter_start G (m + 1)
  refine ⟨goodState_iter w V kmax L _, ?_, ?_, ?_, ?_, ?_, ?_, ?_, (iter_nodup _).1,
    (iter_nodup _).2⟩
  · exact fun n hn => S.seen n ((G.mem n).2 hn)
  · exact fun n hn => S.seen_any n ((G.mem n).2 hn)
  · exact fun n hn => S.out n ((G.mem n).2 hn)
  · exact fun n hn => S.next n ((G.mem n).2 hn)
  · exact fun a ha => I.1 a ha
  · intro n
    by_cases h : n ∈ D.nodes.keys ∧ nxtK D kmax n = none
    · rw [if_pos h]
      have := S.react n
      rw [if_pos (by rw [G.mem]; exact h)] at this
      exact this
    · rw [if_neg h]; exact I.2.1 n h
  · exact fun e he => I.2.2 e he

theorem finalSpec {D : Diagram R} (w : WF D) (V : ValidTrails D) {kmax : Option Int} {L : List Int}
    (G : GoodSched D kmax L) (m : Nat) :
    ∃ r Q, FinalSpec D kmax (m ≠ 0) (iter D kmax L m) (iter D kmax L (m + 1)) r Q :=
  ⟨_, _, finalSpec_sched w V G m⟩

end CEM
