import Verif.Props.TrailEdges

/-!
# Properties C29 to C32: what a returned form is
-/

set_option linter.unusedSectionVars false
set_option linter.unusedSimpArgs false

namespace CEM
namespace Props
open Diagram Spec TrailEx EqEx ColEx

local instance retSqrt : PySqrt ℚ := ⟨id⟩

section
variable {R : Type} [Field R] [LinearOrder R] [PySqrt R]

/-! ## C29 -/

/-- C29. In every returned form the length of an edge is the distance of its ends, with
the sign of its force; for every well-formed diagram, valid or not, and every `kmax`. -/
theorem C29_signed_lengths {D : Diagram R} (w : WF D) {kmax : Option Int} {tmax : Nat} {eta : R}
    {verbose : Bool} {F : Diagram R} (h : staticEquilibrium D kmax tmax eta verbose = .ok F)
    {e : Int × Int} {d : EdgeData R} (hd : F.edges.get? e = some d) :
    (0 ≤ d.force → d.length = |Vec.dist (posOf F e.1) (posOf F e.2)|) ∧
    (d.force < 0 → d.length = -|Vec.dist (posOf F e.1) (posOf F e.2)|) := by
  unfold staticEquilibrium at h
  split at h
  · simp at h
  · rename_i s hs
    simp only [Except.ok.injEq] at h
    subst h
    have hk1 : (formUpdate (formFromTopology D) s).nodes.keys = D.nodes.keys := formNodes_keys _ _
    have hk2 : (formUpdate (formFromTopology D) s).edges.keys = D.edges.keys := formEdges_keys _ _
    have hm := Dict.mem_keys_of_get? hd
    rw [hk2] at hm
    obtain ⟨n1, h1⟩ := (Dict.exists_get?_iff _ _).2 (by rw [hk1]; exact w.edge_left e hm)
    obtain ⟨n2, h2⟩ := (Dict.exists_get?_iff _ _).2 (by rw [hk1]; exact w.edge_right e hm)
    have hd' := hd
    unfold formUpdate at hd'
    dsimp only at hd'
    rw [get?_map_key _ (fun e d => signedLength (updateReactions (updateCoords
      (formFromTopology D).nodes s.xyz) s.reactions) e d)] at hd'
    obtain ⟨d0, _, he⟩ := Option.map_eq_some_iff.1 hd'
    have h1' : (updateReactions (updateCoords (formFromTopology D).nodes s.xyz) s.reactions).get?
        e.1 = some n1 := h1
    have h2' : (updateReactions (updateCoords (formFromTopology D).nodes s.xyz) s.reactions).get?
        e.2 = some n2 := h2
    unfold signedLength at he
    rw [h1', h2'] at he
    simp only at he
    subst he
    unfold posOf
    rw [h1, h2]
    simp only [Option.map_some, Option.getD_some, copysign]
    exact ⟨fun h => by rw [if_neg (not_lt.2 h)], fun h => by rw [if_pos h]⟩

end

/-- Over the reals the distance is not negative. -/
theorem C29_real {D : Diagram ℝ} (w : WF D) {kmax : Option Int} {tmax : Nat} {eta : ℝ}
    {verbose : Bool} {F : Diagram ℝ} (h : staticEquilibrium D kmax tmax eta verbose = .ok F)
    {e : Int × Int} {d : EdgeData ℝ} (hd : F.edges.get? e = some d) :
    |d.length| = Vec.dist (posOf F e.1) (posOf F e.2) ∧
    (0 ≤ d.force → 0 ≤ d.length) ∧ (d.force < 0 → d.length ≤ 0) := by
  obtain ⟨h1, h2⟩ := C29_signed_lengths w h hd
  have h0 := dist_nonneg (posOf F e.1) (posOf F e.2)
  rw [abs_of_nonneg h0] at h1 h2
  rcases lt_or_ge d.force 0 with hf | hf
  · rw [h2 hf]
    exact ⟨by rw [abs_neg, abs_of_nonneg h0], fun h => absurd hf (not_lt.2 h),
      fun _ => by linarith⟩
  · rw [h1 hf]
    exact ⟨abs_of_nonneg h0, fun _ => h0, fun h => absurd h (not_lt.2 hf)⟩

example : ∃ eta F d, WF indirect ∧ staticEquilibrium indirect none 7 eta false = .ok F ∧
    F.edges.get? (1, 4) = some d ∧ d.force = 1 ∧ 0 ≤ d.length := by
  obtain ⟨eta, F, h⟩ := exists_returned valid_indirect 7 (by norm_num)
  have h25 := (C25_keeps_data valid_indirect h).2.2.2 (1, 4)
    ⟨.deviation, ((0 : ℚ) : ℝ), ((1 : ℚ) : ℝ), none⟩ (by
      unfold indirect Diagram.real
      rw [map_edges_get?]
      have : indirectQ.edges.get? (1, 4) = some ⟨.deviation, 0, 1, none⟩ := by decide +kernel
      rw [this]; rfl)
  obtain ⟨d, hd, _, _, hf⟩ := h25
  have hf1 : d.force = 1 := by rw [hf rfl]; simp
  exact ⟨eta, F, d, valid_indirect.wf, h, hd, hf1,
    (C29_real valid_indirect.wf h hd).2.1 (by rw [hf1]; norm_num)⟩

/-! ## C30 -/

section
variable {R : Type} [Field R] [LinearOrder R] [PySqrt R]

/-- Sum of the distances by which the nodes move from one state to the next. -/
def displacement (p s : EqState R) : R :=
  s.xyz.foldl (fun acc q => acc + Vec.dist ((p.xyz.get? q.1).getD 0) q.2) 0

theorem equilibriumState_ok {D : Diagram R} {kmax : Option Int} {tmax : Nat} {eta : R}
    {verbose : Bool} {s : EqState R} (hs : equilibriumState D kmax tmax eta verbose = .ok s) :
    ∃ T N r, D.trailsSequences = .ok T ∧ D.numberOfSequences = .ok N ∧
      eqLoop D T kmax eta N tmax 0 (initState D) none = .ok r ∧ eqFinish eta verbose r = .ok s := by
  unfold equilibriumState at hs
  by_cases h1 : D.numberOfTrails = 0
  · rw [if_pos h1] at hs; simp at hs
  · rw [if_neg h1] at hs
    cases hT : D.trailsSequences with
    | error e => rw [hT] at hs; simp at hs
    | ok T =>
      cases hN : D.numberOfSequences with
      | error e => rw [hT, hN] at hs; simp at hs
      | ok N =>
        rw [hT, hN] at hs
        simp only at hs
        by_cases h2 : kmax.any (· < 0) = true
        · rw [if_pos h2] at hs; simp at hs
        · rw [if_neg h2] at hs
          cases hr : eqLoop D T kmax eta N tmax 0 (initState D) none with
          | error e => rw [hr] at hs; simp at hs
          | ok r => rw [hr] at hs; exact ⟨T, N, r, rfl, rfl, hr, hs⟩

theorem staticEquilibrium_ok {D : Diagram R} {kmax : Option Int} {tmax : Nat} {eta : R}
    {verbose : Bool} {F : Diagram R} (h : staticEquilibrium D kmax tmax eta verbose = .ok F) :
    ∃ s, equilibriumState D kmax tmax eta verbose = .ok s ∧
      F = formUpdate (formFromTopology D) s := by
  unfold staticEquilibrium at h
  cases hs : equilibriumState D kmax tmax eta verbose with
  | error e => rw [hs] at h; simp at h
  | ok s => rw [hs] at h; exact ⟨s, rfl, (Except.ok.inj h).symm⟩

/-- C30. If form finding with `tmax ≥ 2` returns, it performed at most `tmax` iterations,
stopped at the first one (after the first) which moved the nodes by less than `eta` or at
the last, and that one moved them by at most `eta`; for every diagram. -/
theorem C30_converged {D : Diagram R} {kmax : Option Int} {tmax : Nat} (ht : 2 ≤ tmax) {eta : R}
    {verbose : Bool} {F : Diagram R} (h : staticEquilibrium D kmax tmax eta verbose = .ok F) :
    ∃ T N m p s, D.trailsSequences = .ok T ∧ D.numberOfSequences = .ok N ∧
      2 ≤ m ∧ m ≤ tmax ∧ sweepsN D T kmax N (m - 1) = .ok p ∧ sweepsN D T kmax N m = .ok s ∧
      F = formUpdate (formFromTopology D) s ∧ displacement p s ≤ eta ∧
      (displacement p s < eta ∨ m = tmax) ∧
      (∀ j q q', 2 ≤ j → j < m → sweepsN D T kmax N (j - 1) = .ok q →
        sweepsN D T kmax N j = .ok q' → eta ≤ displacement q q') := by
  obtain ⟨s, hs, rfl⟩ := staticEquilibrium_ok h
  obtain ⟨T, N, r, hT, hN, hr, hs⟩ := equilibriumState_ok hs
  obtain ⟨m, S, hm⟩ := eqLoop_ok tmax 0 _ _ rfl hr
  rw [zero_add] at S
  have hm2 : 2 ≤ m := by
    rcases Nat.lt_or_ge 0 m with h | h
    · by_contra hc
      have := S.one (by omega) h
      omega
    · have := S.stop (by omega); omega
  obtain ⟨p, hp, hinfo, hd⟩ := S.later (by omega) hm2
  obtain ⟨s0, info⟩ := r
  simp only at hinfo hd
  subst hinfo
  simp only [eqFinish] at hs
  rw [if_pos (by omega)] at hs
  split_ifs at hs with hc
  simp only [Except.ok.injEq] at hs
  subst hs
  exact ⟨T, N, m, p, s0, hT, hN, hm2, S.le, hp, S.state, rfl, not_lt.1 hc, hd,
    fun j q q' h1 h2 h3 h4 => not_lt.1 (S.before j q q' (by omega) h1 h2 h3 h4)⟩

/-- C30. If no iteration up to `tmax` moves the nodes by at most `eta`, form finding
raises `ValueError`; for every diagram on which the iterations themselves do not raise. -/
theorem C30_not_converged {D : Diagram R} (hne : D.trails ≠ []) {kmax : Option Int}
    (hk : ∀ k, kmax = some k → 0 ≤ k) {T : Dict Int (Dict Int Int)} {N : Int}
    (hT : D.trailsSequences = .ok T) (hN : D.numberOfSequences = .ok N)
    {tmax : Nat} (ht : 2 ≤ tmax) {eta : R} {verbose : Bool} {st : Nat → EqState R}
    (hst : ∀ m, sweepsN D T kmax N m = .ok (st m))
    (hd : ∀ m, 2 ≤ m → m ≤ tmax → eta < displacement (st (m - 1)) (st m)) :
    staticEquilibrium D kmax tmax eta verbose = .error .valueError := by
  have hnum : D.numberOfTrails ≠ 0 := by
    unfold numberOfTrails
    simpa [Dict.vals] using hne
  have hk' : ¬ (kmax.any (· < 0) = true) := by
    cases kmax with
    | none => simp
    | some k => simpa using hk k rfl
  unfold staticEquilibrium equilibriumState
  rw [if_neg hnum, hT, hN]
  simp only
  rw [if_neg hk']
  cases hr : eqLoop D T kmax eta N tmax 0 (initState D) none with
  | error e =>
    obtain ⟨m, hm⟩ := eqLoop_error tmax 0 _ _ rfl hr
    rw [hst m] at hm; simp at hm
  | ok r =>
    obtain ⟨m, S, hm⟩ := eqLoop_ok tmax 0 _ _ rfl hr
    rw [zero_add] at S
    have hm2 : 2 ≤ m := by
      rcases Nat.lt_or_ge 0 m with h | h
      · by_contra hc
        have := S.one (by omega) h
        omega
      · have := S.stop (by omega); omega
    obtain ⟨p, hp, hinfo, _⟩ := S.later (by omega) hm2
    have hs := S.state
    rw [hst] at hp hs
    have hp' := Except.ok.inj hp
    have hs' := Except.ok.inj hs
    obtain ⟨s0, info⟩ := r
    simp only at hinfo hs'
    subst hinfo hp' hs'
    have : residualDistance (st (m - 1)).xyz (st m).xyz > eta := hd m hm2 S.le
    simp only [eqFinish]
    rw [if_pos (by omega), if_pos this]

/-- C30. `tmax = 0` always raises, and so does `tmax = 1` with `verbose=True`; for every
diagram. -/
theorem C30_raises (D : Diagram R) (kmax : Option Int) (eta : R) :
    (∀ verbose, ∃ e, staticEquilibrium D kmax 0 eta verbose = .error e) ∧
    (∃ e, staticEquilibrium D kmax 1 eta true = .error e) := by
  constructor
  · intro verbose
    cases h : staticEquilibrium D kmax 0 eta verbose with
    | error e => exact ⟨e, rfl⟩
    | ok F =>
      exfalso
      obtain ⟨s, hs, rfl⟩ := staticEquilibrium_ok h
      obtain ⟨T, N, r, hT, hN, hr, hs⟩ := equilibriumState_ok hs
      simp only [eqLoop, Except.ok.injEq] at hr
      subst hr
      simp [eqFinish] at hs
  · cases h : staticEquilibrium D kmax 1 eta true with
    | error e => exact ⟨e, rfl⟩
    | ok F =>
      exfalso
      obtain ⟨s, hs, rfl⟩ := staticEquilibrium_ok h
      obtain ⟨T, N, r, hT, hN, hr, hs⟩ := equilibriumState_ok hs
      obtain ⟨m, S, hm⟩ := eqLoop_ok 1 0 _ _ rfl hr
      rw [zero_add] at S
      have hle := S.le
      have hm1 : m = 1 := by
        rcases Nat.eq_zero_or_pos m with h | h
        · have := S.stop h.symm; omega
        · omega
      have := S.first (by omega) hm1
      obtain ⟨s0, info⟩ := r
      simp only at this
      subst this
      simp [eqFinish] at hs

end

/-- C30. A negative threshold is never met: the documented `ValueError`. -/
theorem C30_negative_eta {D : Diagram ℝ} (I : ValidInput D) {tmax : Nat} (ht : 2 ≤ tmax) {eta : ℝ}
    (he : eta < 0) (verbose : Bool) :
    staticEquilibrium D none tmax eta verbose = .error .valueError := by
  obtain ⟨T, N, hT, hN, hg, hlt⟩ := goodSeqs_of_valid I.wf I.trails I.nonempty
  refine C30_not_converged I.nonempty (by simp) hT hN ht (st := iter D none (sched D T N))
    (fun m => sweepsN_eq I.wf I.trails hg none N m) ?_
  intro m _ _
  exact lt_of_lt_of_le he (residualDistance_nonneg _ _)

example : staticEquilibrium indirect none 5 (-1) false = .error .valueError :=
  C30_negative_eta valid_indirect (by norm_num) (by norm_num) _

example : ∃ eta F, staticEquilibrium indirect none 5 eta false = .ok F :=
  exists_returned valid_indirect 5 (by norm_num)

/-! ## C31 -/

section
variable {R : Type} [Field R] [LinearOrder R] [PySqrt R]

theorem posOf_init {D : Diagram R} (n : Int) : (initState D).pos n = posOf D n := by
  unfold EqState.pos initState posOf
  rw [get?_map_val D.nodes (fun d => d.pos)]

/-- The form with `kmax`: a node whose predecessor on the trail is in sequence `kmax`, or
which has none, is not moved. -/
theorem kmax_not_moved {D : Diagram R} (I : ValidInput D) {k : Int} (hk : 0 ≤ k) {tmax : Nat}
    {eta : R} {verbose : Bool} {F : Diagram R}
    (h : staticEquilibrium D (some k) tmax eta verbose = .ok F) {m : Int}
    (hm : ∀ a, trailNext D a = some m → seqOf D a = some k) : posOf F m = posOf D m := by
  obtain ⟨ind, p, s, r, Q, rfl, S, _⟩ := returned_final I (by rintro _ ⟨⟩; exact hk) h
  rw [posOf_form I.wf S, (S.start m ?_).1, posOf_init]
  intro a _ ha
  have hs := hm a (nxtK_trail ha)
  unfold nxtK at ha
  rw [if_pos (Or.inr ⟨rfl, hs.symm⟩)] at ha
  simp at ha

/-- C31, the part that holds: with `kmax` the nodes of the sequence after `kmax` and the
nodes that start a trail are not moved, and the forces of the trail edges between `kmax`
and the next sequence are not changed.  The full claim, that no node of a sequence later
than `kmax` is moved, is false when a trail goes on beyond `kmax + 1`
(`C31_moved_beyond_kmax`). -/
theorem C31_kmax_partial {D : Diagram R} (I : ValidInput D) {k : Int} (hk : 0 ≤ k) {tmax : Nat}
    {eta : R} {verbose : Bool} {F : Diagram R}
    (h : staticEquilibrium D (some k) tmax eta verbose = .ok F) :
    (∀ m, seqOf D m = some (k + 1) → posOf F m = posOf D m) ∧
    (∀ m tr, (m, tr) ∈ D.trails → posOf F m = posOf D m) ∧
    (∀ a b d0 d, D.edges.get? (a, b) = some d0 → F.edges.get? (a, b) = some d →
      (seqOf D a = some k ∧ seqOf D b = some (k + 1) ∨
        seqOf D b = some k ∧ seqOf D a = some (k + 1)) → d.force = d0.force) := by
  have w := I.wf
  have V := I.trails
  refine ⟨?_, ?_, ?_⟩
  · intro m hm
    refine kmax_not_moved I hk h fun a ha => ?_
    obtain ⟨key, tr, ht, hc⟩ := (trailNext_iff w V).1 ha
    obtain ⟨i, _, e1, e2⟩ := seqOf_next V ht hc
    rw [hm] at e2
    rw [e1]
    have := Option.some.inj e2
    congr 1; omega
  · intro m tr hm
    exact kmax_not_moved I hk h fun a ha => absurd ha (head_not_next w V hm a)
  · obtain ⟨ind, p, s, r, Q, rfl, S, _⟩ := returned_final I (by rintro _ ⟨⟩; exact hk) h
    intro a b d0 d h0 hd hab
    rw [formOf_edge S, h0] at hd
    rw [← Option.some.inj hd, (signedLength_type _ _ _).2.2]
    simp only
    rw [S.force (a, b)]
    · rfl
    · intro n _ m hnm he
      have hx := nxtK_trail hnm
      obtain ⟨key, tr, ht, hc⟩ := (trailNext_iff w V).1 hx
      obtain ⟨i, _, e1, e2⟩ := seqOf_next V ht hc
      have hnk : seqOf D n ≠ some k := by
        intro hn
        unfold nxtK at hnm
        rw [if_pos (Or.inr ⟨rfl, hn.symm⟩)] at hnm
        simp at hnm
      have hke := edgeKey_ends D n m
      rw [he] at hke
      rcases hke with hke | hke
      · obtain ⟨rfl, rfl⟩ := Prod.mk.inj hke
        rcases hab with ⟨h1, _⟩ | ⟨h1, h2⟩
        · exact hnk h1
        · rw [e2] at h1; rw [e1] at h2
          have := Option.some.inj h1; have := Option.some.inj h2; omega
      · obtain ⟨rfl, rfl⟩ := Prod.mk.inj hke
        rcases hab with ⟨h1, h2⟩ | ⟨h1, _⟩
        · rw [e2] at h1; rw [e1] at h2
          have := Option.some.inj h1; have := Option.some.inj h2; omega
        · exact hnk h1

/-- C31. If no trail goes on beyond `kmax + 1`, no node of a sequence later than `kmax` is
moved. -/
theorem C31_kmax_last {D : Diagram R} (I : ValidInput D) {k : Int} (hk : 0 ≤ k) {tmax : Nat}
    {eta : R} {verbose : Bool} {F : Diagram R}
    (h : staticEquilibrium D (some k) tmax eta verbose = .ok F)
    (hlast : ∀ m i, seqOf D m = some i → i ≤ k + 1) :
    ∀ m i, seqOf D m = some i → k < i → posOf F m = posOf D m := by
  intro m i hi hlt
  have := hlast m i hi
  exact (C31_kmax_partial I hk h).1 m (by rw [hi]; congr 1; omega)

end

namespace KEx

/-- A trail `0-1-2` with a load on node 1. -/
def chainOps : List (Op ℚ) := nodes 3 ++ [trail 0 1, trail 1 2, sup 2, load 1 ⟨0, 0, -1⟩]
def chainQ : Diagram ℚ := after key (chainOps ++ [.buildTrails])

def chainLit : Diagram ℚ where
  nodes := [(0, ⟨⟨0, 0, 0⟩, ⟨0, 0, 0⟩, ⟨0, 0, 0⟩, some 0, .origin⟩),
    (1, ⟨⟨1, 0, 0⟩, ⟨0, 0, -1⟩, ⟨0, 0, 0⟩, some 1, .free⟩),
    (2, ⟨⟨2, 0, 0⟩, ⟨0, 0, 0⟩, ⟨0, 0, 0⟩, some 2, .support⟩)]
  edges := [((0, 1), ⟨.trail, -1, 0, none⟩), ((1, 2), ⟨.trail, -1, 0, none⟩)]
  maxNode := 2
  gkeyNode := [("0", 0), ("1", 1), ("2", 2)]
  trails := [(0, [0, 1, 2])]
  auxTrails := []
  auxLength := -1
  auxVector := ⟨1, 1, 1⟩

theorem chainQ_eq : chainQ = chainLit := by decide +kernel

theorem valid_chainQ : ValidInput chainQ :=
  validInput_of_history key chainOps (RegularCheck.regular (WF.after _ _) (by decide +kernel))
    (by decide +kernel)

noncomputable def chain : Diagram ℝ := chainQ.real
theorem valid_chain : ValidInput chain := validInput_real valid_chainQ

attribute [irreducible] chainQ

theorem chain_returns (k : Int) (hk : 0 ≤ k) :
    ∃ F, staticEquilibrium chain (some k) 1 0 false = .ok F := by
  obtain ⟨L, _, _, h1, _⟩ := equilibriumState_cases valid_chain (kmax := some k)
    (by rintro _ ⟨⟩; exact hk) 1 0 false
  unfold staticEquilibrium
  rw [h1 rfl]
  exact ⟨_, rfl⟩

end KEx
open KEx

/-- With `kmax = 1` the support of the chain is not moved. -/
example : ∃ F, staticEquilibrium chain (some 1) 1 0 false = .ok F ∧
    posOf F 2 = posOf chain 2 ∧ seqOf chain 2 = some 2 ∧
    (∀ m i, seqOf chain m = some i → i ≤ 2) := by
  obtain ⟨F, h⟩ := chain_returns 1 (by norm_num)
  have h2 : seqOf chain 2 = some 2 := by
    unfold chain Diagram.real; rw [map_seqOf, chainQ_eq]; decide +kernel
  refine ⟨F, h, (C31_kmax_partial valid_chain (by norm_num) h).1 2 h2, h2, ?_⟩
  intro m i
  unfold chain Diagram.real
  rw [map_seqOf, chainQ_eq]
  simp only [seqOf, chainLit, Dict.get?]
  split_ifs <;> simp <;> omega

/-- C31 is violated: with `kmax = 0` the node of sequence 2 is moved. -/
theorem C31_moved_beyond_kmax : ∃ (D F : Diagram ℝ), ValidInput D ∧
    staticEquilibrium D (some 0) 1 0 false = .ok F ∧
    seqOf D 2 = some 2 ∧ posOf F 2 ≠ posOf D 2 := by
  obtain ⟨F, h⟩ := chain_returns 0 (by norm_num)
  refine ⟨chain, F, valid_chain, h, ?_, ?_⟩
  · unfold chain Diagram.real; rw [map_seqOf, chainQ_eq]; decide +kernel
  obtain ⟨ind, p, s, r, Q, rfl, S, _⟩ := returned_final valid_chain (by rintro _ ⟨⟩; norm_num) h
  have w := valid_chain.wf
  have V := valid_chain.trails
  have htr : ((0 : Int), ([0, 1, 2] : List Int)) ∈ chain.trails := by
    unfold chain Diagram.real; rw [map_trails, chainQ_eq]; simp [chainLit]
  have hk : (1 : Int) ∈ chain.nodes.keys := V.mem_keys htr (by simp)
  have hnode : ∀ n, chain.nodes.get? n = (chainLit.nodes.get? n).map (NodeData.map fun q : ℚ => (q : ℝ)) := by
    intro n; unfold chain Diagram.real; rw [map_nodes_get?, chainQ_eq]
  have hedge : ∀ e, chain.edges.get? e = (chainLit.edges.get? e).map (EdgeData.map fun q : ℚ => (q : ℝ)) := by
    intro n; unfold chain Diagram.real; rw [map_edges_get?, chainQ_eq]
  have hseq : ∀ n, seqOf chain n = seqOf chainLit n := by
    intro n; unfold chain Diagram.real; rw [map_seqOf, chainQ_eq]
  have h01 : trailNext chain 0 = some 1 := (trailNext_iff w V).2 ⟨0, _, htr, ⟨[], [2], rfl⟩⟩
  have h12 : trailNext chain 1 = some 2 := (trailNext_iff w V).2 ⟨0, _, htr, ⟨[0], [], rfl⟩⟩
  have hty1 : typeOf chain 1 = some .free := by unfold typeOf; rw [hnode]; rfl
  have hnx : nxtK chain (some 0) 1 = some 2 := by
    unfold nxtK
    rw [if_neg, h12]
    rw [hty1, hseq]
    simp [seqOf, chainLit, Dict.get?]
  have hstart := S.start 1 (by
    intro a _ ha
    have := trailNext_inj w V (nxtK_trail ha) h01
    subst this
    unfold nxtK at ha
    rw [if_pos (Or.inr ⟨rfl, by rw [hseq]; decide +kernel⟩)] at ha
    simp at ha)
  have hr : r 1 = ⟨0, 0, 1⟩ := by
    rw [out_no_deviation _ S hk, hstart.2]
    · unfold EqState.res initState loadOf
      rw [get?_map_val chain.nodes (fun d => d.reaction), hnode]
      ext <;> simp [chainLit, Dict.get?, NodeData.map, Vec.map]
    · intro e d hd
      rw [hedge] at hd
      simp only [chainLit, Dict.get?] at hd
      split_ifs at hd
      · obtain rfl := Option.some.inj hd; simp [EdgeData.map]
      · obtain rfl := Option.some.inj hd; simp [EdgeData.map]
      · simp at hd
  have h12e : edgeData chain 1 2 = ⟨.trail, -1, 0, none⟩ := by
    have hm : ((1 : Int), (2 : Int)) ∈ chain.edges.keys := by
      unfold chain Diagram.real; rw [map_edges_keys, chainQ_eq]; simp [chainLit, Dict.keys]
    unfold edgeData
    rw [(edgeKey_of_mem valid_chain.simple hm).1, hedge]
    simp [chainLit, Dict.get?, EdgeData.map]
  have hpos := (S.next 1 hk 2 hnx).1
  rw [hr, normalize_eq_unit, unit_up, h12e] at hpos
  rw [posOf_form w S, hpos, hstart.1, posOf_init]
  unfold posOf
  rw [hnode, hnode]
  intro hc
  have := congrArg Vec.x hc
  simp [chainLit, Dict.get?, NodeData.map, Vec.map] at this

/-! ## C32 -/

section
variable {R : Type} [Field R] [LinearOrder R] [PySqrt R]

/-- C32. Without indirect deviation edges the form depends only on the data of the
problem: not on the order of nodes, edges and trails, not on the positions of the other
nodes, not on the initial forces and lengths that are computed, and not on `tmax`, `eta`
and `verbose`. -/
theorem C32_determined {D E : Diagram R} (I : ValidInput D) (J : ValidInput E)
    (hsame : SameProblem D E) (hd : DirectOnly D) {t1 t2 : Nat} {eta1 eta2 : R}
    {v1 v2 : Bool} {F G : Diagram R} (hF : staticEquilibrium D none t1 eta1 v1 = .ok F)
    (hG : staticEquilibrium E none t2 eta2 v2 = .ok G) :
    (∀ n, n ∈ F.nodes.keys ↔ n ∈ G.nodes.keys) ∧
    (∀ n ∈ F.nodes.keys, posOf F n = posOf G n ∧ reactionAt F n = reactionAt G n) ∧
    (∀ e dF, F.edges.get? e = some dF → ∃ dG, G.edges.get? e = some dG ∧
      dF.force = dG.force ∧ dF.length = dG.length ∧ dF.type = dG.type) := by
  have w := I.wf
  have w' := J.wf
  obtain ⟨ind, p, s, r, Q, rfl, S, _⟩ := returned_final I (by simp) hF
  obtain ⟨ind', p', s', r', Q', rfl, S', _⟩ := returned_final J (by simp) hG
  have hd' : DirectOnly E := by
    intro a b d h1 h2
    obtain ⟨d0, h0⟩ := (Dict.exists_get?_iff D.edges (a, b)).2
      ((hsame.edges _).2 (Dict.mem_keys_of_get? h1))
    rw [← hsame.seq, ← hsame.seq]
    exact hd a b d0 h0 (by rw [hsame.types _ _ _ h0 h1]; exact h2)
  have hu := solves_unique hsame I.simple w I.trails w' J.trails (S.solves hd) (S'.solves hd') (by
    intro m hm hx
    obtain ⟨h1, h2⟩ := S.start m hx
    obtain ⟨h3, h4⟩ := S'.start m (by
      intro a ha; rw [← hsame.nxtK w I.trails w' J.trails]; exact hx a ((hsame.keys a).2 ha))
    obtain ⟨d, hdn⟩ := (Dict.exists_get?_iff _ _).2 hm
    obtain ⟨d', hdn'⟩ := (Dict.exists_get?_iff _ _).2 ((hsame.keys m).1 hm)
    obtain ⟨⟨key, tr⟩, htr, hmem⟩ := List.mem_flatMap.1 (I.trails.partition.mem_iff.2 hm)
    refine ⟨?_, ?_⟩
    · rw [h1, h3, posOf_init, posOf_init]
      have hhead : m = key := by
        obtain ⟨rest, rfl⟩ := I.trails.head key tr htr
        obtain ⟨l1, l2, hl⟩ := List.append_of_mem hmem
        rcases List.eq_nil_or_concat l1 with rfl | ⟨l1', a, rfl⟩
        · simp only [List.nil_append] at hl
          exact (List.cons.inj hl).1.symm
        · exfalso
          have hc : Consecutive (key :: rest) a m := ⟨l1', l2, by simpa using hl⟩
          have ha : a ∈ D.nodes.keys := I.trails.mem_keys htr hc.mem_left
          exact hx a ha (by rw [nxtK_none w I.trails]; exact (trailNext_iff w I.trails).2 ⟨key, _, htr, hc⟩)
      subst hhead
      exact hsame.origins m tr htr
    · rw [h2, h4]
      unfold EqState.res initState
      rw [get?_map_val D.nodes (fun d => d.reaction), get?_map_val E.nodes (fun d => d.reaction),
        hdn, hdn']
      simp [I.reaction m d hdn, J.reaction m d' hdn'])
  have hkF : (formOf D s).nodes.keys = D.nodes.keys := formNodes_keys _ _
  have hkG : (formOf E s').nodes.keys = E.nodes.keys := formNodes_keys _ _
  have hpos : ∀ n ∈ D.nodes.keys, posOf (formOf D s) n = posOf (formOf E s') n := by
    intro n hn
    rw [posOf_form w S, posOf_form w' S']
    exact (hu n hn).1
  refine ⟨?_, ?_, ?_⟩
  · intro n; rw [hkF, hkG]; exact hsame.keys n
  · intro n hn
    rw [hkF] at hn
    refine ⟨hpos n hn, ?_⟩
    rw [reactionAt_form w S I.reaction hn, reactionAt_form w' S' J.reaction ((hsame.keys n).1 hn),
      hsame.nxtK w I.trails w' J.trails, (hu n hn).2.2]
  · intro e dF hdF
    obtain ⟨a, b⟩ := e
    rw [formOf_edge S] at hdF
    obtain ⟨d0, h0, hdF⟩ := Option.map_eq_some_iff.1 hdF
    have hm := Dict.mem_keys_of_get? h0
    obtain ⟨d1, h1⟩ := (Dict.exists_get?_iff E.edges (a, b)).2 ((hsame.edges _).1 hm)
    have hG1 := formOf_edge S' (a, b)
    rw [h1] at hG1
    have hforce : (s.trailForces.get? (a, b)).getD d0.force =
        (s'.trailForces.get? (a, b)).getD d1.force := by
      cases ht : d0.type with
      | untyped => exact absurd ht (I.typed _ _ h0)
      | deviation =>
        have h2 := formForce_dev w I.trails I.simple S (n := a) (m := b) (by
          unfold edgeData; rw [(edgeKey_of_mem I.simple hm).1, h0]; exact ht)
        have h3 := formForce_dev w' J.trails J.simple S' (n := a) (m := b) (by
          unfold edgeData
          rw [(edgeKey_of_mem J.simple ((hsame.edges _).1 hm)).1, h1]
          exact (hsame.types _ _ _ h0 h1) ▸ ht)
        unfold formForce edgeData at h2 h3
        rw [(edgeKey_of_mem I.simple hm).1, h0] at h2
        rw [(edgeKey_of_mem J.simple ((hsame.edges _).1 hm)).1, h1] at h3
        simp only [Option.getD_some] at h2 h3
        rw [h2, h3]
        exact hsame.deviationData _ _ _ h0 h1 ht
      | trail =>
        have hadj : TrailAdj D a b := Or.inl ⟨d0, h0, ht⟩
        obtain ⟨key, tr, htr, hc⟩ := I.trails.complete a b hadj
        have go : ∀ x y, Consecutive tr x y → edgeKey D x y = (a, b) → y ∈ D.neighbors x →
            (s.trailForces.get? (a, b)).getD d0.force =
              (s'.trailForces.get? (a, b)).getD d1.force := by
          intro x y hxy hke hnb
          have hx := I.trails.mem_keys htr hxy.mem_left
          have hnx : nxtK D none x = some y := by
            rw [nxtK_none w I.trails]; exact (trailNext_iff w I.trails).2 ⟨key, tr, htr, hxy⟩
          have f1 := (S.next x hx y hnx).2.2.1
          have f2 := (S'.next x ((hsame.keys x).1 hx) y (by
            rw [← hsame.nxtK w I.trails w' J.trails]; exact hnx)).2.2.1
          rw [← hsame.edgeKey, hke] at f2
          rw [hke] at f1
          have e0 : edgeData D x y = d0 := by unfold edgeData; rw [hke, h0]; rfl
          have e1 : edgeData E x y = d1 := by
            unfold edgeData; rw [← hsame.edgeKey, hke, h1]; rfl
          obtain ⟨l1, l2⟩ := hsame.trailData _ _ _ h0 h1 ht
          have hlen : ∀ q v, effectiveLength d0 q v = effectiveLength d1 q v := by
            intro q v; unfold effectiveLength; rw [l1, l2]
          rw [f1, f2, e0, e1, hlen, (hu x hx).1, (hu x hx).2.2]
          rfl
        rcases hc with hc | hc
        · exact go a b hc (edgeKey_of_mem I.simple hm).1 (adj_mem_neighbors hadj)
        · exact go b a hc (edgeKey_of_mem I.simple hm).2 (adj_mem_neighbors hadj.symm)
    refine ⟨_, hG1, ?_, ?_, ?_⟩
    · rw [← hdF, (signedLength_type _ _ _).2.2, (signedLength_type _ _ _).2.2]
      exact hforce
    · have hend : ∀ x ∈ D.nodes.keys, ∃ n1 n2, (formOf D s).nodes.get? x = some n1 ∧
          (formOf E s').nodes.get? x = some n2 ∧ n1.pos = n2.pos := by
        intro x hx
        obtain ⟨n1, g1⟩ := (Dict.exists_get?_iff _ _).2 (by rw [hkF]; exact hx : x ∈ (formOf D s).nodes.keys)
        obtain ⟨n2, g2⟩ := (Dict.exists_get?_iff _ _).2
          (by rw [hkG]; exact (hsame.keys x).1 hx : x ∈ (formOf E s').nodes.keys)
        refine ⟨n1, n2, g1, g2, ?_⟩
        have := hpos x hx
        unfold posOf at this
        rw [g1, g2] at this
        simpa using this
      obtain ⟨a1, a2, ha1, ha2, hap⟩ := hend a (w.edge_left _ hm)
      obtain ⟨b1, b2, hb1, hb2, hbp⟩ := hend b (w.edge_right _ hm)
      rw [← hdF]
      unfold signedLength
      simp only [ha1, ha2, hb1, hb2, hap, hbp, hforce]
    · rw [← hdF, (signedLength_type _ _ _).1, (signedLength_type _ _ _).1]
      have := hsame.types _ _ _ h0 h1
      exact this

end

namespace SameEx

/-- Finite form of `SameProblem`. -/
def SameCheck (D E : Diagram ℚ) : Prop :=
  (∀ n ∈ D.nodes.keys ++ E.nodes.keys, (D.nodes.get? n).map (fun d => (d.load, d.type, d.k)) =
    (E.nodes.get? n).map (fun d => (d.load, d.type, d.k))) ∧
  (∀ p ∈ D.trails, posOf D p.1 = posOf E p.1) ∧
  (∀ p ∈ D.trails, p ∈ E.trails) ∧ (∀ p ∈ E.trails, p ∈ D.trails) ∧
  (∀ e ∈ D.edges.keys, e ∈ E.edges.keys) ∧ (∀ e ∈ E.edges.keys, e ∈ D.edges.keys) ∧
  (∀ p ∈ D.edges, ∀ q ∈ E.edges, p.1 = q.1 → p.2.type = q.2.type ∧
    (p.2.type = .trail → p.2.length = q.2.length ∧ p.2.plane = q.2.plane) ∧
    (p.2.type = .deviation → p.2.force = q.2.force))

instance (D E : Diagram ℚ) : Decidable (SameCheck D E) := by unfold SameCheck; infer_instance

theorem SameCheck.real {D E : Diagram ℚ} (h : SameCheck D E) : SameProblem D.real E.real := by
  obtain ⟨h1, h2, h3, h4, h5, h6, h7⟩ := h
  have hpos : ∀ (D : Diagram ℚ) n, posOf D.real n = (posOf D n).map (fun q : ℚ => (q : ℝ)) := by
    intro D n
    unfold posOf Diagram.real
    rw [map_nodes_get?]
    cases D.nodes.get? n with
    | none => ext <;> simp [Vec.map]
    | some d => rfl
  have h7' : ∀ e d d', D.edges.get? e = some d → E.edges.get? e = some d' → d.type = d'.type ∧
    (d.type = .trail → d.length = d'.length ∧ d.plane = d'.plane) ∧
    (d.type = .deviation → d.force = d'.force) := fun e d d' a b =>
      h7 (e, d) (Dict.mem_of_get? a) (e, d') (Dict.mem_of_get? b) rfl
  refine ⟨?_, ?_, ?_, ?_, ?_, ?_, ?_⟩
  · intro n
    unfold Diagram.real
    rw [map_nodes_get?, map_nodes_get?]
    have : (D.nodes.get? n).map (fun d => (d.load, d.type, d.k)) =
        (E.nodes.get? n).map (fun d => (d.load, d.type, d.k)) := by
      by_cases hn : n ∈ D.nodes.keys ++ E.nodes.keys
      · exact h1 n hn
      · rw [(Dict.get?_eq_none_iff _ _).2 (fun h => hn (List.mem_append_left _ h)),
          (Dict.get?_eq_none_iff _ _).2 (fun h => hn (List.mem_append_right _ h))]
    have := congrArg (Option.map fun t : Vec ℚ × NodeType × Option Int =>
      (t.1.map (fun q : ℚ => (q : ℝ)), t.2)) this
    rw [Option.map_map, Option.map_map] at this ⊢
    exact this
  · intro n tr hn
    rw [hpos, hpos, h2 _ hn]
  · exact fun p => ⟨h3 p, h4 p⟩
  · intro e
    unfold Diagram.real
    rw [map_edges_keys, map_edges_keys]
    exact ⟨h5 e, h6 e⟩
  all_goals
    intro e d d' hd hd'
    unfold Diagram.real at hd hd'
    rw [map_edges_get?] at hd hd'
    obtain ⟨c, hc, rfl⟩ := Option.map_eq_some_iff.1 hd
    obtain ⟨c', hc', rfl⟩ := Option.map_eq_some_iff.1 hd'
    obtain ⟨g1, g2, g3⟩ := h7' e c c' hc hc'
  · exact g1
  · intro ht
    obtain ⟨g4, g5⟩ := g2 ht
    unfold EdgeData.map
    simp only [g4, g5, and_self]
  · intro ht
    unfold EdgeData.map
    simp only [g3 ht]

/-- The problem of `directOps` entered in another order, with other positions of the nodes
that do not start a trail. -/
def permOps : List (Op ℚ) :=
  [.addNode (some 4) ⟨4, 0, 0⟩, .addNode (some 3) ⟨3, -5, 2⟩, .addNode (some 2) ⟨2, 7, 1⟩,
    .addNode (some 0) ⟨0, 0, 0⟩, .addNode (some 1) ⟨1, 9, 9⟩, dev 0 4, trail 3 4, trail 2 1,
    sup 3, load 4 ⟨1, 1, 1⟩, sup 2, trail 0 1, load 1 ⟨0, 1, -2⟩, load 0 ⟨0, 0, -1⟩]

def permQ : Diagram ℚ := after key (permOps ++ [.buildTrails])
noncomputable def perm : Diagram ℝ := permQ.real

theorem valid_perm : ValidInput perm := validInput_real (validInput_of_history key permOps
  (RegularCheck.regular (WF.after _ _) (by decide +kernel)) (by decide +kernel))

theorem same_perm : SameProblem direct perm := SameCheck.real (D := directQ) (E := permQ)
  (by decide +kernel)

end SameEx
open SameEx

example : SameProblem direct perm ∧ DirectOnly direct ∧ ValidInput direct ∧ ValidInput perm ∧
    (∃ F, staticEquilibrium direct none 3 0 false = .ok F) ∧
    directQ.trails ≠ permQ.trails ∧ posOf directQ 1 ≠ posOf permQ 1 :=
  ⟨same_perm, directOnly_direct, valid_direct, valid_perm,
    C20_returns_without_indirect valid_direct directOnly_direct (by norm_num) (le_refl 0),
    by decide +kernel, by decide +kernel⟩

end Props
end CEM
