import Verif.Lemmas.Callback
import Verif.Lemmas.CallbackLive
import Verif.Props.Equilibrium
import Verif.Props.CoordinatesAutodiff

/-!
# C87: when the callback is called, and what it can do

The documentation says that the callback runs at every iteration.  It runs once for every trail edge in every sweep,
and not in a sweep over a diagram whose trail edges all begin in sequence `kmax`.
-/

namespace CEM
namespace Props
open Diagram Spec
set_option linter.unusedSectionVars false
set_option linter.unusedSimpArgs false

section
variable {R W : Type} [Field R] [LinearOrder R] [IsStrictOrderedRing R] [PySqrt R]

theorem goodSched_exists {D : Diagram R} (I : ValidInput D) (kmax : Option Int) :
    ∃ T N, D.trailsSequences = .ok T ∧ D.numberOfSequences = .ok N ∧ GoodSeqs D T ∧
      GoodSched D kmax (sched D T N) := by
  obtain ⟨T, N, h1, h2, h3, h4⟩ := goodSeqs_of_valid I.wf I.trails I.nonempty
  exact ⟨T, N, h1, h2, h3, goodSched I.wf I.trails h3 kmax h4⟩

theorem numberOfTrails_ne {D : Diagram R} (I : ValidInput D) : D.numberOfTrails ≠ 0 := by
  unfold numberOfTrails
  have := I.nonempty
  simpa [Dict.vals] using this

/-- The first sweep after which a loop stops. -/
theorem first_stop (p : Nat → Prop) : ∃ M : Option Nat, (∀ m, M = some m → 2 ≤ m ∧ p m) ∧
    ∀ tmax j, j ≤ tmax → (∀ i, 2 ≤ i → i < j → ¬ p i) → ((2 ≤ j ∧ p j) ∨ j = tmax) → j = sweepsOf tmax M := by
  classical
  by_cases h : ∃ m, 2 ≤ m ∧ p m
  · refine ⟨some (Nat.find h), by rintro m ⟨⟩; exact Nat.find_spec h, fun tmax j h1 h2 h3 => ?_⟩
    have hle : j ≤ Nat.find h := by
      by_contra hc
      push Not at hc
      exact h2 _ (Nat.find_spec h).1 hc (Nat.find_spec h).2
    show j = min tmax (Nat.find h)
    rcases h3 with h3 | h3
    · have := Nat.find_min' h h3
      omega
    · omega
  · refine ⟨none, by simp, fun tmax j _ _ h3 => ?_⟩
    rcases h3 with h3 | h3
    · exact absurd ⟨j, h3⟩ h
    · exact h3

/-- **C87, no callback.** -/
theorem C87_none {D : Diagram R} {kmax : Option Int} {tmax : Nat} {eta : R} {verbose : Bool} (x : W) :
    staticEquilibriumCb none D x kmax tmax eta verbose =
      staticEquilibriumCb (some (watching .ok)) D x kmax tmax eta verbose ∧
    staticEquilibriumNumpyCb none D x tmax eta verbose =
      staticEquilibriumNumpyCb (some (watching .ok)) D x tmax eta verbose := by
  have h : ∀ w : Diagram R × W, callE none w = callE (some (watching .ok)) w := fun w => rfl
  have s1 : cbStep (none : Option (Callback R W)) = cbStep (some (watching .ok)) := by
    funext T kmax ind k p key
    unfold cbStep
    simp only [h]
  have l1 : ∀ T kmax (eta : R) fuel t p info, cbLoop (none : Option (Callback R W)) T kmax eta fuel t p info =
      cbLoop (some (watching .ok)) T kmax eta fuel t p info := by
    intro T kmax eta fuel
    induction fuel with
    | zero => intros; rfl
    | succ fuel ih => intros; simp only [cbLoop, cbSweep, s1, ih]
  have s2 : npCbStep (none : Option (Callback R W)) = npCbStep (some (watching .ok)) := by
    funext T kmax ind k p key
    unfold npCbStep
    simp only [h]
  have l2 : ∀ tab T (eta : R) fuel t p info, npCbLoop (none : Option (Callback R W)) tab T eta fuel t p info =
      npCbLoop (some (watching .ok)) tab T eta fuel t p info := by
    intro tab T eta fuel
    induction fuel with
    | zero => intros; rfl
    | succ fuel ih => intros; simp only [npCbLoop, npCbSweep, s2, ih]
  constructor
  · unfold staticEquilibriumCb
    simp only [l1]
  · unfold staticEquilibriumNumpyCb
    simp only [l2]

/-- The calls in a run of `tmax` sweeps at most. -/
theorem calls_core {D : Diagram R} (I : ValidInput D) {kmax : Option Int} (hk : ∀ k, kmax = some k → 0 ≤ k)
    {T : Dict Int (Dict Int Int)} {N : Int} (hT : D.trailsSequences = .ok T) (hN : D.numberOfSequences = .ok N)
    (hg : GoodSeqs D T) (G : GoodSched D kmax (sched D T N)) (eta : R) (verbose : Bool) (tmax : Nat) :
    ∃ j, j ≤ tmax ∧ (∀ i, 2 ≤ i → i < j → ¬ eDist D kmax (sched D T N) i < eta) ∧
      ((2 ≤ j ∧ eDist D kmax (sched D T N) j < eta) ∨ j = tmax) ∧
      ∀ (g : W → Except PyErr W) (x : W),
        staticEquilibriumCb (some (watching g)) D x kmax tmax eta verbose =
          (times g (j * trailEdgesBut D kmax) x).bind fun y =>
            (staticEquilibrium D kmax tmax eta verbose).map fun F => (F, (D, y)) := by
  obtain ⟨r, j, h1, h2, h3, h4, h5⟩ := cbLoop_eq (W := W) I.wf I.trails hg kmax hN eta tmax 0 none
  refine ⟨j, h2, fun i i1 i2 => h3 i (by omega) i1 (by omega), ?_, fun g x => ?_⟩
  · rcases h4 with ⟨_, k2, k3⟩ | h4
    · rw [Nat.zero_add] at k2 k3
      exact Or.inl ⟨k2, k3⟩
    · exact Or.inr h4
  · have hneg : kmax.any (fun k => decide (k < 0)) = false := by
      cases hk' : kmax with
      | none => rfl
      | some k => simpa using hk k hk'
    unfold staticEquilibriumCb staticEquilibrium equilibriumState
    simp only [if_neg (numberOfTrails_ne I), hT, hN, hneg]
    have h1' : eqLoop D T kmax eta N tmax 0 (initState D) none = .ok r := h1
    have h5' : cbLoop (some (watching g)) T kmax eta tmax 0 (initState D, (D, x)) none = _ := h5 g x
    rw [h1', h5', callsIn_edges I G, times_watching]
    cases times g (j * trailEdgesBut D kmax) x with
    | error e => simp [Except.map, Except.bind]
    | ok y =>
      simp only [Except.map, Except.bind]
      cases eqFinish eta verbose r <;> simp

/-- **C87.**  With a callback that does not change the diagram, `static_equilibrium` does what it does without.  The
callback runs once for every trail edge that does not begin in sequence `kmax`, in every sweep, until it raises.  The
number of sweeps is `tmax`, unless the computation stops before. -/
theorem C87_calls {D : Diagram R} (I : ValidInput D) {kmax : Option Int} (hk : ∀ k, kmax = some k → 0 ≤ k) (eta : R)
    (verbose : Bool) :
    ∃ M : Option Nat, (∀ m, M = some m → 2 ≤ m ∧ ∃ F, ∀ tmax, m ≤ tmax →
        staticEquilibrium D kmax tmax eta verbose = .ok F) ∧
      ∀ (W : Type) (g : W → Except PyErr W) (x : W) tmax,
        staticEquilibriumCb (some (watching g)) D x kmax tmax eta verbose =
          (times g (sweepsOf tmax M * trailEdgesBut D kmax) x).bind fun y =>
            (staticEquilibrium D kmax tmax eta verbose).map fun F => (F, (D, y)) := by
  obtain ⟨T, N, hT, hN, hg, G⟩ := goodSched_exists I kmax
  obtain ⟨M, hM, hM'⟩ := first_stop fun m => eDist D kmax (sched D T N) m < eta
  refine ⟨M, fun m hm => ?_, fun W g x tmax => ?_⟩
  · obtain ⟨h2, hp⟩ := hM m hm
    refine ⟨h2, formUpdate (formFromTopology D) (iter D kmax (sched D T N) m), fun tmax ht => ?_⟩
    obtain ⟨-, -, h⟩ := equilibriumState_sched I hk hT hN hg tmax eta verbose
    obtain ⟨m', k1, k2, k3, k4, k5⟩ := h (by omega)
    have : m' = sweepsOf tmax M := hM' tmax m' k2 k3 (k4.imp (fun h => ⟨k1, h⟩) id)
    obtain rfl : m' = m := by
      rw [this, hm]
      exact Nat.min_eq_right ht
    unfold staticEquilibrium
    rw [k5, if_neg]
    exact not_lt.2 hp.le
  · obtain ⟨j, h1, h2, h3, h4⟩ := calls_core (W := W) I hk hT hN hg G eta verbose tmax
    rw [h4, hM' tmax j h1 h2 h3]

/-- **C87, numpy.**  `static_equilibrium_numpy` calls it in the same way.  What a callback changes in the diagram, apart
from trails and types and sequences of nodes, does not enter into its computation: the state is the one
without callback, written into the diagram as the callback left it. -/
theorem C87_edits {D : Diagram R} (I : ValidInput D) (eta : R) (verbose : Bool) :
    ∃ M : Option Nat, (∀ m, M = some m → 2 ≤ m ∧ ∃ F, ∀ tmax, m ≤ tmax →
        staticEquilibriumNumpy D tmax eta verbose = .ok F) ∧
      ∀ (W : Type) (f : Callback R W), KeepsPlan f → ∀ (x : W) tmax,
        staticEquilibriumNumpyCb (some f) D x tmax eta verbose =
          (times f (sweepsOf tmax M * trailEdgesBut D none) (D, x)).bind fun w =>
            (npEquilibriumState D tmax eta verbose).map fun s => (npFormUpdate (formFromTopology w.1).num s, w) := by
  obtain ⟨T, N, hT, hN, hg, G⟩ := goodSched_exists I none
  have hs : ∀ n ∈ D.nodes.keys, ∃ k, seqOf D n = some k := fun n hn =>
    let ⟨k, h, _⟩ := allSequenced_of_valid I.trails n hn; ⟨k, h⟩
  obtain ⟨tab, htab, Gt⟩ := npTables_ok I.wf hs
  obtain ⟨M, hM, hM'⟩ := first_stop fun m => (nDist D (sched D T N) m).lt eta = true
  refine ⟨M, fun m hm => ?_, fun W f hf x tmax => ?_⟩
  · obtain ⟨h2, hp⟩ := hM m hm
    refine ⟨h2, npFormUpdate (formFromTopology D).num (nIter D (sched D T N) m), fun tmax ht => ?_⟩
    obtain ⟨-, -, h⟩ := npEquilibriumState_cases I hT hN hg tmax eta verbose
    obtain ⟨m', k1, k2, k3, k4, k5⟩ := h (by omega)
    have : m' = sweepsOf tmax M := hM' tmax m' k2 k3 (k4.imp (fun h => ⟨k1, h⟩) id)
    obtain rfl : m' = m := by
      rw [this, hm]
      exact Nat.min_eq_right ht
    unfold staticEquilibriumNumpy
    rw [k5, if_neg]
    revert hp
    cases nDist D (sched D T N) m' with
    | none => simp [Num.lt, Num.gt]
    | some d => simpa [Num.lt, Num.gt] using fun h => h.le
  · obtain ⟨r, j, h1, h2, h3, h4, h5⟩ := npCbLoop_eq (W := W) I.wf I.trails I.simple hg Gt hN eta tmax 0 none
    have hj : j = sweepsOf tmax M := hM' tmax j h2 (fun i i1 i2 => h3 i (by omega) i1 (by omega)) (by
      rcases h4 with ⟨_, k2, k3⟩ | h4
      · rw [Nat.zero_add] at k2 k3
        exact Or.inl ⟨k2, k3⟩
      · exact Or.inr h4)
    have h1' : npLoop D tab T eta N tmax 0 (npInit D) none = .ok r := h1
    have h5' : npCbLoop (some f) tab T eta tmax 0 (npInit D, (D, x)) none = _ := h5 f hf (D, x) (SamePlan.refl D)
    unfold staticEquilibriumNumpyCb npEquilibriumState
    simp only [if_neg (numberOfTrails_ne I), hT, htab, hN]
    rw [h1', h5', hj, callsIn_edges I G]
    by_cases h0 : tmax = 0
    · subst h0
      obtain rfl : r = (npInit D, none) := by
        simp only [npLoop, Except.ok.injEq] at h1'
        exact h1'.symm
      cases times f (sweepsOf 0 M * trailEdgesBut D none) (D, x) <;> simp [Except.map, Except.bind, npFinish]
    · simp only [if_neg h0]
      cases times f (sweepsOf tmax M * trailEdgesBut D none) (D, x) with
      | error e => simp [Except.map, Except.bind]
      | ok y =>
        simp only [Except.map, Except.bind]
        cases npFinish eta verbose r <;> simp

end

/-- **C87, no indirect edges.**  Then there are two sweeps if the threshold is positive, and `tmax` of them otherwise. -/
theorem C87_direct {D : Diagram ℝ} (I : ValidInput D) (hd : DirectOnly D) {eta : ℝ} {tmax : Nat} (ht : 2 ≤ tmax)
    {verbose : Bool} {W : Type} (g : W → Except PyErr W) (x : W) :
    staticEquilibriumCb (some (watching g)) D x none tmax eta verbose =
      (times g ((if 0 < eta then 2 else tmax) * trailEdgesBut D none) x).bind fun y =>
        (staticEquilibrium D none tmax eta verbose).map fun F => (F, (D, y)) := by
  obtain ⟨T, N, hT, hN, hg, G⟩ := goodSched_exists I none
  have h0 : ∀ m, 2 ≤ m → eDist D none (sched D T N) m = 0 := by
    intro m hm
    obtain ⟨m, rfl⟩ : ∃ k, m = k + 2 := ⟨m - 2, by omega⟩
    exact residual_direct I hd G m
  obtain ⟨j, h1, h2, h3, h4⟩ := calls_core (W := W) I (by simp) hT hN hg G eta verbose tmax
  rw [h4]
  congr 2
  split_ifs with he
  · congr 1
    by_contra hc
    rcases Nat.lt_or_ge 2 j with h | h
    · exact h2 2 le_rfl h (by rw [h0 2 le_rfl]; exact he)
    · rcases h3 with ⟨h5, -⟩ | h5 <;> omega
  · congr 1
    rcases h3 with ⟨h5, h6⟩ | h5
    · rw [h0 j h5] at h6
      exact absurd h6 he
    · exact h5

section
variable {R W : Type} [Field R] [LinearOrder R] [IsStrictOrderedRing R] [PySqrt R]

theorem keepsPlan_loading (q : Int → Vec R) : KeepsPlan (loading q : Callback R W) := by
  rintro p _ ⟨⟩
  refine ⟨?_, rfl, rfl⟩
  simp [withLoads, Function.comp_def]

theorem modify_loads {S : Type} (q : Int → Vec S) (g : NodeData S → NodeData S)
    (hg : ∀ d v, g { d with load := v } = { g d with load := v }) (ns : Dict Int (NodeData S)) (n : Int) :
    Dict.modify (ns.map fun p => (p.1, { p.2 with load := q p.1 })) n g =
      (Dict.modify ns n g).map fun p => (p.1, { p.2 with load := q p.1 }) := by
  have hset : ∀ (l : Dict Int (NodeData S)) (d : NodeData S),
      Dict.set (l.map fun p => (p.1, { p.2 with load := q p.1 })) n { d with load := q n } =
        (Dict.set l n d).map fun p => (p.1, { p.2 with load := q p.1 }) := by
    intro l d
    induction l with
    | nil => rfl
    | cons a l ih =>
      obtain ⟨k, c⟩ := a
      simp only [List.map_cons, Dict.set]
      by_cases h : k = n
      · subst h; simp
      · simp only [if_neg h, List.map_cons, ih]
  have hget := get?_map_key ns (fun m (d : NodeData S) => ({ d with load := q m } : NodeData S)) n
  unfold Dict.modify
  rw [hget]
  cases ns.get? n with
  | none => rfl
  | some d =>
    show Dict.set _ n (g { d with load := q n }) = _
    rw [hg]
    exact hset ns (g d)

theorem update_loads (q : Int → Vec R) (D : Diagram R) (s : NState R) :
    npFormUpdate (formFromTopology (withLoads q D)).num s =
      withLoads (fun n => (q n).map some) (npFormUpdate (formFromTopology D).num s) := by
  have h0 : (formFromTopology (withLoads q D)).num =
      withLoads (fun n => (q n).map some) (formFromTopology D).num := by
    simp [formFromTopology, withLoads, Diagram.num, Diagram.map, NodeData.map, Function.comp_def]
    exact fun _ _ _ => rfl
  have fold : ∀ (g : NVec R → NodeData (Num R) → NodeData (Num R))
      (_ : ∀ w d v, g w { d with load := v } = { g w d with load := v }) (l : Dict Int (NVec R))
      (ns : Dict Int (NodeData (Num R))),
      l.foldl (fun (ns : Dict Int (NodeData (Num R))) p => ns.modify p.1 (g p.2)) (ns.map fun p => (p.1, { p.2 with load := (q p.1).map some })) =
        (l.foldl (fun (ns : Dict Int (NodeData (Num R))) p => ns.modify p.1 (g p.2)) ns).map
          fun p => (p.1, { p.2 with load := (q p.1).map some }) := by
    intro g hg l
    induction l with
    | nil => intro ns; rfl
    | cons a l ih =>
      intro ns
      simp only [List.foldl_cons]
      rw [modify_loads (fun n => (q n).map some) _ (hg a.2), ih]
  rw [h0]
  unfold npFormUpdate withLoads
  dsimp only
  rw [fold (fun w d => { d with pos := w.coords }) (fun _ _ _ => rfl),
    fold (fun w d => { d with reaction := w.coords }) (fun _ _ _ => rfl)]

theorem imbalance_loads (q : Int → Vec R) (F : Diagram R) {n : Int} (hn : n ∈ F.nodes.keys) :
    imbalance (withLoads q F) n = imbalance F n + (q n - loadAt F n) := by
  have hget := withLoads_get? q F
  have hp : ∀ m, posOf (withLoads q F) m = posOf F m := by
    intro m
    unfold posOf
    rw [hget]
    cases F.nodes.get? m <;> rfl
  have hr : reactionAt (withLoads q F) n = reactionAt F n := by
    unfold reactionAt
    rw [hget]
    cases F.nodes.get? n <;> rfl
  have hl : loadAt (withLoads q F) n = q n := by
    obtain ⟨d, hd⟩ := (Dict.exists_get?_iff F.nodes n).2 hn
    unfold loadAt
    rw [hget, hd]
    rfl
  have hs : (withLoads q F).edges.map (pull (withLoads q F) n) = F.edges.map (pull F n) := by
    show F.edges.map _ = _
    congr 1
    funext e
    unfold pull
    simp only [hp]
  unfold imbalance
  rw [hr, hl, hs]
  abel

/-- **C87, loads.**  A callback that sets the loads does not make `static_equilibrium_numpy` find the form for them.  It
returns the form for the old loads with the new loads written into it: every node is out of balance by the change
of its load. -/
theorem C87_loads {D : Diagram R} (I : ValidInput D) (he : ∃ p ∈ D.edges, p.2.type = .trail) (q : Int → Vec R)
    {tmax : Nat} {eta : R} {verbose : Bool} {F : Diagram R}
    (hF : staticEquilibriumNumpy D tmax eta verbose = .ok F.num) (x : W) :
    staticEquilibriumNumpyCb (some (loading q)) D x tmax eta verbose =
        .ok ((withLoads q F).num, (withLoads q D, x)) ∧
      ∀ n ∈ F.nodes.keys, imbalance (withLoads q F) n = imbalance F n + (q n - loadAt F n) := by
  refine ⟨?_, fun n hn => imbalance_loads q F hn⟩
  obtain ⟨M, hM, h⟩ := C87_edits I eta verbose
  have h1 : tmax ≠ 0 := by
    rintro rfl
    obtain ⟨T, N, hT, hN, hg, -⟩ := goodSched_exists I none
    have := (npEquilibriumState_cases I hT hN hg 0 eta verbose).1 rfl
    unfold staticEquilibriumNumpy at hF
    rw [this] at hF
    cases hF
  have h2 : 0 < sweepsOf tmax M := by
    cases hm : M with
    | none => exact Nat.pos_of_ne_zero h1
    | some m =>
      have := (hM m hm).1
      show 0 < min tmax m
      omega
  have h3 : 0 < trailEdgesBut D none := by
    obtain ⟨p, hp, hp'⟩ := he
    exact List.countP_pos_iff.2 ⟨p, hp, by simp [hp']⟩
  obtain ⟨c, hc⟩ : ∃ c, sweepsOf tmax M * trailEdgesBut D none = c + 1 :=
    ⟨_, (Nat.succ_pred_eq_of_pos (Nat.mul_pos h2 h3)).symm⟩
  rw [h W (loading q) (keepsPlan_loading q) x tmax, hc, times_loading]
  unfold staticEquilibriumNumpy at hF
  cases hs : npEquilibriumState D tmax eta verbose with
  | error e => rw [hs] at hF; cases hF
  | ok s =>
    rw [hs] at hF
    have hF' : npFormUpdate (formFromTopology D).num s = F.num := Except.ok.inj hF
    show Except.ok (npFormUpdate (formFromTopology (withLoads q D)).num s, (withLoads q D, x)) = _
    rw [update_loads, hF']
    congr 2
    simp [withLoads, Diagram.num, Diagram.map, NodeData.map, Function.comp_def]
    exact fun _ _ _ => rfl

end

/-- **C87, loads, plain solver.**  With the same callback and three sweeps at least, `static_equilibrium` finds the form
for the new loads, on a diagram without indirect deviation edges. -/
theorem C87_live {D : Diagram ℝ} (I : ValidInput D) (hd : DirectOnly D) (he : ∃ p ∈ D.edges, p.2.type = .trail)
    (q : Int → Vec ℝ) {tmax : Nat} (ht : 3 ≤ tmax) {eta : ℝ} (h0 : 0 ≤ eta) (verbose : Bool) {W : Type} (x : W) :
    ∃ F, staticEquilibrium (withLoads q D) none tmax eta verbose = .ok F ∧
      staticEquilibriumCb (some (loading q)) D x none tmax eta verbose = .ok (F, (withLoads q D, x)) := by
  obtain ⟨T, N, hT, hN, hg, G⟩ := goodSched_exists I none
  refine live_equilibrium I hd hT hN hg ?_ q ht h0 verbose x
  rw [callsIn_edges I G]
  obtain ⟨p, hp, hp'⟩ := he
  exact (List.countP_pos_iff.2 ⟨p, hp, by simp [hp']⟩).ne'

namespace CallEx
open EqEx SlackEx

/-- A callback that counts. -/
def count : Nat → Except PyErr Nat := fun n => .ok (n + 1)

/-- A callback that raises at the fourth call. -/
def fourth : Nat → Except PyErr Nat := fun n => if n = 3 then .error .runtimeError else .ok (n + 1)

theorem times_count (n a : Nat) : times count n a = .ok (a + n) := by
  induction n generalizing a with
  | zero => rfl
  | succ n ih =>
    show times count n (a + 1) = _
    rw [ih]
    congr 1
    omega

/-- Three trail edges, one of which does not begin in the first sequence. -/
theorem trailEdges_direct : trailEdgesBut direct none = 3 ∧ trailEdgesBut direct (some 0) = 1 := ⟨rfl, rfl⟩

/-- The hypotheses of `C87_calls` hold for a diagram with indirect edges. -/
example : ∃ M : Option Nat, ∀ x tmax, staticEquilibriumCb (some (watching count)) indirect x none tmax 1 false =
    (staticEquilibrium indirect none tmax 1 false).map
      fun F => (F, (indirect, x + sweepsOf tmax M * trailEdgesBut indirect none)) := by
  obtain ⟨M, -, h⟩ := C87_calls valid_indirect (kmax := none) (by simp) 1 false
  refine ⟨M, fun x tmax => ?_⟩
  rw [h Nat count x tmax, times_count]
  rfl

/-- Two sweeps over three trail edges: six calls. -/
example : staticEquilibriumCb (some (watching count)) direct 0 none 100 1 false =
    (staticEquilibrium direct none 100 1 false).map fun F => (F, (direct, 6)) := by
  rw [C87_direct valid_direct directOnly_direct (by norm_num) count 0, if_pos one_pos, trailEdges_direct.1]
  rfl

/-- What the callback raises comes out. -/
example : staticEquilibriumCb (some (watching fourth)) direct 0 none 100 1 false = .error .runtimeError := by
  rw [C87_direct valid_direct directOnly_direct (by norm_num) fourth 0, if_pos one_pos, trailEdges_direct.1]
  rfl

end CallEx

open EqEx in
theorem trail_direct : ∃ p ∈ direct.edges, p.2.type = .trail := by
  obtain ⟨p, hp, ht⟩ : ∃ p ∈ directQ.edges, p.2.type = .trail := by decide +kernel
  exact ⟨(p.1, EdgeData.map (fun q : ℚ => (q : ℝ)) p.2), List.mem_map_of_mem (f := fun p : (Int × Int) × EdgeData ℚ =>
    (p.1, EdgeData.map (fun q : ℚ => (q : ℝ)) p.2)) hp, ht⟩

open EqEx in
/-- The plain solver with the callback returns a form in equilibrium with the new loads. -/
example (q : Int → Vec ℝ) : ∃ F, staticEquilibriumCb (some (loading q)) direct () none 100 1 false =
      .ok (F, (withLoads q direct, ())) ∧ ∀ n ∈ F.nodes.keys, imbalance F n = 0 := by
  obtain ⟨F, h1, h2⟩ := C87_live valid_direct directOnly_direct trail_direct q (tmax := 100) (by norm_num) zero_le_one false ()
  have same := withLoads_same q direct
  exact ⟨F, h2, C22_exact_equilibrium (validInput_same same valid_direct) nonzero_direct (directOnly_same same directOnly_direct) h1⟩

open EqEx in
/-- **C87, out of balance.**  A callback that changes a load after form finding has begun: the numpy solver returns a form that is not in
equilibrium. -/
theorem C87_unbalanced : ∃ (eta : ℝ) (F : Diagram ℝ) (q : Int → Vec ℝ),
    staticEquilibriumNumpy direct 100 eta false = .ok F.num ∧ (∀ n ∈ F.nodes.keys, imbalance F n = 0) ∧
    ∃ G : Diagram ℝ, staticEquilibriumNumpyCb (some (loading q)) direct () 100 eta false =
        .ok (G.num, (withLoads q direct, ())) ∧ ∀ n ∈ F.nodes.keys, imbalance G n ≠ 0 := by
  obtain ⟨eta, F, h⟩ := exists_returned valid_direct 100 (by norm_num)
  obtain ⟨G, h1, h2, -⟩ := C33_direct valid_direct directOnly_direct h
  rw [h2 (nondegenerate_direct h)] at h1
  have h0 := C22_exact_equilibrium valid_direct nonzero_direct directOnly_direct h
  obtain ⟨e, k⟩ := C87_loads (W := Unit) valid_direct
    trail_direct
    (fun n => loadAt F n + ⟨1, 0, 0⟩) h1 ()
  refine ⟨eta, F, _, h1, h0, _, e, fun n hn hc => ?_⟩
  rw [k n hn, h0 n hn] at hc
  have := congrArg Vec.x hc
  simp at this


end Props
end CEM
