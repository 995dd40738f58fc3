import Verif.Lemmas.Simulation
import Verif.Lemmas.Returned
import Verif.Model.EquilibriumNumpy

/-!
# The numpy solver on valid diagrams
-/

set_option linter.unusedSectionVars false
set_option linter.unusedSimpArgs false

namespace CEM
open Diagram Spec

variable {R : Type} [Field R] [LinearOrder R] [PySqrt R]

/-! ## Tables -/

theorem edgeTable_get? {V : Type} (D : Diagram R) (f : EdgeData R → Option V)
    (l : List (Int × Int)) (e : Int × Int) :
    Dict.get? (edgeTable D f l) e = if e ∈ l then (D.edges.get? e).bind f else none := by
  unfold edgeTable
  induction l with
  | nil => rfl
  | cons a l ih =>
    rw [List.filterMap_cons]
    cases hd : D.edges.get? a with
    | none =>
      simp only [Option.bind_none]
      rw [ih]
      by_cases ha : e = a
      · subst ha; simp [hd]
      · simp [ha]
    | some d =>
      cases hv : f d with
      | none =>
        simp only [Option.bind_some, hv, Option.map_none]
        rw [ih]
        by_cases ha : e = a
        · subst ha; simp [hd, hv]
        · simp [ha]
      | some v =>
        simp only [Option.bind_some, hv, Option.map_some, Dict.get?]
        rw [ih]
        by_cases ha : e = a
        · subst ha; simp [hd, hv]
        · simp [ha, Ne.symm ha]

theorem dictE_eq {K V : Type} [DecidableEq K] {f : K → Except PyErr V} {g : K → V} {l : List K}
    (h : ∀ k, f k = .ok (g k)) : dictE f l = .ok (l.map fun k => (k, g k)) := by
  induction l with
  | nil => rfl
  | cons a l ih => simp only [dictE, h a, ih, List.map_cons]

theorem get?_keyed {K V : Type} [DecidableEq K] (g : K → V) {l : List K} {k : K} (h : k ∈ l) :
    Dict.get? (l.map fun k => (k, g k) : Dict K V) k = some (g k) := by
  induction l with
  | nil => simp at h
  | cons a l ih =>
    simp only [List.map_cons, Dict.get?]
    split_ifs with hc
    · rw [hc]
    · exact ih (by simpa [Ne.symm hc] using h)

/-- What the tables contain. -/
structure GoodTab (D : Diagram R) (tab : NTables R) : Prop where
  forces : ∀ e d, D.edges.get? e = some d → tab.forces.get? e = some d.force
  lengths : ∀ e d, D.edges.get? e = some d → tab.lengths.get? e = some d.length
  loads : ∀ n ∈ D.nodes.keys, tab.loads.get? n = some (loadOf D n)
  direct : ∀ n ∈ D.nodes.keys, tab.direct.get? n = some ((dirNbrs D n).map (edgeKey D n))
  indirect : ∀ n ∈ D.nodes.keys, tab.indirect.get? n = some ((indNbrs D n).map (edgeKey D n))
  edgeKeys : ∀ e, e ∈ tab.edgeKeys ↔ D.edges.has e = true
  planes : ∀ e d, D.edges.get? e = some d → d.type = .trail → tab.planes.get? e = d.plane

theorem npTables_ok {D : Diagram R} (w : WF D)
    (hs : ∀ n ∈ D.nodes.keys, ∃ k, seqOf D n = some k) :
    ∃ tab, npTables D = .ok tab ∧ GoodTab D tab := by
  unfold npTables
  rw [dictE_eq fun n => (connectedDirect_eq w hs n).1, dictE_eq fun n => (connectedDirect_eq w hs n).2]
  refine ⟨_, rfl, ⟨?_, ?_, ?_, ?_, ?_, ?_, ?_⟩⟩
  · intro e d hd
    rw [edgeTable_get?, if_pos ((mem_edgeList w).2 (Dict.mem_keys_of_get? hd)), hd]; rfl
  · intro e d hd
    rw [edgeTable_get?, if_pos ((mem_edgeList w).2 (Dict.mem_keys_of_get? hd)), hd]; rfl
  · intro n hn
    obtain ⟨d, hd⟩ := (Dict.exists_get?_iff _ _).2 hn
    simp only
    rw [get?_map_val D.nodes (fun d => d.load), hd, loadOf, hd]; rfl
  · intro n hn; exact get?_keyed _ hn
  · intro n hn; exact get?_keyed _ hn
  · intro e; rw [Dict.has_iff]; exact mem_edgeList w
  · intro e d hd ht
    rw [edgeTable_get?, if_pos, hd]
    · rfl
    · unfold trailEdges
      rw [List.mem_filter]
      exact ⟨(mem_edgeList w).2 (Dict.mem_keys_of_get? hd), by simp [hd, ht]⟩

/-! ## One node -/

namespace NState
def pos (s : NState R) (n : Int) : NVec R := (s.xyz.get? n).getD (some 0)
def res (s : NState R) (n : Int) : NVec R := (s.residual.get? n).getD (some 0)
end NState

def devTermN (D : Diagram R) (P : Int → NVec R) (n m : Int) : NVec R :=
  (normalizeNumpy (lift2 (· - ·) (P m) (P n))).map ((edgeData D n m).force • ·)

def devSumN (D : Diagram R) (P : Int → NVec R) (n : Int) (l : List Int) (acc : NVec R) : NVec R :=
  l.foldl (fun acc m => lift2 (· + ·) acc (devTermN D P n m)) acc

def outVecN (D : Diagram R) (ind : Bool) (P : Int → NVec R) (t : NVec R) (n : Int) : NVec R :=
  npNodeEquilibrium t (some (loadOf D n)) (devSumN D P n (dirNbrs D n) (some 0))
    (if ind then devSumN D P n (indNbrs D n) (some 0) else some 0)

/-- The signed length of the trail edge from `n` to `m`. -/
def lenN (D : Diagram R) (n m : Int) (pos r : NVec R) : Num R :=
  npEffectiveLength (edgeData D n m).length (edgeData D n m).plane pos r

/-- Processing one node. -/
def nproc (D : Diagram R) (nxt : Int → Option Int) (ind : Bool) (s : NState R) (n : Int) : NState R :=
  let r := outVecN D ind s.pos (s.res n) n
  match nxt n with
  | none => { s with reactions := s.reactions.set n r }
  | some m =>
    let l := lenN D n m (s.pos n) r
    { s with
      trailDirs := s.trailDirs.set (edgeKey D n m) (npDirection r)
      xyz := s.xyz.set m (lift2 (· + ·) (s.pos n) (lift2 (· • ·) l (npDirection r)))
      trailForces := s.trailForces.set (edgeKey D n m) (npTrailForce r l)
      residual := s.residual.set m r }

theorem npResultant_eq {D : Diagram R} (w : WF D) {tab : NTables R} (G : GoodTab D tab)
    {s : NState R} {n : Int} (hk : s.xyz.keys = D.nodes.keys) (hn : n ∈ D.nodes.keys)
    (l : List Int) (hl : ∀ m ∈ l, m ∈ D.neighbors n) (acc : NVec R) :
    npResultant n s.xyz tab.forces (l.map (edgeKey D n)) acc = .ok (devSumN D s.pos n l acc) := by
  induction l generalizing acc with
  | nil => rfl
  | cons m l ih =>
    have hm := hl m (by simp)
    obtain ⟨a, ha⟩ := (Dict.exists_get?_iff s.xyz m).2 (by rw [hk]; exact (mem_keys_of_nbr w hm).1)
    obtain ⟨b, hb⟩ := (Dict.exists_get?_iff s.xyz n).2 (by rw [hk]; exact hn)
    have ho : (if (edgeKey D n m).1 ≠ n then (edgeKey D n m).1 else (edgeKey D n m).2) = m := by
      rcases edgeKey_ends D n m with e | e
      · rw [e]; simp
      · rw [e]; simp only [ne_eq, ite_not]; split_ifs with h
        · exact h.symm
        · rfl
    have hin : npIncoming n s.xyz (edgeKey D n m) = .ok (normalizeNumpy (lift2 (· - ·) a b)) := by
      unfold npIncoming
      simp only [ho, Dict.getE, ha, hb]
    rw [List.map_cons, npResultant, hin]
    simp only [Dict.getE, G.forces _ _ (edgeKey_mem hm)]
    rw [ih fun x hx => hl x (by simp [hx])]
    simp only [devSumN, List.foldl_cons, devTermN, NState.pos, ha, hb, Option.getD_some]

def GoodNState (D : Diagram R) (s : NState R) : Prop :=
  s.xyz.keys = D.nodes.keys ∧ s.residual.keys = D.nodes.keys

theorem GoodNState.nproc {D : Diagram R} (w : WF D) (V : ValidTrails D) {ind : Bool} {s : NState R}
    (h : GoodNState D s) (n : Int) : GoodNState D (nproc D (nxtK D none) ind s n) := by
  unfold CEM.nproc
  cases hn : nxtK D none n with
  | none => exact h
  | some m =>
    have := (nxtK_mem w V hn).1
    exact ⟨(Dict.keys_set_of_mem _ (by rw [h.1]; exact this)).trans h.1,
      (Dict.keys_set_of_mem _ (by rw [h.2]; exact this)).trans h.2⟩

theorem edgeData_trail' {D : Diagram R} (w : WF D) (V : ValidTrails D) (g : SimpleGraph D)
    {n m : Int} (h : trailNext D n = some m) : (edgeData D n m).type = .trail := by
  rcases trailNext_adj w V h with ⟨d, hd, ht⟩ | ⟨d, hd, ht⟩
  · have : edgeKey D n m = (n, m) := by
      unfold edgeKey; rw [if_pos ((Dict.has_iff _ _).2 (Dict.mem_keys_of_get? hd))]
    simp [edgeData, this, hd, ht]
  · have : edgeKey D n m = (m, n) := by
      unfold edgeKey
      rw [if_neg]
      intro hc
      exact g.noAnti _ _ (Dict.mem_keys_of_get? hd) ((Dict.has_iff _ _).1 hc)
    simp [edgeData, this, hd, ht]

theorem npStep_eq {D : Diagram R} (w : WF D) (V : ValidTrails D) (g : SimpleGraph D) {T : Dict Int (Dict Int Int)}
    (hT : GoodSeqs D T) {tab : NTables R} (G : GoodTab D tab) (ind : Bool) (k : Int) {s : NState R}
    (hg : GoodNState D s) {key : Int} (hkey : key ∈ D.trails.keys) :
    npStep D tab T ind k s key = .ok (match (T.get? key).bind (·.get? k) with
      | none => s
      | some n => nproc D (nxtK D none) ind s n) := by
  obtain ⟨tr, ht⟩ := Dict.mem_keys_iff.1 hkey
  obtain ⟨m, hm, hspec⟩ := hT key tr ht
  unfold npStep
  simp only [Dict.getE, hm, Option.bind_some]
  cases hn : m.get? k with
  | none => rfl
  | some n =>
    obtain ⟨hntr, hseq⟩ := (hspec k n).1 hn
    have hnk := V.mem_keys ht hntr
    obtain ⟨p, hp⟩ := (Dict.exists_get?_iff s.xyz n).2 (by rw [hg.1]; exact hnk)
    obtain ⟨r, hr⟩ := (Dict.exists_get?_iff s.residual n).2 (by rw [hg.2]; exact hnk)
    have hpos : s.pos n = p := by simp [NState.pos, hp]
    have hres : s.res n = r := by simp [NState.res, hr]
    simp only [hp, hr, G.loads n hnk, G.direct n hnk]
    rw [npResultant_eq w G hg.1 hnk (dirNbrs D n) (fun m hm => (List.mem_filter.1 hm).1)]
    have hind : npIndirect tab ind n s.xyz =
        .ok (if ind then devSumN D s.pos n (indNbrs D n) (some 0) else some 0) := by
      unfold npIndirect
      cases ind
      · rfl
      · simp only [if_true, Dict.getE, G.indirect n hnk]
        exact npResultant_eq w G hg.1 hnk (indNbrs D n) (fun m hm => (List.mem_filter.1 hm).1) _
    simp only [hind]
    have hsup : D.isNodeSupport n = .ok (decide (typeOf D n = some .support)) := by
      obtain ⟨d, hd⟩ := (Dict.exists_get?_iff _ _).2 hnk
      simp [isNodeSupport, typeOf, hd]
    simp only [hsup, decide_eq_true_eq]
    by_cases hstop : typeOf D n = some .support
    · have hx : nxtK D none n = none := by
        unfold nxtK
        rw [if_pos (Or.inl hstop)]
      rw [if_pos hstop]
      simp only [nproc, hx, outVecN, hres]
    · rw [if_neg hstop]
      obtain ⟨n', hn'⟩ := trailNext_isSome w V hnk hstop
      have hx : nxtK D none n = some n' := by
        unfold nxtK
        rw [if_neg, hn']
        rintro (h | ⟨h1, h2⟩)
        · exact hstop h
        · simp at h1
      obtain ⟨key', tr', ht', hc⟩ := (trailNext_iff w V).1 hn'
      have he := V.unique w ht ht' hntr hc.mem_left
      obtain ⟨rfl, rfl⟩ := Prod.mk.inj he
      obtain ⟨j, _, hj1, hj2⟩ := seqOf_next V ht hc
      rw [hseq] at hj1
      obtain rfl := Option.some.inj hj1
      have hnext : m.get? (k + 1) = some n' := (hspec _ _).2 ⟨hc.mem_right, hj2⟩
      have hadj := trailNext_adj w V hn'
      have hed := edgeKey_mem (adj_mem_neighbors hadj)
      have hkk : (if (n, n') ∈ tab.edgeKeys then (n, n') else (n', n)) = edgeKey D n n' := by
        unfold edgeKey
        simp only [G.edgeKeys]
      have htt := edgeData_trail' w V g hn'
      simp only [hnext, hkk, G.lengths _ _ hed, G.planes _ _ hed htt]
      simp only [nproc, hx, hres, hpos, lenN]
      rfl

theorem GoodNState.fold {D : Diagram R} (w : WF D) (V : ValidTrails D) {ind : Bool} {s : NState R}
    (h : GoodNState D s) (l : List Int) :
    GoodNState D (l.foldl (CEM.nproc D (nxtK D none) ind) s) := by
  induction l generalizing s with
  | nil => exact h
  | cons n l ih => exact ih (h.nproc w V n)

theorem npSweep_eq {D : Diagram R} (w : WF D) (V : ValidTrails D) (g : SimpleGraph D)
    {T : Dict Int (Dict Int Int)} (hT : GoodSeqs D T) {tab : NTables R} (G : GoodTab D tab)
    (ind : Bool) (N : Int) {s : NState R} (hg : GoodNState D s) :
    npSweep D tab T ind N s = .ok ((sched D T N).foldl (nproc D (nxtK D none) ind) s) := by
  have inner : ∀ (k : Int) (s : NState R), GoodNState D s →
      forE (npStep D tab T ind k) D.trails.keys s =
        .ok ((level D T k).foldl (nproc D (nxtK D none) ind) s) := by
    intro k s hs
    have := (forE_ok (f := npStep D tab T ind k) (l := D.trails.keys)
      (g := fun s key => match (T.get? key).bind (·.get? k) with
        | none => s
        | some n => nproc D (nxtK D none) ind s n) (Inv := GoodNState D) hs
      (fun s key h hk => npStep_eq w V g hT G ind k h hk)
      (by
        intro s key h _
        split
        · exact h
        · exact h.nproc w V _)).1
    rw [this, level, List.foldl_filterMap]
    congr 2
    funext s key
    cases (T.get? key).bind (·.get? k) <;> rfl
  unfold npSweep
  have := (forE_ok (f := fun s k => forE (npStep D tab T ind k) D.trails.keys s) (l := pyRange N)
    (g := fun s k => (level D T k).foldl (nproc D (nxtK D none) ind) s) (Inv := GoodNState D) hg
    (fun s k h _ => inner k s h) (fun s k h _ => h.fold w V _)).1
  rw [this, sched, List.foldl_flatMap]

/-! ## The loop -/

/-- The iterates of the numpy solver for a schedule. -/
def nIter (D : Diagram R) (L : List Int) : Nat → NState R
  | 0 => npInit D
  | m + 1 => L.foldl (nproc D (nxtK D none) (m > 0)) (nIter D L m)

/-- The change in sweep `m`. -/
def nDist (D : Diagram R) (L : List Int) (m : Nat) : Num R :=
  npDistance (nIter D L (m - 1)).xyz (nIter D L m).xyz

theorem goodNState_iter {D : Diagram R} (w : WF D) (V : ValidTrails D) (L : List Int) (m : Nat) :
    GoodNState D (nIter D L m) := by
  induction m with
  | zero => exact ⟨keys_map_val D.nodes (fun d => some d.pos),
    keys_map_val D.nodes (fun d => some d.reaction)⟩
  | succ m ih => exact ih.fold w V L

theorem npLoop_eq {D : Diagram R} (w : WF D) (V : ValidTrails D) (g : SimpleGraph D)
    {T : Dict Int (Dict Int Int)} (hT : GoodSeqs D T) {tab : NTables R} (G : GoodTab D tab)
    (N : Int) (eta : R) (fuel t : Nat) (info : Option (NLoopInfo R)) :
    ∃ m, t ≤ m ∧ m ≤ t + fuel ∧
      (∀ j, t < j → 2 ≤ j → j < m → ¬ (nDist D (sched D T N) j).lt eta = true) ∧
      ((t < m ∧ 2 ≤ m ∧ (nDist D (sched D T N) m).lt eta = true) ∨ m = t + fuel) ∧
      npLoop D tab T eta N fuel t (nIter D (sched D T N) t) info =
        .ok (nIter D (sched D T N) m, if m = t then info else if m = 1 then some ⟨0, none⟩
          else some ⟨m - 1, some (nDist D (sched D T N) m)⟩) := by
  induction fuel generalizing t info with
  | zero =>
    refine ⟨t, le_rfl, by simp, ?_, Or.inr (by simp), by simp [npLoop]⟩
    intro j h1 _ h2; omega
  | succ fuel ih =>
    have hsw : npSweep D tab T (t > 0) N (nIter D (sched D T N) t) =
        .ok (nIter D (sched D T N) (t + 1)) :=
      npSweep_eq w V g hT G _ N (goodNState_iter w V _ t)
    rw [npLoop, hsw]
    simp only
    by_cases ht : t = 0
    · subst ht
      rw [if_pos rfl]
      obtain ⟨m, h1, h2, h3, h4, h5⟩ := ih 1 (some ⟨0, none⟩)
      refine ⟨m, by omega, by omega, ?_, ?_, ?_⟩
      · intro j hj1 hj2 hj3; exact h3 j (by omega) hj2 hj3
      · rcases h4 with ⟨h4, h6⟩ | h4
        · exact Or.inl ⟨by omega, h6⟩
        · exact Or.inr (by omega)
      · rw [h5, if_neg (by omega : m ≠ 0)]
        by_cases hm : m = 1 <;> simp [hm]
    · rw [if_neg ht]
      have hd : npDistance (nIter D (sched D T N) t).xyz (nIter D (sched D T N) (t + 1)).xyz =
          nDist D (sched D T N) (t + 1) := rfl
      rw [hd]
      by_cases hlt : (nDist D (sched D T N) (t + 1)).lt eta = true
      · rw [if_pos hlt]
        refine ⟨t + 1, by omega, by omega, ?_, Or.inl ⟨by omega, by omega, hlt⟩, ?_⟩
        · intro j h1 _ h2; omega
        · rw [if_neg (by omega), if_neg (by omega)]; rfl
      · rw [if_neg hlt]
        obtain ⟨m, h1, h2, h3, h4, h5⟩ := ih (t + 1) (some ⟨t, some (nDist D (sched D T N) (t + 1))⟩)
        refine ⟨m, by omega, by omega, ?_, ?_, ?_⟩
        · intro j hj1 hj2 hj3
          rcases Nat.lt_or_ge (t + 1) j with hj | hj
          · exact h3 j hj hj2 hj3
          · obtain rfl : j = t + 1 := by omega
            exact hlt
        · rcases h4 with ⟨h4, h6⟩ | h4
          · exact Or.inl ⟨by omega, h6⟩
          · exact Or.inr (by omega)
        · rw [h5, if_neg (by omega : m ≠ t)]
          by_cases hm : m = t + 1
          · subst hm
            rw [if_pos rfl, if_neg (by omega)]
            rfl
          · rw [if_neg hm]

/-- The result of `equilibrium_state_numpy` on a valid diagram in terms of the iterates. -/
theorem npEquilibriumState_cases {D : Diagram R} (I : ValidInput D)
    {T : Dict Int (Dict Int Int)} {N : Int} (hTs : D.trailsSequences = .ok T)
    (hN : D.numberOfSequences = .ok N) (hT : GoodSeqs D T)
    (tmax : Nat) (eta : R) (verbose : Bool) :
    (tmax = 0 → npEquilibriumState D tmax eta verbose = .error .unboundLocal) ∧
    (tmax = 1 → npEquilibriumState D tmax eta verbose =
      if verbose then .error .unboundLocal else .ok (nIter D (sched D T N) 1)) ∧
    (2 ≤ tmax → ∃ m, 2 ≤ m ∧ m ≤ tmax ∧
      (∀ j, 2 ≤ j → j < m → ¬ (nDist D (sched D T N) j).lt eta = true) ∧
      ((nDist D (sched D T N) m).lt eta = true ∨ m = tmax) ∧
      npEquilibriumState D tmax eta verbose =
        if (nDist D (sched D T N) m).gt eta then .error .valueError
        else .ok (nIter D (sched D T N) m)) := by
  have hnum : D.numberOfTrails ≠ 0 := by
    unfold numberOfTrails
    have := I.nonempty
    simpa [Dict.vals] using this
  have hs : ∀ n ∈ D.nodes.keys, ∃ k, seqOf D n = some k := fun n hn =>
    let ⟨k, h, _⟩ := allSequenced_of_valid I.trails n hn; ⟨k, h⟩
  obtain ⟨tab, htab, G⟩ := npTables_ok I.wf hs
  have hunf : npEquilibriumState D tmax eta verbose =
      if tmax = 0 then .error .unboundLocal else
      match npLoop D tab T eta N tmax 0 (npInit D) none with
      | .error err => .error err
      | .ok r => npFinish eta verbose r := by
    unfold npEquilibriumState
    rw [if_neg hnum, hTs, htab, hN]
    try rfl
  rw [hunf]
  obtain ⟨m, _, h2, h3, h4, h5⟩ := npLoop_eq I.wf I.trails I.simple hT G N eta tmax 0 none
  have h5' : npLoop D tab T eta N tmax 0 (npInit D) none = _ := h5
  rw [h5']
  simp only
  refine ⟨fun h => by rw [if_pos h], fun h => ?_, fun h => ?_⟩
  · subst h
    have hm : m = 1 := by omega
    subst hm
    rw [if_neg (by omega), if_neg (by omega), if_pos rfl]
    cases verbose <;> simp [npFinish]
  · have hm : 2 ≤ m := by omega
    rw [if_neg (by omega), if_neg (by omega), if_neg (by omega)]
    refine ⟨m, hm, by omega, fun j hj1 hj2 => h3 j (by omega) hj1 hj2, ?_, ?_⟩
    · rcases h4 with h4 | h4
      · exact Or.inl h4.2.2
      · exact Or.inr (by omega)
    · have : m - 1 > 0 := by omega
      simp only [npFinish, if_pos this]

/-! ## Without NaN -/

/-- A state of the plain solver as one of the numpy solver. -/
def liftS (s : EqState R) : NState R where
  xyz := mapVal some s.xyz
  residual := mapVal some s.residual
  trailForces := mapVal some s.trailForces
  trailDirs := mapVal some s.trailDirs
  reactions := mapVal some s.reactions

theorem liftS_pos (s : EqState R) (n : Int) : (liftS s).pos n = some (s.pos n) := by
  unfold NState.pos EqState.pos liftS
  simp only [mapVal_get?]
  cases s.xyz.get? n <;> rfl

theorem liftS_res (s : EqState R) (n : Int) : (liftS s).res n = some (s.res n) := by
  unfold NState.res EqState.res liftS
  simp only [mapVal_get?]
  cases s.residual.get? n <;> rfl

theorem liftS_init (D : Diagram R) : liftS (initState D) = npInit D := by
  unfold liftS initState npInit mapVal
  simp only [List.map_map, List.map_nil]
  rfl

theorem normalizeNumpy_some (v : Vec R) :
    normalizeNumpy (some v) = if Vec.length v = 0 then none else some (Vec.normalize v) := by
  unfold normalizeNumpy Vec.normalize
  simp only
  split_ifs <;> rfl

theorem lift2_none_left {α β γ : Type} (f : α → β → γ) (b : Option β) : lift2 f none b = none := by
  cases b <;> rfl

theorem lift2_none_right {α β γ : Type} (f : α → β → γ) (a : Option α) : lift2 f a none = none := by
  cases a <;> rfl

theorem devTermN_some (D : Diagram R) (P : Int → Vec R) (n m : Int) :
    devTermN D (fun x => some (P x)) n m =
      if Vec.length (P m - P n) = 0 then none else some (devTerm D P n m) := by
  unfold devTermN devTerm
  simp only [lift2, normalizeNumpy_some]
  split_ifs <;> rfl

theorem devSumN_none (D : Diagram R) (P : Int → NVec R) (n : Int) (l : List Int) :
    devSumN D P n l none = none := by
  induction l with
  | nil => rfl
  | cons m l ih => unfold devSumN at ih ⊢; rw [List.foldl_cons, lift2_none_left, ih]

theorem devSumN_clean (D : Diagram R) (P : Int → Vec R) (n : Int) (l : List Int) (a : Vec R)
    (h : ∀ m ∈ l, Vec.length (P m - P n) ≠ 0) :
    devSumN D (fun x => some (P x)) n l (some a) = some (a + devSum D P n l) := by
  induction l generalizing a with
  | nil => simp [devSumN, devSum]
  | cons m l ih =>
    have : devSumN D (fun x => some (P x)) n (m :: l) (some a) =
        devSumN D (fun x => some (P x)) n l
          (lift2 (· + ·) (some a) (devTermN D (fun x => some (P x)) n m)) := rfl
    rw [this, devTermN_some, if_neg (h m (by simp))]
    simp only [lift2]
    rw [ih _ fun x hx => h x (by simp [hx])]
    simp only [devSum, List.map_cons, List.sum_cons, add_assoc]

theorem devSumN_nan (D : Diagram R) (P : Int → NVec R) (n : Int) (l : List Int) (a : NVec R)
    (h : ∃ m ∈ l, devTermN D P n m = none) : devSumN D P n l a = none := by
  induction l generalizing a with
  | nil => simp at h
  | cons m l ih =>
    have hs : devSumN D P n (m :: l) a = devSumN D P n l (lift2 (· + ·) a (devTermN D P n m)) := rfl
    rw [hs]
    obtain ⟨m', hm', h'⟩ := h
    rcases List.mem_cons.1 hm' with rfl | hm'
    · rw [h', lift2_none_right, devSumN_none]
    · exact ih _ ⟨m', hm', h'⟩

/-- The deviation edges considered at a node. -/
def allNbrs (D : Diagram R) (ind : Bool) (n : Int) : List Int :=
  dirNbrs D n ++ if ind then indNbrs D n else []

/-- Nothing is divided by zero when the plain solver processes `n` in state `s`. -/
structure Clean (D : Diagram R) (nxt : Int → Option Int) (ind : Bool) (s : EqState R) (n : Int) :
    Prop where
  nbrs : ∀ m ∈ allNbrs D ind n, Vec.length (s.pos m - s.pos n) ≠ 0
  plane : ∀ m, nxt n = some m → (edgeData D n m).plane ≠ none →
    Vec.length (outVec D ind s.pos (s.res n) n) ≠ 0

theorem outVecN_clean (D : Diagram R) (ind : Bool) (P : Int → Vec R) (t : Vec R) (n : Int)
    (h : ∀ m ∈ allNbrs D ind n, Vec.length (P m - P n) ≠ 0) :
    outVecN D ind (fun x => some (P x)) (some t) n = some (outVec D ind P t n) := by
  unfold outVecN outVec npNodeEquilibrium
  unfold allNbrs at h
  rw [devSumN_clean D P n _ _ fun m hm => h m (List.mem_append_left _ hm)]
  cases ind
  · simp only [Bool.false_eq_true, if_false, lift2, Option.map_some, Option.some.injEq]
    abel
  · simp only [if_true] at h ⊢
    rw [devSumN_clean D P n _ _ fun m hm => h m (List.mem_append_right _ hm)]
    simp only [lift2, Option.map_some, Option.some.injEq]
    abel

theorem outVecN_nan (D : Diagram R) (ind : Bool) (P : Int → NVec R) (t : NVec R) (n : Int)
    (h : ∃ m ∈ allNbrs D ind n, devTermN D P n m = none) : outVecN D ind P t n = none := by
  obtain ⟨m, hm, h⟩ := h
  unfold outVecN npNodeEquilibrium
  unfold allNbrs at hm
  rcases List.mem_append.1 hm with hm | hm
  · rw [devSumN_nan D P n _ _ ⟨m, hm, h⟩]
    simp only [lift2_none_left, lift2_none_right, Option.map_none]
  · cases ind
    · simp at hm
    · simp only [if_true] at hm ⊢
      rw [devSumN_nan D P n _ _ ⟨m, hm, h⟩]
      simp only [lift2_none_right, Option.map_none]

theorem npDirection_some (r : Vec R) : npDirection (some r) = some (Vec.normalize r) := by
  unfold npDirection
  rw [normalizeNumpy_some]
  by_cases h : Vec.length r = 0
  · rw [if_pos h]; simp [Vec.normalize, h]
  · rw [if_neg h]

theorem lenN_clean (D : Diagram R) (n m : Int) (p r : Vec R)
    (h : (edgeData D n m).plane ≠ none → Vec.length r ≠ 0) :
    lenN D n m (some p) (some r) = some (effectiveLength (edgeData D n m) p r) := by
  unfold lenN npEffectiveLength effectiveLength
  cases hp : (edgeData D n m).plane with
  | none => rfl
  | some pl =>
    have hr := h (by rw [hp]; simp)
    simp only [npPlaneLength, planeLength, normalizeNumpy_some, if_neg hr, Option.map_some]
    by_cases h1 : |Vec.dot pl.2 (Vec.normalize r)| < planeTol
    · simp only [if_pos h1]
    · simp only [if_neg h1]
      split_ifs <;> rfl

theorem lenN_nan (D : Diagram R) (n m : Int) (p r : Vec R)
    (h : (edgeData D n m).plane ≠ none) (hr : Vec.length r = 0) :
    lenN D n m (some p) (some r) = none := by
  unfold lenN npEffectiveLength
  cases hp : (edgeData D n m).plane with
  | none => exact absurd hp h
  | some pl => simp only [npPlaneLength, normalizeNumpy_some, if_pos hr]

theorem npTrailForce_some (r : Vec ℝ) (l : ℝ) :
    npTrailForce (some r) (some l) = some (copysign (Vec.length r) l) := by
  have h0 := Vec.length_nonneg r
  unfold npTrailForce copysign
  simp only [Option.map_some]
  by_cases hl : l < 0
  · rw [if_pos hl]
    by_cases hr : Vec.length r * l < 0
    · rw [if_pos hr, abs_of_nonneg h0]; simp
    · rw [if_neg hr]
      have : Vec.length r = 0 := by
        by_contra hc
        exact hr (mul_neg_of_pos_of_neg (lt_of_le_of_ne h0 (Ne.symm hc)) hl)
      simp [this]
  · rw [if_neg hl, if_neg, abs_of_nonneg h0]
    push Not at hl ⊢
    exact mul_nonneg h0 hl

theorem funext_pos (s : EqState R) : (liftS s).pos = fun x => some (s.pos x) :=
  funext (liftS_pos s)

/-- Without a division by zero the numpy solver does what the plain one does. -/
theorem nproc_clean {D : Diagram ℝ} {nxt : Int → Option Int} {ind : Bool} {s : EqState ℝ} {n : Int}
    (h : Clean D nxt ind s n) : nproc D nxt ind (liftS s) n = liftS (proc D nxt ind s n) := by
  unfold nproc
  rw [liftS_res, funext_pos, outVecN_clean D ind s.pos _ n h.nbrs]
  cases hn : nxt n with
  | none =>
    rw [proc_none hn]
    simp only [liftS, mapVal_set]
  | some m =>
    rw [proc_some hn]
    simp only [npDirection_some, lenN_clean D n m _ _ (h.plane m hn), lift2, npTrailForce_some]
    simp only [liftS, mapVal_set]

/-- A NaN that the processing of `n` wrote. -/
def NaNAt (nxt : Int → Option Int) (s : NState R) (n : Int) : Prop :=
  (nxt n = none ∧ s.reactions.get? n = some none) ∨
  ∃ m, nxt n = some m ∧ s.xyz.get? m = some none

theorem nproc_nan_of_out {D : Diagram R} {nxt : Int → Option Int} {ind : Bool} {s : NState R}
    {n : Int} (h : outVecN D ind s.pos (s.res n) n = none) : NaNAt nxt (nproc D nxt ind s n) n := by
  unfold nproc
  rw [h]
  cases hn : nxt n with
  | none => exact Or.inl ⟨hn, by simp⟩
  | some m =>
    refine Or.inr ⟨m, hn, ?_⟩
    have : npDirection (none : NVec R) = none := rfl
    simp only [this, lift2_none_right, Dict.get?_set_self]

theorem nproc_nan {D : Diagram R} {nxt : Int → Option Int} {ind : Bool} {s : EqState R} {n : Int}
    (h : ¬ Clean D nxt ind s n) : NaNAt nxt (nproc D nxt ind (liftS s) n) n := by
  by_cases h1 : ∀ m ∈ allNbrs D ind n, Vec.length (s.pos m - s.pos n) ≠ 0
  · have h2 : ∃ m, nxt n = some m ∧ (edgeData D n m).plane ≠ none ∧
        Vec.length (outVec D ind s.pos (s.res n) n) = 0 := by
      by_contra hc
      push Not at hc
      exact h ⟨h1, hc⟩
    obtain ⟨m, hm, hp, hr⟩ := h2
    refine Or.inr ⟨m, hm, ?_⟩
    unfold nproc
    rw [liftS_res, funext_pos, outVecN_clean D ind s.pos _ n h1, hm]
    simp only [lenN_nan D n m _ _ hp hr, lift2_none_left, lift2_none_right, Dict.get?_set_self]
  · push Not at h1
    obtain ⟨m, hm, hz⟩ := h1
    apply nproc_nan_of_out
    apply outVecN_nan
    refine ⟨m, hm, ?_⟩
    rw [funext_pos, devTermN_some, if_pos hz]

theorem nproc_kept {D : Diagram R} {nxt : Int → Option Int} {ind : Bool} (l : List Int)
    (s : NState R) :
    (∀ m, (∀ a ∈ l, nxt a ≠ some m) → (l.foldl (nproc D nxt ind) s).xyz.get? m = s.xyz.get? m ∧
      (l.foldl (nproc D nxt ind) s).residual.get? m = s.residual.get? m) ∧
    (∀ n, n ∉ l → (l.foldl (nproc D nxt ind) s).reactions.get? n = s.reactions.get? n) := by
  induction l generalizing s with
  | nil => simp
  | cons a l ih =>
    rw [List.foldl_cons]
    obtain ⟨i1, i2⟩ := ih (nproc D nxt ind s a)
    constructor
    · intro m hm
      obtain ⟨j1, j2⟩ := i1 m fun b hb => hm b (by simp [hb])
      rw [j1, j2]
      unfold nproc
      cases hn : nxt a with
      | none => exact ⟨rfl, rfl⟩
      | some m' =>
        have : m' ≠ m := by rintro rfl; exact hm a (by simp) hn
        simp only [Dict.get?_set, if_neg this, and_self]
    · intro n hn
      simp only [List.mem_cons, not_or] at hn
      rw [i2 n hn.2]
      unfold nproc
      cases hx : nxt a with
      | none => simp only [Dict.get?_set, if_neg (Ne.symm hn.1)]
      | some m' => rfl

/-- A NaN stays until the end of the sweep. -/
theorem NaNAt.fold {D : Diagram R} {nxt : Int → Option Int} {rank : Int → Int} {ind : Bool}
    {L L1 L2 : List Int} (S : Sched nxt rank L) {n : Int} (h : L = L1 ++ n :: L2) {s : NState R}
    (hs : NaNAt nxt s n) : NaNAt nxt (L2.foldl (nproc D nxt ind) s) n := by
  have hnd := S.nodup
  rw [h] at hnd
  have hn2 : n ∉ L2 := (List.nodup_cons.1 (List.nodup_append.1 hnd).2.1).1
  obtain ⟨k1, k2⟩ := nproc_kept (D := D) (nxt := nxt) (ind := ind) L2 s
  rcases hs with ⟨h1, h2⟩ | ⟨m, h1, h2⟩
  · exact Or.inl ⟨h1, by rw [k2 n hn2, h2]⟩
  · refine Or.inr ⟨m, h1, ?_⟩
    rw [(k1 m ?_).1, h2]
    intro a ha hc
    have := S.inj a n m hc h1
    exact hn2 (this ▸ ha)

/-- Either nothing is divided by zero in a sweep and both solvers agree, or the state after
the sweep contains a NaN. -/
theorem sweep_clean_or_nan {D : Diagram ℝ} {nxt : Int → Option Int} {rank : Int → Int} {ind : Bool}
    {L : List Int} (S : Sched nxt rank L) (s : EqState ℝ) :
    ((∀ n ∈ L, Clean D nxt ind (stateAt D nxt ind L s n) n) ∧
      L.foldl (nproc D nxt ind) (liftS s) = liftS (L.foldl (proc D nxt ind) s)) ∨
    ((¬ ∀ n ∈ L, Clean D nxt ind (stateAt D nxt ind L s n) n) ∧
      ∃ n ∈ L, NaNAt nxt (L.foldl (nproc D nxt ind) (liftS s)) n) := by
  have key : ∀ L1 L2, L = L1 ++ L2 → (∀ n ∈ L1, Clean D nxt ind (stateAt D nxt ind L s n) n) →
      L1.foldl (nproc D nxt ind) (liftS s) = liftS (L1.foldl (proc D nxt ind) s) := by
    intro L1
    induction L1 using List.reverseRecOn with
    | nil => intro _ _ _; rfl
    | append_singleton L1 n ih =>
      intro L2 h hc
      have hsplit : L = L1 ++ n :: L2 := by simpa using h
      have hst : stateAt D nxt ind L s n = L1.foldl (proc D nxt ind) s := by
        unfold stateAt; rw [takeWhile_of_split S.nodup hsplit]
      rw [List.foldl_append, List.foldl_append, List.foldl_cons, List.foldl_nil, List.foldl_cons,
        List.foldl_nil, ih (n :: L2) hsplit fun a ha => hc a (by simp [ha])]
      apply nproc_clean
      rw [← hst]
      exact hc n (by simp)
  by_cases hall : ∀ n ∈ L, Clean D nxt ind (stateAt D nxt ind L s n) n
  · exact Or.inl ⟨hall, key L [] (by simp) hall⟩
  · refine Or.inr ⟨hall, ?_⟩
    -- the first node with a division by zero
    have hex : ∃ L1 n L2, L = L1 ++ n :: L2 ∧
        (∀ a ∈ L1, Clean D nxt ind (stateAt D nxt ind L s a) a) ∧
        ¬ Clean D nxt ind (stateAt D nxt ind L s n) n := by
      have gen : ∀ l : List Int, (¬ ∀ n ∈ l, Clean D nxt ind (stateAt D nxt ind L s n) n) →
          ∃ L1 n L2, l = L1 ++ n :: L2 ∧
            (∀ a ∈ L1, Clean D nxt ind (stateAt D nxt ind L s a) a) ∧
            ¬ Clean D nxt ind (stateAt D nxt ind L s n) n := by
        intro l
        induction l with
        | nil => intro h; simp at h
        | cons a l ih =>
          intro h
          by_cases ha : Clean D nxt ind (stateAt D nxt ind L s a) a
          · obtain ⟨L1, n, L2, h1, h2, h3⟩ := ih (by
              intro hc; apply h
              intro n hn
              rcases List.mem_cons.1 hn with rfl | hn
              · exact ha
              · exact hc n hn)
            refine ⟨a :: L1, n, L2, by rw [h1]; rfl, ?_, h3⟩
            intro x hx
            rcases List.mem_cons.1 hx with rfl | hx
            · exact ha
            · exact h2 x hx
          · exact ⟨[], a, l, rfl, by simp, ha⟩
      exact gen L hall
    obtain ⟨L1, n, L2, h1, h2, h3⟩ := hex
    refine ⟨n, by rw [h1]; simp, ?_⟩
    have hst : stateAt D nxt ind L s n = L1.foldl (proc D nxt ind) s := by
      unfold stateAt; rw [takeWhile_of_split S.nodup h1]
    have hfold : L.foldl (nproc D nxt ind) (liftS s) =
        L2.foldl (nproc D nxt ind) (nproc D nxt ind (liftS (L1.foldl (proc D nxt ind) s)) n) := by
      conv_lhs => rw [h1]
      rw [List.foldl_append, List.foldl_cons, key L1 (n :: L2) h1 h2]
    rw [hfold]
    apply NaNAt.fold S h1
    apply nproc_nan
    rw [← hst]
    exact h3

/-! ## The form -/

theorem coords_some (v : Vec R) : NVec.coords (some v) = ⟨some v.x, some v.y, some v.z⟩ := rfl

theorem foldl_modify_num {K V W A B : Type} [DecidableEq K] (f : V → W) (h : A → B)
    (g : A → V → V) (g' : B → W → W) (hg : ∀ a v, g' (h a) (f v) = f (g a v)) (l : Dict K A)
    (d : Dict K V) :
    (mapVal h l).foldl (fun ns p => ns.modify p.1 (g' p.2)) (mapVal f d) =
      mapVal f (l.foldl (fun ns p => ns.modify p.1 (g p.2)) d) := by
  induction l generalizing d with
  | nil => rfl
  | cons p l ih =>
    have hc : mapVal h (p :: l) = (p.1, h p.2) :: mapVal h l := rfl
    rw [hc, List.foldl_cons, List.foldl_cons, mapVal_modify f d p.1 (g p.2) (g' (h p.2)) (hg p.2)]
    exact ih _

/-- Without NaN the two form updates agree. -/
theorem npFormUpdate_lift {F : Diagram R} (w : WF F) {s : EqState R}
    (hx : s.xyz.keys = F.nodes.keys) (hr : s.reactions.keys.Nodup) :
    npFormUpdate F.num (liftS s) = (formUpdate F s).num := by
  have hn1 := foldl_modify_num (K := Int) (NodeData.num (R := R)) (some : Vec R → NVec R)
    (fun p d => { d with pos := p }) (fun p d => { d with pos := NVec.coords p }) (fun _ _ => rfl)
    s.xyz F.nodes
  have hn2 := foldl_modify_num (K := Int) (NodeData.num (R := R)) (some : Vec R → NVec R)
    (fun p d => { d with reaction := p }) (fun p d => { d with reaction := NVec.coords p })
    (fun _ _ => rfl) s.reactions (updateCoords F.nodes s.xyz)
  have he := foldl_modify_num (K := Int × Int) (EdgeData.num (R := R)) (some : R → Num R)
    (fun f d => { d with force := f }) (fun f d => { d with force := f })
    (fun _ _ => rfl) s.trailForces F.edges
  unfold npFormUpdate
  have hN : F.num.nodes = mapVal NodeData.num F.nodes := rfl
  have hE : F.num.edges = mapVal EdgeData.num F.edges := rfl
  simp only [liftS, hN, hE]
  rw [hn1]
  have hn2' : (mapVal some s.reactions).foldl
      (fun ns p => Dict.modify ns p.1 fun d => { d with reaction := NVec.coords p.2 })
      (mapVal NodeData.num (s.xyz.foldl (fun ns p => Dict.modify ns p.1 fun d => { d with pos := p.2 })
        F.nodes)) = mapVal NodeData.num (formUpdate F s).nodes := hn2
  rw [hn2', he]
  have hed : List.map (fun p : (Int × Int) × EdgeData (Num R) =>
        (p.1, npSignedLength (mapVal some s.xyz) p.1 p.2))
      (mapVal EdgeData.num (updateForces F.edges s.trailForces)) =
      mapVal EdgeData.num (formUpdate F s).edges := by
    unfold formUpdate mapVal
    simp only [List.map_map]
    apply List.map_congr_left
    rintro ⟨e, d⟩ hmem
    simp only [Function.comp, Prod.mk.injEq, true_and]
    have hek : e ∈ F.edges.keys := by
      have : e ∈ (updateForces F.edges s.trailForces).keys := Dict.mem_keys_of_mem hmem
      unfold updateForces at this
      rwa [keys_foldl_modify (fun w (d : EdgeData R) => { d with force := w })] at this
    have h1 : ∀ n ∈ F.nodes.keys, ∃ d, (updateReactions (updateCoords F.nodes s.xyz) s.reactions).get? n =
        some d ∧ d.pos = s.pos n := by
      intro n hn
      obtain ⟨d0, hd0⟩ := (Dict.exists_get?_iff _ _).2 hn
      have := formNodes_get? F s hx w.nodesNodup hr n
      rw [hd0] at this
      exact ⟨_, this, rfl⟩
    have h2 : ∀ n ∈ F.nodes.keys, Dict.get? (mapVal some s.xyz) n = some (some (s.pos n)) := by
      intro n hn
      obtain ⟨v, hv⟩ := (Dict.exists_get?_iff s.xyz n).2 (by rw [hx]; exact hn)
      rw [mapVal_get?, hv]
      simp [EqState.pos, hv]
    obtain ⟨a, ha, hap⟩ := h1 e.1 (w.edge_left _ hek)
    obtain ⟨b, hb, hbp⟩ := h1 e.2 (w.edge_right _ hek)
    have g1 := h2 e.1 (w.edge_left _ hek)
    have g2 := h2 e.2 (w.edge_right _ hek)
    unfold mapVal at g1 g2
    unfold npSignedLength signedLength
    rw [g1, g2, ha, hb, ← hap, ← hbp]
    rfl
  have hup : (updateForces F.edges s.trailForces) =
    s.trailForces.foldl (fun es p => es.modify p.1 fun d => { d with force := p.2 }) F.edges := rfl
  rw [← hup, hed]
  rfl

/-! ## The distance -/

theorem npDistance_lift (last new : Dict Int (Vec ℝ)) (h : ∀ p ∈ new, p.1 ∈ last.keys) :
    npDistance (mapVal some last) (mapVal some new) = some (Real.sqrt
      ((new.map fun p => Vec.dist ((last.get? p.1).getD 0) p.2 ^ 2).sum)) := by
  unfold npDistance
  have key : ∀ (l : Dict Int (Vec ℝ)) (a : ℝ), (∀ p ∈ l, p.1 ∈ last.keys) →
      (mapVal some l).foldl (fun acc p => lift2 (· + ·) acc
        ((lift2 (· - ·) ((Dict.get? (mapVal some last) p.1).getD none) p.2).map
          fun d => Vec.dot d d)) (some a) =
      some (a + (l.map fun p => Vec.dist ((last.get? p.1).getD 0) p.2 ^ 2).sum) := by
    intro l
    induction l with
    | nil => intro a _; simp [mapVal]
    | cons p l ih =>
      intro a hl
      have hc : mapVal some (p :: l) = (p.1, some p.2) :: mapVal some l := rfl
      obtain ⟨v, hv⟩ := (Dict.exists_get?_iff last p.1).2 (hl p (by simp))
      rw [hc, List.foldl_cons]
      have hst : lift2 (· + ·) (some a) ((lift2 (· - ·)
          ((Dict.get? (mapVal some last) p.1).getD none) (some p.2)).map fun d => Vec.dot d d) =
          some (a + Vec.dot (v - p.2) (v - p.2)) := by
        rw [mapVal_get?, hv]; rfl
      have := ih (a + Vec.dot (v - p.2) (v - p.2)) fun q hq => hl q (by simp [hq])
      simp only [hst]
      rw [this, List.map_cons, List.sum_cons, hv]
      simp only [Option.getD_some, Vec.dist, pow_two, Vec.length_sq, add_assoc]
  rw [key new 0 h, zero_add]
  rfl

theorem sqrt_sum_sq_le (l : List ℝ) (h : ∀ x ∈ l, 0 ≤ x) :
    Real.sqrt ((l.map (· ^ 2)).sum) ≤ l.sum := by
  have h0 : 0 ≤ l.sum := List.sum_nonneg h
  apply Real.sqrt_le_iff.2
  refine ⟨h0, ?_⟩
  induction l with
  | nil => simp
  | cons x l ih =>
    have hl : ∀ y ∈ l, 0 ≤ y := fun y hy => h y (by simp [hy])
    have := ih hl (List.sum_nonneg hl)
    have hx := h x (by simp)
    have hs : 0 ≤ l.sum := List.sum_nonneg hl
    rw [List.map_cons, List.sum_cons, List.sum_cons]
    nlinarith [mul_nonneg hx hs]

/-- The change measured by the numpy solver is at most the one measured by the plain one. -/
theorem npDistance_le (last new : Dict Int (Vec ℝ)) (h : ∀ p ∈ new, p.1 ∈ last.keys) :
    ∃ d, npDistance (mapVal some last) (mapVal some new) = some d ∧ 0 ≤ d ∧
      d ≤ residualDistance last new := by
  refine ⟨_, npDistance_lift last new h, Real.sqrt_nonneg _, ?_⟩
  rw [residualDistance_eq]
  have := sqrt_sum_sq_le (new.map fun p => Vec.dist ((last.get? p.1).getD 0) p.2) (by
    intro x hx
    obtain ⟨p, _, rfl⟩ := List.mem_map.1 hx
    exact dist_nonneg _ _)
  rwa [List.map_map] at this

theorem lift2_nan_fold (last : Dict Int (NVec R)) (l : Dict Int (NVec R)) :
    l.foldl (fun acc p => lift2 (· + ·) acc
      ((lift2 (· - ·) ((last.get? p.1).getD none) p.2).map fun d => Vec.dot d d))
      (none : Num R) = none := by
  induction l with
  | nil => rfl
  | cons p l ih => rw [List.foldl_cons, lift2_none_left, ih]

/-- A NaN among the new positions makes the distance NaN. -/
theorem npDistance_nan {last new : Dict Int (NVec R)} {m : Int} (h : new.get? m = some none) :
    npDistance last new = none := by
  unfold npDistance
  have key : ∀ (l : Dict Int (NVec R)) (a : Num R), (m, none) ∈ l →
      l.foldl (fun acc p => lift2 (· + ·) acc
        ((lift2 (· - ·) ((last.get? p.1).getD none) p.2).map fun d => Vec.dot d d)) a = none := by
    intro l
    induction l with
    | nil => intro a h; simp at h
    | cons p l ih =>
      intro a h
      rw [List.foldl_cons]
      rcases List.mem_cons.1 h with h | h
      · rw [← h]
        simp only [lift2_none_right, Option.map_none]
        exact lift2_nan_fold last l
      · exact ih _ h
  rw [key new _ (Dict.mem_of_get? h)]
  rfl

end CEM
