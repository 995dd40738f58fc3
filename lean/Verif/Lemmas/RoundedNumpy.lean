import Verif.Lemmas.Numpy
import Verif.Lemmas.RoundedReturn
import Verif.Model.RoundedNumpy
import Verif.Spec.RoundedNumpy

/-!
# The numpy solver with any arithmetic

As in `Lemmas/Numpy`, for the functions of `Model/RoundedNumpy`.
-/

set_option linter.unusedSectionVars false
set_option linter.unusedSimpArgs false

namespace CEM
open Diagram Spec

section
variable {R : Type} [Field R] [LinearOrder R] [PySqrt R] {A : Arith R} {total : List R → R}

def flDevTermN (A : Arith R) (D : Diagram R) (P : Int → NVec R) (n m : Int) : NVec R :=
  (flNormalizeNumpy A (lift2 A.vsub (P m) (P n))).map (A.vscale (edgeData D n m).force)

def flDevSumN (A : Arith R) (D : Diagram R) (P : Int → NVec R) (n : Int) (l : List Int) (acc : NVec R) : NVec R :=
  l.foldl (fun acc m => lift2 A.vadd acc (flDevTermN A D P n m)) acc

def flOutN (A : Arith R) (D : Diagram R) (ind : Bool) (P : Int → NVec R) (t : NVec R) (n : Int) : NVec R :=
  flNpNodeEquilibrium A t (some (loadOf D n)) (flDevSumN A D P n (dirNbrs D n) (some 0))
    (if ind then flDevSumN A D P n (indNbrs D n) (some 0) else some 0)

/-- The signed length of the trail edge from `n` to `m`. -/
def flLenN (A : Arith R) (D : Diagram R) (n m : Int) (pos r : NVec R) : Num R :=
  flNpEffectiveLength A (edgeData D n m).length (edgeData D n m).plane pos r

/-- Processing one node. -/
def flNproc (A : Arith R) (D : Diagram R) (nxt : Int → Option Int) (ind : Bool) (s : NState R) (n : Int) : NState R :=
  let r := flOutN A D ind s.pos (s.res n) n
  match nxt n with
  | none => { s with reactions := s.reactions.set n r }
  | some m =>
    let l := flLenN A D n m (s.pos n) r
    { s with
      trailDirs := s.trailDirs.set (edgeKey D n m) (flNpDirection A r)
      xyz := s.xyz.set m (lift2 A.vadd (s.pos n) (lift2 A.vscale l (flNpDirection A r)))
      trailForces := s.trailForces.set (edgeKey D n m) (flNpTrailForce A r l)
      residual := s.residual.set m r }

theorem flNpResultant_eq {D : Diagram R} (w : WF D) {tab : NTables R} (G : GoodTab D tab)
    {s : NState R} {n : Int} (hk : s.xyz.keys = D.nodes.keys) (hn : n ∈ D.nodes.keys)
    (l : List Int) (hl : ∀ m ∈ l, m ∈ D.neighbors n) (acc : NVec R) :
    flNpResultant A n s.xyz tab.forces (l.map (edgeKey D n)) acc = .ok (flDevSumN A D s.pos n l acc) := by
  induction l generalizing acc with
  | nil => rfl
  | cons m l ih =>
    have hm := hl m (by simp)
    obtain ⟨a, ha⟩ := (Dict.exists_get?_iff s.xyz m).2 (by rw [hk]; exact (mem_keys_of_nbr w hm).1)
    obtain ⟨b, hb⟩ := (Dict.exists_get?_iff s.xyz n).2 (by rw [hk]; exact hn)
    have ho : (if (edgeKey D n m).1 ≠ n then (edgeKey D n m).1 else (edgeKey D n m).2) = m := by
      rcases edgeKey_ends D n m with e | e
      · rw [e]; simp
      · rw [e]; simp only [ne_eq, ite_not]; split_ifs with h
        · exact h.symm
        · rfl
    have hin : flNpIncoming A n s.xyz (edgeKey D n m) = .ok (flNormalizeNumpy A (lift2 A.vsub a b)) := by
      unfold flNpIncoming
      simp only [ho, Dict.getE, ha, hb]
    rw [List.map_cons, flNpResultant, hin]
    simp only [Dict.getE, G.forces _ _ (edgeKey_mem hm)]
    rw [ih fun x hx => hl x (by simp [hx])]
    simp only [flDevSumN, List.foldl_cons, flDevTermN, NState.pos, ha, hb, Option.getD_some]

theorem GoodNState.flStepped {D : Diagram R} (w : WF D) (V : ValidTrails D) {ind : Bool} {s : NState R}
    (h : GoodNState D s) (n : Int) : GoodNState D (flNproc A D (nxtK D none) ind s n) := by
  unfold flNproc
  cases hn : nxtK D none n with
  | none => exact h
  | some m =>
    have := (nxtK_mem w V hn).1
    exact ⟨(Dict.keys_set_of_mem _ (by rw [h.1]; exact this)).trans h.1,
      (Dict.keys_set_of_mem _ (by rw [h.2]; exact this)).trans h.2⟩

theorem flNpStep_eq {D : Diagram R} (w : WF D) (V : ValidTrails D) (g : SimpleGraph D) {T : Dict Int (Dict Int Int)}
    (hT : GoodSeqs D T) {tab : NTables R} (G : GoodTab D tab) (ind : Bool) (k : Int) {s : NState R}
    (hg : GoodNState D s) {key : Int} (hkey : key ∈ D.trails.keys) :
    flNpStep A D tab T ind k s key = .ok (match (T.get? key).bind (·.get? k) with
      | none => s
      | some n => flNproc A D (nxtK D none) ind s n) := by
  obtain ⟨tr, ht⟩ := Dict.mem_keys_iff.1 hkey
  obtain ⟨m, hm, hspec⟩ := hT key tr ht
  unfold flNpStep
  simp only [Dict.getE, hm, Option.bind_some]
  cases hn : m.get? k with
  | none => rfl
  | some n =>
    obtain ⟨hntr, hseq⟩ := (hspec k n).1 hn
    have hnk := V.mem_keys ht hntr
    obtain ⟨p, hp⟩ := (Dict.exists_get?_iff s.xyz n).2 (by rw [hg.1]; exact hnk)
    obtain ⟨r, hr⟩ := (Dict.exists_get?_iff s.residual n).2 (by rw [hg.2]; exact hnk)
    have hpos : s.pos n = p := by simp [NState.pos, hp]
    have hres : s.res n = r := by simp [NState.res, hr]
    simp only [hp, hr, G.loads n hnk, G.direct n hnk]
    rw [flNpResultant_eq w G hg.1 hnk (dirNbrs D n) (fun m hm => (List.mem_filter.1 hm).1)]
    have hind : flNpIndirect A tab ind n s.xyz =
        .ok (if ind then flDevSumN A D s.pos n (indNbrs D n) (some 0) else some 0) := by
      unfold flNpIndirect
      cases ind
      · rfl
      · simp only [if_true, Dict.getE, G.indirect n hnk]
        exact flNpResultant_eq w G hg.1 hnk (indNbrs D n) (fun m hm => (List.mem_filter.1 hm).1) _
    simp only [hind]
    have hsup : D.isNodeSupport n = .ok (decide (typeOf D n = some .support)) := by
      obtain ⟨d, hd⟩ := (Dict.exists_get?_iff _ _).2 hnk
      simp [isNodeSupport, typeOf, hd]
    simp only [hsup, decide_eq_true_eq]
    by_cases hstop : typeOf D n = some .support
    · have hx : nxtK D none n = none := by
        unfold nxtK
        rw [if_pos (Or.inl hstop)]
      rw [if_pos hstop]
      simp only [flNproc, hx, flOutN, hres]
    · rw [if_neg hstop]
      obtain ⟨n', hn'⟩ := trailNext_isSome w V hnk hstop
      have hx : nxtK D none n = some n' := by
        unfold nxtK
        rw [if_neg, hn']
        rintro (h | ⟨h1, h2⟩)
        · exact hstop h
        · simp at h1
      obtain ⟨key', tr', ht', hc⟩ := (trailNext_iff w V).1 hn'
      have he := V.unique w ht ht' hntr hc.mem_left
      obtain ⟨rfl, rfl⟩ := Prod.mk.inj he
      obtain ⟨j, _, hj1, hj2⟩ := seqOf_next V ht hc
      rw [hseq] at hj1
      obtain rfl := Option.some.inj hj1
      have hnext : m.get? (k + 1) = some n' := (hspec _ _).2 ⟨hc.mem_right, hj2⟩
      have hadj := trailNext_adj w V hn'
      have hed := edgeKey_mem (adj_mem_neighbors hadj)
      have hkk : (if (n, n') ∈ tab.edgeKeys then (n, n') else (n', n)) = edgeKey D n n' := by
        unfold edgeKey
        simp only [G.edgeKeys]
      have htt := edgeData_trail' w V g hn'
      simp only [hnext, hkk, G.lengths _ _ hed, G.planes _ _ hed htt]
      simp only [flNproc, hx, hres, hpos, flLenN]
      rfl

theorem GoodNState.flFold {D : Diagram R} (w : WF D) (V : ValidTrails D) {ind : Bool} {s : NState R}
    (h : GoodNState D s) (l : List Int) :
    GoodNState D (l.foldl (flNproc A D (nxtK D none) ind) s) := by
  induction l generalizing s with
  | nil => exact h
  | cons n l ih => exact ih (h.flStepped w V n)

theorem flNpSweep_eq {D : Diagram R} (w : WF D) (V : ValidTrails D) (g : SimpleGraph D)
    {T : Dict Int (Dict Int Int)} (hT : GoodSeqs D T) {tab : NTables R} (G : GoodTab D tab)
    (ind : Bool) (N : Int) {s : NState R} (hg : GoodNState D s) :
    flNpSweep A D tab T ind N s = .ok ((sched D T N).foldl (flNproc A D (nxtK D none) ind) s) := by
  have inner : ∀ (k : Int) (s : NState R), GoodNState D s →
      forE (flNpStep A D tab T ind k) D.trails.keys s =
        .ok ((level D T k).foldl (flNproc A D (nxtK D none) ind) s) := by
    intro k s hs
    have := (forE_ok (f := flNpStep A D tab T ind k) (l := D.trails.keys)
      (g := fun s key => match (T.get? key).bind (·.get? k) with
        | none => s
        | some n => flNproc A D (nxtK D none) ind s n) (Inv := GoodNState D) hs
      (fun s key h hk => flNpStep_eq w V g hT G ind k h hk)
      (by
        intro s key h _
        split
        · exact h
        · exact h.flStepped w V _)).1
    rw [this, level, List.foldl_filterMap]
    congr 2
    funext s key
    cases (T.get? key).bind (·.get? k) <;> rfl
  unfold flNpSweep
  have := (forE_ok (f := fun s k => forE (flNpStep A D tab T ind k) D.trails.keys s) (l := pyRange N)
    (g := fun s k => (level D T k).foldl (flNproc A D (nxtK D none) ind) s) (Inv := GoodNState D) hg
    (fun s k h _ => inner k s h) (fun s k h _ => h.flFold w V _)).1
  rw [this, sched, List.foldl_flatMap]

/-! ## The loop -/

/-- The iterates of the rounded numpy solver for a schedule. -/
def flNIter (A : Arith R) (D : Diagram R) (L : List Int) : Nat → NState R
  | 0 => npInit D
  | m + 1 => L.foldl (flNproc A D (nxtK D none) (m > 0)) (flNIter A D L m)

/-- The change in sweep `m`. -/
def flNDist (A : Arith R) (total : List R → R) (D : Diagram R) (L : List Int) (m : Nat) : Num R :=
  flNpDistance A total (flNIter A D L (m - 1)).xyz (flNIter A D L m).xyz

theorem goodFlNState_iter {D : Diagram R} (w : WF D) (V : ValidTrails D) (L : List Int) (m : Nat) :
    GoodNState D (flNIter A D L m) := by
  induction m with
  | zero => exact ⟨keys_map_val D.nodes (fun d => some d.pos),
    keys_map_val D.nodes (fun d => some d.reaction)⟩
  | succ m ih => exact ih.flFold w V L

theorem flNpLoop_eq {D : Diagram R} (w : WF D) (V : ValidTrails D) (g : SimpleGraph D)
    {T : Dict Int (Dict Int Int)} (hT : GoodSeqs D T) {tab : NTables R} (G : GoodTab D tab)
    (N : Int) (eta : R) (fuel t : Nat) (info : Option (NLoopInfo R)) :
    ∃ m, t ≤ m ∧ m ≤ t + fuel ∧
      (∀ j, t < j → 2 ≤ j → j < m → ¬ (flNDist A total D (sched D T N) j).lt eta = true) ∧
      ((t < m ∧ 2 ≤ m ∧ (flNDist A total D (sched D T N) m).lt eta = true) ∨ m = t + fuel) ∧
      flNpLoop A total D tab T eta N fuel t (flNIter A D (sched D T N) t) info =
        .ok (flNIter A D (sched D T N) m, if m = t then info else if m = 1 then some ⟨0, none⟩
          else some ⟨m - 1, some (flNDist A total D (sched D T N) m)⟩) := by
  induction fuel generalizing t info with
  | zero =>
    refine ⟨t, le_rfl, by simp, ?_, Or.inr (by simp), by simp [flNpLoop]⟩
    intro j h1 _ h2; omega
  | succ fuel ih =>
    have hsw : flNpSweep A D tab T (t > 0) N (flNIter A D (sched D T N) t) =
        .ok (flNIter A D (sched D T N) (t + 1)) :=
      flNpSweep_eq w V g hT G _ N (goodFlNState_iter w V _ t)
    rw [flNpLoop, hsw]
    simp only
    by_cases ht : t = 0
    · subst ht
      rw [if_pos rfl]
      obtain ⟨m, h1, h2, h3, h4, h5⟩ := ih 1 (some ⟨0, none⟩)
      refine ⟨m, by omega, by omega, ?_, ?_, ?_⟩
      · intro j hj1 hj2 hj3; exact h3 j (by omega) hj2 hj3
      · rcases h4 with ⟨h4, h6⟩ | h4
        · exact Or.inl ⟨by omega, h6⟩
        · exact Or.inr (by omega)
      · rw [h5, if_neg (by omega : m ≠ 0)]
        by_cases hm : m = 1 <;> simp [hm]
    · rw [if_neg ht]
      have hd : flNpDistance A total (flNIter A D (sched D T N) t).xyz (flNIter A D (sched D T N) (t + 1)).xyz =
          flNDist A total D (sched D T N) (t + 1) := rfl
      rw [hd]
      by_cases hlt : (flNDist A total D (sched D T N) (t + 1)).lt eta = true
      · rw [if_pos hlt]
        refine ⟨t + 1, by omega, by omega, ?_, Or.inl ⟨by omega, by omega, hlt⟩, ?_⟩
        · intro j h1 _ h2; omega
        · rw [if_neg (by omega), if_neg (by omega)]; rfl
      · rw [if_neg hlt]
        obtain ⟨m, h1, h2, h3, h4, h5⟩ := ih (t + 1) (some ⟨t, some (flNDist A total D (sched D T N) (t + 1))⟩)
        refine ⟨m, by omega, by omega, ?_, ?_, ?_⟩
        · intro j hj1 hj2 hj3
          rcases Nat.lt_or_ge (t + 1) j with hj | hj
          · exact h3 j hj hj2 hj3
          · obtain rfl : j = t + 1 := by omega
            exact hlt
        · rcases h4 with ⟨h4, h6⟩ | h4
          · exact Or.inl ⟨by omega, h6⟩
          · exact Or.inr (by omega)
        · rw [h5, if_neg (by omega : m ≠ t)]
          by_cases hm : m = t + 1
          · subst hm
            rw [if_pos rfl, if_neg (by omega)]
            rfl
          · rw [if_neg hm]

/-- The result of `equilibrium_state_numpy` on a valid diagram in terms of the iterates. -/
theorem flNpEquilibriumState_cases {D : Diagram R} (I : ValidInput D)
    {T : Dict Int (Dict Int Int)} {N : Int} (hTs : D.trailsSequences = .ok T)
    (hN : D.numberOfSequences = .ok N) (hT : GoodSeqs D T)
    (tmax : Nat) (eta : R) (verbose : Bool) :
    (tmax = 0 → flNpEquilibriumState A total D tmax eta verbose = .error .unboundLocal) ∧
    (tmax = 1 → flNpEquilibriumState A total D tmax eta verbose =
      if verbose then .error .unboundLocal else .ok (flNIter A D (sched D T N) 1)) ∧
    (2 ≤ tmax → ∃ m, 2 ≤ m ∧ m ≤ tmax ∧
      (∀ j, 2 ≤ j → j < m → ¬ (flNDist A total D (sched D T N) j).lt eta = true) ∧
      ((flNDist A total D (sched D T N) m).lt eta = true ∨ m = tmax) ∧
      flNpEquilibriumState A total D tmax eta verbose =
        if (flNDist A total D (sched D T N) m).gt eta then .error .valueError
        else .ok (flNIter A D (sched D T N) m)) := by
  have hnum : D.numberOfTrails ≠ 0 := by
    unfold numberOfTrails
    have := I.nonempty
    simpa [Dict.vals] using this
  have hs : ∀ n ∈ D.nodes.keys, ∃ k, seqOf D n = some k := fun n hn =>
    let ⟨k, h, _⟩ := allSequenced_of_valid I.trails n hn; ⟨k, h⟩
  obtain ⟨tab, htab, G⟩ := npTables_ok I.wf hs
  have hunf : flNpEquilibriumState A total D tmax eta verbose =
      if tmax = 0 then .error .unboundLocal else
      match flNpLoop A total D tab T eta N tmax 0 (npInit D) none with
      | .error err => .error err
      | .ok r => npFinish eta verbose r := by
    unfold flNpEquilibriumState
    rw [if_neg hnum, hTs, htab, hN]
    try rfl
  rw [hunf]
  obtain ⟨m, _, h2, h3, h4, h5⟩ := flNpLoop_eq (A := A) (total := total) I.wf I.trails I.simple hT G N eta tmax 0 none
  have h5' : flNpLoop A total D tab T eta N tmax 0 (npInit D) none = _ := h5
  rw [h5']
  simp only
  refine ⟨fun h => by rw [if_pos h], fun h => ?_, fun h => ?_⟩
  · subst h
    have hm : m = 1 := by omega
    subst hm
    rw [if_neg (by omega), if_neg (by omega), if_pos rfl]
    cases verbose <;> simp [npFinish]
  · have hm : 2 ≤ m := by omega
    rw [if_neg (by omega), if_neg (by omega), if_neg (by omega)]
    refine ⟨m, hm, by omega, fun j hj1 hj2 => h3 j (by omega) hj1 hj2, ?_, ?_⟩
    · rcases h4 with h4 | h4
      · exact Or.inl h4.2.2
      · exact Or.inr (by omega)
    · have : m - 1 > 0 := by omega
      simp only [npFinish, if_pos this]

end

/-! ## NaN or the number of the plain solver -/

/-- NaN or the number `b`. -/
def Below {α : Type} (a : Option α) (b : α) : Prop := a = none ∨ a = some b

theorem Below.map {α β : Type} {a : Option α} {b : α} (h : Below a b) (f : α → β) : Below (a.map f) (f b) := by
  rcases h with rfl | rfl
  · exact Or.inl rfl
  · exact Or.inr rfl

theorem Below.lift2 {α β γ : Type} {a : Option α} {b : α} {c : Option β} {d : β} (h : Below a b) (h' : Below c d)
    (f : α → β → γ) : Below (lift2 f a c) (f b d) := by
  rcases h with rfl | rfl
  · exact Or.inl (lift2_none_left _ _)
  · rcases h' with rfl | rfl
    · exact Or.inl rfl
    · exact Or.inr rfl

/-- The same keys in the same order, with values that are NaN or the same. -/
def BelowD {K V : Type} (s : Dict K (Option V)) (t : Dict K V) : Prop :=
  List.Forall₂ (fun p q => p.1 = q.1 ∧ Below p.2 q.2) s t

namespace BelowD
variable {K V : Type} [DecidableEq K] {s : Dict K (Option V)} {t : Dict K V}

theorem get? (h : BelowD s t) (k : K) :
    (s.get? k = none ∧ t.get? k = none) ∨ ∃ a b, s.get? k = some a ∧ t.get? k = some b ∧ Below a b := by
  induction h with
  | nil => exact Or.inl ⟨rfl, rfl⟩
  | @cons p q s t hp _ ih =>
    obtain ⟨h1, h2⟩ := hp
    by_cases hk : p.1 = k
    · refine Or.inr ⟨p.2, q.2, ?_, ?_, h2⟩
      · unfold Dict.get?; rw [if_pos hk]
      · unfold Dict.get?; rw [if_pos (h1 ▸ hk)]
    · have e1 : Dict.get? (p :: s) k = Dict.get? s k := by conv_lhs => unfold Dict.get?; rw [if_neg hk]
      have e2 : Dict.get? (q :: t) k = Dict.get? t k := by
        conv_lhs => unfold Dict.get?; rw [if_neg (h1 ▸ hk)]
      rw [e1, e2]
      exact ih

theorem set (h : BelowD s t) (k : K) {a : Option V} {b : V} (hab : Below a b) :
    BelowD (s.set k a) (t.set k b) := by
  induction h with
  | nil => exact List.Forall₂.cons ⟨rfl, hab⟩ List.Forall₂.nil
  | @cons p q s t hp hl ih =>
    obtain ⟨h1, h2⟩ := hp
    by_cases hk : p.1 = k
    · have e1 : Dict.set (p :: s) k a = (p.1, a) :: s := by unfold Dict.set; rw [if_pos hk]
      have e2 : Dict.set (q :: t) k b = (q.1, b) :: t := by unfold Dict.set; rw [if_pos (h1 ▸ hk)]
      rw [e1, e2]
      exact List.Forall₂.cons ⟨h1, hab⟩ hl
    · have e1 : Dict.set (p :: s) k a = p :: Dict.set s k a := by
        conv_lhs => unfold Dict.set; rw [if_neg hk]
      have e2 : Dict.set (q :: t) k b = q :: Dict.set t k b := by
        conv_lhs => unfold Dict.set; rw [if_neg (h1 ▸ hk)]
      rw [e1, e2]
      exact List.Forall₂.cons ⟨h1, h2⟩ ih

theorem lift (t : Dict K V) : BelowD (mapVal some t) t := by
  induction t with
  | nil => exact List.Forall₂.nil
  | cons p t ih => exact List.Forall₂.cons ⟨rfl, Or.inr rfl⟩ ih

theorem keys (h : BelowD s t) : s.keys = t.keys := by
  induction h with
  | nil => rfl
  | @cons p q s t hp _ ih =>
    show p.1 :: Dict.keys s = q.1 :: Dict.keys t
    rw [ih, hp.1]

/-- Without NaN all values are the same. -/
theorem eq_lift (h : BelowD s t) (hn : t.keys.Nodup) (hs : ∀ k, s.get? k ≠ some none) : s = mapVal some t := by
  apply Dict.ext_get?
  · rw [h.keys]; exact hn
  · rw [h.keys, mapVal_keys]
  · intro k _
    rw [mapVal_get?]
    rcases h.get? k with ⟨h1, h2⟩ | ⟨a, b, h1, h2, h3⟩
    · rw [h1, h2]; rfl
    · rcases h3 with rfl | rfl
      · exact absurd h1 (hs k)
      · rw [h1, h2]; rfl

end BelowD

section
variable {R : Type} [Field R] [LinearOrder R] [PySqrt R] {A : Arith R}

theorem flNormalizeNumpy_some (v : Vec R) :
    flNormalizeNumpy A (some v) = if A.vlength v = 0 then none else some (A.vnormalize v) := by
  unfold flNormalizeNumpy Arith.vnormalize
  simp only
  split_ifs <;> rfl

theorem flNormalizeNumpy_below {a : NVec R} {b : Vec R} (h : Below a b) :
    Below (flNormalizeNumpy A a) (A.vnormalize b) := by
  rcases h with rfl | rfl
  · exact Or.inl rfl
  · rw [flNormalizeNumpy_some]
    split_ifs
    · exact Or.inl rfl
    · exact Or.inr rfl

theorem flDevSumN_below {D : Diagram R} {P : Int → NVec R} {p : Int → Vec R} (h : ∀ x, Below (P x) (p x)) (n : Int)
    (l : List Int) {a : NVec R} {b : Vec R} (hab : Below a b) :
    Below (flDevSumN A D P n l a) (flDevSum A D p n l b) := by
  induction l generalizing a b with
  | nil => exact hab
  | cons m l ih =>
    unfold flDevSumN flDevSum at ih ⊢
    rw [List.foldl_cons, List.foldl_cons]
    exact ih (hab.lift2 ((flNormalizeNumpy_below ((h m).lift2 (h n) A.vsub)).map _) A.vadd)

theorem vadd_zero_left (hz : ∀ x, A.add 0 x = x) (v : Vec R) : A.vadd 0 v = v := by
  unfold Arith.vadd
  ext <;> simp only [Vec.zero_x, Vec.zero_y, Vec.zero_z, hz]

theorem flOutN_below (hz : ∀ x, A.add 0 x = x) {D : Diagram R} {ind : Bool} {P : Int → NVec R} {p : Int → Vec R}
    (h : ∀ x, Below (P x) (p x)) {t : NVec R} {t' : Vec R} (ht : Below t t') (n : Int) :
    Below (flOutN A D ind P t n) (flOut A D ind p t' n) := by
  unfold flOutN flOut flNpNodeEquilibrium flTrailVectorOut
  rw [vadd_zero_left hz]
  refine Below.map (Below.lift2 (Below.lift2 (Below.lift2 (ht.map _) (Or.inr rfl) _)
    (flDevSumN_below h n _ (Or.inr rfl)) _) ?_ _) _
  cases ind
  · exact Or.inr rfl
  · exact flDevSumN_below h n _ (Or.inr rfl)

theorem flNpDirection_some (r : Vec R) : flNpDirection A (some r) = some (A.vnormalize r) := by
  unfold flNpDirection
  rw [flNormalizeNumpy_some]
  by_cases h : A.vlength r = 0
  · rw [if_pos h]; simp [Arith.vnormalize, h]
  · rw [if_neg h]

theorem flLenN_below (D : Diagram R) (n m : Int) {a : NVec R} {p : Vec R} (hp : Below a p) {b : NVec R} {r : Vec R}
    (hr : Below b r) : Below (flLenN A D n m a b) (flEffectiveLength A (edgeData D n m) p r) := by
  unfold flLenN flNpEffectiveLength flEffectiveLength
  cases (edgeData D n m).plane with
  | none => exact Or.inr rfl
  | some pl =>
    simp only [flNpPlaneLength, flPlaneLength]
    rcases flNormalizeNumpy_below (A := A) hr with h | h
    · rw [h]; exact Or.inl rfl
    · rw [h]
      simp only
      by_cases h1 : |A.vdot pl.2 (A.vnormalize r)| < planeTol
      · simp only [if_pos h1]; exact Or.inr rfl
      · simp only [if_neg h1]
        rcases hp with rfl | rfl
        · exact Or.inl rfl
        · right
          simp only [Option.map_some]
          split_ifs <;> rfl

end

/-- The rounded plain solver reaches `t`, the rounded numpy solver `s`: every number of `s` is the one of `t` or
is the result of a division by zero. -/
structure NBelow (D : Diagram ℝ) (nxt : Int → Option Int) (s : NState ℝ) (t : EqState ℝ) : Prop where
  xyz : BelowD s.xyz t.xyz
  residual : BelowD s.residual t.residual
  reactions : BelowD s.reactions t.reactions
  resNaN : ∀ m, s.residual.get? m = some none → s.xyz.get? m = some none
  forceKeys : s.trailForces.keys = t.trailForces.keys
  dirKeys : s.trailDirs.keys = t.trailDirs.keys
  forceNodup : t.trailForces.keys.Nodup
  dirNodup : t.trailDirs.keys.Nodup
  reactNodup : t.reactions.keys.Nodup
  edges : ∀ e, (s.trailForces.get? e = (t.trailForces.get? e).map some ∧
      s.trailDirs.get? e = (t.trailDirs.get? e).map some) ∨
    ∃ n m, nxt n = some m ∧ edgeKey D n m = e ∧ s.xyz.get? m = some none

variable {A : Arith ℝ} {u : ℝ}

theorem mul_neg_iff (H : Precise A u) (hu : u ≤ 1 / 100) (a b : ℝ) : A.mul a b < 0 ↔ a * b < 0 := by
  have h := H.mul a b
  have h0 := H.nonneg
  constructor
  · intro hm
    by_contra hc
    push Not at hc
    rw [abs_of_nonneg hc, abs_le] at h
    nlinarith [h.1]
  · intro hm
    rw [abs_of_neg hm, abs_le] at h
    nlinarith [h.2]

theorem flNpTrailForce_some (H : Precise A u) (hu : u ≤ 1 / 100) (r : Vec ℝ) (l : ℝ) :
    flNpTrailForce A (some r) (some l) = some (copysign (A.vlength r) l) := by
  have h0 := vlength_nonneg H hu r
  unfold flNpTrailForce copysign
  simp only [Option.map_some, mul_neg_iff H hu]
  by_cases hl : l < 0
  · rw [if_pos hl]
    by_cases hr : A.vlength r * l < 0
    · rw [if_pos hr, abs_of_nonneg h0]; simp
    · rw [if_neg hr]
      have : A.vlength r = 0 := by
        by_contra hc
        exact hr (mul_neg_of_pos_of_neg (lt_of_le_of_ne h0 (Ne.symm hc)) hl)
      simp [this]
  · rw [if_neg hl, if_neg, abs_of_nonneg h0]
    push Not at hl ⊢
    exact mul_nonneg h0 hl

theorem NBelow.pos {D : Diagram ℝ} {nxt : Int → Option Int} {s : NState ℝ} {t : EqState ℝ} (h : NBelow D nxt s t)
    (n : Int) : Below (s.pos n) (t.pos n) := by
  unfold NState.pos EqState.pos
  rcases h.xyz.get? n with ⟨h1, h2⟩ | ⟨a, b, h1, h2, h3⟩
  · rw [h1, h2]; exact Or.inr rfl
  · rw [h1, h2]; exact h3

theorem NBelow.res {D : Diagram ℝ} {nxt : Int → Option Int} {s : NState ℝ} {t : EqState ℝ} (h : NBelow D nxt s t)
    (n : Int) : Below (s.res n) (t.res n) := by
  unfold NState.res EqState.res
  rcases h.residual.get? n with ⟨h1, h2⟩ | ⟨a, b, h1, h2, h3⟩
  · rw [h1, h2]; exact Or.inr rfl
  · rw [h1, h2]; exact h3

theorem keys_set_same {K V W : Type} [DecidableEq K] {s : Dict K V} {t : Dict K W} (h : s.keys = t.keys) (k : K)
    (a : V) (b : W) : (s.set k a).keys = (t.set k b).keys := by
  by_cases hk : k ∈ s.keys
  · rw [Dict.keys_set_of_mem _ hk, Dict.keys_set_of_mem _ (h ▸ hk), h]
  · rw [Dict.keys_set_of_not_mem _ hk, Dict.keys_set_of_not_mem _ (h ▸ hk), h]

theorem NBelow.step (H : Precise A u) (hu : u ≤ 1 / 100) (hz : ZeroAdds A) {D : Diagram ℝ}
    {nxt : Int → Option Int} (inj : ∀ a b m, nxt a = some m → nxt b = some m → a = b)
    {s : NState ℝ} {t : EqState ℝ} (h : NBelow D nxt s t) (ind : Bool) (n : Int) :
    NBelow D nxt (flNproc A D nxt ind s n) (flProc A D nxt ind t n) := by
  have hr : Below (flOutN A D ind s.pos (s.res n) n) (flOut A D ind t.pos (t.res n) n) :=
    flOutN_below hz h.pos (h.res n) n
  unfold flNproc flProc
  cases hn : nxt n with
  | none =>
    exact ⟨h.xyz, h.residual, h.reactions.set n hr, h.resNaN, h.forceKeys, h.dirKeys, h.forceNodup, h.dirNodup,
      Dict.nodup_keys_set h.reactNodup, h.edges⟩
  | some m =>
    simp only
    set r := flOutN A D ind s.pos (s.res n) n
    set r' := flOut A D ind t.pos (t.res n) n
    have hl : Below (flLenN A D n m (s.pos n) r) (flEffectiveLength A (edgeData D n m) (t.pos n) r') :=
      flLenN_below D n m (h.pos n) hr
    have hd : Below (flNpDirection A r) (A.vnormalize r') := by
      rcases hr with e | e
      · rw [e]; exact Or.inl rfl
      · rw [e, flNpDirection_some]; exact Or.inr rfl
    have hx := (h.pos n).lift2 (hl.lift2 hd A.vscale) A.vadd
    refine ⟨h.xyz.set m hx, h.residual.set m hr, h.reactions, ?_, keys_set_same h.forceKeys _ _ _,
      keys_set_same h.dirKeys _ _ _, Dict.nodup_keys_set h.forceNodup, Dict.nodup_keys_set h.dirNodup,
      h.reactNodup, ?_⟩
    · intro x hxn
      simp only [Dict.get?_set] at hxn ⊢
      by_cases e : m = x
      · rw [if_pos e] at hxn ⊢
        have : r = none := Option.some.inj hxn
        rw [this]
        have : flNpDirection A (none : NVec ℝ) = none := rfl
        rw [this, lift2_none_right, lift2_none_right]
      · rw [if_neg e] at hxn ⊢
        exact h.resNaN x hxn
    · intro e
      simp only [Dict.get?_set]
      by_cases he : edgeKey D n m = e
      · rw [if_pos he, if_pos he, if_pos he, if_pos he]
        cases hv : lift2 A.vadd (s.pos n) (lift2 A.vscale (flLenN A D n m (s.pos n) r) (flNpDirection A r)) with
        | none => exact Or.inr ⟨n, m, hn, he, by rw [if_pos rfl]⟩
        | some v =>
          left
          have hr1 : r = some r' := by
            rcases hr with e | e
            · rw [e] at hv
              have : flNpDirection A (none : NVec ℝ) = none := rfl
              rw [this, lift2_none_right, lift2_none_right] at hv
              simp at hv
            · exact e
          have hl1 : flLenN A D n m (s.pos n) r =
              some (flEffectiveLength A (edgeData D n m) (t.pos n) r') := by
            rcases hl with e | e
            · rw [e, lift2_none_left, lift2_none_right] at hv
              simp at hv
            · exact e
          rw [hl1, hr1, flNpTrailForce_some H hu, flNpDirection_some]
          exact ⟨rfl, rfl⟩
      · rw [if_neg he, if_neg he, if_neg he, if_neg he]
        rcases h.edges e with h1 | ⟨a, b, h1, h2, h3⟩
        · exact Or.inl h1
        · refine Or.inr ⟨a, b, h1, h2, ?_⟩
          have : m ≠ b := by
            rintro rfl
            have := inj a n m h1 hn
            subst this
            exact he h2
          rw [if_neg this]
          exact h3

theorem NBelow.fold (H : Precise A u) (hu : u ≤ 1 / 100) (hz : ZeroAdds A) {D : Diagram ℝ}
    {nxt : Int → Option Int} (inj : ∀ a b m, nxt a = some m → nxt b = some m → a = b)
    (ind : Bool) (L : List Int) {s : NState ℝ} {t : EqState ℝ} (h : NBelow D nxt s t) :
    NBelow D nxt (L.foldl (flNproc A D nxt ind) s) (L.foldl (flProc A D nxt ind) t) := by
  induction L generalizing s t with
  | nil => exact h
  | cons n L ih => exact ih (h.step H hu hz inj ind n)

theorem NBelow.iter (H : Precise A u) (hu : u ≤ 1 / 100) (hz : ZeroAdds A) {D : Diagram ℝ} {L : List Int}
    (G : GoodSched D none L) (m : Nat) :
    NBelow D (nxtK D none) (flNIter A D L m) (flIter A D none L m) := by
  induction m with
  | zero =>
    have e : flNIter A D L 0 = liftS (initState D) := (liftS_init D).symm
    rw [e]
    refine ⟨BelowD.lift _, BelowD.lift _, BelowD.lift _, ?_, rfl, rfl, List.nodup_nil, List.nodup_nil,
      List.nodup_nil, fun e => Or.inl ⟨rfl, rfl⟩⟩
    intro m hm
    unfold liftS at hm
    simp only [mapVal_get?] at hm
    cases hx : (initState D).residual.get? m <;> rw [hx] at hm <;> simp at hm
  | succ m ih =>
    rw [flNIter, flIter]
    have hb : decide (m > 0) = decide (m ≠ 0) := by
      simp only [gt_iff_lt, ne_eq, Nat.pos_iff_ne_zero]
    rw [hb]
    exact ih.fold H hu hz G.sched.inj _ L

/-- A state without NaN is the one of the plain solver. -/
theorem NBelow.eq_lift {D : Diagram ℝ} {nxt : Int → Option Int} {s : NState ℝ} {t : EqState ℝ}
    (h : NBelow D nxt s t) (hx : t.xyz.keys.Nodup) (hres : t.residual.keys.Nodup) (hn : NoNaN s) :
    s = liftS t := by
  have e : ∀ e, s.trailForces.get? e = (t.trailForces.get? e).map some ∧
      s.trailDirs.get? e = (t.trailDirs.get? e).map some := by
    intro e
    rcases h.edges e with h1 | ⟨_, m, _, _, h3⟩
    · exact h1
    · exact absurd h3 (hn.1 m)
  obtain ⟨s1, s2, s3, s4, s5⟩ := s
  simp only [liftS, NState.mk.injEq]
  refine ⟨h.xyz.eq_lift hx hn.1, h.residual.eq_lift hres fun k hk => hn.1 k (h.resNaN k hk), ?_, ?_,
    h.reactions.eq_lift h.reactNodup hn.2⟩
  · apply Dict.ext_get?
    · rw [h.forceKeys]; exact h.forceNodup
    · rw [h.forceKeys, mapVal_keys]
    · intro k _; rw [mapVal_get?]; exact (e k).1
  · apply Dict.ext_get?
    · rw [h.dirKeys]; exact h.dirNodup
    · rw [h.dirKeys, mapVal_keys]
    · intro k _; rw [mapVal_get?]; exact (e k).2

theorem flNIter_eq (H : Precise A u) (hu : u ≤ 1 / 100) (hz : ZeroAdds A) {D : Diagram ℝ} (I : ValidInput D)
    {L : List Int} (G : GoodSched D none L) {m : Nat} (hn : NoNaN (flNIter A D L m)) :
    flNIter A D L m = liftS (flIter A D none L m) := by
  have g := fl_goodState_iter (A := A) I.wf I.trails none L m
  exact (NBelow.iter H hu hz G m).eq_lift (by rw [g.1]; exact I.wf.nodesNodup)
    (by rw [g.2]; exact I.wf.nodesNodup) hn

/-! ## The form -/

/-- Without NaN the two form updates agree. -/
theorem flNpFormUpdate_lift {F : Diagram ℝ} (w : WF F) {s : EqState ℝ}
    (hx : s.xyz.keys = F.nodes.keys) (hr : s.reactions.keys.Nodup) :
    flNpFormUpdate A F.num (liftS s) = (flFormUpdate A F s).num := by
  have hn1 := foldl_modify_num (K := Int) (NodeData.num (R := ℝ)) (some : Vec ℝ → NVec ℝ)
    (fun p d => { d with pos := p }) (fun p d => { d with pos := NVec.coords p }) (fun _ _ => rfl)
    s.xyz F.nodes
  have hn2 := foldl_modify_num (K := Int) (NodeData.num (R := ℝ)) (some : Vec ℝ → NVec ℝ)
    (fun p d => { d with reaction := p }) (fun p d => { d with reaction := NVec.coords p })
    (fun _ _ => rfl) s.reactions (updateCoords F.nodes s.xyz)
  have he := foldl_modify_num (K := Int × Int) (EdgeData.num (R := ℝ)) (some : ℝ → Num ℝ)
    (fun f d => { d with force := f }) (fun f d => { d with force := f })
    (fun _ _ => rfl) s.trailForces F.edges
  unfold flNpFormUpdate
  have hN : F.num.nodes = mapVal NodeData.num F.nodes := rfl
  have hE : F.num.edges = mapVal EdgeData.num F.edges := rfl
  simp only [liftS, hN, hE]
  rw [hn1]
  have hn2' : (mapVal some s.reactions).foldl
      (fun ns p => Dict.modify ns p.1 fun d => { d with reaction := NVec.coords p.2 })
      (mapVal NodeData.num (s.xyz.foldl (fun ns p => Dict.modify ns p.1 fun d => { d with pos := p.2 })
        F.nodes)) = mapVal NodeData.num (flFormUpdate A F s).nodes := hn2
  rw [hn2', he]
  have hed : List.map (fun p : (Int × Int) × EdgeData (Num ℝ) =>
        (p.1, flNpSignedLength A (mapVal some s.xyz) p.1 p.2))
      (mapVal EdgeData.num (updateForces F.edges s.trailForces)) =
      mapVal EdgeData.num (flFormUpdate A F s).edges := by
    unfold flFormUpdate mapVal
    simp only [List.map_map]
    apply List.map_congr_left
    rintro ⟨e, d⟩ hmem
    simp only [Function.comp, Prod.mk.injEq, true_and]
    have hek : e ∈ F.edges.keys := by
      have : e ∈ (updateForces F.edges s.trailForces).keys := Dict.mem_keys_of_mem hmem
      unfold updateForces at this
      rwa [keys_foldl_modify (fun w (d : EdgeData ℝ) => { d with force := w })] at this
    have h1 : ∀ n ∈ F.nodes.keys, ∃ d, (updateReactions (updateCoords F.nodes s.xyz) s.reactions).get? n =
        some d ∧ d.pos = s.pos n := by
      intro n hn
      obtain ⟨d0, hd0⟩ := (Dict.exists_get?_iff _ _).2 hn
      have := formNodes_get? F s hx w.nodesNodup hr n
      rw [hd0] at this
      exact ⟨_, this, rfl⟩
    have h2 : ∀ n ∈ F.nodes.keys, Dict.get? (mapVal some s.xyz) n = some (some (s.pos n)) := by
      intro n hn
      obtain ⟨v, hv⟩ := (Dict.exists_get?_iff s.xyz n).2 (by rw [hx]; exact hn)
      rw [mapVal_get?, hv]
      simp [EqState.pos, hv]
    obtain ⟨a, ha, hap⟩ := h1 e.1 (w.edge_left _ hek)
    obtain ⟨b, hb, hbp⟩ := h1 e.2 (w.edge_right _ hek)
    have g1 := h2 e.1 (w.edge_left _ hek)
    have g2 := h2 e.2 (w.edge_right _ hek)
    unfold mapVal at g1 g2
    unfold flNpSignedLength flSignedLength
    rw [g1, g2, ha, hb, ← hap, ← hbp]
    rfl
  have hup : (updateForces F.edges s.trailForces) =
    s.trailForces.foldl (fun es p => es.modify p.1 fun d => { d with force := p.2 }) F.edges := rfl
  rw [← hup, hed]
  rfl

theorem flNpForm_lift {D : Diagram ℝ} (I : ValidInput D) (L : List Int) (m : Nat) :
    flNpFormUpdate A (formFromTopology D).num (liftS (flIter A D none L m)) =
      (flFormOf A D (flIter A D none L m)).num :=
  flNpFormUpdate_lift (WF.form I.wf) (fl_goodState_iter I.wf I.trails none L m).1 (fl_iter_nodup m).1

/-- A NaN of a state is in the form made from it. -/
theorem flForm_nan {D : Diagram ℝ} {s : NState ℝ} (hx : s.xyz.keys = D.nodes.keys) (hd : D.nodes.keys.Nodup)
    (hr : s.reactions.keys.Nodup) (hk : ∀ n ∈ s.reactions.keys, n ∈ D.nodes.keys) (h : ¬ NoNaN s) :
    HasNaN (flNpFormUpdate A (formFromTopology D).num s) := by
  have hget : ∀ b, (flNpFormUpdate A (formFromTopology D).num s).nodes.get? b =
      match s.reactions.get? b with
      | none => (match s.xyz.get? b with
        | none => (formFromTopology D).num.nodes.get? b
        | some w => ((formFromTopology D).num.nodes.get? b).map fun d => { d with pos := NVec.coords w })
      | some v => (match s.xyz.get? b with
        | none => (formFromTopology D).num.nodes.get? b
        | some w => ((formFromTopology D).num.nodes.get? b).map
            fun (d : NodeData (Num ℝ)) => { d with pos := NVec.coords w }).map
              fun (d : NodeData (Num ℝ)) => { d with reaction := NVec.coords v } := by
    intro b
    unfold flNpFormUpdate
    dsimp only
    rw [get?_foldl_modify (fun w (d : NodeData (Num ℝ)) => { d with reaction := NVec.coords w }) _
      hr, get?_foldl_modify (fun w (d : NodeData (Num ℝ)) => { d with pos := NVec.coords w })
      _ (by rw [hx]; exact hd)]
    cases s.reactions.get? b <;> cases s.xyz.get? b <;> rfl
  have hnode : ∀ b ∈ D.nodes.keys, ∃ d, (formFromTopology D).num.nodes.get? b = some d := by
    intro b hb
    apply (Dict.exists_get?_iff _ _).2
    have : (formFromTopology D).num.nodes.keys = (formFromTopology D).nodes.keys :=
      keys_map_val _ _
    rw [this]
    exact hb
  unfold NoNaN at h
  rw [not_and_or] at h
  push Not at h
  rcases h with ⟨b, h2⟩ | ⟨n, h2⟩
  · have hk := Dict.mem_keys_of_get? h2
    rw [hx] at hk
    obtain ⟨d, hd⟩ := hnode b hk
    have := hget b
    rw [h2, hd] at this
    cases hr : s.reactions.get? b with
    | none => rw [hr] at this; exact ⟨b, _, this, Or.inl rfl⟩
    | some v => rw [hr] at this; exact ⟨b, _, this, Or.inl rfl⟩
  · have hk := hk n (Dict.mem_keys_of_get? h2)
    obtain ⟨d, hd⟩ := hnode n hk
    obtain ⟨w, hw⟩ := (Dict.exists_get?_iff s.xyz n).2 (by rw [hx]; exact hk)
    have := hget n
    rw [h2, hw, hd] at this
    exact ⟨n, _, this, Or.inr rfl⟩

/-- A diagram of numbers has no NaN. -/
theorem not_hasNaN_num (F : Diagram ℝ) : ¬ HasNaN F.num := by
  rintro ⟨n, d, hd, h⟩
  have e : F.num.nodes = mapVal NodeData.num F.nodes := rfl
  rw [e, mapVal_get?] at hd
  obtain ⟨q, _, rfl⟩ := Option.map_eq_some_iff.1 hd
  rcases h with h | h <;> exact absurd (congrArg Vec.x h) (by simp [NodeData.num, NVec.coords])

/-! ## The distance -/

theorem summed_ge (H : Precise A u) (hu : u ≤ 1 / 100) {l : List ℝ} {a : ℝ} (h : Summed A l a)
    (hl : ∀ x ∈ l, 0 ≤ x) : (1 - u) ^ l.length * l.sum ≤ a ∧ 0 ≤ l.sum := by
  have h0 := H.nonneg
  have l1 : (0 : ℝ) ≤ 1 - u := by linarith
  have l2 : 1 - u ≤ 1 := by linarith
  induction h with
  | nil => simp
  | one x =>
    have hx := hl x (by simp)
    simp only [List.length_singleton, pow_one, List.sum_singleton]
    exact ⟨by nlinarith, hx⟩
  | @add l r a b hl0 hr0 _ _ ih1 ih2 =>
    obtain ⟨i1, j1⟩ := ih1 fun x hx => hl x (by simp [hx])
    obtain ⟨i2, j2⟩ := ih2 fun x hx => hl x (by simp [hx])
    have ha : 0 ≤ a := le_trans (mul_nonneg (pow_nonneg l1 _) j1) i1
    have hb : 0 ≤ b := le_trans (mul_nonneg (pow_nonneg l1 _) j2) i2
    have hs := (round_between (add_nonneg ha hb) (H.add a b)).1
    rw [List.sum_append, List.length_append]
    refine ⟨?_, add_nonneg j1 j2⟩
    have p1 : (1 - u) ^ (l.length + r.length) ≤ (1 - u) * (1 - u) ^ l.length := by
      rw [← pow_succ']
      exact pow_le_pow_of_le_one l1 l2 (by have := List.length_pos_iff.2 hr0; omega)
    have p2 : (1 - u) ^ (l.length + r.length) ≤ (1 - u) * (1 - u) ^ r.length := by
      rw [← pow_succ']
      exact pow_le_pow_of_le_one l1 l2 (by have := List.length_pos_iff.2 hl0; omega)
    calc (1 - u) ^ (l.length + r.length) * (l.sum + r.sum)
        = (1 - u) ^ (l.length + r.length) * l.sum + (1 - u) ^ (l.length + r.length) * r.sum := by ring
      _ ≤ (1 - u) * (1 - u) ^ l.length * l.sum + (1 - u) * (1 - u) ^ r.length * r.sum :=
          add_le_add (mul_le_mul_of_nonneg_right p1 j1) (mul_le_mul_of_nonneg_right p2 j2)
      _ = (1 - u) * ((1 - u) ^ l.length * l.sum + (1 - u) ^ r.length * r.sum) := by ring
      _ ≤ (1 - u) * (a + b) := mul_le_mul_of_nonneg_left (add_le_add i1 i2) l1
      _ ≤ _ := hs

/-- The squares of the coordinates of the changes. -/
noncomputable def changeSquares (A : Arith ℝ) (last new : Dict Int (Vec ℝ)) : List ℝ :=
  new.flatMap fun p =>
    let d := A.vsub ((last.get? p.1).getD 0) p.2
    [A.mul d.x d.x, A.mul d.y d.y, A.mul d.z d.z]

theorem flNpSquares_lift (last new : Dict Int (Vec ℝ)) (h : ∀ p ∈ new, p.1 ∈ last.keys) :
    flNpSquares A (mapVal some last) (mapVal some new) = some (changeSquares A last new) := by
  induction new with
  | nil => rfl
  | cons p l ih =>
    have hc : mapVal some (p :: l) = (p.1, some p.2) :: mapVal some l := rfl
    obtain ⟨v, hv⟩ := (Dict.exists_get?_iff last p.1).2 (h p (by simp))
    rw [hc, flNpSquares, ih fun q hq => h q (by simp [hq]), mapVal_get?, hv]
    unfold changeSquares
    rw [List.flatMap_cons, hv]
    rfl

/-- A NaN among the positions makes the distance NaN. -/
theorem flNpSquares_nan {last new : Dict Int (NVec ℝ)} {m : Int} (hm : m ∈ new.keys)
    (h : new.get? m = some none ∨ last.get? m = some none) : flNpSquares A last new = none := by
  induction new with
  | nil => simp [Dict.keys] at hm
  | cons p l ih =>
    rw [flNpSquares]
    by_cases hp : p.1 = m
    · have e : lift2 A.vsub ((last.get? p.1).getD none) p.2 = none := by
        rcases h with h | h
        · have : Dict.get? (p :: l) m = some p.2 := by unfold Dict.get?; rw [if_pos hp]
          rw [this] at h
          rw [Option.some.inj h, lift2_none_right]
        · rw [hp, h]; exact lift2_none_left _ _
      rw [e]
      exact lift2_none_left _ _
    · have e : Dict.get? (p :: l) m = Dict.get? l m := by conv_lhs => unfold Dict.get?; rw [if_neg hp]
      rw [e] at h
      have hm' : m ∈ Dict.keys l := by
        have : m ∈ p.1 :: Dict.keys l := hm
        rcases List.mem_cons.1 this with h | h
        · exact absurd h.symm hp
        · exact h
      rw [ih hm' h]
      exact lift2_none_right _ _

theorem sq_round_ge (H : Precise A u) (hu : u ≤ 1 / 100) (a b : ℝ) :
    (1 - u) ^ 3 * (a - b) ^ 2 ≤ A.mul (A.sub a b) (A.sub a b) := by
  have h0 := H.nonneg
  have l1 : (0 : ℝ) ≤ 1 - u := by linarith
  set d := A.sub a b
  have hd : (1 - u) * |a - b| ≤ |d| := by
    have h1 := H.sub a b
    have h2 := abs_sub_abs_le_abs_sub (a - b) d
    rw [abs_sub_comm (a - b) d] at h2
    have : |d - (a - b)| ≤ u * |a - b| := h1
    linarith
  have hm := (round_between (mul_self_nonneg d) (H.mul d d)).1
  have hsq : ((1 - u) * |a - b|) ^ 2 ≤ d * d := by
    have := pow_le_pow_left₀ (mul_nonneg l1 (abs_nonneg _)) hd 2
    rwa [sq_abs, pow_two d] at this
  have e : ((1 - u) * |a - b|) ^ 2 = (1 - u) ^ 2 * (a - b) ^ 2 := by rw [mul_pow, sq_abs]
  rw [e] at hsq
  calc (1 - u) ^ 3 * (a - b) ^ 2 = (1 - u) * ((1 - u) ^ 2 * (a - b) ^ 2) := by ring
    _ ≤ (1 - u) * (d * d) := mul_le_mul_of_nonneg_left hsq l1
    _ ≤ _ := hm

theorem changeSquares_ge (H : Precise A u) (hu : u ≤ 1 / 100) (last new : Dict Int (Vec ℝ)) :
    (∀ x ∈ changeSquares A last new, 0 ≤ x) ∧ (changeSquares A last new).length = 3 * new.length ∧
    ∀ p ∈ new, (1 - u) ^ 3 * Vec.dist ((last.get? p.1).getD 0) p.2 ^ 2 ≤ (changeSquares A last new).sum := by
  have h0 := H.nonneg
  have l1 : (0 : ℝ) ≤ 1 - u := by linarith
  have hsq : ∀ x : ℝ, 0 ≤ A.mul x x := fun x =>
    le_trans (mul_nonneg l1 (mul_self_nonneg x)) (round_between (mul_self_nonneg x) (H.mul x x)).1
  induction new with
  | nil => exact ⟨by simp [changeSquares], rfl, by simp⟩
  | cons q l ih =>
    obtain ⟨i1, i2, i3⟩ := ih
    have e : changeSquares A last (q :: l) =
      [A.mul (A.vsub ((last.get? q.1).getD 0) q.2).x (A.vsub ((last.get? q.1).getD 0) q.2).x,
        A.mul (A.vsub ((last.get? q.1).getD 0) q.2).y (A.vsub ((last.get? q.1).getD 0) q.2).y,
        A.mul (A.vsub ((last.get? q.1).getD 0) q.2).z (A.vsub ((last.get? q.1).getD 0) q.2).z] ++
        changeSquares A last l := rfl
    rw [e]
    set v := (last.get? q.1).getD 0
    have hs := List.sum_nonneg i1
    refine ⟨?_, ?_, ?_⟩
    · intro x hx
      rcases List.mem_append.1 hx with hx | hx
      · simp only [List.mem_cons, List.not_mem_nil, or_false] at hx
        rcases hx with rfl | rfl | rfl <;> exact hsq _
      · exact i1 x hx
    · rw [List.length_append, i2]; simp only [List.length_cons, List.length_nil]; omega
    · intro p hp
      rw [List.sum_append]
      simp only [List.sum_cons, List.sum_nil, add_zero]
      have k1 := hsq (A.vsub v q.2).x
      have k2 := hsq (A.vsub v q.2).y
      have k3 := hsq (A.vsub v q.2).z
      rcases List.mem_cons.1 hp with rfl | hp
      · have m1 := sq_round_ge H hu v.x p.2.x
        have m2 := sq_round_ge H hu v.y p.2.y
        have m3 := sq_round_ge H hu v.z p.2.z
        have hd : Vec.dist v p.2 ^ 2 = (v.x - p.2.x) ^ 2 + (v.y - p.2.y) ^ 2 + (v.z - p.2.z) ^ 2 := by
          unfold Vec.dist
          rw [pow_two, Vec.length_sq]
          simp only [Vec.dot, Vec.sub_x, Vec.sub_y, Vec.sub_z]
          ring
        rw [hd, mul_add, mul_add]
        have g1 : A.mul (A.vsub v p.2).x (A.vsub v p.2).x = A.mul (A.sub v.x p.2.x) (A.sub v.x p.2.x) := rfl
        have g2 : A.mul (A.vsub v p.2).y (A.vsub v p.2).y = A.mul (A.sub v.y p.2.y) (A.sub v.y p.2.y) := rfl
        have g3 : A.mul (A.vsub v p.2).z (A.vsub v p.2).z = A.mul (A.sub v.z p.2.z) (A.sub v.z p.2.z) := rfl
        rw [g1, g2, g3]
        linarith
      · have := i3 p hp
        linarith

/-- The threshold that a computed distance of at most `eta` guarantees. -/
theorem flNp_dist_le {total : List ℝ → ℝ} (H : Precise A u) (hu : u ≤ 1 / 100) (ht : Totals A total)
    {p s : EqState ℝ} {eta : ℝ} {N : ℕ} (hN : s.xyz.length = N) (hk : s.xyz.keys = p.xyz.keys) {d : ℝ}
    (hd : flNpDistance A total (mapVal some p.xyz) (mapVal some s.xyz) = some d) (he : d ≤ eta) {n : Int}
    (hn : n ∈ s.xyz.keys) : Vec.dist (p.pos n) (s.pos n) ≤ eta / (1 - u) ^ (3 * N + 4) := by
  have h0 := H.nonneg
  have l1 : (0 : ℝ) ≤ 1 - u := by linarith
  have l2 : 1 - u ≤ 1 := by linarith
  obtain ⟨v, hv⟩ := (Dict.exists_get?_iff _ _).2 hn
  have hm := Dict.mem_of_get? hv
  unfold flNpDistance at hd
  rw [flNpSquares_lift _ _ fun q hq => by rw [← hk]; exact Dict.mem_keys_of_mem hq] at hd
  simp only [Option.map_some, Option.some.injEq] at hd
  obtain ⟨g1, g2, g3⟩ := changeSquares_ge H hu p.xyz s.xyz
  obtain ⟨t1, t2⟩ := summed_ge H hu (ht (changeSquares A p.xyz s.xyz)) g1
  rw [g2, hN] at t1
  set S := total (changeSquares A p.xyz s.xyz)
  have hq := g3 _ hm
  have e : s.pos n = v := by unfold EqState.pos; rw [hv]; rfl
  have e' : (p.xyz.get? n).getD 0 = p.pos n := rfl
  simp only [e'] at hq
  rw [← e] at hq
  set x := Vec.dist (p.pos n) (s.pos n)
  have hx : 0 ≤ x := dist_nonneg _ _
  have hS : (1 - u) ^ (3 * N + 3) * x ^ 2 ≤ S := by
    refine le_trans ?_ t1
    rw [pow_add, mul_assoc]
    exact mul_le_mul_of_nonneg_left hq (pow_nonneg l1 _)
  have hS' : ((1 - u) ^ (3 * N + 3) * x) ^ 2 ≤ S := by
    refine le_trans ?_ hS
    rw [mul_pow]
    refine mul_le_mul_of_nonneg_right ?_ (sq_nonneg _)
    rw [← pow_mul]
    exact pow_le_pow_of_le_one l1 l2 (by omega)
  have hS0 : 0 ≤ S := le_trans (sq_nonneg _) hS'
  have hsqrt : (1 - u) ^ (3 * N + 3) * x ≤ Real.sqrt S := Real.le_sqrt_of_sq_le hS'
  have hr := (round_between (Real.sqrt_nonneg S) (by rw [abs_of_nonneg (Real.sqrt_nonneg S)]; exact H.sqrt S hS0)).1
  have hp : 0 < (1 - u) ^ (3 * N + 4) := pow_pos (by linarith) _
  rw [le_div_iff₀ hp]
  calc x * (1 - u) ^ (3 * N + 4) = (1 - u) * ((1 - u) ^ (3 * N + 3) * x) := by ring
    _ ≤ (1 - u) * Real.sqrt S := mul_le_mul_of_nonneg_left hsqrt l1
    _ ≤ A.sqrt S := hr
    _ = d := hd
    _ ≤ eta := he

/-! ## The returned form -/

theorem flNumpySweeps_eq {D : Diagram ℝ} (I : ValidInput D) {T : Dict Int (Dict Int Int)}
    (hT : GoodSeqs D T) {tab : NTables ℝ} (G : GoodTab D tab) (N : Int) (m : Nat) :
    flNumpySweeps A D tab T N m = .ok (flNIter A D (sched D T N) m) := by
  induction m with
  | zero => rfl
  | succ m ih =>
    rw [flNumpySweeps, ih]
    exact flNpSweep_eq I.wf I.trails I.simple hT G _ N (goodFlNState_iter I.wf I.trails _ m)

theorem flPlainSweeps_eq {D : Diagram ℝ} (I : ValidInput D) {T : Dict Int (Dict Int Int)}
    (hT : GoodSeqs D T) (N : Int) (m : Nat) :
    flPlainSweeps A D T N m = .ok (flIter A D none (sched D T N) m) := by
  have h : ∀ m, flPlainSweeps A D T N m = flSweepsN A D T none N m := by
    intro m
    induction m with
    | zero => rfl
    | succ m ih =>
      rw [flPlainSweeps, ih, flSweepsN]
      have e : decide (m > 0) = decide (m ≠ 0) := by
        simp only [gt_iff_lt, ne_eq, Nat.pos_iff_ne_zero]
      simp only [e]
      rfl
  rw [h]
  exact fl_sweepsN_eq I.wf I.trails hT none N m

/-- The reactions that are written belong to nodes. -/
theorem fl_reaction_keys {D : Diagram ℝ} {L : List Int} (G : GoodSched D none L) (m : Nat) :
    ∀ n ∈ (flIter A D none L m).reactions.keys, n ∈ D.nodes.keys := by
  have fold : ∀ (l : List Int) (ind : Bool) (s : EqState ℝ), (∀ n ∈ l, n ∈ D.nodes.keys) →
      (∀ n ∈ s.reactions.keys, n ∈ D.nodes.keys) →
      ∀ n ∈ (l.foldl (flProc A D (nxtK D none) ind) s).reactions.keys, n ∈ D.nodes.keys := by
    intro l ind
    induction l with
    | nil => intro s _ h; exact h
    | cons a l ih =>
      intro s hl h
      rw [List.foldl_cons]
      apply ih _ fun n hn => hl n (by simp [hn])
      unfold flProc
      cases nxtK D none a with
      | none =>
        intro n hn
        rcases Dict.mem_keys_set.1 hn with rfl | hn
        · exact hl _ (by simp)
        · exact h n hn
      | some m => exact h
  induction m with
  | zero => intro n hn; simp [flIter, initState, Dict.keys] at hn
  | succ m ih => exact fold L _ _ (fun n hn => (G.mem n).1 hn) ih

/-- Outcomes of form finding with at least two iterations. -/
theorem flNp_cases {total : List ℝ → ℝ} (H : Precise A u) (hu : u ≤ 1 / 100) (hz : ZeroAdds A)
    (htot : Totals A total) {D : Diagram ℝ} (I : ValidInput D) {T : Dict Int (Dict Int Int)} {N : Int}
    (hTs : D.trailsSequences = .ok T) (hN : D.numberOfSequences = .ok N) (hT : GoodSeqs D T)
    (hlt : ∀ n ∈ D.nodes.keys, ∀ k, seqOf D n = some k → k < N) {tmax : Nat} (ht : 2 ≤ tmax) {eta : ℝ} {verbose : Bool}
    {F : Diagram (Num ℝ)} (h : flStaticEquilibriumNumpy A total D tmax eta verbose = .ok F) :
    ∃ m, 2 ≤ m ∧ m ≤ tmax ∧
      F = flNpFormUpdate A (formFromTopology D).num (flNIter A D (sched D T N) m) ∧
      ((¬ NoNaN (flNIter A D (sched D T N) m) ∧ HasNaN F) ∨
        (NoNaN (flNIter A D (sched D T N) m) ∧
          F = (flFormOf A D (flIter A D none (sched D T N) m)).num ∧
          ((∀ n ∈ D.nodes.keys, Vec.dist ((flIter A D none (sched D T N) (m - 1)).pos n)
              ((flIter A D none (sched D T N) m).pos n) ≤ eta / (1 - u) ^ (3 * D.nodes.length + 4)) ∨
            (m = tmax ∧ ∃ n, (flNIter A D (sched D T N) (m - 1)).xyz.get? n = some none)))) := by
  have G := goodSched I.wf I.trails hT none hlt
  obtain ⟨m, hm2, hmt, _, hl, he⟩ :=
    (flNpEquilibriumState_cases (A := A) (total := total) I hTs hN hT tmax eta verbose).2.2 ht
  unfold flStaticEquilibriumNumpy at h
  rw [he] at h
  split_ifs at h with hgt
  simp only [Except.ok.injEq] at h
  refine ⟨m, hm2, hmt, h.symm, ?_⟩
  have B : ∀ j, NBelow D (nxtK D none) (flNIter A D (sched D T N) j) (flIter A D none (sched D T N) j) :=
    NBelow.iter H hu hz G
  have gk : ∀ j, (flIter A D none (sched D T N) j).xyz.keys = D.nodes.keys :=
    fun j => (fl_goodState_iter I.wf I.trails none _ j).1
  by_cases hn : NoNaN (flNIter A D (sched D T N) m)
  · right
    have es := flNIter_eq H hu hz I G hn
    refine ⟨hn, by rw [← h, es, flNpForm_lift I], ?_⟩
    by_cases hprev : ∃ n, (flNIter A D (sched D T N) (m - 1)).xyz.get? n = some none
    · right
      refine ⟨?_, hprev⟩
      obtain ⟨n, hp⟩ := hprev
      have hnk : n ∈ (flNIter A D (sched D T N) m).xyz.keys := by
        rw [(B m).xyz.keys, gk, ← gk (m - 1), ← (B (m - 1)).xyz.keys]
        exact Dict.mem_keys_of_get? hp
      have : flNDist A total D (sched D T N) m = none := by
        unfold flNDist flNpDistance
        rw [flNpSquares_nan hnk (Or.inr hp)]
        rfl
      rw [this] at hl
      rcases hl with hl | hl
      · simp [Num.lt] at hl
      · exact hl
    · left
      push Not at hprev
      have ex : (flNIter A D (sched D T N) (m - 1)).xyz =
          mapVal some (flIter A D none (sched D T N) (m - 1)).xyz :=
        (B (m - 1)).xyz.eq_lift (by rw [gk]; exact I.wf.nodesNodup) hprev
      have ex' : (flNIter A D (sched D T N) m).xyz = mapVal some (flIter A D none (sched D T N) m).xyz := by
        rw [es]; rfl
      have hdef : flNDist A total D (sched D T N) m =
          flNpDistance A total (mapVal some (flIter A D none (sched D T N) (m - 1)).xyz)
            (mapVal some (flIter A D none (sched D T N) m).xyz) := by
        unfold flNDist; rw [ex, ex']
      obtain ⟨d, hd⟩ : ∃ d, flNDist A total D (sched D T N) m = some d := by
        rw [hdef]
        unfold flNpDistance
        rw [flNpSquares_lift _ _ fun q hq => by
          rw [gk, ← gk m]; exact Dict.mem_keys_of_mem hq]
        exact ⟨_, rfl⟩
      have hde : d ≤ eta := by
        rw [hd] at hgt
        by_contra hc
        exact hgt (by simp only [Num.gt, decide_eq_true_eq]; exact lt_of_not_ge hc)
      rw [hdef] at hd
      intro n hnk
      refine flNp_dist_le H hu htot ?_ (by rw [gk, gk]) hd hde (by rw [gk]; exact hnk)
      have h1 : (flIter A D none (sched D T N) m).xyz.keys.length = D.nodes.keys.length := by rw [gk]
      simpa [Dict.keys] using h1
  · left
    refine ⟨hn, ?_⟩
    rw [← h]
    have hk := (B m).reactions.keys
    exact flForm_nan (by rw [(B m).xyz.keys, gk]) I.wf.nodesNodup (by rw [hk]; exact (B m).reactNodup)
      (by rw [hk]; exact fl_reaction_keys G m) hn

end CEM
