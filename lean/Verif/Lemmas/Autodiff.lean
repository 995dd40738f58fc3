import Verif.Lemmas.Numpy
import Verif.Model.Autodiff

/-!
# Automatic differentiation on valid diagrams

As in `Lemmas/Numpy`, for numbers that carry derivatives.
-/

set_option linter.unusedSectionVars false
set_option linter.unusedSimpArgs false

namespace CEM
open Diagram Spec

variable {R : Type} [Field R] [LinearOrder R] [PySqrt R]

namespace AState
def pos (s : AState R) (n : Int) : TVec R := (s.xyz.get? n).getD (some (.const 0))
def res (s : AState R) (n : Int) : TVec R := (s.residual.get? n).getD (some (.const 0))
end AState

def devTermA (D T : Diagram R) (P : Int → TVec R) (n m : Int) : TVec R :=
  (adNormalize (lift2 Traced.sub (P m) (P n))).map
    (Traced.scale ⟨(edgeData D n m).force, tanForce T (edgeKey D n m)⟩)

def devSumA (D T : Diagram R) (P : Int → TVec R) (n : Int) (l : List Int) (acc : TVec R) : TVec R :=
  l.foldl (fun acc m => lift2 Traced.add acc (devTermA D T P n m)) acc

def outVecA (D T : Diagram R) (ind : Bool) (P : Int → TVec R) (t : TVec R) (n : Int) : TVec R :=
  adNodeEquilibrium t (some ⟨loadOf D n, tanLoad T n⟩) (devSumA D T P n (dirNbrs D n) (some (.const 0)))
    (if ind then devSumA D T P n (indNbrs D n) (some (.const 0)) else some (.const 0))

/-- The signed length of the trail edge from `n` to `m`. -/
def lenA (D T : Diagram R) (n m : Int) (pos r : TVec R) : TNum R :=
  adEffectiveLength ⟨(edgeData D n m).length, tanLength T (edgeKey D n m)⟩ (edgeData D n m).plane pos r

/-- Processing one node. -/
def aproc (D T : Diagram R) (nxt : Int → Option Int) (ind : Bool) (s : AState R) (n : Int) : AState R :=
  let r := outVecA D T ind s.pos (s.res n) n
  match nxt n with
  | none => { s with reactions := s.reactions.set n r }
  | some m =>
    let l := lenA D T n m (s.pos n) r
    { s with
      xyz := s.xyz.set m (lift2 Traced.add (s.pos n) (lift2 Traced.scale l (adDirection r)))
      trailForces := s.trailForces.set (edgeKey D n m) (adTrailForce r l)
      residual := s.residual.set m r }

theorem adResultant_eq {D T : Diagram R} (w : WF D) {tab : NTables R} (G : GoodTab D tab)
    {s : AState R} {n : Int} (hk : s.xyz.keys = D.nodes.keys) (hn : n ∈ D.nodes.keys)
    (l : List Int) (hl : ∀ m ∈ l, m ∈ D.neighbors n) (acc : TVec R) :
    adResultant T n s.xyz tab.forces (l.map (edgeKey D n)) acc = .ok (devSumA D T s.pos n l acc) := by
  induction l generalizing acc with
  | nil => rfl
  | cons m l ih =>
    have hm := hl m (by simp)
    obtain ⟨a, ha⟩ := (Dict.exists_get?_iff s.xyz m).2 (by rw [hk]; exact (mem_keys_of_nbr w hm).1)
    obtain ⟨b, hb⟩ := (Dict.exists_get?_iff s.xyz n).2 (by rw [hk]; exact hn)
    have ho : (if (edgeKey D n m).1 ≠ n then (edgeKey D n m).1 else (edgeKey D n m).2) = m := by
      rcases edgeKey_ends D n m with e | e
      · rw [e]; simp
      · rw [e]; simp only [ne_eq, ite_not]; split_ifs with h
        · exact h.symm
        · rfl
    have hin : adIncoming n s.xyz (edgeKey D n m) = .ok (adNormalize (lift2 Traced.sub a b)) := by
      unfold adIncoming
      simp only [ho, Dict.getE, ha, hb]
    rw [List.map_cons, adResultant, hin]
    simp only [Dict.getE, G.forces _ _ (edgeKey_mem hm)]
    rw [ih fun x hx => hl x (by simp [hx])]
    simp only [devSumA, List.foldl_cons, devTermA, AState.pos, ha, hb, Option.getD_some]

def GoodAState (D : Diagram R) (s : AState R) : Prop :=
  s.xyz.keys = D.nodes.keys ∧ s.residual.keys = D.nodes.keys

theorem GoodAState.aproc {D T : Diagram R} (w : WF D) (V : ValidTrails D) {ind : Bool} {s : AState R}
    (h : GoodAState D s) (n : Int) : GoodAState D (aproc D T (nxtK D none) ind s n) := by
  unfold CEM.aproc
  cases hn : nxtK D none n with
  | none => exact h
  | some m =>
    have := (nxtK_mem w V hn).1
    exact ⟨(Dict.keys_set_of_mem _ (by rw [h.1]; exact this)).trans h.1,
      (Dict.keys_set_of_mem _ (by rw [h.2]; exact this)).trans h.2⟩

theorem adStep_eq {D E : Diagram R} (w : WF D) (V : ValidTrails D) (g : SimpleGraph D) {T : Dict Int (Dict Int Int)}
    (hT : GoodSeqs D T) {tab : NTables R} (G : GoodTab D tab) (ind : Bool) (k : Int) {s : AState R}
    (hg : GoodAState D s) {key : Int} (hkey : key ∈ D.trails.keys) :
    adStep D E tab T ind k s key = .ok (match (T.get? key).bind (·.get? k) with
      | none => s
      | some n => aproc D E (nxtK D none) ind s n) := by
  obtain ⟨tr, ht⟩ := Dict.mem_keys_iff.1 hkey
  obtain ⟨m, hm, hspec⟩ := hT key tr ht
  unfold adStep
  simp only [Dict.getE, hm, Option.bind_some]
  cases hn : m.get? k with
  | none => rfl
  | some n =>
    obtain ⟨hntr, hseq⟩ := (hspec k n).1 hn
    have hnk := V.mem_keys ht hntr
    obtain ⟨p, hp⟩ := (Dict.exists_get?_iff s.xyz n).2 (by rw [hg.1]; exact hnk)
    obtain ⟨r, hr⟩ := (Dict.exists_get?_iff s.residual n).2 (by rw [hg.2]; exact hnk)
    have hpos : s.pos n = p := by simp [AState.pos, hp]
    have hres : s.res n = r := by simp [AState.res, hr]
    simp only [hp, hr, G.loads n hnk, G.direct n hnk]
    rw [adResultant_eq w G hg.1 hnk (dirNbrs D n) (fun m hm => (List.mem_filter.1 hm).1)]
    have hind : adIndirect E tab ind n s.xyz =
        .ok (if ind then devSumA D E s.pos n (indNbrs D n) (some (.const 0)) else some (.const 0)) := by
      unfold adIndirect
      cases ind
      · rfl
      · simp only [if_true, Dict.getE, G.indirect n hnk]
        exact adResultant_eq w G hg.1 hnk (indNbrs D n) (fun m hm => (List.mem_filter.1 hm).1) _
    simp only [hind]
    have hsup : D.isNodeSupport n = .ok (decide (typeOf D n = some .support)) := by
      obtain ⟨d, hd⟩ := (Dict.exists_get?_iff _ _).2 hnk
      simp [isNodeSupport, typeOf, hd]
    simp only [hsup, decide_eq_true_eq]
    by_cases hstop : typeOf D n = some .support
    · have hx : nxtK D none n = none := by
        unfold nxtK
        rw [if_pos (Or.inl hstop)]
      rw [if_pos hstop]
      simp only [aproc, hx, outVecA, hres]
    · rw [if_neg hstop]
      obtain ⟨n', hn'⟩ := trailNext_isSome w V hnk hstop
      have hx : nxtK D none n = some n' := by
        unfold nxtK
        rw [if_neg, hn']
        rintro (h | ⟨h1, h2⟩)
        · exact hstop h
        · simp at h1
      obtain ⟨key', tr', ht', hc⟩ := (trailNext_iff w V).1 hn'
      have he := V.unique w ht ht' hntr hc.mem_left
      obtain ⟨rfl, rfl⟩ := Prod.mk.inj he
      obtain ⟨j, _, hj1, hj2⟩ := seqOf_next V ht hc
      rw [hseq] at hj1
      obtain rfl := Option.some.inj hj1
      have hnext : m.get? (k + 1) = some n' := (hspec _ _).2 ⟨hc.mem_right, hj2⟩
      have hadj := trailNext_adj w V hn'
      have hed := edgeKey_mem (adj_mem_neighbors hadj)
      have hkk : (if (n, n') ∈ tab.edgeKeys then (n, n') else (n', n)) = edgeKey D n n' := by
        unfold edgeKey
        simp only [G.edgeKeys]
      have htt := edgeData_trail' w V g hn'
      simp only [hnext, hkk, G.lengths _ _ hed, G.planes _ _ hed htt]
      simp only [aproc, hx, hres, hpos, lenA]
      rfl

theorem GoodAState.fold {D T : Diagram R} (w : WF D) (V : ValidTrails D) {ind : Bool} {s : AState R}
    (h : GoodAState D s) (l : List Int) :
    GoodAState D (l.foldl (CEM.aproc D T (nxtK D none) ind) s) := by
  induction l generalizing s with
  | nil => exact h
  | cons n l ih => exact ih (h.aproc w V n)

theorem adSweep_eq {D E : Diagram R} (w : WF D) (V : ValidTrails D) (g : SimpleGraph D)
    {T : Dict Int (Dict Int Int)} (hT : GoodSeqs D T) {tab : NTables R} (G : GoodTab D tab)
    (ind : Bool) (N : Int) {s : AState R} (hg : GoodAState D s) :
    adSweep D E tab T ind N s = .ok ((sched D T N).foldl (aproc D E (nxtK D none) ind) s) := by
  have inner : ∀ (k : Int) (s : AState R), GoodAState D s →
      forE (adStep D E tab T ind k) D.trails.keys s =
        .ok ((level D T k).foldl (aproc D E (nxtK D none) ind) s) := by
    intro k s hs
    have := (forE_ok (f := adStep D E tab T ind k) (l := D.trails.keys)
      (g := fun s key => match (T.get? key).bind (·.get? k) with
        | none => s
        | some n => aproc D E (nxtK D none) ind s n) (Inv := GoodAState D) hs
      (fun s key h hk => adStep_eq w V g hT G ind k h hk)
      (by
        intro s key h _
        split
        · exact h
        · exact h.aproc w V _)).1
    rw [this, level, List.foldl_filterMap]
    congr 2
    funext s key
    cases (T.get? key).bind (·.get? k) <;> rfl
  unfold adSweep
  have := (forE_ok (f := fun s k => forE (adStep D E tab T ind k) D.trails.keys s) (l := pyRange N)
    (g := fun s k => (level D T k).foldl (aproc D E (nxtK D none) ind) s) (Inv := GoodAState D) hg
    (fun s k h _ => inner k s h) (fun s k h _ => h.fold w V _)).1
  rw [this, sched, List.foldl_flatMap]

/-! ## The loop -/

/-- The iterates for a schedule. -/
def aIter (D T : Diagram R) (L : List Int) : Nat → AState R
  | 0 => adInit D T
  | m + 1 => L.foldl (aproc D T (nxtK D none) (m > 0)) (aIter D T L m)

theorem goodAState_iter {D T : Diagram R} (w : WF D) (V : ValidTrails D) (L : List Int) (m : Nat) :
    GoodAState D (aIter D T L m) := by
  induction m with
  | zero => 
    constructor
    · change (List.map Prod.fst (List.map _ _)) = _
      rw [List.map_map]; rfl
    · change (List.map Prod.fst (List.map _ _)) = _
      rw [List.map_map]; rfl
  | succ m ih => exact ih.fold w V L

/-- The change in sweep `m`. -/
def aDist (D T : Diagram R) (L : List Int) (m : Nat) : Num R :=
  npDistance (valuesOf (aIter D T L (m - 1)).xyz) (valuesOf (aIter D T L m).xyz)

theorem adLoop_eq {D E : Diagram R} (w : WF D) (V : ValidTrails D) (g : SimpleGraph D)
    {T : Dict Int (Dict Int Int)} (hT : GoodSeqs D T) {tab : NTables R} (G : GoodTab D tab)
    (N : Int) (eta : R) (fuel t : Nat) (info : Option (NLoopInfo R)) :
    ∃ m, t ≤ m ∧ m ≤ t + fuel ∧
      (∀ j, t < j → 2 ≤ j → j < m → ¬ (aDist D E (sched D T N) j).lt eta = true) ∧
      ((t < m ∧ 2 ≤ m ∧ (aDist D E (sched D T N) m).lt eta = true) ∨ m = t + fuel) ∧
      adLoop D E tab T eta N fuel t (aIter D E (sched D T N) t) info =
        .ok (aIter D E (sched D T N) m, if m = t then info else if m = 1 then some ⟨0, none⟩
          else some ⟨m - 1, some (aDist D E (sched D T N) m)⟩) := by
  induction fuel generalizing t info with
  | zero =>
    refine ⟨t, le_rfl, by simp, ?_, Or.inr (by simp), by simp [adLoop]⟩
    intro j h1 _ h2; omega
  | succ fuel ih =>
    have hsw : adSweep D E tab T (t > 0) N (aIter D E (sched D T N) t) =
        .ok (aIter D E (sched D T N) (t + 1)) :=
      adSweep_eq w V g hT G _ N (goodAState_iter w V _ t)
    rw [adLoop, hsw]
    simp only
    by_cases ht : t = 0
    · subst ht
      rw [if_pos rfl]
      obtain ⟨m, h1, h2, h3, h4, h5⟩ := ih 1 (some ⟨0, none⟩)
      refine ⟨m, by omega, by omega, ?_, ?_, ?_⟩
      · intro j hj1 hj2 hj3; exact h3 j (by omega) hj2 hj3
      · rcases h4 with ⟨h4, h6⟩ | h4
        · exact Or.inl ⟨by omega, h6⟩
        · exact Or.inr (by omega)
      · rw [h5, if_neg (by omega : m ≠ 0)]
        by_cases hm : m = 1 <;> simp [hm]
    · rw [if_neg ht]
      have hd : npDistance (valuesOf (aIter D E (sched D T N) t).xyz)
          (valuesOf (aIter D E (sched D T N) (t + 1)).xyz) = aDist D E (sched D T N) (t + 1) := rfl
      rw [hd]
      by_cases hlt : (aDist D E (sched D T N) (t + 1)).lt eta = true
      · rw [if_pos hlt]
        refine ⟨t + 1, by omega, by omega, ?_, Or.inl ⟨by omega, by omega, hlt⟩, ?_⟩
        · intro j h1 _ h2; omega
        · rw [if_neg (by omega), if_neg (by omega)]; rfl
      · rw [if_neg hlt]
        obtain ⟨m, h1, h2, h3, h4, h5⟩ := ih (t + 1) (some ⟨t, some (aDist D E (sched D T N) (t + 1))⟩)
        refine ⟨m, by omega, by omega, ?_, ?_, ?_⟩
        · intro j hj1 hj2 hj3
          rcases Nat.lt_or_ge (t + 1) j with hj | hj
          · exact h3 j hj hj2 hj3
          · obtain rfl : j = t + 1 := by omega
            exact hlt
        · rcases h4 with ⟨h4, h6⟩ | h4
          · exact Or.inl ⟨by omega, h6⟩
          · exact Or.inr (by omega)
        · rw [h5, if_neg (by omega : m ≠ t)]
          by_cases hm : m = t + 1
          · subst hm
            rw [if_pos rfl, if_neg (by omega)]
            rfl
          · rw [if_neg hm]

/-- The result in terms of the iterates. -/
theorem adEquilibriumState_cases {D E : Diagram R} (I : ValidInput D)
    {T : Dict Int (Dict Int Int)} {N : Int} (hTs : D.trailsSequences = .ok T)
    (hN : D.numberOfSequences = .ok N) (hT : GoodSeqs D T)
    (tmax : Nat) (eta : R) :
    (tmax = 0 → adEquilibriumState D E tmax eta = .error .unboundLocal) ∧
    (tmax = 1 → adEquilibriumState D E tmax eta = .ok (aIter D E (sched D T N) 1)) ∧
    (2 ≤ tmax → ∃ m, 2 ≤ m ∧ m ≤ tmax ∧
      (∀ j, 2 ≤ j → j < m → ¬ (aDist D E (sched D T N) j).lt eta = true) ∧
      ((aDist D E (sched D T N) m).lt eta = true ∨ m = tmax) ∧
      adEquilibriumState D E tmax eta =
        if (aDist D E (sched D T N) m).gt eta then .error .valueError
        else .ok (aIter D E (sched D T N) m)) := by
  have hnum : D.numberOfTrails ≠ 0 := by
    unfold numberOfTrails
    have := I.nonempty
    simpa [Dict.vals] using this
  have hs : ∀ n ∈ D.nodes.keys, ∃ k, seqOf D n = some k := fun n hn =>
    let ⟨k, h, _⟩ := allSequenced_of_valid I.trails n hn; ⟨k, h⟩
  obtain ⟨tab, htab, G⟩ := npTables_ok I.wf hs
  have hunf : adEquilibriumState D E tmax eta =
      if tmax = 0 then .error .unboundLocal else
      match adLoop D E tab T eta N tmax 0 (adInit D E) none with
      | .error err => .error err
      | .ok r => adFinish eta r := by
    unfold adEquilibriumState
    rw [if_neg hnum, hTs, htab, hN]
    try rfl
  rw [hunf]
  obtain ⟨m, _, h2, h3, h4, h5⟩ := adLoop_eq (E := E) I.wf I.trails I.simple hT G N eta tmax 0 none
  have h5' : adLoop D E tab T eta N tmax 0 (adInit D E) none = _ := h5
  rw [h5']
  simp only
  refine ⟨fun h => by rw [if_pos h], fun h => ?_, fun h => ?_⟩
  · subst h
    have hm : m = 1 := by omega
    subst hm
    rw [if_neg (by omega), if_neg (by omega), if_pos rfl]
    simp [adFinish]
  · have hm : 2 ≤ m := by omega
    rw [if_neg (by omega), if_neg (by omega), if_neg (by omega)]
    refine ⟨m, hm, by omega, fun j hj1 hj2 => h3 j (by omega) hj1 hj2, ?_, ?_⟩
    · rcases h4 with h4 | h4
      · exact Or.inl h4.2.2
      · exact Or.inr (by omega)
    · have : m - 1 > 0 := by omega
      simp only [adFinish, if_pos this]

/-! ## Values -/

/-- The numpy state with the values of a state with derivatives: NaN in the same places, except for
forces of trail edges, which may lack a derivative. -/
structure Shadows (a : AState R) (s : NState R) : Prop where
  xyz : valuesOf a.xyz = s.xyz
  residual : valuesOf a.residual = s.residual
  reactions : valuesOf a.reactions = s.reactions
  keys : a.trailForces.keys = s.trailForces.keys
  forces : ∀ e f, a.trailForces.get? e = some (some f) → s.trailForces.get? e = some (some f.val)
  slack : ∀ e, a.trailForces.get? e = some none → s.trailForces.get? e = some none ∨ s.trailForces.get? e = some (some 0)

theorem valuesOf_get? (d : Dict Int (TVec R)) (n : Int) :
    Dict.get? (valuesOf d) n = (d.get? n).map (·.map Traced.val) := get?_map_val d _ n

theorem valuesOf_getE (d : Dict Int (TVec R)) (n : Int) :
    Dict.getE (valuesOf d) n = (d.getE n).map (·.map Traced.val) := by
  unfold Dict.getE
  rw [valuesOf_get?]
  cases d.get? n <;> rfl

theorem valuesOf_set (d : Dict Int (TVec R)) (n : Int) (v : TVec R) :
    valuesOf (d.set n v) = (valuesOf d).set n (v.map Traced.val) := (mapVal_set _ d n v).symm

theorem adNormalize_val (v : TVec R) :
    (adNormalize v).map Traced.val = normalizeNumpy (v.map Traced.val) := by
  cases v with
  | none => rfl
  | some v =>
    simp only [adNormalize, Option.bind_some, Traced.norm, Option.map_some, normalizeNumpy]
    split_ifs <;> rfl

theorem lift2_val {α β γ : Type} {f : Traced α → Traced β → Traced γ} {g : α → β → γ}
    (h : ∀ a b, (f a b).val = g a.val b.val) (a : Option (Traced α)) (b : Option (Traced β)) :
    (lift2 f a b).map Traced.val = lift2 g (a.map Traced.val) (b.map Traced.val) := by
  cases a <;> cases b <;> simp [lift2, h]

theorem add_val (a b : TVec R) : (lift2 Traced.add a b).map Traced.val =
    lift2 (· + ·) (a.map Traced.val) (b.map Traced.val) := lift2_val (fun _ _ => rfl) a b

theorem sub_val (a b : TVec R) : (lift2 Traced.sub a b).map Traced.val =
    lift2 (· - ·) (a.map Traced.val) (b.map Traced.val) := lift2_val (fun _ _ => rfl) a b

theorem scale_val (a : TNum R) (b : TVec R) : (lift2 Traced.scale a b).map Traced.val =
    lift2 (· • ·) (a.map Traced.val) (b.map Traced.val) := lift2_val (fun _ _ => rfl) a b

theorem adIncoming_val (node : Int) (xyz : Dict Int (TVec R)) (e : Int × Int) :
    (adIncoming node xyz e).map (·.map Traced.val) = npIncoming node (valuesOf xyz) e := by
  unfold adIncoming npIncoming
  simp only [valuesOf_getE]
  cases xyz.getE (if e.1 ≠ node then e.1 else e.2) with
  | error err => rfl
  | ok a =>
    simp only [Except.map]
    cases xyz.getE node with
    | error err => rfl
    | ok b => simp only [adNormalize_val, sub_val]

theorem adResultant_val (T : Diagram R) (node : Int) (xyz : Dict Int (TVec R)) (forces : Dict (Int × Int) R)
    (l : List (Int × Int)) (acc : TVec R) :
    (adResultant T node xyz forces l acc).map (·.map Traced.val) =
      npResultant node (valuesOf xyz) forces l (acc.map Traced.val) := by
  induction l generalizing acc with
  | nil => rfl
  | cons e l ih =>
    unfold adResultant npResultant
    cases forces.getE e with
    | error err => rfl
    | ok f =>
      simp only [← adIncoming_val]
      cases adIncoming node xyz e with
      | error err => rfl
      | ok v =>
        simp only [Except.map]
        have := ih (lift2 Traced.add acc (v.map (Traced.scale ⟨f, tanForce T e⟩)))
        rw [add_val] at this
        cases v <;> exact this

theorem adIndirect_val (T : Diagram R) (tab : NTables R) (ind : Bool) (node : Int) (xyz : Dict Int (TVec R)) :
    (adIndirect T tab ind node xyz).map (·.map Traced.val) = npIndirect tab ind node (valuesOf xyz) := by
  unfold adIndirect npIndirect
  cases ind
  · rfl
  · simp only [if_true]
    cases tab.indirect.getE node with
    | error err => rfl
    | ok l => exact adResultant_val T node xyz tab.forces l _

theorem adNodeEquilibrium_val (t q rd ri : TVec R) :
    (adNodeEquilibrium t q rd ri).map Traced.val = npNodeEquilibrium (t.map Traced.val) (q.map Traced.val)
      (rd.map Traced.val) (ri.map Traced.val) := by
  unfold adNodeEquilibrium npNodeEquilibrium
  cases t <;> cases q <;> cases rd <;> cases ri <;> rfl

theorem adPlaneLength_val (pos r : TVec R) (plane : Vec R × Vec R) :
    (adPlaneLength pos r plane).map (·.map Traced.val) =
      npPlaneLength (pos.map Traced.val) (r.map Traced.val) plane := by
  unfold adPlaneLength npPlaneLength
  rw [← adNormalize_val]
  cases adNormalize r with
  | none => rfl
  | some u =>
    simp only [Option.map_some]
    have e : (Traced.dot (.const plane.2) u).val = Vec.dot plane.2 u.val := rfl
    rw [e]
    by_cases h : |Vec.dot plane.2 u.val| < planeTol
    · rw [if_pos h, if_pos h]; rfl
    · rw [if_neg h, if_neg h]
      cases pos <;> rfl

theorem adEffectiveLength_val (l : Traced R) (plane : Option (Vec R × Vec R)) (pos r : TVec R) :
    (adEffectiveLength l plane pos r).map Traced.val =
      npEffectiveLength l.val plane (pos.map Traced.val) (r.map Traced.val) := by
  unfold adEffectiveLength npEffectiveLength
  cases plane with
  | none => rfl
  | some plane =>
    simp only
    rw [← adPlaneLength_val]
    cases adPlaneLength pos r plane with
    | none => rfl
    | some x =>
      cases x with
      | none => rfl
      | some x =>
        simp only [Option.map_some]
        by_cases h0 : x.val = 0
        · rw [if_pos h0, if_pos h0]; rfl
        · rw [if_neg h0, if_neg h0]; rfl

theorem adDirection_val (r : TVec R) : (adDirection r).map Traced.val = npDirection (r.map Traced.val) := by
  unfold adDirection npDirection
  rw [← adNormalize_val]
  cases adNormalize r <;> rfl

theorem adTrailForce_val {r : TVec R} {l : TNum R} {f : Traced R} (h : adTrailForce r l = some f) :
    npTrailForce (r.map Traced.val) (l.map Traced.val) = some f.val := by
  unfold adTrailForce at h
  cases r with
  | none => cases l <;> simp at h
  | some r =>
    simp only [Option.bind_some, Traced.norm] at h
    by_cases h0 : Vec.length r.val = 0
    · rw [if_pos h0] at h
      cases l <;> simp at h
    · rw [if_neg h0] at h
      cases l with
      | none =>
        simp only [Option.some.injEq] at h
        subst h
        rfl
      | some l =>
        simp only [npTrailForce, Option.map_some] at h ⊢
        split_ifs at h ⊢ with hs <;>
        · simp only [Option.some.injEq] at h
          subst h
          simp [Traced.neg]

theorem adTrailForce_none {r : TVec R} {l : TNum R} (h : adTrailForce r l = none) :
    npTrailForce (r.map Traced.val) (l.map Traced.val) = none ∨
      npTrailForce (r.map Traced.val) (l.map Traced.val) = some 0 := by
  unfold adTrailForce at h
  cases r with
  | none => cases l <;> exact Or.inl rfl
  | some r =>
    right
    simp only [Option.bind_some, Traced.norm] at h
    by_cases h0 : Vec.length r.val = 0
    · cases l with
      | none => simp [npTrailForce, h0]
      | some l => simp [npTrailForce, h0]
    · rw [if_neg h0] at h
      cases l with
      | none => simp at h
      | some l => simp only at h; split_ifs at h

/-- Both raise the same exception or both return, related by `r`. -/
def Both {α β : Type} (r : α → β → Prop) : Except PyErr α → Except PyErr β → Prop
  | .error e, .error e' => e = e'
  | .ok a, .ok b => r a b
  | _, _ => False

theorem adStep_both {D T : Diagram R} {tab : NTables R} {tseq : Dict Int (Dict Int Int)} {ind : Bool} {k : Int}
    {a : AState R} {s : NState R} (h : Shadows a s) (key : Int) :
    Both Shadows (adStep D T tab tseq ind k a key) (npStep D tab tseq ind k s key) := by
  unfold adStep npStep
  cases tseq.getE key with
  | error err => rfl
  | ok seqs =>
  simp only
  cases seqs.get? k with
  | none => exact h
  | some node =>
  simp only [← h.xyz, ← h.residual, valuesOf_getE, ← adIndirect_val T]
  cases a.xyz.getE node with
  | error err => rfl
  | ok pos =>
  simp only [Except.map]
  cases a.residual.getE node with
  | error err => rfl
  | ok rin =>
  simp only [Except.map]
  cases tab.loads.getE node with
  | error err => rfl
  | ok q =>
  simp only
  cases tab.direct.getE node with
  | error err => rfl
  | ok l =>
  simp only
  have hr := adResultant_val T node a.xyz tab.forces l (some (.const 0))
  simp only [Option.map_some, Traced.const] at hr
  rw [← hr]
  simp only [Traced.const]
  cases adResultant T node a.xyz tab.forces l (some ⟨0, 0⟩) with
  | error err => rfl
  | ok rd =>
  simp only [Except.map]
  cases adIndirect T tab ind node a.xyz with
  | error err => rfl
  | ok ri =>
  simp only
  cases D.isNodeSupport node with
  | error err => rfl
  | ok sup =>
  have hn : npNodeEquilibrium (rin.map Traced.val) (some q) (rd.map Traced.val) (ri.map Traced.val) =
      (adNodeEquilibrium rin (some ⟨q, tanLoad T node⟩) rd ri).map Traced.val :=
    (adNodeEquilibrium_val rin (some ⟨q, tanLoad T node⟩) rd ri).symm
  rw [hn]
  generalize adNodeEquilibrium rin (some ⟨q, tanLoad T node⟩) rd ri = r
  simp only
  cases sup with
  | true =>
    simp only [if_true]
    exact ⟨rfl, rfl, by simp only [valuesOf_set, h.reactions], h.keys, h.forces, h.slack⟩
  | false =>
    simp only [Bool.false_eq_true, if_false]
    cases seqs.getE (k + 1) with
    | error err => rfl
    | ok next =>
      simp only
      generalize (if (node, next) ∈ tab.edgeKeys then (node, next) else (next, node)) = e
      cases tab.lengths.getE e with
      | error err => rfl
      | ok l0 =>
        have hl := adEffectiveLength_val ⟨l0, tanLength T e⟩ (tab.planes.get? e) pos r
        simp only at hl ⊢
        rw [← hl, ← adDirection_val]
        refine ⟨?_, ?_, h.reactions, ?_, ?_, ?_⟩
        · simp only [valuesOf_set, add_val, scale_val]
        · simp only [valuesOf_set]
        · simp only [Dict.keys_set, h.keys]
          split_ifs <;> rfl
        · intro e' f hf
          simp only [Dict.get?_set] at hf ⊢
          split_ifs at hf ⊢ with he
          · rw [adTrailForce_val (Option.some.inj hf)]
          · exact h.forces e' f hf
        · intro e' hf
          simp only [Dict.get?_set] at hf ⊢
          split_ifs at hf ⊢ with he
          · rcases adTrailForce_none (Option.some.inj hf) with h1 | h1 <;> rw [h1] <;> simp
          · exact h.slack e' hf

theorem forE_both {α β γ : Type} {r : α → β → Prop} {f : α → γ → Except PyErr α} {g : β → γ → Except PyErr β}
    (hf : ∀ a b c, r a b → Both r (f a c) (g b c)) (l : List γ) {a : α} {b : β} (h : r a b) :
    Both r (forE f l a) (forE g l b) := by
  induction l generalizing a b with
  | nil => exact h
  | cons c l ih =>
    have := hf a b c h
    unfold forE
    cases h1 : f a c with
    | error e =>
      cases h2 : g b c with
      | error e' => rw [h1, h2] at this; exact this
      | ok b' => rw [h1, h2] at this; exact this.elim
    | ok a' =>
      cases h2 : g b c with
      | error e' => rw [h1, h2] at this; exact this.elim
      | ok b' => rw [h1, h2] at this; exact ih this

theorem adSweep_both {D T : Diagram R} {tab : NTables R} {tseq : Dict Int (Dict Int Int)} {ind : Bool} {n : Int}
    {a : AState R} {s : NState R} (h : Shadows a s) :
    Both Shadows (adSweep D T tab tseq ind n a) (npSweep D tab tseq ind n s) :=
  forE_both (fun _ _ _ h => forE_both (fun _ _ c h => adStep_both h c) D.trails.keys h) (pyRange n) h

theorem adLoop_both {D T : Diagram R} {tab : NTables R} {tseq : Dict Int (Dict Int Int)} {eta : R} {n : Int}
    (fuel t : Nat) {a : AState R} {s : NState R} (h : Shadows a s) (info : Option (NLoopInfo R)) :
    Both (fun p q => Shadows p.1 q.1 ∧ p.2 = q.2) (adLoop D T tab tseq eta n fuel t a info)
      (npLoop D tab tseq eta n fuel t s info) := by
  induction fuel generalizing t a s info with
  | zero => exact ⟨h, rfl⟩
  | succ fuel ih =>
    have hs := adSweep_both (D := D) (T := T) (tab := tab) (tseq := tseq) (ind := decide (t > 0)) (n := n) h
    unfold adLoop npLoop
    cases h1 : adSweep D T tab tseq (t > 0) n a with
    | error e =>
      cases h2 : npSweep D tab tseq (t > 0) n s with
      | error e' => rw [h1, h2] at hs; exact hs
      | ok b' => rw [h1, h2] at hs; exact hs.elim
    | ok a' =>
      cases h2 : npSweep D tab tseq (t > 0) n s with
      | error e' => rw [h1, h2] at hs; exact hs.elim
      | ok s' =>
        rw [h1, h2] at hs
        have hs' : Shadows a' s' := hs
        simp only [h.xyz, hs'.xyz]
        by_cases ht : t = 0
        · rw [if_pos ht, if_pos ht]
          exact ih _ hs' _
        · rw [if_neg ht, if_neg ht]
          split_ifs
          · exact ⟨hs', rfl⟩
          · exact ih _ hs' _

theorem shadows_init (D T : Diagram R) : Shadows (adInit D T) (npInit D) := by
  refine ⟨?_, ?_, rfl, rfl, fun e f h => ?_, fun e h => ?_⟩
  · simp only [adInit, npInit, valuesOf, List.map_map]; rfl
  · simp only [adInit, npInit, valuesOf, List.map_map]; rfl
  · simp [adInit, Dict.get?] at h
  · simp [adInit, Dict.get?] at h

/-- Differentiation takes the same branches and raises the same exceptions. -/
theorem adEquilibriumState_both (D T : Diagram R) (tmax : Nat) (eta : R) :
    Both Shadows (adEquilibriumState D T tmax eta) (npEquilibriumState D tmax eta false) := by
  unfold adEquilibriumState npEquilibriumState
  by_cases h0 : D.numberOfTrails = 0
  · rw [if_pos h0, if_pos h0]; rfl
  rw [if_neg h0, if_neg h0]
  cases D.trailsSequences with
  | error err => rfl
  | ok tseq =>
  simp only
  cases npTables D with
  | error err => rfl
  | ok tab =>
  simp only
  by_cases ht : tmax = 0
  · rw [if_pos ht, if_pos ht]; rfl
  rw [if_neg ht, if_neg ht]
  cases D.numberOfSequences with
  | error err => rfl
  | ok n =>
  simp only
  have h := adLoop_both (D := D) (T := T) (tab := tab) (tseq := tseq) (eta := eta) (n := n) tmax 0
    (shadows_init D T) none
  cases h1 : adLoop D T tab tseq eta n tmax 0 (adInit D T) none with
  | error e =>
    cases h2 : npLoop D tab tseq eta n tmax 0 (npInit D) none with
    | error e' => rw [h1, h2] at h; exact h
    | ok b' => rw [h1, h2] at h; exact h.elim
  | ok a' =>
    cases h2 : npLoop D tab tseq eta n tmax 0 (npInit D) none with
    | error e' => rw [h1, h2] at h; exact h.elim
    | ok s' =>
      rw [h1, h2] at h
      obtain ⟨hs, hi⟩ := h
      obtain ⟨a', i⟩ := a'
      obtain ⟨s', i'⟩ := s'
      simp only at hs hi
      subst hi
      simp only [adFinish, npFinish]
      cases i with
      | none => rfl
      | some i =>
        obtain ⟨t, d⟩ := i
        simp only [Bool.false_eq_true, if_false]
        split_ifs
        · cases d with
          | none => rfl
          | some d =>
            simp only
            split_ifs
            · rfl
            · exact hs
        · exact hs

/-! ## Penalties -/

/-- A traced number has the value of a number that may be NaN, if it has a derivative. -/
def Above (a : TNum R) (b : Num R) : Prop := ∀ f, a = some f → b = some f.val

theorem above_map (a : TNum R) : Above a (a.map Traced.val) := by
  rintro f rfl; rfl

theorem vector_above {a b : TVec R} (w : R) :
    Above (adVectorPenalty a b w) (vectorPenalty (a.map Traced.val) (b.map Traced.val) w) := by
  cases a <;> cases b <;> exact above_map _

theorem float_above {a : TNum R} {b : Num R} (h : Above a b) (t w : R) :
    Above (adFloatPenalty a t w) (floatPenalty b t w) := by
  cases a with
  | none => intro f hf; simp [adFloatPenalty] at hf
  | some a => rw [h a rfl]; exact above_map _

theorem line_val (p : Traced (Vec R)) (a b : Vec R) : (adClosestOnLine p a b).val = closestOnLine p.val a b := by
  unfold adClosestOnLine closestOnLine vectorComponent
  split_ifs <;> rfl

theorem plane_val (p : Traced (Vec R)) (a b : Vec R) :
    (adClosestOnPlane p a b).map Traced.val = closestOnPlane p.val a b := by
  unfold adClosestOnPlane closestOnPlane
  simp only
  split_ifs <;> rfl

theorem segment_val (p : Traced (Vec R)) (a b : Vec R) :
    (adClosestOnSegment p a b).val = closestOnSegment p.val a b := by
  unfold adClosestOnSegment closestOnSegment
  simp only [line_val]
  split_ifs <;> first | rfl | exact line_val p a b

theorem first_val (p : Vec R) (q : Traced (Vec R)) (qs : List (Traced (Vec R))) :
    (adFirstClosest p q qs).val = firstClosest p q.val (qs.map Traced.val) := by
  induction qs generalizing q with
  | nil => rfl
  | cons a qs ih =>
    simp only [adFirstClosest, List.map_cons, firstClosest, ih]
    split_ifs <;> rfl

theorem polyline_val (p : Traced (Vec R)) (pts : List (Vec R)) :
    (adClosestOnPolyline p pts).map Traced.val = closestOnPolyline p.val pts := by
  unfold adClosestOnPolyline closestOnPolyline
  cases pts.zip pts.tail with
  | nil => rfl
  | cons a l =>
    simp only [List.map_cons, Except.map, first_val, segment_val, List.map_map]
    congr 2
    exact List.map_congr_left fun s _ => segment_val p s.1 s.2

theorem direction_val (xyz : Dict Int (TVec R)) (e : Int × Int) :
    (adEdgeDirection xyz e).map (·.map Traced.val) = edgeDirection (valuesOf xyz) e := by
  unfold adEdgeDirection edgeDirection
  simp only [valuesOf_getE]
  cases xyz.getE e.2 with
  | error err => rfl
  | ok a =>
    simp only [Except.map]
    cases xyz.getE e.1 with
    | error err => rfl
    | ok b =>
      simp only [← sub_val]
      cases lift2 Traced.sub a b with
      | none => rfl
      | some v =>
        simp only [Option.map_some, Option.bind_some]
        split_ifs <;> rfl

theorem length_both (xyz : Dict Int (TVec R)) (e : Int × Int) :
    Both Above (adEdgeLengthRef xyz e) (edgeLengthRef (valuesOf xyz) e) := by
  unfold adEdgeLengthRef edgeLengthRef
  simp only [valuesOf_getE]
  cases xyz.getE e.1 with
  | error err => rfl
  | ok a =>
    simp only [Except.map]
    cases xyz.getE e.2 with
    | error err => rfl
    | ok b =>
      intro f hf
      cases a with
      | none => cases b <;> simp [lift2] at hf
      | some a =>
        cases b with
        | none => simp [lift2] at hf
        | some b =>
          simp only [lift2, Option.bind_some, Traced.norm] at hf
          split_ifs at hf with h0
          simp only [Option.some.injEq] at hf
          subst hf
          rfl

theorem adPenalty_both {a : AState R} {s : NState R} (h : Shadows a s) (c : Constraint R) :
    Both Above (c.adPenalty a) (c.penalty s) := by
  cases c with
  | point n t w =>
    simp only [Constraint.adPenalty, Constraint.penalty, ← h.xyz, valuesOf_getE]
    cases a.xyz.getE n with
    | error err => rfl
    | ok r => exact vector_above (b := some (.const t)) w
  | plane n t w =>
    simp only [Constraint.adPenalty, Constraint.penalty, ← h.xyz, valuesOf_getE]
    cases a.xyz.getE n with
    | error err => rfl
    | ok r =>
      cases r with
      | none => exact vector_above (a := none) (b := none) w
      | some p =>
        have := vector_above (a := some p) (b := adClosestOnPlane p t.1 t.2) w
        rw [plane_val] at this
        exact this
  | line n t w =>
    simp only [Constraint.adPenalty, Constraint.penalty, ← h.xyz, valuesOf_getE]
    cases a.xyz.getE n with
    | error err => rfl
    | ok r =>
      cases r with
      | none => exact vector_above (a := none) (b := none) w
      | some p =>
        have := vector_above (a := some p) (b := some (adClosestOnLine p t.1 t.2)) w
        simp only [Option.map_some, line_val] at this
        exact this
  | polyline n t w =>
    simp only [Constraint.adPenalty, Constraint.penalty, ← h.xyz, valuesOf_getE]
    cases a.xyz.getE n with
    | error err => rfl
    | ok r =>
      cases r with
      | none =>
        simp only [Except.map, Option.map_none]
        split_ifs
        · rfl
        · exact above_map none
      | some p =>
        simp only [Except.map, Option.map_some, ← polyline_val]
        cases adClosestOnPolyline p t with
        | error err => rfl
        | ok q => exact vector_above (a := some p) (b := some q) w
  | trailForce e t w =>
    simp only [Constraint.adPenalty, Constraint.penalty, Dict.getE]
    cases h1 : a.trailForces.get? e with
    | none =>
      have : s.trailForces.get? e = none := by
        rw [Dict.get?_eq_none_iff] at h1 ⊢
        rw [← h.keys]; exact h1
      rw [this]; rfl
    | some f =>
      obtain ⟨g, hg⟩ := (Dict.exists_get?_iff s.trailForces e).2 (by
        rw [← h.keys]; exact Dict.mem_keys_of_get? h1)
      rw [hg]
      refine float_above (fun f' hf => ?_) t w
      subst hf
      have := h.forces e f' h1
      rw [hg] at this
      exact Option.some.inj this
  | reaction n t w =>
    simp only [Constraint.adPenalty, Constraint.penalty, ← h.reactions, valuesOf_getE]
    cases a.reactions.getE n with
    | error err => rfl
    | ok r => exact vector_above (b := some (.const t)) w
  | length e t w =>
    have := length_both a.xyz e
    simp only [Constraint.adPenalty, Constraint.penalty, ← h.xyz]
    cases h1 : adEdgeLengthRef a.xyz e with
    | error err =>
      cases h2 : edgeLengthRef (valuesOf a.xyz) e with
      | error err' => rw [h1, h2] at this; exact this
      | ok v => rw [h1, h2] at this; exact this.elim
    | ok v =>
      cases h2 : edgeLengthRef (valuesOf a.xyz) e with
      | error err' => rw [h1, h2] at this; exact this.elim
      | ok v' => rw [h1, h2] at this; exact float_above this t w
  | direction e t w =>
    simp only [Constraint.adPenalty, Constraint.penalty, ← h.xyz, ← direction_val]
    cases adEdgeDirection a.xyz e with
    | error err => rfl
    | ok r => exact vector_above (b := some (.const (alignedTarget t (r.map Traced.val)))) w

theorem adCalculatePenalty_both {a : AState R} {s : NState R} (h : Shadows a s) (cs : List (Constraint R))
    {x : TNum R} {y : Num R} (hx : Above x y) :
    Both Above (adCalculatePenalty a cs x) (calculatePenalty s cs y) := by
  induction cs generalizing x y with
  | nil => exact hx
  | cons c cs ih =>
    have := adPenalty_both h c
    unfold adCalculatePenalty calculatePenalty
    cases h1 : c.adPenalty a with
    | error err =>
      cases h2 : c.penalty s with
      | error err' => rw [h1, h2] at this; exact this
      | ok v => rw [h1, h2] at this; exact this.elim
    | ok v =>
      cases h2 : c.penalty s with
      | error err' => rw [h1, h2] at this; exact this.elim
      | ok v' =>
        rw [h1, h2] at this
        refine ih ?_
        intro f hf
        cases x with
        | none => cases v <;> simp [lift2] at hf
        | some x =>
          cases v with
          | none => simp [lift2] at hf
          | some v =>
            rw [hx x rfl, (show Above (some v) v' from this) v rfl]
            simp only [lift2, Option.some.injEq] at hf ⊢
            subst hf
            rfl

end CEM
