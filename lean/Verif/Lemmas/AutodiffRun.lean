import Verif.Lemmas.AutodiffForm
import Verif.Spec.Autodiff

/-!
# Derivatives of the numbers of a run

A run of form finding that stays away from kinks depends smoothly on the problem, and automatic
differentiation finds the derivatives of its numbers, sweep by sweep.
-/

set_option linter.unusedSectionVars false
set_option linter.unusedSimpArgs false

namespace CEM
namespace Props
open Diagram Spec Filter Topology

/-- Nothing is at a kink when `n` is processed in state `s`. -/
structure Sound (D : Diagram ℝ) (nxt : Int → Option Int) (ind : Bool) (s : EqState ℝ) (n : Int) : Prop where
  direct : ∀ m ∈ dirNbrs D n, s.pos m ≠ s.pos n
  indirect : ind = true → ∀ m ∈ indNbrs D n, s.pos m ≠ s.pos n
  trail : ∀ m, nxt n = some m → outVec D ind s.pos (s.res n) n ≠ 0
  plane : ∀ m o N, nxt n = some m → (edgeData D n m).plane = some (o, N) →
    |Vec.dot N (unit (outVec D ind s.pos (s.res n) n))| < 1 / 1000000 ∨
    (1 / 1000000 < |Vec.dot N (unit (outVec D ind s.pos (s.res n) n))| ∧ Vec.dot N (o - s.pos n) ≠ 0)

/-! ## Smoothness -/

section
variable {V : Type} [NormedAddCommGroup V] [NormedSpace ℝ V] {k : WithTop ℕ∞} {t0 : V}
  {D : V → Diagram ℝ} {s : V → EqState ℝ} {nxt : Int → Option Int} {ind : Bool} {n : Int}

/-- Problems whose numbers depend smoothly on `t`. -/
structure SmoothInput (k : WithTop ℕ∞) (D : V → Diagram ℝ) (t0 : V) : Prop where
  same : ∀ t, SameExcept (fun _ => True) (D t0) (D t)
  positions : ∀ n, SmoothAt k (fun t => posOf (D t) n) t0
  loads : ∀ n, SmoothAt k (fun t => loadAt (D t) n) t0
  lengths : ∀ e, ContDiffAt ℝ k (fun t => lengthAt (D t) e) t0
  forces : ∀ e, ContDiffAt ℝ k (fun t => forceAt (D t) e) t0

/-- States whose positions and trail vectors depend smoothly on `t`. -/
structure SmoothState (k : WithTop ℕ∞) (s : V → EqState ℝ) (t0 : V) : Prop where
  pos : ∀ n, SmoothAt k (fun t => (s t).pos n) t0
  res : ∀ n, SmoothAt k (fun t => (s t).res n) t0

theorem smooth_dev (S : SmoothInput k D t0) (H : SmoothState k s t0) (l : List Int)
    (hl : ∀ m ∈ l, m ∈ (D t0).neighbors n) (hm : ∀ m ∈ l, (s t0).pos m ≠ (s t0).pos n) :
    SmoothAt k (fun t => devSum (D t) (s t).pos n l) t0 := by
  unfold devSum
  refine SmoothAt.list_sum l (f := fun m t => devTerm (D t) (s t).pos n m) fun m h => ?_
  simp only [devTerm_real]
  refine SmoothAt.smul ?_ (((H.pos m).sub (H.pos n)).unit (sub_ne_zero.2 (hm m h)))
  simp only [(edgeData_numbers (S.same _) (hl m h)).2]
  exact S.forces _

theorem smooth_out (S : SmoothInput k D t0) (H : SmoothState k s t0) (h : Sound (D t0) nxt ind (s t0) n) :
    SmoothAt k (fun t => outVec (D t) ind (s t).pos ((s t).res n) n) t0 := by
  unfold outVec
  simp only [dirNbrs_shape (S.same _), indNbrs_shape (S.same _)]
  have h1 := smooth_dev S H (n := n) (dirNbrs (D t0) n) (fun m hm => (List.mem_filter.1 hm).1) h.direct
  refine SmoothAt.sub (((H.res n).sub (S.loads n)).sub h1) ?_
  cases ind with
  | false => exact SmoothAt.const 0
  | true => exact smooth_dev S H (indNbrs (D t0) n) (fun m hm => (List.mem_filter.1 hm).1) (h.indirect rfl)

theorem smooth_len (S : SmoothInput k D t0) (H : SmoothState k s t0) (h : Sound (D t0) nxt ind (s t0) n)
    {m : Int} (hm : nxt n = some m) (hb : m ∈ (D t0).neighbors n) :
    ContDiffAt ℝ k (fun t => effectiveLength (edgeData (D t) n m) ((s t).pos n)
      (outVec (D t) ind (s t).pos ((s t).res n) n)) t0 := by
  refine smooth_length (fun t => (edgeData_shape (S.same t) n m).2) ?_ (H.pos n) (smooth_out S H h)
    (h.trail m hm) fun o N => h.plane m o N hm
  simp only [(edgeData_numbers (S.same _) hb).1]
  exact S.lengths _

theorem smooth_proc (S : SmoothInput k D t0) (H : SmoothState k s t0) (h : Sound (D t0) nxt ind (s t0) n)
    (hb : ∀ m, nxt n = some m → m ∈ (D t0).neighbors n) :
    SmoothState k (fun t => proc (D t) nxt ind (s t) n) t0 := by
  cases hn : nxt n with
  | none =>
    simp only [proc_none hn]
    exact ⟨H.pos, H.res⟩
  | some m =>
    simp only [proc_some hn]
    have ho := smooth_out S H h
    constructor
    · intro x
      unfold EqState.pos
      simp only [Dict.get?_set]
      by_cases e : m = x
      · simp only [if_pos e, Option.getD_some]
        simp only [normalize_eq_unit]
        exact (H.pos n).add (SmoothAt.smul (smooth_len S H h hn (hb m hn)) (ho.unit (h.trail m hn)))
      · simp only [if_neg e]
        exact H.pos x
    · intro x
      unfold EqState.res
      simp only [Dict.get?_set]
      by_cases e : m = x
      · simp only [if_pos e, Option.getD_some]
        exact ho
      · simp only [if_neg e]
        exact H.res x

theorem clean_near (S : SmoothInput k D t0) (H : SmoothState k s t0) (h : Sound (D t0) nxt ind (s t0) n) :
    ∀ᶠ t in 𝓝 t0, Clean (D t) nxt ind (s t) n := by
  have h1 : ∀ᶠ t in 𝓝 t0, ∀ m ∈ (allNbrs (D t0) ind n).toFinset, (s t).pos m - (s t).pos n ≠ 0 := by
    rw [eventually_all_finset]
    intro m hm
    refine ((H.pos m).sub (H.pos n)).eventually_ne (sub_ne_zero.2 ?_)
    rcases List.mem_append.1 (List.mem_toFinset.1 hm) with hm | hm
    · exact h.direct m hm
    · cases ind with
      | false => simp at hm
      | true => exact h.indirect rfl m hm
  have h2 : ∀ᶠ t in 𝓝 t0, ∀ m, nxt n = some m → outVec (D t) ind (s t).pos ((s t).res n) n ≠ 0 := by
    cases hn : nxt n with
    | none => exact .of_forall fun t m h => by simp at h
    | some m => exact ((smooth_out S H h).eventually_ne (h.trail m hn)).mono fun t ht _ _ => ht
  filter_upwards [h1, h2] with t a1 a2
  refine ⟨fun m hm => ?_, fun m hm _ => (Vec.length_pos (a2 m hm)).ne'⟩
  have e : allNbrs (D t) ind n = allNbrs (D t0) ind n := by
    unfold allNbrs
    rw [dirNbrs_shape (S.same t), indNbrs_shape (S.same t)]
  rw [e] at hm
  exact (Vec.length_pos (a1 m (List.mem_toFinset.2 hm))).ne'

/-- Part of a sweep. -/
theorem smooth_fold (S : SmoothInput k D t0) (hb : ∀ n m, nxt n = some m → m ∈ (D t0).neighbors n)
    {L : List Int} (hs : ∀ L1 n L2, L = L1 ++ n :: L2 →
      Sound (D t0) nxt ind (L1.foldl (proc (D t0) nxt ind) (s t0)) n)
    (H : SmoothState k s t0) (L1 L2 : List Int) (hL : L = L1 ++ L2) :
    SmoothState k (fun t => L1.foldl (proc (D t) nxt ind) (s t)) t0 ∧
    ∀ᶠ t in 𝓝 t0, L1.foldl (nproc (D t) nxt ind) (liftS (s t)) = liftS (L1.foldl (proc (D t) nxt ind) (s t)) := by
  induction L1 using List.reverseRecOn generalizing L2 with
  | nil => exact ⟨H, .of_forall fun _ => rfl⟩
  | append_singleton L1 n ih =>
    have hsplit : L = L1 ++ n :: L2 := by simpa using hL
    obtain ⟨h1, h2⟩ := ih (n :: L2) hsplit
    have hsn := hs L1 n L2 hsplit
    simp only [List.foldl_append, List.foldl_cons, List.foldl_nil]
    refine ⟨smooth_proc S h1 hsn (hb n), ?_⟩
    filter_upwards [h2, clean_near S h1 hsn] with t a1 a2
    rw [a1, nproc_clean a2]

theorem smooth_start (I : ValidInput (D t0)) (S : SmoothInput k D t0) :
    SmoothState k (fun t => initState (D t)) t0 := by
  constructor
  · intro n
    simp only [start_position]
    exact S.positions n
  · intro n
    refine (SmoothAt.const 0).congr (.of_forall fun t => ?_)
    have J := validInput_same (S.same t) I
    by_cases hn : n ∈ (D t).nodes.keys
    · exact start_zero J hn
    · unfold EqState.res initState
      rw [get?_map_val (D t).nodes (fun d => d.reaction), (Dict.get?_eq_none_iff _ _).2 hn]
      rfl

/-- A sweep of a run that stays away from kinks. -/
def SoundSweep (D : Diagram ℝ) (L : List Int) (i : Nat) : Prop :=
  ∀ L1 n L2, L = L1 ++ n :: L2 → Sound D (nxtK D none) (decide (i ≠ 0))
    (L1.foldl (proc D (nxtK D none) (decide (i ≠ 0))) (iter D none L i)) n

theorem decide_pos_ne (i : Nat) : decide (i > 0) = decide (i ≠ 0) := by
  simp only [gt_iff_lt, ne_eq, Nat.pos_iff_ne_zero]

theorem next_nbr {D : Diagram ℝ} (I : ValidInput D) {n m : Int} (h : nxtK D none n = some m) :
    m ∈ D.neighbors n := by
  rw [nxtK_none I.wf I.trails] at h
  exact adj_mem_neighbors (trailNext_adj I.wf I.trails h)

theorem smooth_iter (I : ValidInput (D t0)) (S : SmoothInput k D t0) {L : List Int} {m : Nat}
    (hs : ∀ i, i < m → SoundSweep (D t0) L i) (i : Nat) (hi : i ≤ m) :
    SmoothState k (fun t => iter (D t) none L i) t0 ∧
    ∀ᶠ t in 𝓝 t0, nIter (D t) L i = liftS (iter (D t) none L i) := by
  induction i with
  | zero => exact ⟨smooth_start I S, .of_forall fun t => (liftS_init (D t)).symm⟩
  | succ i ih =>
    obtain ⟨h1, h2⟩ := ih (by omega)
    obtain ⟨h3, h4⟩ := smooth_fold (s := fun t => iter (D t) none L i) (nxt := nxtK (D t0) none) (ind := decide (i ≠ 0)) (L := L) S (fun n m => next_nbr I)
      (hs i (by omega)) h1 L [] (by simp)
    simp only [iter, nIter, nxtK_same (S.same _), decide_pos_ne]
    refine ⟨h3, ?_⟩
    filter_upwards [h2, h4] with t a1 a2
    rw [a1, a2]

/-- The outgoing trail vectors and the signed lengths of the last sweep. -/
theorem smooth_last (I : ValidInput (D t0)) (S : SmoothInput k D t0) {L : List Int}
    (G : GoodSched (D t0) none L) {m : Nat} (hs : ∀ i, i < m + 1 → SoundSweep (D t0) L i) {n : Int} (hn : n ∈ L) :
    SmoothAt k (fun t => rAt (D t) (nxtK (D t) none) (decide (m ≠ 0)) L (iter (D t) none L m) n) t0 ∧
    ∀ b, nxtK (D t0) none n = some b →
      rAt (D t0) (nxtK (D t0) none) (decide (m ≠ 0)) L (iter (D t0) none L m) n ≠ 0 ∧
      ContDiffAt ℝ k (fun t => lenAt (D t) (nxtK (D t) none) (decide (m ≠ 0)) L (iter (D t) none L m) n b) t0 := by
  obtain ⟨L1, L2, hL⟩ := List.append_of_mem hn
  have h1 := (smooth_iter I S hs m (by omega)).1
  have h2 := (smooth_fold (s := fun t => iter (D t) none L m) (nxt := nxtK (D t0) none) (ind := decide (m ≠ 0)) (L := L) S (fun n m => next_nbr I)
    (hs m (by omega)) h1 L1 (n :: L2) hL).1
  have h3 := hs m (by omega) L1 n L2 hL
  simp only [lenAt, rAt, stateAt, takeWhile_of_split G.sched.nodup hL, nxtK_same (S.same _)]
  exact ⟨smooth_out S h2 h3, fun b hb => ⟨h3.trail b hb, smooth_len S h2 h3 hb (next_nbr I hb)⟩⟩

end

/-! ## Derivatives -/

section
variable {D : ℝ → Diagram ℝ} {E : Diagram ℝ} {s : ℝ → EqState ℝ} {nxt : Int → Option Int} {ind : Bool} {n : Int}

/-- A state with the derivatives of the positions and trail vectors of `s`. -/
structure TracksState (s : ℝ → EqState ℝ) (A : AState ℝ) : Prop where
  pos : ∀ n, Tracks (A.pos n) fun t => (s t).pos n
  res : ∀ n, Tracks (A.res n) fun t => (s t).res n

theorem tracks_outVec (G : Tangent D E) {A : AState ℝ} (H : TracksState s A) (h : Sound (D 0) nxt ind (s 0) n) :
    Tracks (outVecA (D 0) E ind A.pos (A.res n) n) fun t => outVec (D t) ind (s t).pos ((s t).res n) n := by
  have h1 := tracks_dev G (P := fun t => (s t).pos) (A := A.pos) (n := n) (dirNbrs (D 0) n)
    (fun m hm => (List.mem_filter.1 hm).1) (H.pos n) (fun m hm => ⟨H.pos m, h.direct m hm⟩) (Tracks.const 0)
  have h2 : Tracks (if ind then devSumA (D 0) E A.pos n (indNbrs (D 0) n) (some (.const 0)) else some (.const 0))
      fun t => if ind then devSum (D t) (s t).pos n (indNbrs (D 0) n) else 0 := by
    cases ind with
    | false => exact Tracks.const 0
    | true =>
      have := tracks_dev G (P := fun t => (s t).pos) (A := A.pos) (n := n) (indNbrs (D 0) n)
        (fun m hm => (List.mem_filter.1 hm).1) (H.pos n) (fun m hm => ⟨H.pos m, h.indirect rfl m hm⟩) (Tracks.const 0)
      exact Tracks.congr this (.of_forall fun t => by simp only [if_true, zero_add])
  have hq : Tracks (some ⟨loadOf (D 0) n, tanLoad E n⟩) fun t => loadOf (D t) n :=
    ⟨_, rfl, rfl, G.loads n⟩
  have := ((((H.res n).neg.add hq).add h1).add h2).neg
  refine Tracks.congr this (.of_forall fun t => ?_)
  simp only [outVec, dirNbrs_shape (G.same t), indNbrs_shape (G.same t), zero_add]
  abel

theorem tracks_len (G : Tangent D E) {A : AState ℝ} (H : TracksState s A) (h : Sound (D 0) nxt ind (s 0) n)
    {m : Int} (hm : nxt n = some m) (hb : m ∈ (D 0).neighbors n) :
    TracksN (lenA (D 0) E n m (A.pos n) (outVecA (D 0) E ind A.pos (A.res n) n))
      fun t => effectiveLength (edgeData (D t) n m) ((s t).pos n) (outVec (D t) ind (s t).pos ((s t).res n) n) := by
  refine tracks_length (d := fun t => edgeData (D t) n m) (P := fun t => (s t).pos n)
    (fun t => (edgeData_shape (G.same t) n m).2) ⟨rfl, ?_⟩ (H.pos n) (tracks_outVec G H h)
    (h.trail m hm) fun o N => h.plane m o N hm
  simp only [(edgeData_numbers (G.same _) hb).1]
  exact G.lengths _

theorem tracks_proc (G : Tangent D E) {A : AState ℝ} (H : TracksState s A) (h : Sound (D 0) nxt ind (s 0) n)
    (hb : ∀ m, nxt n = some m → m ∈ (D 0).neighbors n) :
    TracksState (fun t => proc (D t) nxt ind (s t) n) (aproc (D 0) E nxt ind A n) := by
  unfold aproc
  cases hn : nxt n with
  | none =>
    simp only [proc_none hn]
    exact ⟨H.pos, H.res⟩
  | some m =>
    simp only [proc_some hn]
    have ho := tracks_outVec G H h
    constructor
    · intro x
      unfold AState.pos EqState.pos
      simp only [Dict.get?_set]
      by_cases e : m = x
      · simp only [if_pos e, Option.getD_some]
        exact (H.pos n).add ((tracks_direction ho (h.trail m hn)).scale (tracks_len G H h hn (hb m hn)))
      · simp only [if_neg e]
        exact H.pos x
    · intro x
      unfold AState.res EqState.res
      simp only [Dict.get?_set]
      by_cases e : m = x
      · simp only [if_pos e, Option.getD_some]
        exact ho
      · simp only [if_neg e]
        exact H.res x

theorem tracks_fold (G : Tangent D E) (hb : ∀ n m, nxt n = some m → m ∈ (D 0).neighbors n)
    {L : List Int} (hs : ∀ L1 n L2, L = L1 ++ n :: L2 →
      Sound (D 0) nxt ind (L1.foldl (proc (D 0) nxt ind) (s 0)) n)
    {A : AState ℝ} (H : TracksState s A) (L1 L2 : List Int) (hL : L = L1 ++ L2) :
    TracksState (fun t => L1.foldl (proc (D t) nxt ind) (s t)) (L1.foldl (aproc (D 0) E nxt ind) A) := by
  induction L1 using List.reverseRecOn generalizing L2 with
  | nil => exact H
  | append_singleton L1 n ih =>
    have hsplit : L = L1 ++ n :: L2 := by simpa using hL
    simp only [List.foldl_append, List.foldl_cons, List.foldl_nil]
    exact tracks_proc G (ih (n :: L2) hsplit) (hs L1 n L2 hsplit) (hb n)

theorem tracks_start (I : ValidInput (D 0)) (G : Tangent D E) :
    TracksState (fun t => initState (D t)) (adInit (D 0) E) := by
  have hk : ∀ n t, n ∉ (D 0).nodes.keys → (D t).nodes.get? n = none := fun n t hn =>
    (Dict.get?_eq_none_iff _ _).2 (by rw [(G.same t).nodeKeys]; exact hn)
  constructor
  · intro m
    simp only [start_position]
    by_cases hm : m ∈ (D 0).nodes.keys
    · obtain ⟨d, hd⟩ := (Dict.exists_get?_iff _ _).2 hm
      have e : (adInit (D 0) E).pos m = some ⟨posOf (D 0) m, tanPos E m⟩ := by
        unfold AState.pos adInit posOf
        rw [get?_map_key (D 0).nodes (fun n d => some (Traced.mk d.pos (tanPos E n))), hd]
        simp
      rw [e]
      exact ⟨_, rfl, rfl, G.positions m⟩
    · have e : (adInit (D 0) E).pos m = some (.const 0) := by
        unfold AState.pos adInit
        rw [get?_map_key (D 0).nodes (fun n d => some (Traced.mk d.pos (tanPos E n))), hk m 0 hm]
        rfl
      rw [e]
      refine Tracks.congr (Tracks.const 0) (.of_forall fun t => ?_)
      unfold posOf
      rw [hk m t hm]
      rfl
  · intro m
    have e : (adInit (D 0) E).res m = some (.const 0) := by
      unfold AState.res adInit
      rw [get?_map_val (D 0).nodes (fun d => some (Traced.const d.reaction))]
      cases hd : (D 0).nodes.get? m with
      | none => rfl
      | some d => simp [I.reaction m d hd]
    rw [e]
    refine Tracks.congr (Tracks.const 0) (.of_forall fun t => ?_)
    have J := validInput_same (G.same t) I
    unfold EqState.res initState
    rw [get?_map_val (D t).nodes (fun d => d.reaction)]
    cases hd : (D t).nodes.get? m with
    | none => rfl
    | some d => simp [J.reaction m d hd]

theorem tracks_iter (I : ValidInput (D 0)) (G : Tangent D E) {L : List Int} {m : Nat}
    (hs : ∀ i, i < m → SoundSweep (D 0) L i) (i : Nat) (hi : i ≤ m) :
    TracksState (fun t => iter (D t) none L i) (aIter (D 0) E L i) := by
  induction i with
  | zero => exact tracks_start I G
  | succ i ih =>
    simp only [iter, aIter, nxtK_same (G.same _), decide_pos_ne]
    exact tracks_fold (s := fun t => iter (D t) none L i) (nxt := nxtK (D 0) none) (L := L) G
      (fun n m => next_nbr I) (hs i (by omega)) (ih (by omega)) L [] (by simp)

/-- What happens to the force of a trail edge and to a reaction after it has been computed. -/
theorem aproc_keep {D T : Diagram ℝ} {nxt : Int → Option Int} {ind : Bool} (l : List Int) (A : AState ℝ) :
    (∀ n, n ∉ l → (l.foldl (aproc D T nxt ind) A).reactions.get? n = A.reactions.get? n) ∧
    ∀ e, (∀ a ∈ l, ∀ b, nxt a = some b → edgeKey D a b ≠ e) →
      (l.foldl (aproc D T nxt ind) A).trailForces.get? e = A.trailForces.get? e := by
  induction l generalizing A with
  | nil => exact ⟨fun _ _ => rfl, fun _ _ => rfl⟩
  | cons a l ih =>
    obtain ⟨i1, i2⟩ := ih (aproc D T nxt ind A a)
    rw [List.foldl_cons]
    constructor
    · intro n hn
      rw [i1 n fun h => hn (by simp [h])]
      unfold aproc
      cases nxt a with
      | none =>
        simp only [Dict.get?_set]
        rw [if_neg fun e => hn (by simp [e])]
      | some m => rfl
    · intro e he
      rw [i2 e fun b hb => he b (by simp [hb])]
      unfold aproc
      cases hn : nxt a with
      | none => rfl
      | some m =>
        simp only [Dict.get?_set]
        rw [if_neg (he a (by simp) m hn)]

/-- The numbers of the state after the last sweep. -/
theorem along_run (I : ValidInput (D 0)) (G : Tangent D E) (hl : NonzeroTrails (D 0)) {L : List Int}
    (S : ∀ t, GoodSched (D t) none L) {m : Nat} (hs : ∀ i, i < m + 1 → SoundSweep (D 0) L i) :
    StateAlong (D 0) (fun t => (iter (D t) none L (m + 1)).pos)
      (fun t => rAt (D t) (nxtK (D t) none) (decide (m ≠ 0)) L (iter (D t) none L m))
      (fun t a b => copysign
        (Vec.length (rAt (D t) (nxtK (D t) none) (decide (m ≠ 0)) L (iter (D t) none L m) a))
        (effectiveLength (edgeData (D t) a b) ((iter (D t) none L (m + 1)).pos a)
          (rAt (D t) (nxtK (D t) none) (decide (m ≠ 0)) L (iter (D t) none L m) a)))
      (aIter (D 0) E L (m + 1)) := by
  have J : ∀ t, ValidInput (D t) := fun t => validInput_same (G.same t) I
  have hT := tracks_iter I G hs m (by omega)
  have hnx := nxtK_none I.wf I.trails
  -- when a node is processed
  have now : ∀ n ∈ (D 0).nodes.keys, ∃ L1 L2, L = L1 ++ n :: L2 ∧ n ∉ L2 ∧
      (∀ t, stateAt (D t) (nxtK (D t) none) (decide (m ≠ 0)) L (iter (D t) none L m) n =
        L1.foldl (proc (D t) (nxtK (D 0) none) (decide (m ≠ 0))) (iter (D t) none L m)) ∧
      aIter (D 0) E L (m + 1) = L2.foldl (aproc (D 0) E (nxtK (D 0) none) (decide (m ≠ 0)))
        (aproc (D 0) E (nxtK (D 0) none) (decide (m ≠ 0))
          (L1.foldl (aproc (D 0) E (nxtK (D 0) none) (decide (m ≠ 0))) (aIter (D 0) E L m)) n) ∧
      Sound (D 0) (nxtK (D 0) none) (decide (m ≠ 0))
        (L1.foldl (proc (D 0) (nxtK (D 0) none) (decide (m ≠ 0))) (iter (D 0) none L m)) n ∧
      TracksState (fun t => L1.foldl (proc (D t) (nxtK (D 0) none) (decide (m ≠ 0))) (iter (D t) none L m))
        (L1.foldl (aproc (D 0) E (nxtK (D 0) none) (decide (m ≠ 0))) (aIter (D 0) E L m)) := by
    intro n hn
    obtain ⟨L1, L2, hL⟩ := List.append_of_mem (((S 0).mem n).2 hn)
    refine ⟨L1, L2, hL, ?_, fun t => ?_, ?_, hs m (by omega) L1 n L2 hL,
      tracks_fold (s := fun t => iter (D t) none L m) (nxt := nxtK (D 0) none) (L := L) G
        (fun n m => next_nbr I) (hs m (by omega)) hT L1 (n :: L2) hL⟩
    · have := (S 0).sched.nodup
      rw [hL] at this
      exact (List.nodup_cons.1 (List.nodup_append.1 this).2.1).1
    · rw [stateAt, takeWhile_of_split (S t).sched.nodup hL, nxtK_same (G.same t)]
    · rw [aIter, decide_pos_ne]
      conv_lhs => rw [hL]
      rw [List.foldl_append, List.foldl_cons, ← hL]
  have hr : ∀ (t : ℝ) (L1 : List Int) (n : Int), stateAt (D t) (nxtK (D t) none) (decide (m ≠ 0)) L (iter (D t) none L m) n =
        L1.foldl (proc (D t) (nxtK (D 0) none) (decide (m ≠ 0))) (iter (D t) none L m) →
      rAt (D t) (nxtK (D t) none) (decide (m ≠ 0)) L (iter (D t) none L m) n = outVec (D t) (decide (m ≠ 0))
        (L1.foldl (proc (D t) (nxtK (D 0) none) (decide (m ≠ 0))) (iter (D t) none L m)).pos
        ((L1.foldl (proc (D t) (nxtK (D 0) none) (decide (m ≠ 0))) (iter (D t) none L m)).res n) n := by
    intro t L1 n h
    rw [rAt, h]
  refine ⟨fun n hn => ?_, fun a b hab => ?_, fun n hn => ?_⟩
  · obtain ⟨v, hv⟩ := (Dict.exists_get?_iff (aIter (D 0) E L (m + 1)).xyz n).2 (by
      rw [(goodAState_iter I.wf I.trails L (m + 1)).1]; exact hn)
    refine ⟨v, hv, ?_⟩
    have := (tracks_iter I G hs (m + 1) le_rfl).pos n
    unfold AState.pos at this
    rw [hv] at this
    exact this
  · have hab' : nxtK (D 0) none a = some b := by rw [hnx]; exact hab
    have ha := (Follows.mem I.trails ((trailNext_iff I.wf I.trails).1 hab)).1
    obtain ⟨L1, L2, hL, hnd, h1, h2, h3, h4⟩ := now a ha
    rw [h2, (aproc_keep L2 _).2 (edgeKey (D 0) a b) fun x hx y hy e =>
      hnd (by rw [← (edgeKey_inj (S 0).sched hy hab' e).1]; exact hx)]
    obtain ⟨d1, d2⟩ := edgeData_trail I.wf I.trails I.simple hab
    have h5 := tracks_force (tracks_outVec G h4 h3) (tracks_len G h4 h3 hab' (next_nbr I hab')) (h3.trail b hab')
      (effectiveLength_ne_zero (hl _ _ d1 d2) _ _)
    refine ⟨_, by simp only [aproc, hab', Dict.get?_set_self], h5.congr (.of_forall fun t => ?_)⟩
    have F := finalSpec_sched (J t).wf (J t).trails (S t) m
    rw [← F.seen a (by rw [(G.same t).nodeKeys]; exact ha) a le_rfl, hr t L1 a (h1 t), h1 t]
  · have hnk := mem_of_typeOf hn
    have hx : nxtK (D 0) none n = none := by unfold nxtK; rw [if_pos (Or.inl hn)]
    obtain ⟨L1, L2, hL, hnd, h1, h2, h3, h4⟩ := now n hnk
    rw [h2, (aproc_keep L2 _).1 n hnd]
    exact ⟨_, by simp only [aproc, hx, Dict.get?_set_self],
      (tracks_outVec G h4 h3).congr (.of_forall fun t => hr t L1 n (h1 t))⟩

end

end Props
end CEM
