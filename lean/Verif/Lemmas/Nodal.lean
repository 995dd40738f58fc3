import Verif.Lemmas.Form
import Verif.Spec.Problem

/-!
# The sum of all forces at a node of the form
-/

set_option linter.unusedSectionVars false
set_option linter.unusedSimpArgs false

namespace CEM
open Diagram Spec

section
variable {R : Type} [Field R] [LinearOrder R] [PySqrt R]

/-- The form made from a final state. -/
abbrev formOf (D : Diagram R) (s : EqState R) : Diagram R := formUpdate (formFromTopology D) s

theorem formOf_get? {D : Diagram R} (w : WF D) {kmax : Option Int} {ind : Bool} {p s : EqState R}
    {r : Int → Vec R} {Q : Int → Int → Vec R} (S : FinalSpec D kmax ind p s r Q) (n : Int) :
    (formOf D s).nodes.get? n = (D.nodes.get? n).map fun d =>
      { d with pos := s.pos n, reaction := (s.reactions.get? n).getD d.reaction } :=
  formNodes_get? _ s S.keys.1 w.nodesNodup S.reactNodup n

theorem posOf_form {D : Diagram R} (w : WF D) {kmax : Option Int} {ind : Bool} {p s : EqState R}
    {r : Int → Vec R} {Q : Int → Int → Vec R} (S : FinalSpec D kmax ind p s r Q) (n : Int) :
    posOf (formOf D s) n = s.pos n := by
  unfold posOf
  rw [formOf_get? w S]
  cases h : D.nodes.get? n with
  | none =>
    have : n ∉ s.xyz.keys := by rw [S.keys.1, ← Dict.get?_eq_none_iff]; exact h
    rw [← Dict.get?_eq_none_iff] at this
    simp [EqState.pos, this]
  | some d => rfl

theorem loadAt_form {D : Diagram R} (w : WF D) {kmax : Option Int} {ind : Bool} {p s : EqState R}
    {r : Int → Vec R} {Q : Int → Int → Vec R} (S : FinalSpec D kmax ind p s r Q) (n : Int) :
    loadAt (formOf D s) n = loadOf D n := by
  unfold loadAt loadOf
  rw [formOf_get? w S]
  cases D.nodes.get? n <;> rfl

theorem seqOf_form {D : Diagram R} (w : WF D) {kmax : Option Int} {ind : Bool} {p s : EqState R}
    {r : Int → Vec R} {Q : Int → Int → Vec R} (S : FinalSpec D kmax ind p s r Q) (n : Int) :
    seqOf (formOf D s) n = seqOf D n ∧ typeOf (formOf D s) n = typeOf D n := by
  unfold seqOf typeOf
  rw [formOf_get? w S]
  cases D.nodes.get? n <;> exact ⟨rfl, rfl⟩

theorem reactionAt_form {D : Diagram R} (w : WF D) {kmax : Option Int} {ind : Bool}
    {p s : EqState R} {r : Int → Vec R} {Q : Int → Int → Vec R} (S : FinalSpec D kmax ind p s r Q)
    (hr : ∀ n d, D.nodes.get? n = some d → d.reaction = 0) {n : Int} (hn : n ∈ D.nodes.keys) :
    reactionAt (formOf D s) n = if nxtK D kmax n = none then r n else 0 := by
  obtain ⟨d, hd⟩ := (Dict.exists_get?_iff _ _).2 hn
  unfold reactionAt
  rw [formOf_get? w S, hd, S.react n]
  by_cases h : nxtK D kmax n = none
  · simp [hn, h]
  · simp [hn, h, hr n d hd]

/-- The force of the form's edge between neighbours `n` and `m`. -/
def formForce (D : Diagram R) (s : EqState R) (n m : Int) : R :=
  (s.trailForces.get? (edgeKey D n m)).getD (edgeData D n m).force

theorem formOf_edge {D : Diagram R} {kmax : Option Int} {ind : Bool} {p s : EqState R}
    {r : Int → Vec R} {Q : Int → Int → Vec R} (S : FinalSpec D kmax ind p s r Q) (e : Int × Int) :
    (formOf D s).edges.get? e = (D.edges.get? e).map fun d =>
      signedLength (formOf D s).nodes e { d with force := (s.trailForces.get? e).getD d.force } :=
  formEdges_get? _ s S.forceNodup e

/-- All edge forces at a node as a sum over its neighbours. -/
theorem sum_pull {D : Diagram R} (w : WF D) (g : SimpleGraph D) {kmax : Option Int} {ind : Bool}
    {p s : EqState R} {r : Int → Vec R} {Q : Int → Int → Vec R} (S : FinalSpec D kmax ind p s r Q)
    (n : Int) :
    ((formOf D s).edges.map (pull (formOf D s) n)).sum =
      ((D.neighbors n).map fun m => formForce D s n m • unit (s.pos m - s.pos n)).sum := by
  rw [sum_neighbors w g]
  have hk : (formOf D s).edges.keys = D.edges.keys := formEdges_keys _ _
  rw [← hk]
  unfold Dict.keys
  rw [List.map_map]
  congr 1
  apply List.map_congr_left
  rintro ⟨⟨a, b⟩, d⟩ hm
  have hnd : (formOf D s).edges.keys.Nodup := by rw [hk]; exact w.edgesNodup
  have hget := Dict.get?_of_mem hnd hm
  rw [formOf_edge S] at hget
  cases hd : D.edges.get? (a, b) with
  | none => rw [hd] at hget; simp at hget
  | some d0 =>
    rw [hd] at hget
    have hdd := (Option.some.inj hget).symm
    have hforce : d.force = (s.trailForces.get? (a, b)).getD d0.force := by
      rw [hdd]; exact (signedLength_force _ _ _).1
    have hmem := Dict.mem_keys_of_get? hd
    obtain ⟨k1, k2⟩ := edgeKey_of_mem g hmem
    have e1 : formForce D s a b = d.force := by
      unfold formForce edgeData; rw [k1, hd, hforce]; rfl
    have e2 : formForce D s b a = d.force := by
      unfold formForce edgeData; rw [k2, hd, hforce]; rfl
    simp only [pull, Function.comp, posOf_form w S]
    congr 1
    · split_ifs with h
      · subst h; rw [e1]
      · rfl
    · split_ifs with h
      · subst h; rw [e2]
      · rfl

/-- Deviation edges keep their force. -/
theorem formForce_dev {D : Diagram R} (w : WF D) (V : ValidTrails D) (g : SimpleGraph D)
    {kmax : Option Int} {ind : Bool}
    {p s : EqState R} {r : Int → Vec R} {Q : Int → Int → Vec R} (S : FinalSpec D kmax ind p s r Q)
    {n m : Int} (ht : (edgeData D n m).type = .deviation) :
    formForce D s n m = (edgeData D n m).force := by
  unfold formForce
  rw [S.force]
  · rfl
  · intro a _ b hab he
    have hadj := trailNext_adj w V (nxtK_trail hab)
    have := (mem_trlNbrs g).2 hadj
    unfold trlNbrs at this
    have h2 := (List.mem_filter.1 this).2
    simp only [decide_eq_true_eq] at h2
    unfold edgeData at h2 ht
    rw [he, ht] at h2
    simp at h2

end

/-! ## Reals -/

theorem devTerm_real (D : Diagram ℝ) (P : Int → Vec ℝ) (n m : Int) :
    devTerm D P n m = (edgeData D n m).force • unit (P m - P n) := by
  unfold devTerm; rw [normalize_eq_unit]

theorem effectiveLength_ne_zero {d : EdgeData ℝ} (h : d.length ≠ 0) (p r : Vec ℝ) :
    effectiveLength d p r ≠ 0 := by
  unfold effectiveLength
  split
  · exact h
  · split
    · exact h
    · split_ifs with h1
      · exact h
      · exact h1

theorem edgeData_trail {D : Diagram ℝ} (w : WF D) (V : ValidTrails D) (g : SimpleGraph D)
    {n m : Int} (h : trailNext D n = some m) :
    D.edges.get? (edgeKey D n m) = some (edgeData D n m) ∧ (edgeData D n m).type = .trail := by
  have hadj := trailNext_adj w V h
  refine ⟨edgeKey_mem (adj_mem_neighbors hadj), ?_⟩
  have := (List.mem_filter.1 ((mem_trlNbrs g).2 hadj)).2
  simpa using this

theorem edgeKey_comm {D : Diagram ℝ} (g : SimpleGraph D) {n m : Int}
    (h : m ∈ D.neighbors n) : edgeKey D m n = edgeKey D n m := by
  rw [mem_neighbors] at h
  rcases h with h | h
  · rw [(edgeKey_of_mem g h).1, (edgeKey_of_mem g h).2]
  · rw [(edgeKey_of_mem g h).1, (edgeKey_of_mem g h).2]

/-- The trail edge after node `n` got the length zero. -/
def ZeroOut (D : Diagram ℝ) (s : EqState ℝ) (r : Int → Vec ℝ) (n : Int) : Prop :=
  ∃ m, trailNext D n = some m ∧ effectiveLength (edgeData D n m) (s.pos n) (r n) = 0

open Classical in
/-- The sum of everything acting on a node is the difference between the indirect
deviation forces in the returned geometry and those used by the computation, except
that trail edges of length zero have no direction. -/
theorem imbalance_gen {D : Diagram ℝ} (I : ValidInput D) {ind : Bool}
    {p s : EqState ℝ} {r : Int → Vec ℝ} {Q : Int → Int → Vec ℝ}
    (S : FinalSpec D none ind p s r Q) {n : Int} (hn : n ∈ D.nodes.keys) :
    imbalance (formOf D s) n = devSum D s.pos n (indNbrs D n) -
      (if ind then devSum D (Q n) n (indNbrs D n) else 0) +
      ((if ZeroOut D s r n then - r n else 0) -
       (if ∃ a, trailNext D a = some n ∧ ZeroOut D s r a then - s.res n else 0)) := by
  have w := I.wf
  have V := I.trails
  have g := I.simple
  have hnx : ∀ a, nxtK D none a = trailNext D a := nxtK_none w V
  unfold imbalance
  rw [sum_pull w g S, loadAt_form w S, reactionAt_form w S I.reaction hn,
    sum_nbrs_split I.typed]
  have hterm : ∀ l : List Int, (∀ m ∈ l, (edgeData D n m).type = .deviation) →
      (l.map fun m => formForce D s n m • unit (s.pos m - s.pos n)).sum = devSum D s.pos n l := by
    intro l hdev
    unfold devSum
    congr 1
    apply List.map_congr_left
    intro m hm
    rw [formForce_dev w V g S (hdev m hm), devTerm_real]
  have hdir : ∀ m ∈ dirNbrs D n, (edgeData D n m).type = .deviation := fun m hm => by
    have := (List.mem_filter.1 hm).2; simp only [decide_eq_true_eq] at this; exact this.1
  have hind : ∀ m ∈ indNbrs D n, (edgeData D n m).type = .deviation := fun m hm => by
    have := (List.mem_filter.1 hm).2; simp only [decide_eq_true_eq] at this; exact this.1
  rw [hterm _ hdir, hterm _ hind]
  have hQdir : devSum D (Q n) n (dirNbrs D n) = devSum D s.pos n (dirNbrs D n) := by
    unfold devSum
    congr 1
    apply List.map_congr_left
    intro m hm
    have hs : seqOf D n = seqOf D m := by
      have := (List.mem_filter.1 hm).2; simp only [decide_eq_true_eq] at this; exact this.2
    unfold devTerm
    rw [S.seen n hn m (by simp [rankOf, hs]), S.seen n hn n le_rfl]
  have hout := S.out n hn
  unfold outVec at hout
  rw [hQdir] at hout
  have hfwd : ∀ a ∈ D.nodes.keys, ∀ m, trailNext D a = some m →
      formForce D s a m • unit (s.pos m - s.pos a) =
        r a + (if ZeroOut D s r a then - r a else 0) := by
    intro a ha m hm
    obtain ⟨h1, _, h3, _⟩ := S.next a ha m (by rw [hnx]; exact hm)
    have hz : ZeroOut D s r a ↔ effectiveLength (edgeData D a m) (s.pos a) (r a) = 0 := by
      constructor
      · rintro ⟨m', hm', h⟩
        rw [hm] at hm'
        rw [Option.some.inj hm']; exact h
      · exact fun h => ⟨m, hm, h⟩
    unfold formForce
    rw [h3, h1, Option.getD_some, add_sub_cancel_left, normalize_eq_unit]
    by_cases h0 : effectiveLength (edgeData D a m) (s.pos a) (r a) = 0
    · rw [if_pos (hz.2 h0), h0, zero_smul, unit_zero, smul_zero, add_neg_cancel]
    · rw [if_neg (fun h => h0 (hz.1 h)), add_zero, copysign_smul_unit (r a) h0]
  have htr := sum_trlNbrs w V g n (fun m => formForce D s n m • unit (s.pos m - s.pos n))
    (if trailNext D n = none then 0 else r n + (if ZeroOut D s r n then - r n else 0))
    (-(s.res n + (if ∃ a, trailNext D a = some n ∧ ZeroOut D s r a then - s.res n else 0)))
    (by
      intro m hm
      rw [if_neg (by simp [hm])]
      exact hfwd n hn m hm)
    (by intro h; rw [if_pos h])
    (by
      intro m hm
      have hmk : m ∈ D.nodes.keys := by
        obtain ⟨key, tr, ht, hc⟩ := (trailNext_iff w V).1 hm
        exact V.mem_keys ht hc.mem_left
      have hkey := edgeKey_comm g (adj_mem_neighbors (trailNext_adj w V hm))
      have hff : formForce D s n m = formForce D s m n := by
        unfold formForce edgeData; rw [hkey]
      have hz : (∃ a, trailNext D a = some n ∧ ZeroOut D s r a) ↔ ZeroOut D s r m := by
        constructor
        · rintro ⟨a, ha, h⟩; rw [← trailNext_inj w V ha hm]; exact h
        · exact fun h => ⟨m, hm, h⟩
      have h2 := (S.next m hmk n (by rw [hnx]; exact hm)).2.1
      rw [hff, ← neg_sub, unit_neg, smul_neg, hfwd m hmk n hm, h2]
      simp only [hz])
    (by
      intro h
      have := (S.start n (by intro a _; rw [hnx]; exact h a)).2
      rw [this]
      obtain ⟨d, hd⟩ := (Dict.exists_get?_iff _ _).2 hn
      have : (initState D).res n = d.reaction := by
        unfold EqState.res initState
        rw [get?_map_val D.nodes (fun d => d.reaction), hd]; rfl
      rw [this, I.reaction n d hd]
      simp)
  rw [htr, hnx]
  by_cases hx : trailNext D n = none
  · have hz : ¬ ZeroOut D s r n := by rintro ⟨m, hm, _⟩; rw [hx] at hm; simp at hm
    rw [if_pos hx, if_pos hx, if_neg hz, hout]; abel
  · rw [if_neg hx, if_neg hx, hout]; abel

theorem not_zeroOut {D : Diagram ℝ} (I : ValidInput D) (hl : NonzeroTrails D) {s : EqState ℝ}
    {r : Int → Vec ℝ} (n : Int) : ¬ ZeroOut D s r n := by
  rintro ⟨m, hm, h0⟩
  obtain ⟨hed, hty⟩ := edgeData_trail I.wf I.trails I.simple hm
  exact effectiveLength_ne_zero (hl _ _ hed hty) _ _ h0

/-- The sum of everything acting on a node is the difference between the indirect
deviation forces in the returned geometry and those used by the computation. -/
theorem imbalance_eq {D : Diagram ℝ} (I : ValidInput D) (hl : NonzeroTrails D) {ind : Bool}
    {p s : EqState ℝ} {r : Int → Vec ℝ} {Q : Int → Int → Vec ℝ}
    (S : FinalSpec D none ind p s r Q) {n : Int} (hn : n ∈ D.nodes.keys) :
    imbalance (formOf D s) n = devSum D s.pos n (indNbrs D n) -
      (if ind then devSum D (Q n) n (indNbrs D n) else 0) := by
  have h2 : ¬ ∃ a, trailNext D a = some n ∧ ZeroOut D s r a := by
    rintro ⟨a, _, h⟩
    exact not_zeroOut I hl a h
  rw [imbalance_gen I S hn, if_neg (not_zeroOut I hl n), if_neg h2, sub_self, add_zero]

/-! ## Positions change by at most the residual distance -/

theorem residualDistance_eq (last new : Dict Int (Vec ℝ)) :
    residualDistance last new =
      (new.map fun p => Vec.dist ((last.get? p.1).getD 0) p.2).sum := by
  unfold residualDistance
  suffices h : ∀ (l : Dict Int (Vec ℝ)) (a : ℝ),
      l.foldl (fun acc p => acc + Vec.dist ((last.get? p.1).getD 0) p.2) a =
        a + (l.map fun p => Vec.dist ((last.get? p.1).getD 0) p.2).sum by
    rw [h]; simp
  intro l
  induction l with
  | nil => intro a; simp
  | cons p l ih => intro a; rw [List.foldl_cons, ih, List.map_cons, List.sum_cons]; ring

theorem dist_nonneg (a b : Vec ℝ) : 0 ≤ Vec.dist a b := Vec.length_nonneg _

theorem residualDistance_nonneg (last new : Dict Int (Vec ℝ)) : 0 ≤ residualDistance last new := by
  rw [residualDistance_eq]
  apply List.sum_nonneg
  intro x hx
  obtain ⟨p, _, rfl⟩ := List.mem_map.1 hx
  exact dist_nonneg _ _

theorem dist_le_residual (p s : EqState ℝ) {n : Int} (hn : n ∈ s.xyz.keys) :
    Vec.dist (p.pos n) (s.pos n) ≤ residualDistance p.xyz s.xyz := by
  obtain ⟨v, hv⟩ := (Dict.exists_get?_iff _ _).2 hn
  rw [residualDistance_eq]
  have hm := Dict.mem_of_get? hv
  have : Vec.dist (p.pos n) (s.pos n) ∈
      s.xyz.map fun q => Vec.dist ((p.xyz.get? q.1).getD 0) q.2 := by
    refine List.mem_map.2 ⟨_, hm, ?_⟩
    simp [EqState.pos, hv]
  apply List.single_le_sum ?_ _ this
  intro x hx
  obtain ⟨q, _, rfl⟩ := List.mem_map.1 hx
  exact dist_nonneg _ _

theorem unit_slack {eta : ℝ} {u v : Vec ℝ} (h : Vec.length (u - v) ≤ eta) :
    Vec.length (unit u - unit v) ≤ slack eta (Vec.length v) := by
  unfold slack
  split_ifs with h0
  · exact length_unit_sub_le_two _ _
  · have hv : v ≠ 0 := fun e => h0 (Vec.length_eq_zero.2 e)
    refine le_min (length_unit_sub_le_two _ _) ((length_unit_sub_le u hv).trans ?_)
    have := Vec.length_pos hv
    gcongr

theorem length_indDiff_le {D : Diagram ℝ} (I : ValidInput D) {kmax : Option Int}
    {p s : EqState ℝ} {r : Int → Vec ℝ} {Q : Int → Int → Vec ℝ}
    (S : FinalSpec D kmax true p s r Q) {eta : ℝ} (he : residualDistance p.xyz s.xyz ≤ eta)
    {n : Int} (hn : n ∈ D.nodes.keys) :
    Vec.length (devSum D s.pos n (indNbrs D n) - devSum D (Q n) n (indNbrs D n)) ≤
      ((indNbrs D n).map fun m => |(edgeData D n m).force| *
        slack eta (Vec.length (s.pos m - s.pos n))).sum := by
  have h0 : 0 ≤ eta := (residualDistance_nonneg _ _).trans he
  have hd : devSum D s.pos n (indNbrs D n) - devSum D (Q n) n (indNbrs D n) =
      ((indNbrs D n).map fun m => devTerm D s.pos n m - devTerm D (Q n) n m).sum := by
    unfold devSum
    generalize indNbrs D n = l
    induction l with
    | nil => simp
    | cons a l ih => simp only [List.map_cons, List.sum_cons, ← ih]; abel
  rw [hd]
  refine (Vec.length_list_sum_le _).trans ?_
  rw [List.map_map]
  apply List.sum_le_sum
  intro m hm
  have hnb := (List.mem_filter.1 hm).1
  have hmk := (mem_keys_of_nbr I.wf hnb).1
  simp only [Function.comp, devTerm_real]
  rw [← smul_sub, Vec.length_smul]
  apply mul_le_mul_of_nonneg_left _ (abs_nonneg _)
  rw [S.seen n hn n le_rfl, Vec.length_sub_comm]
  apply unit_slack
  have e : Q n m - s.pos n - (s.pos m - s.pos n) = Q n m - s.pos m := by abel
  rw [e]
  rcases S.seen_any n hn m with h | h
  · rw [h]
    exact (dist_le_residual p s (by rw [S.keys.1]; exact hmk)).trans he
  · rw [h, sub_self, Vec.length_zero]; exact h0

theorem length_imbalance_le {D : Diagram ℝ} (I : ValidInput D) (hl : NonzeroTrails D)
    {p s : EqState ℝ} {r : Int → Vec ℝ} {Q : Int → Int → Vec ℝ}
    (S : FinalSpec D none true p s r Q) {eta : ℝ} (he : residualDistance p.xyz s.xyz ≤ eta)
    {n : Int} (hn : n ∈ D.nodes.keys) :
    Vec.length (imbalance (formOf D s) n) ≤
      ((indNbrs D n).map fun m => |(edgeData D n m).force| *
        slack eta (Vec.length (s.pos m - s.pos n))).sum := by
  rw [imbalance_eq I hl S hn, if_pos rfl]
  exact length_indDiff_le I S he hn

open Classical in
/-- Summed over all nodes, the terms of trail edges of length zero cancel; `f` is the
force itself or its moment. -/
theorem sum_zeroOut {D : Diagram ℝ} (I : ValidInput D) {ind : Bool}
    {p s : EqState ℝ} {r : Int → Vec ℝ} {Q : Int → Int → Vec ℝ}
    (S : FinalSpec D none ind p s r Q) (f : Vec ℝ → Vec ℝ → Vec ℝ) (h0 : ∀ a, f a 0 = 0) :
    (D.nodes.keys.map fun n => f (s.pos n) (if ZeroOut D s r n then - r n else 0)).sum =
    (D.nodes.keys.map fun n => f (s.pos n)
      (if ∃ a, trailNext D a = some n ∧ ZeroOut D s r a then - s.res n else 0)).sum := by
  have w := I.wf
  have V := I.trails
  have hnx : ∀ a, nxtK D none a = trailNext D a := nxtK_none w V
  have hmem : ∀ a m, trailNext D a = some m → a ∈ D.nodes.keys ∧ m ∈ D.nodes.keys := by
    intro a m hm
    obtain ⟨key, tr, ht, hc⟩ := (trailNext_iff w V).1 hm
    exact ⟨V.mem_keys ht hc.mem_left, V.mem_keys ht hc.mem_right⟩
  set X : Int → Vec ℝ := fun n => if ZeroOut D s r n then - r n else 0 with hX
  have h1 : ∀ a ∈ D.nodes.keys, f (s.pos a) (X a) =
      (D.nodes.keys.map fun n => if trailNext D a = some n then f (s.pos n) (X a) else 0).sum := by
    intro a ha
    cases hx : trailNext D a with
    | none =>
      have : X a = 0 := by
        rw [hX]; simp only
        rw [if_neg]
        rintro ⟨m, hm, _⟩; rw [hx] at hm; simp at hm
      rw [this, h0]
      symm
      apply List.sum_eq_zero
      intro x hx
      obtain ⟨n, _, rfl⟩ := List.mem_map.1 hx
      simp
    | some m =>
      have hl := list_sum_ite w.nodesNodup (hmem a m hx).2 (fun n => f (s.pos n) (X a))
      simp only [Option.some.injEq]
      rw [hl]
      by_cases hz : ZeroOut D s r a
      · obtain ⟨m', hm', he⟩ := hz
        rw [hx] at hm'
        obtain rfl := Option.some.inj hm'
        have := (S.next a ha m (by rw [hnx]; exact hx)).1
        rw [he, zero_smul, add_zero] at this
        rw [this]
      · have : X a = 0 := by rw [hX]; simp only; rw [if_neg hz]
        rw [this, h0, h0]
  have h2 : ∀ n ∈ D.nodes.keys, f (s.pos n)
      (if ∃ a, trailNext D a = some n ∧ ZeroOut D s r a then - s.res n else 0) =
      (D.nodes.keys.map fun a => if trailNext D a = some n then f (s.pos n) (X a) else 0).sum := by
    intro n hn
    by_cases hp : ∃ a, trailNext D a = some n
    · obtain ⟨a, ha⟩ := hp
      have hl := list_sum_ite w.nodesNodup (hmem a n ha).1 (fun b => f (s.pos n) (X b))
      have hc : ∀ b, (trailNext D b = some n) ↔ a = b :=
        fun b => ⟨fun h => trailNext_inj w V ha h, fun h => h ▸ ha⟩
      simp only [hc]
      rw [hl]
      have hres := (S.next a (hmem a n ha).1 n (by rw [hnx]; exact ha)).2.1
      have hz : (∃ b, a = b ∧ ZeroOut D s r b) ↔ ZeroOut D s r a :=
        ⟨fun ⟨b, e, h⟩ => e ▸ h, fun h => ⟨a, rfl, h⟩⟩
      simp only [hz, hX, hres]
    · rw [if_neg (fun ⟨a, ha, _⟩ => hp ⟨a, ha⟩), h0]
      symm
      apply List.sum_eq_zero
      intro x hx
      obtain ⟨a, _, rfl⟩ := List.mem_map.1 hx
      rw [if_neg (fun h => hp ⟨a, h⟩)]
  rw [List.map_congr_left h1, List.map_congr_left h2, list_sum_comm]

open Classical in
/-- Forces and moments summed over all nodes. -/
theorem sum_imbalance_form {D : Diagram ℝ} (I : ValidInput D) {ind : Bool}
    {p s : EqState ℝ} {r : Int → Vec ℝ} {Q : Int → Int → Vec ℝ}
    (S : FinalSpec D none ind p s r Q) (f : Vec ℝ → Vec ℝ → Vec ℝ)
    (ha : ∀ a u v, f a (u + v) = f a u + f a v) :
    (D.nodes.keys.map fun n => f (s.pos n) (imbalance (formOf D s) n)).sum =
    (D.nodes.keys.map fun n => f (s.pos n) (devSum D s.pos n (indNbrs D n) -
      (if ind then devSum D (Q n) n (indNbrs D n) else 0))).sum := by
  have h0 : ∀ a, f a 0 = 0 := fun a => by have := ha a 0 0; simpa using this
  have hs : ∀ a u v, f a (u - v) = f a u - f a v := fun a u v => by
    have := ha a (u - v) v
    rw [sub_add_cancel] at this
    rw [this]; abel
  have h1 : ∀ n ∈ D.nodes.keys, f (s.pos n) (imbalance (formOf D s) n) =
      f (s.pos n) (devSum D s.pos n (indNbrs D n) -
        (if ind then devSum D (Q n) n (indNbrs D n) else 0)) +
      (f (s.pos n) (if ZeroOut D s r n then - r n else 0) - f (s.pos n)
       (if ∃ a, trailNext D a = some n ∧ ZeroOut D s r a then - s.res n else 0)) := by
    intro n hn
    rw [imbalance_gen I S hn, ha, hs _ (if ZeroOut D s r n then - r n else 0)]
  have hsub : ∀ (l : List Int) (g h : Int → Vec ℝ),
      (l.map fun a => g a - h a).sum = (l.map g).sum - (l.map h).sum := by
    intro l g h
    induction l with
    | nil => simp
    | cons a l ih => simp only [List.map_cons, List.sum_cons, ih]; abel
  rw [List.map_congr_left h1, list_sum_map_add, hsub, sum_zeroOut I S f h0, sub_self, add_zero]

end CEM
