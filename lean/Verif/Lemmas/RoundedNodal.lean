import Verif.Lemmas.RoundedForm

/-!
# The imbalance of a node of a form found with rounded arithmetic
-/

set_option linter.unusedSectionVars false
set_option linter.unusedSimpArgs false

namespace CEM
open Diagram Spec

variable {A : Arith ℝ} {u : ℝ}

/-- A sum over the edges of the form at a node as a sum over its neighbours. -/
theorem fl_sum_at {D : Diagram ℝ} (I : ValidInput D) {kmax : Option Int} {ind : Bool}
    {p s : EqState ℝ} {r : Int → Vec ℝ} {Q : Int → Int → Vec ℝ} (S : FlFinalSpec A D kmax ind p s r Q)
    {M : Type} [AddCommMonoid M] (h : Int → Int → ℝ → EdgeType → M)
    (hs : ∀ a b f t, h a b f t = h b a f t) (n : Int) :
    ((flFormOf A D s).edges.map fun p =>
      if p.1.1 = n ∨ p.1.2 = n then h p.1.1 p.1.2 p.2.force p.2.type else 0).sum =
      ((D.neighbors n).map fun m => h n m (formForce D s n m) (edgeData D n m).type).sum := by
  have w := I.wf
  have g := I.simple
  rw [sum_neighbors w g]
  have hk : (flFormOf A D s).edges.keys = D.edges.keys := fl_formEdges_keys _ _
  rw [← hk]
  unfold Dict.keys
  rw [List.map_map]
  congr 1
  apply List.map_congr_left
  rintro ⟨⟨a, b⟩, d⟩ hm
  have hnd : (flFormOf A D s).edges.keys.Nodup := by rw [hk]; exact w.edgesNodup
  have hget := Dict.get?_of_mem hnd hm
  rw [fl_formOf_edge S] at hget
  cases hd : D.edges.get? (a, b) with
  | none => rw [hd] at hget; simp at hget
  | some d0 =>
    rw [hd] at hget
    have hdd := (Option.some.inj hget).symm
    have hty : d.type = d0.type := by rw [hdd]; exact (fl_signedLength_force _ _ _).2.1
    have hforce : d.force = (s.trailForces.get? (a, b)).getD d0.force := by
      rw [hdd]; exact (fl_signedLength_force _ _ _).1
    have hmem := Dict.mem_keys_of_get? hd
    obtain ⟨k1, k2⟩ := edgeKey_of_mem g hmem
    have e1 : edgeData D a b = d0 := by unfold edgeData; rw [k1, hd]; rfl
    have e2 : edgeData D b a = d0 := by unfold edgeData; rw [k2, hd]; rfl
    have f1 : formForce D s a b = d.force := by unfold formForce; rw [e1, k1, hforce]
    have f2 : formForce D s b a = d.force := by unfold formForce; rw [e2, k2, hforce]
    have hab : a ≠ b := by rintro rfl; exact g.noLoop _ hmem
    simp only [Function.comp]
    by_cases h1 : a = n
    · subst h1
      have h2 : b ≠ a := fun h => hab h.symm
      simp [h2, e1, f1, hty]
    · by_cases h2 : b = n
      · subst h2
        simp only [h1, or_true, if_true, if_false, zero_add, e2, f2, hty]
        exact hs _ _ _ _
      · simp [h1, h2]

theorem fl_edgesAt {D : Diagram ℝ} (I : ValidInput D) {kmax : Option Int} {ind : Bool}
    {p s : EqState ℝ} {r : Int → Vec ℝ} {Q : Int → Int → Vec ℝ} (S : FlFinalSpec A D kmax ind p s r Q)
    (n : Int) : (dirNbrs D n).length + (indNbrs D n).length ≤ edgesAt (flFormOf A D s) n := by
  have h := fl_sum_at I S (fun _ _ _ _ => (1 : ℕ)) (fun _ _ _ _ => rfl) n
  have hc : edgesAt (flFormOf A D s) n = ((flFormOf A D s).edges.map fun p =>
      if p.1.1 = n ∨ p.1.2 = n then 1 else 0).sum := by
    unfold edgesAt
    generalize (flFormOf A D s).edges = l
    induction l with
    | nil => rfl
    | cons q l ih => 
      rw [List.map_cons, List.sum_cons, ← ih, List.filter_cons]
      by_cases hq : q.1.1 = n ∨ q.1.2 = n
      · simp only [hq, decide_true, if_true, List.length_cons]; omega
      · simp only [hq, decide_false, Bool.false_eq_true, if_false, zero_add]
  rw [hc, h, sum_nbrs_split I.typed]
  have : ∀ l : List Int, (l.map fun _ => 1).sum = l.length := by intro l; simp
  simp only [this]
  omega

theorem fl_forcesAt {D : Diagram ℝ} (I : ValidInput D) {kmax : Option Int} {ind : Bool}
    {p s : EqState ℝ} {r : Int → Vec ℝ} {Q : Int → Int → Vec ℝ} (S : FlFinalSpec A D kmax ind p s r Q)
    (n : Int) : forcesAt (flFormOf A D s) n =
      ((trlNbrs D n).map fun m => |formForce D s n m|).sum +
      ((dirNbrs D n).map fun m => |formForce D s n m|).sum +
      ((indNbrs D n).map fun m => |formForce D s n m|).sum := by
  rw [← sum_nbrs_split I.typed]
  exact fl_sum_at I S (fun _ _ f _ => |f|) (fun _ _ _ _ => rfl) n

/-- The change of direction of the trail edge between two nodes. -/
noncomputable def edgeSlack (u : ℝ) (s : EqState ℝ) (n m : Int) : ℝ :=
  slack (11 * u * (Vec.length (s.pos n) + Vec.length (s.pos m))) (Vec.length (s.pos m - s.pos n))

theorem edgeSlack_comm (u : ℝ) (s : EqState ℝ) (n m : Int) : edgeSlack u s n m = edgeSlack u s m n := by
  unfold edgeSlack
  rw [add_comm, Vec.length_sub_comm]

theorem slack_nonneg {eta d : ℝ} (he : 0 ≤ eta) (hd : 0 ≤ d) : 0 ≤ slack eta d := by
  unfold slack
  split_ifs
  · norm_num
  · exact le_min (by norm_num) (by positivity)

theorem edgeSlack_nonneg (h0 : 0 ≤ u) (s : EqState ℝ) (n m : Int) : 0 ≤ edgeSlack u s n m := by
  apply slack_nonneg _ (Vec.length_nonneg _)
  have := Vec.length_nonneg (s.pos n)
  have := Vec.length_nonneg (s.pos m)
  positivity

theorem fl_trailSlack {D : Diagram ℝ} (I : ValidInput D) {kmax : Option Int} {ind : Bool}
    {p s : EqState ℝ} {r : Int → Vec ℝ} {Q : Int → Int → Vec ℝ} (S : FlFinalSpec A D kmax ind p s r Q)
    (n : Int) : trailSlack (flFormOf A D s) u n =
      ((trlNbrs D n).map fun m => |formForce D s n m| * edgeSlack u s n m).sum := by
  have h := fl_sum_at I S (fun a b f t => if t = .trail then |f| * edgeSlack u s a b else 0)
    (fun a b f t => by rw [edgeSlack_comm]) n
  have hfil : ∀ (l : List Int) (c : Int → Prop) [DecidablePred c] (f : Int → ℝ),
      ((l.filter fun m => decide (c m)).map f).sum = (l.map fun m => if c m then f m else 0).sum := by
    intro l c _ f
    induction l with
    | nil => rfl
    | cons a l ih => by_cases h : c a <;> simp [List.filter_cons, h, ih]
  unfold trlNbrs
  rw [hfil, ← h]
  unfold trailSlack
  congr 1
  apply List.map_congr_left
  intro q _
  simp only [fl_posOf_form I.wf S]
  by_cases h1 : q.1.1 = n ∨ q.1.2 = n <;> by_cases h2 : q.2.type = .trail <;> simp [h1, h2, edgeSlack]

/-- The outgoing vector computed at a node. -/
theorem near_out (H : Precise A u) (hu : u ≤ 1 / 100) (D : Diagram ℝ) (ind : Bool) (P : Int → Vec ℝ)
    (t : Vec ℝ) (n : Int) :
    Near u (14 + ((dirNbrs D n).length + (indNbrs D n).length)) (flOut A D ind P t n)
      (outVec D ind P t n)
      (Vec.length t + Vec.length (loadOf D n) +
        ((dirNbrs D n).map fun m => |(edgeData D n m).force|).sum +
        ((indNbrs D n).map fun m => |(edgeData D n m).force|).sum) := by
  have h0 := H.nonneg
  have hz : ∀ k, Near u k (0 : Vec ℝ) 0 0 := by
    intro k
    have := Near.refl h0 k (0 : Vec ℝ)
    rwa [Vec.length_zero] at this
  have hsum : ∀ l : List Int, Near u (10 + l.length) (flDevSum A D P n l 0) (devSum D P n l)
      ((l.map fun m => |(edgeData D n m).force|).sum) := by
    intro l
    have := near_fold H (fun m => A.vscale (edgeData D n m).force (A.vnormalize (A.vsub (P m) (P n))))
      (fun m => (edgeData D n m).force • unit (P m - P n)) (fun m => |(edgeData D n m).force|)
      (fun m => near_force H hu _ _ _) l le_rfl (hz 10)
    rw [zero_add, zero_add] at this
    have e : devSum D P n l = (l.map fun m => (edgeData D n m).force • unit (P m - P n)).sum := by
      unfold devSum
      congr 1
      apply List.map_congr_left
      intro m _
      exact devTerm_real D P n m
    rw [e]
    exact this
  have hnn : 0 ≤ ((indNbrs D n).map fun m => |(edgeData D n m).force|).sum := by
    apply List.sum_nonneg
    intro x hx
    obtain ⟨m, _, rfl⟩ := List.mem_map.1 hx
    exact abs_nonneg _
  set k := 10 + ((dirNbrs D n).length + (indNbrs D n).length) with hk
  have h1 := (hz k).add H (((Near.refl h0 k t).neg))
  have h2 := h1.add H (Near.refl h0 (k + 1) (loadOf D n))
  have h3 := h2.add H ((hsum (dirNbrs D n)).mono h0 (l := k + 1 + 1) (by omega) le_rfl)
  have hri : Near u (k + 1 + 1 + 1) (if ind then flDevSum A D P n (indNbrs D n) 0 else 0)
      (if ind then devSum D P n (indNbrs D n) else 0)
      ((indNbrs D n).map fun m => |(edgeData D n m).force|).sum := by
    cases ind
    · simp only [Bool.false_eq_true, if_false]
      exact (hz _).mono h0 le_rfl hnn
    · simp only [if_true]
      exact (hsum (indNbrs D n)).mono h0 (by omega) le_rfl
  have h4 := (h3.add H hri).neg
  have e1 : -(0 + -t + loadOf D n + devSum D P n (dirNbrs D n) +
      if ind then devSum D P n (indNbrs D n) else 0) = outVec D ind P t n := by
    unfold outVec; abel
  rw [e1] at h4
  unfold flOut flTrailVectorOut
  refine h4.mono h0 (by omega) (by linarith)

/-- Forces of trail edges in the returned geometry. -/
theorem fl_trail_force (H : Precise A u) (hu : u ≤ 1 / 100) {D : Diagram ℝ}
    {ind : Bool} {p s : EqState ℝ} {r : Int → Vec ℝ} {Q : Int → Int → Vec ℝ}
    (S : FlFinalSpec A D none ind p s r Q) {a m : Int} (ha : a ∈ D.nodes.keys)
    (hm : nxtK D none a = some m) :
    Vec.length (formForce D s a m • unit (s.pos m - s.pos a) - r a) ≤
      |formForce D s a m| * (edgeSlack u s a m + 5 * u) ∧
    Vec.length (r a) ≤ (1 + 1 / 10) * |formForce D s a m| := by
  obtain ⟨h1, _, h3, _⟩ := S.next a ha m hm
  have hf : formForce D s a m = copysign (A.vlength (r a)) (flEffectiveLength A (edgeData D a m) (s.pos a) (r a)) := by
    unfold formForce; rw [h3]; rfl
  unfold edgeSlack
  rw [hf, h1]
  exact ⟨trail_error H hu _ _ _, carried_le H hu _ _⟩

/-- What acts on a node is the error of the indirect deviation edges and a rounding
error. -/
theorem fl_imbalance (H : Precise A u) (hu : u ≤ 1 / 100) {D : Diagram ℝ} (I : ValidInput D) {ind : Bool}
    {p s : EqState ℝ} {r : Int → Vec ℝ} {Q : Int → Int → Vec ℝ}
    (S : FlFinalSpec A D none ind p s r Q) {n : Int} (hn : n ∈ D.nodes.keys) :
    Vec.length (imbalance (flFormOf A D s) n - (devSum D s.pos n (indNbrs D n) -
      (if ind then devSum D (Q n) n (indNbrs D n) else 0))) ≤ roundingBound (flFormOf A D s) u n := by
  have w := I.wf
  have V := I.trails
  have g := I.simple
  have h0 := H.nonneg
  have hnx : ∀ a, nxtK D none a = trailNext D a := nxtK_none w V
  have hdir : ∀ m ∈ dirNbrs D n, (edgeData D n m).type = .deviation := fun m hm => by
    have := (List.mem_filter.1 hm).2; simp only [decide_eq_true_eq] at this; exact this.1
  have hind : ∀ m ∈ indNbrs D n, (edgeData D n m).type = .deviation := fun m hm => by
    have := (List.mem_filter.1 hm).2; simp only [decide_eq_true_eq] at this; exact this.1
  have hterm : ∀ l : List Int, (∀ m ∈ l, (edgeData D n m).type = .deviation) →
      (l.map fun m => formForce D s n m • unit (s.pos m - s.pos n)).sum = devSum D s.pos n l := by
    intro l hdev
    unfold devSum
    congr 1
    apply List.map_congr_left
    intro m hm
    rw [fl_formForce_dev w V g S (hdev m hm), devTerm_real]
  have hQdir : devSum D (Q n) n (dirNbrs D n) = devSum D s.pos n (dirNbrs D n) := by
    unfold devSum
    congr 1
    apply List.map_congr_left
    intro m hm
    have hs : seqOf D n = seqOf D m := by
      have := (List.mem_filter.1 hm).2; simp only [decide_eq_true_eq] at this; exact this.2
    unfold devTerm
    rw [S.seen n hn m (by simp [rankOf, hs]), S.seen n hn n le_rfl]
  -- the trail edges at the node
  let fo : Vec ℝ := match trailNext D n with
    | none => 0
    | some m => formForce D s n m • unit (s.pos m - s.pos n)
  let co : ℝ := match trailNext D n with
    | none => 0
    | some m => |formForce D s n m|
  let so : ℝ := match trailNext D n with
    | none => 0
    | some m => |formForce D s n m| * edgeSlack u s n m
  have ho : trailNext D n = none → fo = 0 ∧ co = 0 ∧ so = 0 := by
    intro h
    simp only [fo, co, so, h]
    exact ⟨trivial, trivial, trivial⟩
  have ho' : ∀ m, trailNext D n = some m → fo = formForce D s n m • unit (s.pos m - s.pos n) ∧
      co = |formForce D s n m| ∧ so = |formForce D s n m| * edgeSlack u s n m := by
    intro m h
    simp only [fo, co, so, h]
    exact ⟨trivial, trivial, trivial⟩
  obtain ⟨fi, ci, si, hi, hi', hin⟩ : ∃ (fi : Vec ℝ) (ci si : ℝ),
      (∀ m, trailNext D m = some n → formForce D s n m • unit (s.pos m - s.pos n) = fi ∧
        |formForce D s n m| = ci ∧ |formForce D s n m| * edgeSlack u s n m = si) ∧
      ((∀ m, trailNext D m ≠ some n) → fi = 0 ∧ ci = 0 ∧ si = 0) ∧
      Vec.length (fi + s.res n) ≤ si + 5 * u * ci ∧ Vec.length (s.res n) ≤ (1 + 1 / 10) * ci := by
    by_cases hprev : ∃ a, trailNext D a = some n
    · obtain ⟨a, ha⟩ := hprev
      have hak : a ∈ D.nodes.keys := by
        obtain ⟨key, tr, ht, hc⟩ := (trailNext_iff w V).1 ha
        exact V.mem_keys ht hc.mem_left
      have hkey := edgeKey_comm g (adj_mem_neighbors (trailNext_adj w V ha))
      have hff : formForce D s n a = formForce D s a n := by
        unfold formForce edgeData; rw [hkey]
      have hnext : nxtK D none a = some n := by rw [hnx]; exact ha
      obtain ⟨t1, t2⟩ := fl_trail_force H hu S hak hnext
      have h2 := (S.next a hak n hnext).2.1
      refine ⟨formForce D s n a • unit (s.pos a - s.pos n), |formForce D s n a|,
        |formForce D s n a| * edgeSlack u s n a, ?_, fun h => absurd ha (h a), ?_, ?_⟩
      · intro m hm
        rw [trailNext_inj w V hm ha]
        exact ⟨rfl, rfl, rfl⟩
      · rw [hff, ← neg_sub, unit_neg, smul_neg, h2, edgeSlack_comm, ← Vec.length_neg, neg_add, neg_neg,
          ← sub_eq_add_neg]
        refine t1.trans (le_of_eq ?_)
        ring
      · rw [h2, hff]; exact t2
    · push Not at hprev
      have hres : s.res n = 0 := by
        have := (S.start n (by intro a _; rw [hnx]; exact hprev a)).2
        rw [this]
        obtain ⟨d, hd⟩ := (Dict.exists_get?_iff _ _).2 hn
        have : (initState D).res n = d.reaction := by
          unfold EqState.res initState
          rw [get?_map_val D.nodes (fun d => d.reaction), hd]; rfl
        rw [this, I.reaction n d hd]
      refine ⟨0, 0, 0, fun m hm => absurd hm (hprev m), fun _ => ⟨rfl, rfl, rfl⟩, ?_, ?_⟩
      · rw [hres]; simp
      · rw [hres]; simp
  have sumF := sum_trlNbrs w V g n (fun m => formForce D s n m • unit (s.pos m - s.pos n)) fo fi
    (fun m hm => (ho' m hm).1.symm) (fun h => (ho h).1) (fun m hm => (hi m hm).1) (fun h => (hi' h).1)
  have sumC := sum_trlNbrs w V g n (fun m => |formForce D s n m|) co ci
    (fun m hm => (ho' m hm).2.1.symm) (fun h => (ho h).2.1) (fun m hm => (hi m hm).2.1) (fun h => (hi' h).2.1)
  have sumS := sum_trlNbrs w V g n (fun m => |formForce D s n m| * edgeSlack u s n m) so si
    (fun m hm => (ho' m hm).2.2.symm) (fun h => (ho h).2.2) (fun m hm => (hi m hm).2.2) (fun h => (hi' h).2.2)
  have hco : 0 ≤ co := by
    cases h : trailNext D n with
    | none => exact (ho h).2.1.ge
    | some m => rw [(ho' m h).2.1]; exact abs_nonneg _
  have hso : 0 ≤ so := by
    cases h : trailNext D n with
    | none => exact (ho h).2.2.ge
    | some m => rw [(ho' m h).2.2]; exact mul_nonneg (abs_nonneg _) (edgeSlack_nonneg h0 _ _ _)
  have hci : 0 ≤ ci := by
    by_cases hprev : ∃ a, trailNext D a = some n
    · obtain ⟨a, ha⟩ := hprev; rw [← (hi a ha).2.1]; exact abs_nonneg _
    · push Not at hprev; exact (hi' hprev).2.1.ge
  -- the node
  have near := near_out H hu D ind (Q n) (s.res n) n
  rw [← S.out n hn] at near
  have hforce : ∀ l : List Int, (∀ m ∈ l, (edgeData D n m).type = .deviation) →
      (l.map fun m => |formForce D s n m|).sum = (l.map fun m => |(edgeData D n m).force|).sum := by
    intro l hdev
    congr 1
    apply List.map_congr_left
    intro m hm
    rw [fl_formForce_dev w V g S (hdev m hm)]
  have hF : forcesAt (flFormOf A D s) n = co + ci +
      ((dirNbrs D n).map fun m => |(edgeData D n m).force|).sum +
      ((indNbrs D n).map fun m => |(edgeData D n m).force|).sum := by
    rw [fl_forcesAt I S, sumC, hforce _ hdir, hforce _ hind]
  have hdeg := fl_edgesAt I S n
  have hT : trailSlack (flFormOf A D s) u n = so + si := by rw [fl_trailSlack I S, sumS]
  have hL := fl_loadAt_form w S n
  have hR := fl_reactionAt_form w S I.reaction hn
  -- the error of the outgoing edge
  have hout : Vec.length ((if nxtK D none n = none then r n else 0) + fo - r n) ≤ so + 5 * u * co := by
    cases h : trailNext D n with
    | none =>
      rw [hnx, h, if_pos rfl, (ho h).1, (ho h).2.1, (ho h).2.2]
      simp
    | some m =>
      have hne : nxtK D none n ≠ none := by rw [hnx, h]; simp
      rw [if_neg hne, zero_add, (ho' m h).1, (ho' m h).2.1, (ho' m h).2.2]
      refine (fl_trail_force H hu S hn (by rw [hnx]; exact h)).1.trans (le_of_eq ?_)
      ring
  have hsplit : imbalance (flFormOf A D s) n - (devSum D s.pos n (indNbrs D n) -
      (if ind then devSum D (Q n) n (indNbrs D n) else 0)) =
      (r n - outVec D ind (Q n) (s.res n) n) +
      ((if nxtK D none n = none then r n else 0) + fo - r n) + (fi + s.res n) := by
    unfold imbalance
    rw [fl_sum_pull w g S, hL, hR, sum_nbrs_split I.typed, sumF, hterm _ hdir, hterm _ hind]
    unfold outVec
    rw [hQdir]
    abel
  rw [hsplit]
  have tri := Vec.length_add_le ((r n - outVec D ind (Q n) (s.res n) n) +
      ((if nxtK D none n = none then r n else 0) + fo - r n)) (fi + s.res n)
  have tri2 := Vec.length_add_le (r n - outVec D ind (Q n) (s.res n) n)
      ((if nxtK D none n = none then r n else 0) + fo - r n)
  unfold roundingBound
  rw [hT, hL, hF]
  set G := (1 + u) ^ (edgesAt (flFormOf A D s) n + 14) - 1 with hG
  have hGn : (1 + u) ^ (14 + ((dirNbrs D n).length + (indNbrs D n).length)) - 1 ≤ G :=
    growth_mono h0 (by omega)
  have hG14 : 14 * u ≤ G := by
    have h1 := growth_linear h0 14
    have h2 := growth_mono h0 (u := u) (k := 14) (l := edgesAt (flFormOf A D s) n + 14) (by omega)
    push_cast at h1
    linarith
  set M1 := ((dirNbrs D n).map fun m => |(edgeData D n m).force|).sum with hM1
  set M2 := ((indNbrs D n).map fun m => |(edgeData D n m).force|).sum with hM2
  have hM1n : 0 ≤ M1 := by
    apply List.sum_nonneg
    intro x hx
    obtain ⟨m, _, rfl⟩ := List.mem_map.1 hx
    exact abs_nonneg _
  have hM2n : 0 ≤ M2 := by
    apply List.sum_nonneg
    intro x hx
    obtain ⟨m, _, rfl⟩ := List.mem_map.1 hx
    exact abs_nonneg _
  have hq := Vec.length_nonneg (loadOf D n)
  have hG0 : 0 ≤ G := by linarith
  have hr1 : Vec.length (r n - outVec D ind (Q n) (s.res n) n) ≤
      G * ((1 + 1 / 10) * ci + Vec.length (loadOf D n) + M1 + M2) := by
    refine near.2.trans ?_
    apply mul_le_mul hGn _ _ hG0
    · linarith [hin.2]
    · have := Vec.length_nonneg (s.res n)
      positivity
  have x1 : 5 * u * co ≤ G * co := mul_le_mul_of_nonneg_right (by linarith) hco
  have x2 : 5 * u * ci ≤ 1 / 2 * G * ci := mul_le_mul_of_nonneg_right (by linarith) hci
  have y1 := mul_nonneg hG0 hco
  have y2 := mul_nonneg hG0 hci
  have y3 := mul_nonneg hG0 hq
  have y4 := mul_nonneg hG0 hM1n
  have y5 := mul_nonneg hG0 hM2n
  linarith [hin.1]

end CEM
