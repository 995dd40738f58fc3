import Verif.Lemmas.Smooth
import Verif.Props.Staged

/-!
# Property C70: forms depend smoothly on the numbers of the problem
-/

set_option linter.unusedSectionVars false
set_option linter.unusedSimpArgs false

namespace CEM
namespace Props
open Diagram Spec EqEx Filter Topology

/-- Positions `P`, incoming trail vectors `T` and outgoing ones `r` that one more round reproduces. -/
structure Settled (D : Diagram ℝ) (P T r : Int → Vec ℝ) : Prop where
  out : ∀ n ∈ D.nodes.keys,
    r n = T n - loadOf D n - devSum D P n (dirNbrs D n) - devSum D P n (indNbrs D n)
  next : ∀ n ∈ D.nodes.keys, ∀ m, trailNext D n = some m →
    P m = P n + effectiveLength (edgeData D n m) (P n) (r n) • Vec.normalize (r n) ∧ T m = r n
  start : ∀ m ∈ D.nodes.keys, (∀ a, trailNext D a ≠ some m) → P m = posOf D m ∧ T m = 0

/-- What is settled does not change abruptly: trail edges carry forces, deviation edges have lengths,
and planes are clearly used or clearly not used. -/
structure Firm (D : Diagram ℝ) (P r : Int → Vec ℝ) : Prop where
  trail : ∀ n m, trailNext D n = some m → r n ≠ 0
  apart : ∀ n m, m ∈ D.neighbors n → (edgeData D n m).type = .deviation → P m ≠ P n
  plane : ∀ n m o N, trailNext D n = some m → (edgeData D n m).plane = some (o, N) →
    |Vec.dot N (unit (r n))| < 1 / 1000000 ∨
    (1 / 1000000 < |Vec.dot N (unit (r n))| ∧ Vec.dot N (o - P n) ≠ 0)

section
variable {V : Type} [NormedAddCommGroup V] [NormedSpace ℝ V] {k : WithTop ℕ∞} {t0 : V}
  {D : V → Diagram ℝ} {P T r : V → Int → Vec ℝ}

theorem smooth_trail (I : ValidInput (D t0)) (S : SmoothFamily k D t0)
    (hr : Firm (D t0) (P t0) (r t0)) {n m : Int} (hm : trailNext (D t0) n = some m)
    (h1 : SmoothAt k (fun t => P t n) t0) (h2 : SmoothAt k (fun t => r t n) t0) :
    ContDiffAt ℝ k (fun t => effectiveLength (edgeData (D t) n m) (P t n) (r t n)) t0 := by
  have hb := adj_mem_neighbors (trailNext_adj I.wf I.trails hm)
  refine smooth_length (fun t => (edgeData_shape (S.same t) n m).2) ?_ h1 h2 (hr.trail n m hm)
    fun o N => hr.plane n m o N hm
  simp only [(edgeData_numbers (S.same _) hb).1]
  obtain ⟨e1, e2⟩ := edgeData_trail I.wf I.trails I.simple hm
  exact S.lengths _ _ e1 e2

/-- Everything that is settled depends smoothly on the numbers of the problem. -/
theorem smooth_all (I : ValidInput (D t0)) (hA : Acyclic (D t0)) (S : SmoothFamily k D t0)
    (hS : ∀ᶠ t in 𝓝 t0, Settled (D t) (P t) (T t) (r t)) (hr : Firm (D t0) (P t0) (r t0)) :
    ∀ n ∈ (D t0).nodes.keys, SmoothAt k (fun t => P t n) t0 ∧ SmoothAt k (fun t => r t n) t0 := by
  have w := I.wf
  have W := I.trails
  have hdev : ∀ n ∈ (D t0).nodes.keys, ∀ l : List Int,
      (∀ m ∈ l, m ∈ (D t0).neighbors n ∧ (edgeData (D t0) n m).type = .deviation) →
      SmoothAt k (fun t => P t n) t0 → (∀ m ∈ l, SmoothAt k (fun t => P t m) t0) →
      SmoothAt k (fun t => devSum (D t) (P t) n l) t0 := by
    intro n hn l hl hP hd
    unfold devSum
    refine SmoothAt.list_sum l (f := fun m t => devTerm (D t) (P t) n m) fun m hm => ?_
    simp only [devTerm_real]
    obtain ⟨a1, a2⟩ := hl m hm
    refine SmoothAt.smul ?_ (((hd m hm).sub hP).unit (sub_ne_zero.2 (hr.apart n m a1 a2)))
    simp only [(edgeData_numbers (S.same _) a1).2]
    exact S.forces _ _ (edgeKey_mem a1) a2
  have hout : ∀ n ∈ (D t0).nodes.keys, SmoothAt k (fun t => P t n) t0 → SmoothAt k (fun t => T t n) t0 →
      (∀ m ∈ (D t0).neighbors n, (edgeData (D t0) n m).type = .deviation →
        SmoothAt k (fun t => P t m) t0) → SmoothAt k (fun t => r t n) t0 := by
    intro n hn hP hT hd
    have e : ∀ᶠ t in 𝓝 t0, r t n = T t n - loadAt (D t) n - devSum (D t) (P t) n (dirNbrs (D t0) n) -
        devSum (D t) (P t) n (indNbrs (D t0) n) := by
      filter_upwards [hS] with t ht
      rw [ht.out n (by rw [(S.same t).nodeKeys]; exact hn), dirNbrs_shape (S.same t),
        indNbrs_shape (S.same t)]
      rfl
    refine SmoothAt.congr (((hT.sub (S.loads n hn)).sub ?_).sub ?_) e
    · have hf : ∀ m ∈ dirNbrs (D t0) n,
          m ∈ (D t0).neighbors n ∧ (edgeData (D t0) n m).type = .deviation := by
        intro m hm
        obtain ⟨h1, h2⟩ := List.mem_filter.1 hm
        simp only [decide_eq_true_eq] at h2
        exact ⟨h1, h2.1⟩
      exact hdev n hn _ hf hP fun m hm => hd m (hf m hm).1 (hf m hm).2
    · have hf : ∀ m ∈ indNbrs (D t0) n,
          m ∈ (D t0).neighbors n ∧ (edgeData (D t0) n m).type = .deviation := by
        intro m hm
        obtain ⟨h1, h2⟩ := List.mem_filter.1 hm
        simp only [decide_eq_true_eq] at h2
        exact ⟨h1, h2.1⟩
      exact hdev n hn _ hf hP fun m hm => hd m (hf m hm).1 (hf m hm).2
  have hPT : ∀ (c : Nat) (n : Int), (needed (D t0) n).card = c → n ∈ (D t0).nodes.keys →
      SmoothAt k (fun t => P t n) t0 ∧ SmoothAt k (fun t => T t n) t0 := by
    intro c
    induction c using Nat.strong_induction_on with
    | _ c ih =>
      intro n hc hn
      by_cases hex : ∃ a, trailNext (D t0) a = some n
      · obtain ⟨a, ha⟩ := hex
        have hf : Follows (D t0) a n := (trailNext_iff w W).1 ha
        have hak := (Follows.mem W hf).1
        obtain ⟨pa, ta⟩ := ih _ (by rw [← hc]; exact needed_lt I hA ⟨a, hf, Or.inl rfl⟩) a rfl hak
        have ra := hout a hak pa ta fun m hm hty => by
          refine (ih _ (by
            rw [← hc]
            exact needed_lt I hA ⟨a, hf, Or.inr ⟨_, (edgeBetween_iff I.simple).2 ⟨hm, rfl⟩, hty⟩⟩)
            m rfl (mem_keys_of_nbr w hm).1).1
        have e : ∀ᶠ t in 𝓝 t0, P t n = P t a +
            effectiveLength (edgeData (D t) a n) (P t a) (r t a) • unit (r t a) ∧ T t n = r t a := by
          filter_upwards [hS] with t ht
          rw [← normalize_eq_unit]
          exact ht.next a (by rw [(S.same t).nodeKeys]; exact hak) n
            (by rw [trailNext_shape (S.same t)]; exact ha)
        exact ⟨(pa.add (SmoothAt.smul (smooth_trail I S hr ha pa ra)
          (ra.unit (hr.trail a n ha)))).congr (e.mono fun t h => h.1), ra.congr (e.mono fun t h => h.2)⟩
      · have hx : ∀ a, trailNext (D t0) a ≠ some n := fun a ha => hex ⟨a, ha⟩
        obtain ⟨tr, htr⟩ := head_of_no_prev w W hn hx
        have e : ∀ᶠ t in 𝓝 t0, P t n = posOf (D t) n ∧ T t n = 0 := by
          filter_upwards [hS] with t ht
          exact ht.start n (by rw [(S.same t).nodeKeys]; exact hn)
            fun a => by rw [trailNext_shape (S.same t)]; exact hx a
        exact ⟨(S.origins n tr htr).congr (e.mono fun t h => h.1),
          (SmoothAt.const 0).congr (e.mono fun t h => h.2)⟩
  exact fun n hn => ⟨(hPT _ n rfl hn).1, hout n hn (hPT _ n rfl hn).1 (hPT _ n rfl hn).2 fun m hm _ =>
    (hPT _ m rfl (mem_keys_of_nbr w hm).1).1⟩

end

/-- A form that one more round reproduces. -/
structure SettledForm (D F : Diagram ℝ) (s : EqState ℝ) (r : Int → Vec ℝ) : Prop where
  form : F = formOf D s
  final : ∃ ind p Q, FinalSpec D none ind p s r Q
  settled : Settled D s.pos s.res r

theorem settled_direct {D : Diagram ℝ} (I : ValidInput D) (hd : DirectOnly D) {tmax : Nat} {eta : ℝ}
    {verbose : Bool} {F : Diagram ℝ} (h : staticEquilibrium D none tmax eta verbose = .ok F) :
    ∃ q : EqState ℝ × (Int → Vec ℝ), SettledForm D F q.1 q.2 := by
  obtain ⟨ind, p, s, r, Q, hF, S, _⟩ := returned_final I (by simp) h
  have w := I.wf
  have hnx : ∀ a, nxtK D none a = trailNext D a := nxtK_none w I.trails
  refine ⟨(s, r), hF, ⟨ind, p, Q, S⟩, ⟨fun n hn => ?_, fun n hn m hm => ?_, fun m hm hx => ?_⟩⟩
  · simp only
    rw [S.out n hn]
    unfold outVec
    rw [indNbrs_direct hd, devSum_congr (l := dirNbrs D n) (S.seen n hn n le_rfl) fun m hm => by
      obtain ⟨_, h2⟩ := List.mem_filter.1 hm
      simp only [decide_eq_true_eq] at h2
      exact S.seen n hn m (by unfold rankOf; rw [h2.2])]
    simp [devSum]
  · obtain ⟨h1, h2, _⟩ := S.next n hn m (by rw [hnx]; exact hm)
    exact ⟨h1, h2⟩
  · obtain ⟨h1, h2⟩ := S.start m fun a _ => by rw [hnx]; exact hx a
    exact ⟨by rw [h1, start_position], by rw [h2, start_zero I hm]⟩

theorem settled_zero {D : Diagram ℝ} (I : ValidInput D) {tmax : Nat} (ht : 2 ≤ tmax) {eta : ℝ}
    (he : eta ≤ 0) {verbose : Bool} {F : Diagram ℝ}
    (h : staticEquilibrium D none tmax eta verbose = .ok F) :
    ∃ q : EqState ℝ × (Int → Vec ℝ), SettledForm D F q.1 q.2 := by
  obtain ⟨p, s, r, Q, hF, S, hp⟩ := returned_fixed I ht he h
  have A := rounds_fixed I S hp
  exact ⟨(s, r), hF, ⟨true, p, Q, S⟩, ⟨fun n hn => by have := A.out 0 n hn; simpa [outVec] using this,
    A.next 0, A.start 0⟩⟩

theorem dot_neg_right (N v : Vec ℝ) : Vec.dot N (-v) = -Vec.dot N v := by
  simp only [Vec.dot, Vec.neg_x, Vec.neg_y, Vec.neg_z]; ring

/-- The edge between two consecutive nodes of a trail of a form. -/
theorem settled_edge {D F : Diagram ℝ} {s : EqState ℝ} {r : Int → Vec ℝ} (I : ValidInput D)
    (S : SettledForm D F s r) {a b : Int} (hn : trailNext D a = some b) :
    ∃ d, F.edges.get? (edgeKey D a b) = some d ∧ d.type = .trail ∧
      d.force = copysign (Vec.length (r a)) (effectiveLength (edgeData D a b) (s.pos a) (r a)) := by
  obtain ⟨rfl, ⟨ind, p, Q, G⟩, -⟩ := S
  obtain ⟨e1, e2⟩ := edgeData_trail I.wf I.trails I.simple hn
  obtain ⟨d, hd⟩ := (Dict.exists_get?_iff (formOf D s).edges (edgeKey D a b)).2 (by
    rw [show (formOf D s).edges.keys = D.edges.keys from formEdges_keys _ _]
    exact Dict.mem_keys_of_get? e1)
  obtain ⟨key, tr, htr, hc⟩ := (trailNext_iff I.wf I.trails).1 hn
  obtain ⟨_, f2, f3⟩ := trail_form I G htr hc (edgeKey_ends D a b) e1 hd
  rw [posOf_form I.wf G] at f2
  exact ⟨d, hd, by rw [f3, e2], f2⟩

theorem regular_of {D F : Diagram ℝ} {s : EqState ℝ} {r : Int → Vec ℝ} (I : ValidInput D)
    (hl : NonzeroTrails D) (S : SettledForm D F s r) (hf : TrailsCarry F) (hX : Distinct D F) :
    Firm D s.pos r := by
  have hpos : ∀ n, posOf F n = s.pos n := by
    obtain ⟨rfl, ⟨ind, p, Q, G⟩, -⟩ := S
    exact posOf_form I.wf G
  have htr : ∀ n m, trailNext D n = some m → r n ≠ 0 := by
    intro n m hm
    obtain ⟨d, h1, h2, h3⟩ := settled_edge I S hm
    exact copysign_ne_zero (by rw [← h3]; exact hf _ d h1 h2)
  refine ⟨htr, fun n m hm ht => ?_, fun n m o N hm hp => ?_⟩
  · have := hX.apart _ _ (edgeKey_mem hm) ht
    rw [hpos, hpos] at this
    rcases edgeKey_ends D n m with e | e <;> rw [e] at this
    · exact this.symm
    · exact this
  · have hb : EdgeBetween D n m (edgeData D n m) :=
      (edgeBetween_iff I.simple).2 ⟨adj_mem_neighbors (trailNext_adj I.wf I.trails hm), rfl⟩
    have q := hX.planes n m _ o N ((trailNext_iff I.wf I.trails).1 hm) hb hp
    obtain ⟨e1, e2⟩ := edgeData_trail I.wf I.trails I.simple hm
    have hne := effectiveLength_ne_zero (hl _ _ e1 e2) (s.pos n) (r n)
    have hn := (Follows.mem I.trails ((trailNext_iff I.wf I.trails).1 hm)).1
    have hstep := (S.settled.next n hn m hm).1
    rw [normalize_eq_unit] at hstep
    rw [hpos, hpos, hstep, add_sub_cancel_left] at q
    have e : |Vec.dot N (unit (r n))| =
        |Vec.dot N (unit (effectiveLength (edgeData D n m) (s.pos n) (r n) • unit (r n)))| := by
      rcases lt_or_gt_of_ne hne with h | h
      · rw [unit_smul_neg h, unit_unit, dot_neg_right, abs_neg]
      · rw [unit_smul_pos h, unit_unit]
    rw [← e] at q
    refine q.imp id fun h => ⟨h.1, fun h0 => h.2 ?_⟩
    simp only [Vec.dot, Vec.sub_x, Vec.sub_y, Vec.sub_z] at h0 ⊢
    linarith

section
variable {V : Type} [NormedAddCommGroup V] [NormedSpace ℝ V] {k : WithTop ℕ∞} {t0 : V}
  {D : V → Diagram ℝ} {F : V → Diagram ℝ}

theorem nonzero_near (S : SmoothFamily k D t0) (hl : NonzeroTrails (D t0)) :
    ∀ᶠ t in 𝓝 t0, NonzeroTrails (D t) := by
  have h1 : ∀ᶠ t in 𝓝 t0, ∀ e ∈ (D t0).edges.keys.toFinset, (∃ d, (D t0).edges.get? e = some d ∧
      d.type = .trail) → lengthAt (D t) e ≠ 0 := by
    rw [eventually_all_finset]
    intro e _
    by_cases h : ∃ d, (D t0).edges.get? e = some d ∧ d.type = .trail
    · obtain ⟨d, hd, ht⟩ := h
      have hne : lengthAt (D t0) e ≠ 0 := by
        unfold lengthAt; rw [hd]; exact hl e d hd ht
      exact ((S.lengths e d hd ht).continuousAt.eventually_ne hne).mono fun t ht' _ => ht'
    · exact Eventually.of_forall fun t h' => absurd h' h
  filter_upwards [h1] with t ht e d hd hty
  obtain ⟨d0, h0⟩ := (Dict.exists_get?_iff (D t0).edges e).2
    (by rw [← (S.same t).edgeKeys]; exact Dict.mem_keys_of_get? hd)
  have := ht e (List.mem_toFinset.2 (Dict.mem_keys_of_get? h0))
    ⟨d0, h0, by rw [← ((S.same t).edge e d0 d h0 hd).1]; exact hty⟩
  unfold lengthAt at this
  rw [hd] at this
  exact this

/-- A trail edge leads from a node to the next one. -/
theorem trail_ends {D : Diagram ℝ} (I : ValidInput D) {e : Int × Int} {d : EdgeData ℝ}
    (h : D.edges.get? e = some d) (ht : d.type = .trail) :
    ∃ a b, trailNext D a = some b ∧ edgeKey D a b = e := by
  obtain ⟨x, y⟩ := e
  have hk := edgeKey_of_mem I.simple (Dict.mem_keys_of_get? h)
  obtain ⟨key, tr, htr, hc⟩ := I.trails.complete x y (Or.inl ⟨d, h, ht⟩)
  rcases hc with hc | hc
  · exact ⟨x, y, (trailNext_iff I.wf I.trails).2 ⟨key, tr, htr, hc⟩, hk.1⟩
  · exact ⟨y, x, (trailNext_iff I.wf I.trails).2 ⟨key, tr, htr, hc⟩, hk.2⟩

/-- Forms that one more round reproduces depend smoothly on the numbers of the problem. -/
theorem smooth_form (I : ValidInput (D t0)) (hl : NonzeroTrails (D t0)) (hA : Acyclic (D t0))
    (S : SmoothFamily k D t0)
    (hS : ∀ᶠ t in 𝓝 t0, ∃ q : EqState ℝ × (Int → Vec ℝ), SettledForm (D t) (F t) q.1 q.2)
    (hf : TrailsCarry (F t0)) (hX : Distinct (D t0) (F t0)) :
    SmoothForm k (D t0) F t0 ∧ ∀ᶠ t in 𝓝 t0, TrailsCarry (F t) := by
  have w := I.wf
  have J : ∀ t, ValidInput (D t) := fun t => validInput_same (S.same t) I
  obtain ⟨q, hq⟩ := hS.choice
  have h0 := hq.self_of_nhds
  have R := regular_of I hl h0 hf hX
  have H := smooth_all I hA S (P := fun t => (q t).1.pos) (T := fun t => (q t).1.res)
    (r := fun t => (q t).2) (hq.mono fun t h => h.settled) R
  have hpos : ∀ n ∈ (D t0).nodes.keys, SmoothAt k (fun t => posOf (F t) n) t0 := by
    intro n hn
    refine (H n hn).1.congr (hq.mono fun t h => ?_)
    obtain ⟨e, ⟨ind, p, Q, G⟩, -⟩ := h
    rw [e]
    exact posOf_form (J t).wf G n
  have htrail : ∀ e d, (D t0).edges.get? e = some d → d.type = .trail →
      ContDiffAt ℝ k (fun t => forceAt (F t) e) t0 ∧ forceAt (F t0) e ≠ 0 := by
    intro e d hd ht
    obtain ⟨a, b, hn, rfl⟩ := trail_ends I hd ht
    have ha := (Follows.mem I.trails ((trailNext_iff w I.trails).1 hn)).1
    obtain ⟨e1, e2⟩ := edgeData_trail w I.trails I.simple hn
    have hr := R.trail a b hn
    have hL := smooth_trail I S R hn (H a ha).1 (H a ha).2
    constructor
    · refine (smooth_copysign ((H a ha).2.length hr) hL (Vec.length_pos hr)
        (effectiveLength_ne_zero (hl _ _ e1 e2) _ _)).congr_of_eventuallyEq (hq.mono fun t h => ?_)
      obtain ⟨d', h1, _, h3⟩ := settled_edge (J t) h (by rw [trailNext_shape (S.same t)]; exact hn)
      rw [edgeKey_same (S.same t)] at h1
      simp only
      unfold forceAt
      rw [h1]
      exact h3
    · obtain ⟨d', h1, h2, h3⟩ := settled_edge I h0 hn
      unfold forceAt
      rw [h1]
      exact hf _ _ h1 h2
  have hforce : ∀ e ∈ (D t0).edges.keys, ContDiffAt ℝ k (fun t => forceAt (F t) e) t0 := by
    intro e he
    obtain ⟨d, hd⟩ := (Dict.exists_get?_iff _ _).2 he
    cases ht : d.type with
    | untyped => exact absurd ht (I.typed _ _ hd)
    | trail => exact (htrail e d hd ht).1
    | deviation =>
      refine (S.forces e d hd ht).congr_of_eventuallyEq (hq.mono fun t h => ?_)
      obtain ⟨d1, h1⟩ := (Dict.exists_get?_iff (D t).edges e).2 (by rw [(S.same t).edgeKeys]; exact he)
      obtain ⟨eF, ⟨ind, p, Q, G⟩, -⟩ := h
      obtain ⟨d', h2, _, _, h3⟩ := (computed_keeps_data (J t) ⟨_, _, _, _, _, eF, G⟩).2.2.2 e d1 h1
      simp only
      unfold forceAt
      rw [h1, h2]
      exact h3 (by rw [((S.same t).edge e d d1 hd h1).1]; exact ht)
  refine ⟨⟨hpos, ?_, hforce, ?_⟩, ?_⟩
  · intro n hn
    have e : ∀ᶠ t in 𝓝 t0, reactionAt (F t) n = if trailNext (D t0) n = none then (q t).2 n else 0 := by
      refine hq.mono fun t h => ?_
      obtain ⟨e, ⟨ind, p, Q, G⟩, -⟩ := h
      rw [e, reactionAt_form (J t).wf G (J t).reaction (by rw [(S.same t).nodeKeys]; exact hn),
        nxtK_none (J t).wf (J t).trails, trailNext_shape (S.same t)]
    refine SmoothAt.congr ?_ e
    split_ifs
    · exact (H n hn).2
    · exact SmoothAt.const 0
  · intro e he hne
    obtain ⟨d, hd⟩ := (Dict.exists_get?_iff _ _).2 he
    have m1 := w.edge_left e he
    have m2 := w.edge_right e he
    have hap : posOf (F t0) e.1 - posOf (F t0) e.2 ≠ 0 := by
      rw [sub_ne_zero]
      cases ht : d.type with
      | untyped => exact absurd ht (I.typed _ _ hd)
      | deviation => exact hX.apart e d hd ht
      | trail =>
        obtain ⟨a, b, hn, hk⟩ := trail_ends I hd ht
        have ha := (Follows.mem I.trails ((trailNext_iff w I.trails).1 hn)).1
        obtain ⟨e1, e2⟩ := edgeData_trail w I.trails I.simple hn
        have hstep := (h0.settled.next a ha b hn).1
        rw [normalize_eq_unit] at hstep
        have hab : posOf (F t0) b ≠ posOf (F t0) a := by
          obtain ⟨eF, ⟨ind, p, Q, G⟩, -⟩ := h0
          rw [eF, posOf_form w G, posOf_form w G, hstep]
          intro hh
          have hz := congrArg Vec.length (add_eq_left.1 hh)
          rw [length_smul_unit_of_ne (R.trail a b hn), Vec.length_zero] at hz
          exact effectiveLength_ne_zero (hl _ _ e1 e2) _ _ (abs_eq_zero.1 hz)
        rcases edgeKey_ends (D t0) a b with h | h <;> rw [hk] at h <;> rw [h]
        · exact hab.symm
        · exact hab
    refine (smooth_copysign (((hpos _ m1).sub (hpos _ m2)).length hap) (hforce e he)
      (Vec.length_pos hap) hne).congr_of_eventuallyEq (hq.mono fun t h => ?_)
    obtain ⟨eF, ⟨ind, p, Q, G⟩, -⟩ := h
    obtain ⟨d', h1⟩ := (Dict.exists_get?_iff (F t).edges e).2 (by
      rw [eF, show (formOf (D t) (q t).1).edges.keys = (D t).edges.keys from formEdges_keys _ _,
        (S.same t).edgeKeys]
      exact he)
    simp only
    unfold lengthAt forceAt
    rw [h1]
    have := formOf_length (J t).wf G (e := e) (d := d') (by rw [← eF]; exact h1)
    rw [← eF] at this
    exact this
  · have h1 : ∀ᶠ t in 𝓝 t0, ∀ e ∈ (D t0).edges.keys.toFinset, (∃ d, (D t0).edges.get? e = some d ∧
        d.type = .trail) → forceAt (F t) e ≠ 0 := by
      rw [eventually_all_finset]
      intro e _
      by_cases h : ∃ d, (D t0).edges.get? e = some d ∧ d.type = .trail
      · obtain ⟨d, hd, ht⟩ := h
        obtain ⟨c1, c2⟩ := htrail e d hd ht
        exact (c1.continuousAt.eventually_ne c2).mono fun t ht' _ => ht'
      · exact Eventually.of_forall fun t h' => absurd h' h
    filter_upwards [h1, hq] with t ht hqt e d hd hty
    obtain ⟨eF, ⟨ind, p, Q, G⟩, -⟩ := hqt
    have hk := computed_keeps_data (J t) ⟨_, _, _, _, _, eF, G⟩
    have hm : e ∈ (D t).edges.keys := by rw [← hk.2.1]; exact Dict.mem_keys_of_get? hd
    obtain ⟨d1, h1'⟩ := (Dict.exists_get?_iff _ _).2 hm
    obtain ⟨d0, h0'⟩ := (Dict.exists_get?_iff (D t0).edges e).2 (by rw [← (S.same t).edgeKeys]; exact hm)
    obtain ⟨d2, h2, h3, _⟩ := hk.2.2.2 e d1 h1'
    rw [hd] at h2
    obtain rfl := Option.some.inj h2
    have := ht e (List.mem_toFinset.2 (Dict.mem_keys_of_get? h0'))
      ⟨d0, h0', by rw [← ((S.same t).edge e d0 d1 h0' h1').1, ← h3]; exact hty⟩
    unfold forceAt at this
    rw [hd] at this
    exact this

/-- **C70.**  Problems without indirect deviation edges that depend smoothly on parameters: where the
trail edges of the returned form carry forces, no deviation edge has shrunk to a point, and every plane
clearly is or is not used, the returned forms depend smoothly on the parameters; nearby they all are
equilibria of their problems. -/
theorem C70_direct (I : ValidInput (D t0)) (hl : NonzeroTrails (D t0)) (hd : DirectOnly (D t0))
    (S : SmoothFamily k D t0) {tmax : Nat} {eta : ℝ} {verbose : Bool}
    (h : ∀ᶠ t in 𝓝 t0, staticEquilibrium (D t) none tmax eta verbose = .ok (F t))
    (hf : TrailsCarry (F t0)) (hX : Distinct (D t0) (F t0)) :
    SmoothForm k (D t0) F t0 ∧ ∀ᶠ t in 𝓝 t0, EquilibriumOf (D t) (F t) := by
  have J : ∀ t, ValidInput (D t) := fun t => validInput_same (S.same t) I
  have K : ∀ t, DirectOnly (D t) := fun t => directOnly_same (S.same t) hd
  obtain ⟨h1, h2⟩ := smooth_form I hl (acyclic_of_direct I hd) S
    (h.mono fun t ht => settled_direct (J t) (K t) ht) hf hX
  refine ⟨h1, ?_⟩
  filter_upwards [h, h2, nonzero_near S hl] with t a1 a2 a3
  exact C58_equilibrium (J t) a3 (K t) a1 a2

/-- **C70, indirect edges.**  The same if no position needs itself, directly or through others, and form
finding uses threshold zero. -/
theorem C70_acyclic (I : ValidInput (D t0)) (hl : NonzeroTrails (D t0)) (hA : Acyclic (D t0))
    (S : SmoothFamily k D t0) {tmax : Nat} (ht : 2 ≤ tmax) {eta : ℝ} (he : eta ≤ 0) {verbose : Bool}
    (h : ∀ᶠ t in 𝓝 t0, staticEquilibrium (D t) none tmax eta verbose = .ok (F t))
    (hf : TrailsCarry (F t0)) (hX : Distinct (D t0) (F t0)) :
    SmoothForm k (D t0) F t0 ∧ ∀ᶠ t in 𝓝 t0, EquilibriumOf (D t) (F t) := by
  have J : ∀ t, ValidInput (D t) := fun t => validInput_same (S.same t) I
  obtain ⟨h1, h2⟩ := smooth_form I hl hA S
    (h.mono fun t h' => settled_zero (J t) ht he h') hf hX
  refine ⟨h1, ?_⟩
  filter_upwards [h, h2, nonzero_near S hl] with t a1 a2 a3
  exact C58_exact (J t) a3 ht he a1 a2

theorem distinct_congr {D F G : Diagram ℝ} (I : ValidInput D)
    (h : ∀ n ∈ D.nodes.keys, posOf F n = posOf G n) (hX : Distinct D G) : Distinct D F := by
  refine ⟨fun e d hd ht => ?_, fun a b d o N hf hb hp => ?_⟩
  · have hm := Dict.mem_keys_of_get? hd
    rw [h _ (I.wf.edge_left e hm), h _ (I.wf.edge_right e hm)]
    exact hX.apart e d hd ht
  · obtain ⟨ha, hb'⟩ := Follows.mem I.trails hf
    rw [h _ ha, h _ hb']
    exact hX.planes a b d o N hf hb hp

/-- **C70, equilibria.**  If no position needs itself, equilibria of problems that depend smoothly on
parameters do so as well, however they are found. -/
theorem C70_equilibria {G : V → Diagram ℝ} (I : ValidInput (D t0)) (hl : NonzeroTrails (D t0))
    (hA : Acyclic (D t0)) (S : SmoothFamily k D t0)
    (h : ∀ᶠ t in 𝓝 t0, EquilibriumOf (D t) (G t)) (hX : Distinct (D t0) (G t0)) :
    (∀ n ∈ (D t0).nodes.keys, SmoothAt k (fun t => posOf (G t) n) t0 ∧
      SmoothAt k (fun t => reactionAt (G t) n) t0) ∧
    (∀ e ∈ (D t0).edges.keys, ContDiffAt ℝ k (fun t => forceAt (G t) e) t0) := by
  have J : ∀ t, ValidInput (D t) := fun t => validInput_same (S.same t) I
  have same : ∀ᶠ t in 𝓝 t0, ∃ F, staticEquilibrium (D t) none ((D t0).nodes.length + 2) 0 false = .ok F ∧
      TrailsCarry F ∧ (∀ n ∈ (D t0).nodes.keys, posOf F n = posOf (G t) n ∧
        reactionAt F n = reactionAt (G t) n) ∧
      (∀ e ∈ (D t0).edges.keys, forceAt F e = forceAt (G t) e) := by
    filter_upwards [h, nonzero_near S hl] with t ht hlt
    have hA' : Acyclic (D t) := by
      have hn : ∀ b x, Needs (D t) b x ↔ Needs (D t0) b x := by
        intro b x
        unfold Needs
        simp only [edgeBetween_iff (J t).simple, edgeBetween_iff I.simple, neighbors_same (S.same t)]
        have : (D t).trails = (D t0).trails := (S.same t).rest.2.2.1
        unfold Follows
        rw [this]
        constructor
        · rintro ⟨a, h1, h2⟩
          refine ⟨a, h1, h2.imp id ?_⟩
          rintro ⟨d, ⟨h3, rfl⟩, h4⟩
          exact ⟨_, ⟨h3, rfl⟩, by rw [← (edgeData_shape (S.same t) a x).1]; exact h4⟩
        · rintro ⟨a, h1, h2⟩
          refine ⟨a, h1, h2.imp id ?_⟩
          rintro ⟨d, ⟨h3, rfl⟩, h4⟩
          exact ⟨_, ⟨h3, rfl⟩, by rw [(edgeData_shape (S.same t) a x).1]; exact h4⟩
      have : Needs (D t) = Needs (D t0) := by funext b x; exact propext (hn b x)
      unfold Acyclic
      rw [this]
      exact hA
    have hlen : (D t).nodes.length = (D t0).nodes.length := by
      have := congrArg List.length (S.same t).nodeKeys
      unfold Dict.keys at this
      simpa using this
    obtain ⟨F, h1, _, h3, h4⟩ := C65_acyclic (J t) hlt hA' (tmax := (D t0).nodes.length + 2)
      (by omega) false
    obtain ⟨h5, h6⟩ := h4 _ ht
    refine ⟨F, h1, h3.1 ⟨_, ht⟩, fun n hn => h5 n (by rw [(S.same t).nodeKeys]; exact hn), fun e he => ?_⟩
    have hm : e ∈ (D t).edges.keys := by rw [(S.same t).edgeKeys]; exact he
    obtain ⟨d1, e1⟩ := (Dict.exists_get?_iff F.edges e).2 (by rw [(C25_keeps_data (J t) h1).2.1]; exact hm)
    obtain ⟨d2, e2⟩ := (Dict.exists_get?_iff (G t).edges e).2 (ht.edges.mem_iff.2 hm)
    unfold forceAt
    rw [e1, e2]
    exact h6 e d1 d2 e1 e2
  obtain ⟨F, hF⟩ := same.choice
  have f0 := hF.self_of_nhds
  obtain ⟨sm, _⟩ := C70_acyclic I hl hA S (F := F) (by omega) le_rfl (hF.mono fun t h => h.1) f0.2.1
    (distinct_congr I (fun n hn => (f0.2.2.1 n hn).1) hX)
  refine ⟨fun n hn => ⟨(sm.positions n hn).congr ?_, (sm.reactions n hn).congr ?_⟩, fun e he =>
    (sm.forces e he).congr_of_eventuallyEq ?_⟩
  · exact hF.mono fun t h => (h.2.2.1 n hn).1.symm
  · exact hF.mono fun t h => (h.2.2.1 n hn).2.symm
  · exact hF.mono fun t h => (h.2.2.2 e he).symm

end

/-! ## Example: two trails and a tie -/

namespace TieEx
open TrailEx

local instance tieSqrt : PySqrt ℚ := ⟨id⟩

/-- Calls that make the trails `0-1` and `2-3` and a deviation edge from node 0 to node `c`. -/
def tieOps (c : Int) : List (Op ℚ) := [.addNode none ⟨0, 0, 0⟩, .addNode none ⟨2, 0, 0⟩,
  .addNode none ⟨1, 0, 0⟩, .addNode none ⟨3, 0, 0⟩, .addEdge (.trail (.key 0) (.key 1) (-5) none),
  .addEdge (.trail (.key 2) (.key 3) (-5) none), .addEdge (.deviation (.key 0) (.key c) 3),
  sup 1, sup 3, load 0 ⟨0, 0, -4⟩, load 2 ⟨0, 0, -4⟩]

def tieQ (c : Int) : Diagram ℚ := after key (tieOps c ++ [.buildTrails])

/-- The same with force `f` of the deviation edge and loads `w`. -/
noncomputable def tie (c : Int) (f w : ℝ) : Diagram ℝ where
  nodes := [(0, ⟨⟨0, 0, 0⟩, ⟨0, 0, -w⟩, ⟨0, 0, 0⟩, some 0, .origin⟩),
    (1, ⟨⟨2, 0, 0⟩, ⟨0, 0, 0⟩, ⟨0, 0, 0⟩, some 1, .support⟩),
    (2, ⟨⟨1, 0, 0⟩, ⟨0, 0, -w⟩, ⟨0, 0, 0⟩, some 0, .origin⟩),
    (3, ⟨⟨3, 0, 0⟩, ⟨0, 0, 0⟩, ⟨0, 0, 0⟩, some 1, .support⟩)]
  edges := [((0, 1), ⟨.trail, -5, 0, none⟩), ((2, 3), ⟨.trail, -5, 0, none⟩),
    ((0, c), ⟨.deviation, 0, f, none⟩)]
  maxNode := 3
  gkeyNode := (tieQ c).gkeyNode
  trails := [(0, [0, 1]), (2, [2, 3])]
  auxTrails := []
  auxLength := -1
  auxVector := ⟨1, 1, 1⟩

theorem tie_eq (c : Int) (hc : c = 2 ∨ c = 3) : (tieQ c).real = tie c 3 4 := by
  have h : ∀ c : Int, c = 2 ∨ c = 3 → tieQ c = { tieQ c with
      nodes := [(0, ⟨⟨0, 0, 0⟩, ⟨0, 0, -4⟩, ⟨0, 0, 0⟩, some 0, .origin⟩),
        (1, ⟨⟨2, 0, 0⟩, ⟨0, 0, 0⟩, ⟨0, 0, 0⟩, some 1, .support⟩),
        (2, ⟨⟨1, 0, 0⟩, ⟨0, 0, -4⟩, ⟨0, 0, 0⟩, some 0, .origin⟩),
        (3, ⟨⟨3, 0, 0⟩, ⟨0, 0, 0⟩, ⟨0, 0, 0⟩, some 1, .support⟩)]
      edges := [((0, 1), ⟨.trail, -5, 0, none⟩), ((2, 3), ⟨.trail, -5, 0, none⟩),
        ((0, c), ⟨.deviation, 0, 3, none⟩)]
      maxNode := 3
      trails := [(0, [0, 1]), (2, [2, 3])]
      auxTrails := []
      auxLength := -1
      auxVector := ⟨1, 1, 1⟩ } := by
    rintro c (rfl | rfl) <;> decide +kernel
  rw [h c hc]
  simp [tie, Diagram.real, Diagram.map, NodeData.map, EdgeData.map, Vec.map]

variable (c : Int) (f w : ℝ)

theorem tie_nodes (n : Int) : (tie c f w).nodes.get? n =
    if n = 0 then some ⟨⟨0, 0, 0⟩, ⟨0, 0, -w⟩, ⟨0, 0, 0⟩, some 0, .origin⟩
    else if n = 1 then some ⟨⟨2, 0, 0⟩, ⟨0, 0, 0⟩, ⟨0, 0, 0⟩, some 1, .support⟩
    else if n = 2 then some ⟨⟨1, 0, 0⟩, ⟨0, 0, -w⟩, ⟨0, 0, 0⟩, some 0, .origin⟩
    else if n = 3 then some ⟨⟨3, 0, 0⟩, ⟨0, 0, 0⟩, ⟨0, 0, 0⟩, some 1, .support⟩ else none := by
  simp only [tie, Dict.get?, eq_comm (b := n)]

theorem tie_edges (e : Int × Int) : (tie c f w).edges.get? e =
    if e = (0, 1) then some ⟨.trail, -5, 0, none⟩ else if e = (2, 3) then some ⟨.trail, -5, 0, none⟩
    else if e = (0, c) then some ⟨.deviation, 0, f, none⟩ else none := by
  simp only [tie, Dict.get?, eq_comm (b := e)]

theorem tie_keys : (tie c f w).nodes.keys = [0, 1, 2, 3] := rfl
theorem tie_edge_keys : (tie c f w).edges.keys = [(0, 1), (2, 3), (0, c)] := rfl
theorem tie_trails : (tie c f w).trails = [(0, [0, 1]), (2, [2, 3])] := rfl

theorem same_tie (f' w' : ℝ) : SameExcept (fun _ => True) (tie c f w) (tie c f' w') := by
  refine ⟨rfl, rfl, ?_, ?_, rfl, rfl, rfl, rfl, rfl, rfl⟩
  · intro n d d' h h'
    rw [tie_nodes] at h h'
    split_ifs at h h' <;> simp at h h' <;> subst h <;> subst h' <;> simp
  · intro e d d' h h'
    rw [tie_edges] at h h'
    split_ifs at h h' <;> simp at h h' <;> subst h <;> subst h' <;> simp

variable {c}

theorem valid_tie (hc : c = 2 ∨ c = 3) : ValidInput (tie c f w) := by
  refine validInput_same (same_tie c 3 4 f w) ?_
  rw [← tie_eq c hc]
  refine validInput_real ?_
  rcases hc with rfl | rfl
  · exact validInput_of_history key (tieOps 2) (RegularCheck.regular (WF.after _ _) (by decide +kernel))
      (by decide +kernel)
  · exact validInput_of_history key (tieOps 3) (RegularCheck.regular (WF.after _ _) (by decide +kernel))
      (by decide +kernel)

theorem nonzero_tie : NonzeroTrails (tie c f w) := by
  intro e d h ht
  rw [tie_edges] at h
  split_ifs at h <;> simp at h <;> subst h <;> simp at ht ⊢

theorem direct_tie : DirectOnly (tie 2 f w) := by
  refine directOnly_same (same_tie 2 3 4 f w) ?_
  rw [← tie_eq 2 (Or.inl rfl)]
  exact map_directOnly (DirectCheck.direct (D := tieQ 2) (by decide +kernel))

theorem acyclic_tie : Acyclic (tie 3 f w) := by
  refine acyclic_of_measure (fun n => if n = 1 then 2 else if n = 3 then 1 else 0) ?_
  rintro b x ⟨a, ⟨key, tr, htr, hc⟩, hx⟩
  rw [tie_trails] at htr
  have hx' : x = a ∨ (a = 0 ∧ x = 3) ∨ (a = 3 ∧ x = 0) := by
    refine hx.imp id ?_
    rintro ⟨d, hd | hd, ht⟩ <;> rw [tie_edges] at hd <;> split_ifs at hd with h1 h2 h3 <;>
      simp at hd <;> subst hd <;> simp at ht
    · simp only [Prod.mk.injEq] at h3; exact Or.inl h3
    · simp only [Prod.mk.injEq] at h3; exact Or.inr ⟨h3.2, h3.1⟩
  simp only [List.mem_cons, Prod.mk.injEq, List.not_mem_nil, or_false] at htr
  rcases htr with ⟨_, rfl⟩ | ⟨_, rfl⟩ <;>
  · obtain ⟨l1, l2, h⟩ := hc
    rcases l1 with _ | ⟨x, _ | ⟨y, l1⟩⟩ <;> simp at h
    obtain ⟨rfl, rfl, _⟩ := h
    rcases hx' with rfl | ⟨h, rfl⟩ | ⟨h, rfl⟩ <;> simp_all

/-- The numbers of the problems depend smoothly on the force and the load. -/
theorem smooth_tie {W : Type} [NormedAddCommGroup W] [NormedSpace ℝ W] {k : WithTop ℕ∞} {t0 : W}
    {p q : W → ℝ} (hp : ContDiffAt ℝ k p t0) (hq : ContDiffAt ℝ k q t0) :
    SmoothFamily k (fun t => tie c (p t) (q t)) t0 := by
  refine ⟨fun t => same_tie c _ _ _ _, ?_, ?_, ?_, ?_⟩
  · intro n tr _
    have : (fun t : W => posOf (tie c (p t) (q t)) n) = fun _ => posOf (tie c 0 0) n := by
      funext t
      unfold posOf
      rw [tie_nodes, tie_nodes]
      split_ifs <;> rfl
    rw [this]
    exact SmoothAt.const _
  · intro n _
    have : (fun t : W => loadAt (tie c (p t) (q t)) n) =
        fun t => q t • (if n = 0 ∨ n = 2 then ⟨0, 0, -1⟩ else 0 : Vec ℝ) := by
      funext t
      unfold loadAt
      rw [tie_nodes]
      split_ifs <;> simp_all <;> ext <;> simp
    rw [this]
    exact SmoothAt.smul hq (SmoothAt.const _)
  · intro e d _ _
    have : (fun t : W => lengthAt (tie c (p t) (q t)) e) = fun _ => lengthAt (tie c 0 0) e := by
      funext t
      unfold lengthAt
      rw [tie_edges, tie_edges]
      split_ifs <;> rfl
    rw [this]
    exact contDiffAt_const
  · intro e d h ht
    have : (fun t : W => forceAt (tie c (p t) (q t)) e) = p := by
      funext t
      unfold forceAt
      simp only [tie_edges] at h ⊢
      split_ifs at h ⊢ <;> simp at h ⊢ <;> subst h <;> simp at ht
    rw [this]
    exact hp

theorem tie_next (hc : c = 2 ∨ c = 3) : trailNext (tie c f w) 0 = some 1 ∧ trailNext (tie c f w) 2 = some 3 ∧
    (∀ a, trailNext (tie c f w) a ≠ some 0) ∧ (∀ a, trailNext (tie c f w) a ≠ some 2) := by
  have I := valid_tie f w hc
  refine ⟨(trailNext_iff I.wf I.trails).2 ⟨0, [0, 1], by rw [tie_trails]; simp, ⟨[], [], rfl⟩⟩,
    (trailNext_iff I.wf I.trails).2 ⟨2, [2, 3], by rw [tie_trails]; simp, ⟨[], [], rfl⟩⟩, ?_, ?_⟩ <;>
  · intro a ha
    obtain ⟨key, tr, hm, l1, l2, h⟩ := (trailNext_iff I.wf I.trails).1 ha
    rw [tie_trails] at hm
    simp only [List.mem_cons, Prod.mk.injEq, List.not_mem_nil, or_false] at hm
    rcases hm with ⟨_, rfl⟩ | ⟨_, rfl⟩ <;> rcases l1 with _ | ⟨x, _ | ⟨y, l1⟩⟩ <;> simp at h

theorem tie_data (hc : c = 2 ∨ c = 3) : edgeData (tie c f w) 0 1 = ⟨.trail, -5, 0, none⟩ ∧
    edgeData (tie c f w) 2 3 = ⟨.trail, -5, 0, none⟩ ∧ edgeData (tie c f w) 0 c = ⟨.deviation, 0, f, none⟩ ∧
    (c = 2 → edgeData (tie c f w) 2 0 = ⟨.deviation, 0, f, none⟩) := by
  have hh : ∀ e, (tie c f w).edges.has e = decide (e ∈ (tie c f w).edges.keys) := by
    intro e
    rw [Bool.eq_iff_iff, Dict.has_iff, decide_eq_true_iff]
  unfold edgeData edgeKey
  simp only [hh, tie_edge_keys, tie_edges]
  rcases hc with rfl | rfl <;> simp

theorem tie_nbrs : (tie 2 f w).neighbors 0 = [1, 2] ∧ (tie 2 f w).neighbors 2 = [3, 0] ∧
    (tie 3 f w).neighbors 0 = [1, 3] ∧ (tie 3 f w).neighbors 2 = [3] := by
  unfold Diagram.neighbors
  rw [tie_edge_keys, tie_edge_keys]
  decide +kernel

/-- The force vectors of the two trails. -/
theorem tie_out {F : Diagram ℝ} {s : EqState ℝ} {r : Int → Vec ℝ} (hc : c = 2 ∨ c = 3)
    (S : SettledForm (tie c f w) F s r) :
    s.pos 0 = ⟨0, 0, 0⟩ ∧ s.pos 2 = ⟨1, 0, 0⟩ ∧ s.pos 1 = (-5 : ℝ) • unit (r 0) ∧
    s.pos 3 = ⟨1, 0, 0⟩ + (-5 : ℝ) • unit (r 2) ∧
    (c = 2 → r 0 = ⟨-f, 0, w⟩ ∧ r 2 = ⟨f, 0, w⟩) ∧
    (c = 3 → r 0 = ⟨0, 0, w⟩ - f • unit (s.pos 3) ∧ r 2 = ⟨0, 0, w⟩) := by
  obtain ⟨x0, x2, x3, x4⟩ := tie_next f w hc
  obtain ⟨d1, d2, d3, d4⟩ := tie_data f w hc
  obtain ⟨b1, b2, b3, b4⟩ := tie_nbrs f w
  have k : ∀ n : Int, n = 0 ∨ n = 2 → n ∈ (tie c f w).nodes.keys := by
    intro n hn; rw [tie_keys]; rcases hn with rfl | rfl <;> simp
  have sq : seqOf (tie c f w) 0 = some 0 ∧ seqOf (tie c f w) 1 = some 1 ∧ seqOf (tie c f w) 2 = some 0 ∧
      seqOf (tie c f w) 3 = some 1 := by
    unfold seqOf; simp [tie_nodes]
  have ld : loadOf (tie c f w) 0 = ⟨0, 0, -w⟩ ∧ loadOf (tie c f w) 2 = ⟨0, 0, -w⟩ := by
    unfold loadOf; simp [tie_nodes]
  have ps : posOf (tie c f w) 0 = ⟨0, 0, 0⟩ ∧ posOf (tie c f w) 2 = ⟨1, 0, 0⟩ := by
    unfold posOf; simp [tie_nodes]
  obtain ⟨p0, t0⟩ := S.settled.start 0 (k 0 (Or.inl rfl)) x3
  obtain ⟨p2, t2⟩ := S.settled.start 2 (k 2 (Or.inr rfl)) x4
  rw [ps.1] at p0
  rw [ps.2] at p2
  obtain ⟨p1, _⟩ := S.settled.next 0 (k 0 (Or.inl rfl)) 1 x0
  obtain ⟨p3, _⟩ := S.settled.next 2 (k 2 (Or.inr rfl)) 3 x2
  have o0 := S.settled.out 0 (k 0 (Or.inl rfl))
  have o2 := S.settled.out 2 (k 2 (Or.inr rfl))
  rw [normalize_eq_unit, d1, p0] at p1
  rw [normalize_eq_unit, d2, p2] at p3
  have z : (⟨0, 0, 0⟩ : Vec ℝ) = 0 := rfl
  have u1 : unit (⟨1, 0, 0⟩ : Vec ℝ) = ⟨1, 0, 0⟩ := by
    have : Vec.length (⟨1, 0, 0⟩ : Vec ℝ) = 1 := by simp [Vec.length_def, Vec.dot]
    unfold unit; rw [this]; simp
  refine ⟨p0, p2, by rw [p1, z, zero_add]; rfl, by rw [p3]; rfl, ?_, ?_⟩
  · rintro rfl
    unfold dirNbrs indNbrs at o0 o2
    rw [t0, ld.1, b1] at o0
    rw [t2, ld.2, b2] at o2
    simp [d1, d3, sq, devSum, devTerm_real, p0, p2, z, u1] at o0
    simp [d2, d4, sq, devSum, devTerm_real, p0, p2, z, u1, unit_neg] at o2
    rw [o0, o2]
    constructor <;> ext <;> simp
  · rintro rfl
    unfold dirNbrs indNbrs at o0 o2
    rw [t0, ld.1, b3] at o0
    rw [t2, ld.2, b4] at o2
    simp [d1, d3, sq, devSum, devTerm_real, p0, p2, z, u1] at o0
    simp [d2, sq, devSum, devTerm_real, p0, p2, z, u1] at o2
    rw [o0, o2]
    constructor
    · congr 1; ext <;> simp
    · ext <;> simp

theorem tie_carries {F : Diagram ℝ} {s : EqState ℝ} {r : Int → Vec ℝ} (hc : c = 2 ∨ c = 3)
    (S : SettledForm (tie c f w) F s r) (h0 : r 0 ≠ 0) (h2 : r 2 ≠ 0) : TrailsCarry F := by
  have I := valid_tie f w hc
  obtain ⟨x0, x2, _, _⟩ := tie_next f w hc
  obtain ⟨d1, d2, _, _⟩ := tie_data f w hc
  intro e d hd ht
  have hk : F.edges.keys = [(0, 1), (2, 3), (0, c)] := by
    obtain ⟨rfl, _, _⟩ := S
    rw [← tie_edge_keys c f w]
    exact formEdges_keys _ _
  have hm := Dict.mem_keys_of_get? hd
  rw [hk] at hm
  have key : edgeKey (tie c f w) 0 1 = (0, 1) ∧ edgeKey (tie c f w) 2 3 = (2, 3) :=
    ⟨(edgeKey_of_mem I.simple (by rw [tie_edge_keys]; simp)).1,
      (edgeKey_of_mem I.simple (by rw [tie_edge_keys]; simp)).1⟩
  have cs : ∀ {v : Vec ℝ} {l : ℝ}, v ≠ 0 → copysign (Vec.length v) l ≠ 0 := by
    intro v l hv
    have := Vec.length_pos hv
    unfold copysign
    rw [abs_of_pos this]
    split_ifs <;> linarith
  simp only [List.mem_cons, List.not_mem_nil, or_false] at hm
  rcases hm with rfl | rfl | rfl
  · obtain ⟨d', e1, _, e3⟩ := settled_edge I S x0
    rw [key.1, hd] at e1
    rw [Option.some.inj e1, e3]
    exact cs h0
  · obtain ⟨d', e1, _, e3⟩ := settled_edge I S x2
    rw [key.2, hd] at e1
    rw [Option.some.inj e1, e3]
    exact cs h2
  · exfalso
    obtain ⟨eF, ⟨ind, p, Q, G⟩, -⟩ := S
    have h : (tie c f w).edges.get? (0, c) = some ⟨.deviation, 0, f, none⟩ := by
      rw [tie_edges]; rcases hc with rfl | rfl <;> simp
    obtain ⟨d', h1, h2, _⟩ := (computed_keeps_data I ⟨_, _, _, _, _, eF, G⟩).2.2.2 _ _ h
    rw [hd] at h1
    rw [Option.some.inj h1, h2] at ht
    simp at ht

theorem tie_distinct {F : Diagram ℝ} (h : posOf F 0 ≠ posOf F c) : Distinct (tie c f w) F := by
  refine ⟨?_, ?_⟩
  · intro e d hd ht
    rw [tie_edges] at hd
    split_ifs at hd with h1 h2 h3 <;> simp at hd <;> subst hd <;> simp at ht
    subst h3
    exact h
  · intro a b d o N _ hb hp
    unfold EdgeBetween at hb
    rw [tie_edges, tie_edges] at hb
    rcases hb with h | h <;> split_ifs at h <;> simp at h <;> subst h <;> simp at hp

end TieEx

open TieEx in
/-- Forms of the trails with a direct deviation edge depend smoothly on its force and on the loads. -/
example {tmax : Nat} (ht : 1 ≤ tmax) (k : WithTop ℕ∞) : ∃ F : ℝ × ℝ → Diagram ℝ,
    (∀ t, staticEquilibrium (tie 2 t.1 t.2) none tmax 0 false = .ok (F t)) ∧
    SmoothForm k (tie 2 3 4) F (3, 4) := by
  choose F hF using fun t : ℝ × ℝ =>
    C20_returns_without_indirect (valid_tie t.1 t.2 (Or.inl rfl)) (direct_tie t.1 t.2) ht (le_refl (0 : ℝ))
  obtain ⟨q, S⟩ := settled_direct (valid_tie 3 4 (Or.inl rfl)) (direct_tie 3 4) (hF (3, 4))
  obtain ⟨p0, p2, _, _, h, _⟩ := tie_out 3 4 (Or.inl rfl) S
  obtain ⟨r0, r2⟩ := h rfl
  refine ⟨F, hF, (C70_direct (D := fun t => tie 2 t.1 t.2) (t0 := (3, 4)) (valid_tie 3 4 (Or.inl rfl))
    (nonzero_tie 3 4) (direct_tie 3 4) (smooth_tie contDiffAt_fst contDiffAt_snd) (Eventually.of_forall hF)
    (tie_carries 3 4 (Or.inl rfl) S (by rw [r0]; intro h; simpa using congrArg Vec.z h)
      (by rw [r2]; intro h; simpa using congrArg Vec.z h)) (tie_distinct 3 4 ?_)).1⟩
  obtain ⟨eF, ⟨ind, p, Q, G⟩, -⟩ := S
  rw [eF, posOf_form (valid_tie 3 4 (Or.inl rfl)).wf G, posOf_form (valid_tie 3 4 (Or.inl rfl)).wf G, p0, p2]
  intro h
  simpa using congrArg Vec.x h

open TieEx in
theorem tie_found : ∃ F : ℝ × ℝ → Diagram ℝ,
    (∀ t, staticEquilibrium (tie 3 t.1 t.2) none 5 0 false = .ok (F t)) ∧
    TrailsCarry (F (3, 4)) ∧ Distinct (tie 3 3 4) (F (3, 4)) := by
  choose F hF using fun t : ℝ × ℝ =>
    (C65_acyclic (valid_tie t.1 t.2 (Or.inr rfl)) (nonzero_tie t.1 t.2) (acyclic_tie t.1 t.2)
      (tmax := 5) (by change 4 < 5; norm_num) false)
  obtain ⟨q, S⟩ := settled_zero (valid_tie 3 4 (Or.inr rfl)) (by norm_num) le_rfl (hF (3, 4)).1
  obtain ⟨p0, p2, _, p3, _, h⟩ := tie_out 3 4 (Or.inr rfl) S
  obtain ⟨r0, r2⟩ := h rfl
  have l2 : unit (⟨0, 0, 4⟩ : Vec ℝ) = ⟨0, 0, 1⟩ := by
    have e : (⟨0, 0, 4⟩ : Vec ℝ) = (4 : ℝ) • ⟨0, 0, 1⟩ := by ext <;> simp
    have : Vec.length (⟨0, 0, 1⟩ : Vec ℝ) = 1 := by simp [Vec.length_def, Vec.dot]
    rw [e, unit_smul_pos (by norm_num)]
    unfold unit; rw [this]; simp
  rw [r2, l2] at p3
  have hx : (q.1.pos 3).x = 1 := by rw [p3]; simp
  have hne : q.1.pos 3 ≠ 0 := by intro h; rw [h] at hx; simp at hx
  have hr0 : q.2 0 ≠ 0 := by
    rw [r0]
    intro h
    have := congrArg Vec.x h
    simp only [unit, Vec.sub_x, Vec.smul_x, Vec.zero_x, hx] at this
    have := Vec.length_pos hne
    have : (Vec.length (q.1.pos 3))⁻¹ ≠ 0 := inv_ne_zero this.ne'
    apply this
    linarith
  refine ⟨F, fun t => (hF t).1,
    tie_carries 3 4 (Or.inr rfl) S hr0 (by rw [r2]; intro h; simpa using congrArg Vec.z h),
    tie_distinct 3 4 ?_⟩
  obtain ⟨eF, ⟨ind, p, Q, G⟩, -⟩ := S
  rw [eF, posOf_form (valid_tie 3 4 (Or.inr rfl)).wf G, posOf_form (valid_tie 3 4 (Or.inr rfl)).wf G, p0]
  intro h
  have := congrArg Vec.x h
  rw [hx] at this
  simp at this

open TieEx in
/-- Forms of the trails with an indirect deviation edge as well. -/
example (k : WithTop ℕ∞) : ∃ F : ℝ × ℝ → Diagram ℝ,
    (∀ t, staticEquilibrium (tie 3 t.1 t.2) none 5 0 false = .ok (F t)) ∧
    SmoothForm k (tie 3 3 4) F (3, 4) ∧ ∀ᶠ t in 𝓝 (3, 4), EquilibriumOf (tie 3 t.1 t.2) (F t) := by
  obtain ⟨F, hF, hc, hX⟩ := tie_found
  exact ⟨F, hF, C70_acyclic (D := fun t => tie 3 t.1 t.2) (t0 := (3, 4))
    (valid_tie 3 4 (Or.inr rfl)) (nonzero_tie 3 4) (acyclic_tie 3 4)
    (smooth_tie contDiffAt_fst contDiffAt_snd) (by norm_num) le_rfl (Eventually.of_forall hF) hc hX⟩

open TieEx in
/-- They are equilibria to which `C70_equilibria` applies. -/
example (k : WithTop ℕ∞) : ∃ G : ℝ × ℝ → Diagram ℝ, (∀ᶠ t in 𝓝 (3, 4), EquilibriumOf (tie 3 t.1 t.2) (G t)) ∧
    ∀ e ∈ (tie 3 3 4).edges.keys, ContDiffAt ℝ k (fun t => forceAt (G t) e) (3, 4) := by
  obtain ⟨F, hF, hc, hX⟩ := tie_found
  have h := (C70_acyclic (k := k) (D := fun t => tie 3 t.1 t.2) (t0 := (3, 4))
    (valid_tie 3 4 (Or.inr rfl)) (nonzero_tie 3 4) (acyclic_tie 3 4)
    (smooth_tie contDiffAt_fst contDiffAt_snd) (by norm_num) le_rfl (Eventually.of_forall hF) hc hX).2
  exact ⟨F, h, (C70_equilibria (D := fun t => tie 3 t.1 t.2) (valid_tie 3 4 (Or.inr rfl)) (nonzero_tie 3 4)
    (acyclic_tie 3 4) (smooth_tie (p := Prod.fst) (q := Prod.snd) contDiffAt_fst contDiffAt_snd) h hX).2⟩

open TieEx in
/-- **C70, jumps.**  Where trail edges carry no forces, the returned forms need not even be continuous:
there are smooth problems for which all other hypotheses of `C70_direct` hold. -/
theorem C70_jump {tmax : Nat} (ht : 1 ≤ tmax) : ∃ D F : ℝ → Diagram ℝ,
    (∀ t, ValidInput (D t) ∧ NonzeroTrails (D t) ∧ DirectOnly (D t)) ∧ (∀ k, SmoothFamily k D 0) ∧
    (∀ t, staticEquilibrium (D t) none tmax 0 false = .ok (F t)) ∧ (∀ t, Distinct (D t) (F t)) ∧
    ∃ n ∈ (D 0).nodes.keys, ¬ ContinuousAt (fun t => (posOf (F t) n).z) 0 := by
  choose F hF using fun t : ℝ =>
    C20_returns_without_indirect (valid_tie 0 t (Or.inl rfl)) (direct_tie 0 t) ht (le_refl (0 : ℝ))
  have key : ∀ t, posOf (F t) 0 = ⟨0, 0, 0⟩ ∧ posOf (F t) 2 = ⟨1, 0, 0⟩ ∧
      posOf (F t) 1 = (-5 : ℝ) • unit (⟨0, 0, t⟩ : Vec ℝ) := by
    intro t
    obtain ⟨q, S⟩ := settled_direct (valid_tie 0 t (Or.inl rfl)) (direct_tie 0 t) (hF t)
    obtain ⟨p0, p2, p1, _, h, _⟩ := tie_out 0 t (Or.inl rfl) S
    rw [(h rfl).1, neg_zero] at p1
    obtain ⟨eF, ⟨ind, p, Q, G⟩, -⟩ := S
    have w := (valid_tie 0 t (Or.inl rfl)).wf
    rw [eF, posOf_form w G, posOf_form w G, posOf_form w G]
    exact ⟨p0, p2, p1⟩
  have up : ∀ t : ℝ, 0 < t → unit (⟨0, 0, t⟩ : Vec ℝ) = ⟨0, 0, 1⟩ := by
    intro t h
    have e : (⟨0, 0, t⟩ : Vec ℝ) = t • ⟨0, 0, 1⟩ := by ext <;> simp
    have : Vec.length (⟨0, 0, 1⟩ : Vec ℝ) = 1 := by simp [Vec.length_def, Vec.dot]
    rw [e, unit_smul_pos h]
    unfold unit; rw [this]; simp
  refine ⟨fun t => tie 2 0 t, F, fun t => ⟨valid_tie 0 t (Or.inl rfl), nonzero_tie 0 t, direct_tie 0 t⟩,
    fun k => smooth_tie contDiffAt_const contDiffAt_id, hF, fun t => tie_distinct 0 t ?_, 1,
    by rw [tie_keys]; simp, ?_⟩
  · rw [(key t).1, (key t).2.1]
    intro h
    simpa using congrArg Vec.x h
  · intro hc
    obtain ⟨δ, hδ, h⟩ := Metric.continuousAt_iff.1 hc 1 one_pos
    have h1 := h (x := δ / 2) (by rw [Real.dist_eq, sub_zero, abs_of_pos] <;> linarith)
    have h2 := h (x := -(δ / 2)) (by rw [Real.dist_eq, sub_zero, abs_neg, abs_of_pos] <;> linarith)
    have n : (⟨0, 0, -(δ / 2)⟩ : Vec ℝ) = -⟨0, 0, δ / 2⟩ := by ext <;> simp
    simp only [(key _).2.2] at h1 h2
    rw [up _ (by linarith), Real.dist_eq, abs_lt] at h1
    rw [n, unit_neg, up _ (by linarith), Real.dist_eq, abs_lt] at h2
    simp only [Vec.smul_z, Vec.neg_z] at h1 h2
    linarith

end Props
end CEM
