import Verif.Lemmas.Close
import Verif.Spec.Rate
import Verif.Props.Gradient
import Verif.Props.NumpyUnconverged

/-!
# Property C79: finite difference gradients with a positive threshold
-/

set_option linter.unusedSectionVars false
set_option linter.unusedSimpArgs false

namespace CEM
namespace Props
open Diagram Spec EqEx Filter Topology

/-! ## Forms of problems that move -/

theorem pickEventually {ι α : Type} [Nonempty α] {l : Filter ι} {p : ι → α → Prop} (h : ∀ᶠ i in l, ∃ a, p i a) :
    ∃ f : ι → α, ∀ᶠ i in l, p i (f i) :=
  ⟨fun i => Classical.epsilon (p i), h.mono fun _ hi => Classical.epsilon_spec hi⟩

/-- Positions `P`, incoming trail vectors `T` and outgoing ones `r` of one round that saw positions which
differ by at most `delta` from those it arrived at. -/
structure NearlySettled (D : Diagram ℝ) (delta : ℝ) (P T r : Int → Vec ℝ) (Q : Int → Int → Vec ℝ) : Prop where
  self : ∀ n ∈ D.nodes.keys, Q n n = P n
  near : ∀ n ∈ D.nodes.keys, ∀ m ∈ D.nodes.keys, Vec.dist (Q n m) (P m) ≤ delta
  out : ∀ n ∈ D.nodes.keys, r n = outVec D true (Q n) (T n) n
  next : ∀ n ∈ D.nodes.keys, ∀ m, trailNext D n = some m →
    P m = P n + effectiveLength (edgeData D n m) (P n) (r n) • Vec.normalize (r n) ∧ T m = r n
  start : ∀ m ∈ D.nodes.keys, (∀ a, trailNext D a ≠ some m) → P m = posOf D m ∧ T m = 0

section
variable {V : Type} [NormedAddCommGroup V] [NormedSpace ℝ V] {k : WithTop ℕ∞} {t0 : V} {D : V → Diagram ℝ}
  {ι : Type} {l : Filter ι} {w : ι → ℝ} {t : ι → V}

theorem SmoothAt.tendsto {f : V → Vec ℝ} (h : SmoothAt k f t0) (ht : Tendsto t l (𝓝 t0)) :
    Tendsto (fun i => coords3 (f (t i))) l (𝓝 (coords3 (f t0))) :=
  h.coords.continuousAt.tendsto.comp ht

/-- The length of a trail edge of problems that move. -/
theorem close_length (hw : Vanishing l w) (ht : Tendsto t l (𝓝 t0)) (I : ValidInput (D t0))
    (S : SmoothFamily k D t0) {P0 r0 : Int → Vec ℝ} (hr : Firm (D t0) P0 r0) {a b : Int}
    (hab : trailNext (D t0) a = some b) {p r p' r' : ι → Vec ℝ} (hp : VClose l w p p' (P0 a))
    (hv : VClose l w r r' (r0 a)) :
    Close l w (fun i => effectiveLength (edgeData (D (t i)) a b) (p i) (r i))
      (fun i => effectiveLength (edgeData (D (t i)) a b) (p' i) (r' i))
      (effectiveLength (edgeData (D t0) a b) (P0 a) (r0 a)) := by
  have hb := adj_mem_neighbors (trailNext_adj I.wf I.trails hab)
  obtain ⟨e1, e2⟩ := edgeData_trail I.wf I.trails I.simple hab
  refine Close.trailLength hw (fun i => (edgeData_shape (S.same (t i)) a b).2) ?_ hp hv (hr.trail a b hab)
    fun o N => hr.plane a b o N hab
  simp only [(edgeData_numbers (S.same _) hb).1]
  exact (S.lengths _ _ e1 e2).continuousAt.tendsto.comp ht

/-- What is nearly settled stays close to what is settled. -/
theorem close_all (hw : Vanishing l w) (ht : Tendsto t l (𝓝 t0)) (I : ValidInput (D t0)) (hA : Acyclic (D t0))
    (S : SmoothFamily k D t0) {P T r P' T' r' : ι → Int → Vec ℝ} {P0 T0 r0 : Int → Vec ℝ}
    (h1 : ∀ᶠ i in l, ∃ Q, NearlySettled (D (t i)) (w i) (P i) (T i) (r i) Q)
    (h2 : ∀ᶠ i in l, Settled (D (t i)) (P' i) (T' i) (r' i))
    (h0 : Settled (D t0) P0 T0 r0) (hr : Firm (D t0) P0 r0) :
    ∀ n ∈ (D t0).nodes.keys, VClose l w (fun i => P i n) (fun i => P' i n) (P0 n) ∧
      VClose l w (fun i => r i n) (fun i => r' i n) (r0 n) := by
  have wf := I.wf
  have W := I.trails
  have : Nonempty (Int → Int → Vec ℝ) := ⟨fun _ _ => 0⟩
  obtain ⟨Q, hQ⟩ := pickEventually h1
  have hkeys : ∀ i n, n ∈ (D t0).nodes.keys → n ∈ (D (t i)).nodes.keys := fun i n hn => by
    rw [(S.same (t i)).nodeKeys]; exact hn
  have hdev : ∀ n ∈ (D t0).nodes.keys, ∀ s : List Int,
      (∀ m ∈ s, m ∈ (D t0).neighbors n ∧ (edgeData (D t0) n m).type = .deviation) →
      VClose l w (fun i => P i n) (fun i => P' i n) (P0 n) →
      (∀ m ∈ s, VClose l w (fun i => P i m) (fun i => P' i m) (P0 m)) →
      VClose l w (fun i => devSum (D (t i)) (Q i n) n s) (fun i => devSum (D (t i)) (P' i) n s)
        (devSum (D t0) P0 n s) := by
    intro n hn s hs hP hd
    unfold devSum
    refine VClose.list_sum hw s (a := fun m i => devTerm (D (t i)) (Q i n) n m)
      (b := fun m i => devTerm (D (t i)) (P' i) n m) (v := fun m => devTerm (D t0) P0 n m) fun m hm => ?_
    simp only [devTerm_real]
    obtain ⟨a1, a2⟩ := hs m hm
    have hf : Tendsto (fun i => (edgeData (D (t i)) n m).force) l (𝓝 (edgeData (D t0) n m).force) := by
      simp only [(edgeData_numbers (S.same _) a1).2]
      exact (S.forces _ _ (edgeKey_mem a1) a2).continuousAt.tendsto.comp ht
    refine VClose.dev hw (Close.refl hw hf) (hP.congr (hQ.mono fun i hi => hi.self n (hkeys i n hn))
      (Eventually.of_forall fun _ => rfl)) ((hd m hm).near (B := 1) (hQ.mono fun i hi => ?_)) (hr.apart n m a1 a2)
    rw [one_mul]
    exact hi.near n (hkeys i n hn) m (hkeys i m (mem_keys_of_nbr wf a1).1)
  have hout : ∀ n ∈ (D t0).nodes.keys, VClose l w (fun i => P i n) (fun i => P' i n) (P0 n) →
      VClose l w (fun i => T i n) (fun i => T' i n) (T0 n) →
      (∀ m ∈ (D t0).neighbors n, (edgeData (D t0) n m).type = .deviation →
        VClose l w (fun i => P i m) (fun i => P' i m) (P0 m)) →
      VClose l w (fun i => r i n) (fun i => r' i n) (r0 n) := by
    intro n hn hP hT hd
    have hf : ∀ m ∈ dirNbrs (D t0) n,
        m ∈ (D t0).neighbors n ∧ (edgeData (D t0) n m).type = .deviation := by
      intro m hm
      obtain ⟨h1, h2⟩ := List.mem_filter.1 hm
      simp only [decide_eq_true_eq] at h2
      exact ⟨h1, h2.1⟩
    have hg : ∀ m ∈ indNbrs (D t0) n,
        m ∈ (D t0).neighbors n ∧ (edgeData (D t0) n m).type = .deviation := by
      intro m hm
      obtain ⟨h1, h2⟩ := List.mem_filter.1 hm
      simp only [decide_eq_true_eq] at h2
      exact ⟨h1, h2.1⟩
    rw [h0.out n hn]
    refine (((hT.sub hw (VClose.refl hw (SmoothAt.tendsto (S.loads n hn) ht))).sub hw
      (hdev n hn _ hf hP fun m hm => hd m (hf m hm).1 (hf m hm).2)).sub hw
      (hdev n hn _ hg hP fun m hm => hd m (hg m hm).1 (hg m hm).2)).congr ?_ ?_
    · filter_upwards [hQ] with i hi
      rw [hi.out n (hkeys i n hn)]
      unfold outVec
      rw [if_pos rfl, dirNbrs_shape (S.same (t i)), indNbrs_shape (S.same (t i))]
      rfl
    · filter_upwards [h2] with i hi
      rw [hi.out n (hkeys i n hn), dirNbrs_shape (S.same (t i)), indNbrs_shape (S.same (t i))]
      rfl
  have hPT : ∀ (c : Nat) (n : Int), (needed (D t0) n).card = c → n ∈ (D t0).nodes.keys →
      VClose l w (fun i => P i n) (fun i => P' i n) (P0 n) ∧
      VClose l w (fun i => T i n) (fun i => T' i n) (T0 n) := by
    intro c
    induction c using Nat.strong_induction_on with
    | _ c ih =>
      intro n hc hn
      by_cases hex : ∃ a, trailNext (D t0) a = some n
      · obtain ⟨a, ha⟩ := hex
        have hf : Follows (D t0) a n := (trailNext_iff wf W).1 ha
        have hak := (Follows.mem W hf).1
        obtain ⟨pa, ta⟩ := ih _ (by rw [← hc]; exact needed_lt I hA ⟨a, hf, Or.inl rfl⟩) a rfl hak
        have ra := hout a hak pa ta fun m hm hty => by
          refine (ih _ (by
            rw [← hc]
            exact needed_lt I hA ⟨a, hf, Or.inr ⟨_, (edgeBetween_iff I.simple).2 ⟨hm, rfl⟩, hty⟩⟩)
            m rfl (mem_keys_of_nbr wf hm).1).1
        have hv := hr.trail a n ha
        obtain ⟨e1, e2⟩ := h0.next a hak n ha
        rw [normalize_eq_unit] at e1
        rw [e1, e2]
        have en : ∀ i, trailNext (D (t i)) a = some n := fun i => by
          rw [trailNext_shape (S.same (t i))]; exact ha
        refine ⟨(VClose.step hw (close_length hw ht I S hr ha pa ra) pa ra hv).congr
          (hQ.mono fun i hi => ?_) (h2.mono fun i hi => ?_),
          ra.congr (hQ.mono fun i hi => (hi.next a (hkeys i a hak) n (en i)).2)
            (h2.mono fun i hi => (hi.next a (hkeys i a hak) n (en i)).2)⟩
        · rw [← normalize_eq_unit]
          exact (hi.next a (hkeys i a hak) n (en i)).1
        · rw [← normalize_eq_unit]
          exact (hi.next a (hkeys i a hak) n (en i)).1
      · have hx : ∀ a, trailNext (D t0) a ≠ some n := fun a ha => hex ⟨a, ha⟩
        obtain ⟨tr, htr⟩ := head_of_no_prev wf W hn hx
        have en : ∀ i a, trailNext (D (t i)) a ≠ some n := fun i a => by
          rw [trailNext_shape (S.same (t i))]; exact hx a
        obtain ⟨e1, e2⟩ := h0.start n hn hx
        rw [e1, e2]
        exact ⟨(VClose.refl hw (SmoothAt.tendsto (S.origins n tr htr) ht)).congr
            (hQ.mono fun i hi => (hi.start n (hkeys i n hn) (en i)).1)
            (h2.mono fun i hi => (hi.start n (hkeys i n hn) (en i)).1),
          (VClose.const hw 0).congr (hQ.mono fun i hi => (hi.start n (hkeys i n hn) (en i)).2)
            (h2.mono fun i hi => (hi.start n (hkeys i n hn) (en i)).2)⟩
  exact fun n hn => ⟨(hPT _ n rfl hn).1, hout n hn (hPT _ n rfl hn).1 (hPT _ n rfl hn).2 fun m hm _ =>
    (hPT _ m rfl (mem_keys_of_nbr wf hm).1).1⟩

end

/-- A form computed by rounds of which the last one saw positions that differ by at most `delta` from those it
arrived at. -/
structure NearForm (D F : Diagram ℝ) (delta : ℝ) (s : EqState ℝ) (r : Int → Vec ℝ) : Prop where
  form : F = formOf D s
  final : ∃ ind p Q, FinalSpec D none ind p s r Q
  settled : ∃ Q, NearlySettled D delta s.pos s.res r Q

theorem nearForm_of_final {D : Diagram ℝ} (I : ValidInput D) {p s : EqState ℝ} {r : Int → Vec ℝ}
    {Q : Int → Int → Vec ℝ} (S : FinalSpec D none true p s r Q) {delta : ℝ}
    (hd : ∀ m ∈ D.nodes.keys, Vec.dist (p.pos m) (s.pos m) ≤ delta) : NearForm D (formOf D s) delta s r := by
  have w := I.wf
  have hnx : ∀ a, nxtK D none a = trailNext D a := nxtK_none w I.trails
  refine ⟨rfl, ⟨true, p, Q, S⟩, Q, ⟨fun n hn => S.seen n hn n le_rfl, fun n hn m hm => ?_, S.out,
    fun n hn m hm => ?_, fun m hm hx => ?_⟩⟩
  · rcases S.seen_any n hn m with e | e
    · rw [e]; exact hd m hm
    · rw [e]
      refine le_trans (le_of_eq ?_) ((dist_nonneg _ _).trans (hd m hm))
      unfold Vec.dist; rw [sub_self, Vec.length_zero]
  · obtain ⟨h1, h2, _⟩ := S.next n hn m (by rw [hnx]; exact hm)
    exact ⟨h1, h2⟩
  · obtain ⟨h1, h2⟩ := S.start m fun a _ => by rw [hnx]; exact hx a
    exact ⟨by rw [h1, start_position], by rw [h2, start_zero I hm]⟩

/-- The force of the edge between two consecutive nodes of a trail. -/
theorem final_force {D : Diagram ℝ} (I : ValidInput D) {ind : Bool} {p s : EqState ℝ} {r : Int → Vec ℝ}
    {Q : Int → Int → Vec ℝ} (G : FinalSpec D none ind p s r Q) {a b : Int} (hn : trailNext D a = some b) :
    forceAt (formOf D s) (edgeKey D a b) =
      copysign (Vec.length (r a)) (effectiveLength (edgeData D a b) (s.pos a) (r a)) := by
  obtain ⟨e1, e2⟩ := edgeData_trail I.wf I.trails I.simple hn
  obtain ⟨d, hd⟩ := (Dict.exists_get?_iff (formOf D s).edges (edgeKey D a b)).2 (by
    rw [show (formOf D s).edges.keys = D.edges.keys from formEdges_keys _ _]
    exact Dict.mem_keys_of_get? e1)
  obtain ⟨key, tr, htr, hc⟩ := (trailNext_iff I.wf I.trails).1 hn
  obtain ⟨_, f2, f3⟩ := trail_form I G htr hc (edgeKey_ends D a b) e1 hd
  rw [posOf_form I.wf G] at f2
  unfold forceAt
  rw [hd]
  exact f2

/-- The force of a deviation edge. -/
theorem final_deviation {D : Diagram ℝ} (I : ValidInput D) {ind : Bool} {p s : EqState ℝ} {r : Int → Vec ℝ}
    {Q : Int → Int → Vec ℝ} (G : FinalSpec D none ind p s r Q) {e : Int × Int} {d : EdgeData ℝ}
    (hd : D.edges.get? e = some d) (ht : d.type = .deviation) : forceAt (formOf D s) e = forceAt D e := by
  obtain ⟨d', h2, _, _, h3⟩ := (computed_keeps_data I ⟨_, _, _, _, _, rfl, G⟩).2.2.2 e d hd
  unfold forceAt
  rw [h2, hd]
  exact h3 ht

/-- Forms that stay close on the way to a common limit. -/
structure CloseForm {ι : Type} (l : Filter ι) (w : ι → ℝ) (D : Diagram ℝ) (F G : ι → Diagram ℝ)
    (H : Diagram ℝ) : Prop where
  positions : ∀ n ∈ D.nodes.keys, VClose l w (fun i => posOf (F i) n) (fun i => posOf (G i) n) (posOf H n)
  reactions : ∀ n ∈ D.nodes.keys,
    VClose l w (fun i => reactionAt (F i) n) (fun i => reactionAt (G i) n) (reactionAt H n)
  forces : ∀ e ∈ D.edges.keys, Close l w (fun i => forceAt (F i) e) (fun i => forceAt (G i) e) (forceAt H e)

section
variable {V : Type} [NormedAddCommGroup V] [NormedSpace ℝ V] {k : WithTop ℕ∞} {t0 : V} {D : V → Diagram ℝ}
  {ι : Type} {l : Filter ι} {w : ι → ℝ} {t : ι → V}

/-- Forms that one more round nearly reproduces stay close to those that are reproduced. -/
theorem close_form (hw : Vanishing l w) (ht : Tendsto t l (𝓝 t0)) (I : ValidInput (D t0))
    (hl : NonzeroTrails (D t0)) (hA : Acyclic (D t0)) (S : SmoothFamily k D t0) {F G : ι → Diagram ℝ}
    {H : Diagram ℝ} (hF : ∀ᶠ i in l, ∃ q : EqState ℝ × (Int → Vec ℝ), NearForm (D (t i)) (F i) (w i) q.1 q.2)
    (hG : ∀ᶠ i in l, ∃ q : EqState ℝ × (Int → Vec ℝ), SettledForm (D (t i)) (G i) q.1 q.2)
    (hH : ∃ q : EqState ℝ × (Int → Vec ℝ), SettledForm (D t0) H q.1 q.2)
    (hf : TrailsCarry H) (hX : Distinct (D t0) H) : CloseForm l w (D t0) F G H := by
  have wf := I.wf
  have J : ∀ i, ValidInput (D (t i)) := fun i => validInput_same (S.same (t i)) I
  have : Nonempty (EqState ℝ × (Int → Vec ℝ)) := ⟨(initState (D t0), fun _ => 0)⟩
  obtain ⟨q, hq⟩ := pickEventually hF
  obtain ⟨q', hq'⟩ := pickEventually hG
  obtain ⟨⟨s0, r0⟩, h0⟩ := hH
  have R := regular_of I hl h0 hf hX
  have M := close_all hw ht I hA S (P := fun i => (q i).1.pos) (T := fun i => (q i).1.res) (r := fun i => (q i).2)
    (P' := fun i => (q' i).1.pos) (T' := fun i => (q' i).1.res) (r' := fun i => (q' i).2)
    (hq.mono fun i hi => hi.settled) (hq'.mono fun i hi => hi.settled) h0.settled R
  have c1 : ∀ᶠ i in l, F i = formOf (D (t i)) (q i).1 ∧
      ∃ ind p Q, FinalSpec (D (t i)) none ind p (q i).1 (q i).2 Q := hq.mono fun i hi => ⟨hi.form, hi.final⟩
  have c2 : ∀ᶠ i in l, G i = formOf (D (t i)) (q' i).1 ∧
      ∃ ind p Q, FinalSpec (D (t i)) none ind p (q' i).1 (q' i).2 Q := hq'.mono fun i hi => ⟨hi.form, hi.final⟩
  have hkeys : ∀ i n, n ∈ (D t0).nodes.keys → n ∈ (D (t i)).nodes.keys := fun i n hn => by
    rw [(S.same (t i)).nodeKeys]; exact hn
  obtain ⟨rfl, ⟨ind, p, Q, K⟩, -⟩ := h0
  have pos : ∀ {E : ι → Diagram ℝ} {z : ι → EqState ℝ × (Int → Vec ℝ)}, (∀ᶠ i in l, E i = formOf (D (t i)) (z i).1 ∧
      ∃ ind p Q, FinalSpec (D (t i)) none ind p (z i).1 (z i).2 Q) → ∀ n, ∀ᶠ i in l,
        posOf (E i) n = (z i).1.pos n := by
    intro E z h n
    refine h.mono fun i hi => ?_
    obtain ⟨e, _, _, _, K'⟩ := hi
    rw [e, posOf_form (J i).wf K']
  have rea : ∀ {E : ι → Diagram ℝ} {z : ι → EqState ℝ × (Int → Vec ℝ)}, (∀ᶠ i in l, E i = formOf (D (t i)) (z i).1 ∧
      ∃ ind p Q, FinalSpec (D (t i)) none ind p (z i).1 (z i).2 Q) → ∀ n ∈ (D t0).nodes.keys, ∀ᶠ i in l,
        reactionAt (E i) n = if trailNext (D t0) n = none then (z i).2 n else 0 := by
    intro E z h n hn
    refine h.mono fun i hi => ?_
    obtain ⟨e, _, _, _, K'⟩ := hi
    rw [e, reactionAt_form (J i).wf K' (J i).reaction (hkeys i n hn), nxtK_none (J i).wf (J i).trails,
      trailNext_shape (S.same (t i))]
  refine ⟨fun n hn => ?_, fun n hn => ?_, fun e he => ?_⟩
  · rw [posOf_form wf K]
    exact (M n hn).1.congr (pos c1 n) (pos c2 n)
  · rw [reactionAt_form wf K I.reaction hn, nxtK_none wf I.trails]
    refine VClose.congr ?_ (rea c1 n hn) (rea c2 n hn)
    split_ifs
    · exact (M n hn).2
    · exact VClose.const hw 0
  · obtain ⟨d, hd⟩ := (Dict.exists_get?_iff _ _).2 he
    cases hty : d.type with
    | untyped => exact absurd hty (I.typed _ _ hd)
    | trail =>
      obtain ⟨a, b, hn, rfl⟩ := trail_ends I hd hty
      have ha := (Follows.mem I.trails ((trailNext_iff wf I.trails).1 hn)).1
      obtain ⟨e1, e2⟩ := edgeData_trail wf I.trails I.simple hn
      have fo : ∀ {E : ι → Diagram ℝ} {z : ι → EqState ℝ × (Int → Vec ℝ)}, (∀ᶠ i in l, E i = formOf (D (t i)) (z i).1 ∧
          ∃ ind p Q, FinalSpec (D (t i)) none ind p (z i).1 (z i).2 Q) → ∀ᶠ i in l,
          forceAt (E i) (edgeKey (D t0) a b) = copysign (Vec.length ((z i).2 a))
            (effectiveLength (edgeData (D (t i)) a b) ((z i).1.pos a) ((z i).2 a)) := by
        intro E z h
        refine h.mono fun i hi => ?_
        obtain ⟨e, _, _, _, K'⟩ := hi
        rw [e, ← edgeKey_same (S.same (t i)), final_force (J i) K' (by rw [trailNext_shape (S.same (t i))]; exact hn)]
      rw [final_force I K hn]
      have hv := R.trail a b hn
      exact (Close.trailForce hw (close_length hw ht I S R hn (M a ha).1 (M a ha).2) (M a ha).2 hv
        (effectiveLength_ne_zero (hl _ _ e1 e2) _ _)).congr (fo c1) (fo c2)
    | deviation =>
      have fo : ∀ {E : ι → Diagram ℝ} {z : ι → EqState ℝ × (Int → Vec ℝ)}, (∀ᶠ i in l, E i = formOf (D (t i)) (z i).1 ∧
          ∃ ind p Q, FinalSpec (D (t i)) none ind p (z i).1 (z i).2 Q) → ∀ᶠ i in l,
          forceAt (E i) e = forceAt (D (t i)) e := by
        intro E z h
        refine h.mono fun i hi => ?_
        obtain ⟨e', _, _, _, K'⟩ := hi
        obtain ⟨d1, h1⟩ := (Dict.exists_get?_iff (D (t i)).edges e).2 (by rw [(S.same (t i)).edgeKeys]; exact he)
        rw [e', final_deviation (J i) K' h1 (by rw [((S.same (t i)).edge e d d1 hd h1).1]; exact hty)]
      rw [final_deviation I K hd hty]
      exact (Close.refl hw ((S.forces e d hd hty).continuousAt.tendsto.comp ht)).congr (fo c1) (fo c2)

end

/-! ## The state of the numpy solver -/

theorem flNpEquilibriumState_exact (D : Diagram ℝ) (tmax : Nat) (eta : ℝ) (verbose : Bool) :
    flNpEquilibriumState Arith.exact List.sum D tmax eta verbose = npEquilibriumState D tmax eta verbose := by
  unfold flNpEquilibriumState npEquilibriumState
  simp only [flNpLoop_exact]
  rfl

/-- The state that the numpy solver returns has the numbers of a form that one more round nearly reproduces, if
the ends of deviation edges are further apart than the threshold and there is no division by zero. -/
theorem np_nearly {D : Diagram ℝ} (I : ValidInput D) (hA : Acyclic D) {tmax : Nat} (ht : D.nodes.length < tmax)
    {eta : ℝ} (he : 0 ≤ eta) (verbose : Bool) :
    ∃ z s r, npEquilibriumState D tmax eta verbose = .ok z ∧ NearForm D (formOf D s) eta s r ∧
      ((∀ n b, b ∈ D.neighbors n → (edgeData D n b).type = .deviation →
          eta < Vec.dist (posOf (formOf D s) b) (posOf (formOf D s) n)) →
        Nondegenerate (formOf D s) → StateOf D (formOf D s) z) := by
  have w := I.wf
  have V := I.trails
  have H := precise_exact
  have hu : (0 : ℝ) ≤ 1 / 100 := by norm_num
  have hz := zeroAdds_exact
  obtain ⟨St, hb⟩ := staged_of_acyclic I hA
  have hpos := nodes_pos I
  have hN : ∀ n ∈ D.nodes.keys, (needed D n).card ≤ D.nodes.length - 1 := fun n hn => by have := hb n hn; omega
  obtain ⟨T, M, hT, hM, hg, hlt⟩ := goodSeqs_of_valid w V I.nonempty
  have Gs := goodSched w V hg none hlt
  have B := NBelow.iter H hu hz Gs
  have gk : ∀ j, (flIter Arith.exact D none (sched D T M) j).xyz.keys = D.nodes.keys :=
    fun j => (fl_goodState_iter w V none _ j).1
  have X := fl_rounds_iter (A := Arith.exact) I Gs
  obtain ⟨m, hm2, hmt, _, hl, heq⟩ := (flNpEquilibriumState_cases (A := Arith.exact) (total := List.sum) I hT hM hg
    tmax eta verbose).2.2 (by omega)
  have hgt : ¬ (flNDist Arith.exact List.sum D (sched D T M) m).gt eta = true := by
    intro hgt
    obtain ⟨G, hG⟩ := (C77_staged H hu hz totals_exact I St hN (tmax := tmax) (by omega) verbose).1 eta he
    unfold flStaticEquilibriumNumpy at hG
    rw [heq, if_pos hgt] at hG
    simp at hG
  rw [if_neg hgt, flNpEquilibriumState_exact] at heq
  obtain ⟨k, rfl⟩ : ∃ k, m = k + 2 := ⟨m - 2, by omega⟩
  have S := finalSpec_sched w V Gs (k + 1)
  have htrue : decide (k + 1 ≠ 0) = true := by simp
  rw [htrue] at S
  have hnan : (∃ n, (flNIter Arith.exact D (sched D T M) (k + 1)).xyz.get? n = some none ∨
      (flNIter Arith.exact D (sched D T M) (k + 2)).xyz.get? n = some none) → k + 2 = tmax := by
    rintro ⟨n, hn⟩
    have hnk : n ∈ (flNIter Arith.exact D (sched D T M) (k + 2)).xyz.keys := by
      rcases hn with hn | hn
      · rw [(B (k + 2)).xyz.keys, gk, ← gk (k + 1), ← (B (k + 1)).xyz.keys]
        exact Dict.mem_keys_of_get? hn
      · exact Dict.mem_keys_of_get? hn
    have hd : flNDist Arith.exact List.sum D (sched D T M) (k + 2) = none := by
      unfold flNDist flNpDistance
      rw [show k + 2 - 1 = k + 1 from rfl, flNpSquares_nan hnk hn.symm]
      rfl
    rw [hd] at hl
    rcases hl with hl | hl
    · simp [Num.lt] at hl
    · exact hl
  have hdist : ∀ n ∈ D.nodes.keys, Vec.dist ((iter D none (sched D T M) (k + 1)).pos n)
      ((iter D none (sched D T M) (k + 2)).pos n) ≤ eta := by
    rw [← flIter_exact I hg, ← flIter_exact I hg]
    by_cases hc : ∃ n, (flNIter Arith.exact D (sched D T M) (k + 1)).xyz.get? n = some none ∨
        (flNIter Arith.exact D (sched D T M) (k + 2)).xyz.get? n = some none
    · have := hnan hc
      intro n hn
      have h := hN n hn
      have := (FlRounds.agree I St X X n hn k (k + 1) (by omega) (by omega)).1
      refine le_trans (le_of_eq ?_) he
      unfold Vec.dist
      rw [this, sub_self, Vec.length_zero]
    · push Not at hc
      have e1 : ∀ j, (∀ n, (flNIter Arith.exact D (sched D T M) j).xyz.get? n ≠ some none) →
          (flNIter Arith.exact D (sched D T M) j).xyz = mapVal some (flIter Arith.exact D none (sched D T M) j).xyz :=
        fun j h => (B j).xyz.eq_lift (by rw [gk]; exact w.nodesNodup) h
      have hdef : flNDist Arith.exact List.sum D (sched D T M) (k + 2) =
          flNpDistance Arith.exact List.sum (mapVal some (flIter Arith.exact D none (sched D T M) (k + 1)).xyz)
            (mapVal some (flIter Arith.exact D none (sched D T M) (k + 2)).xyz) := by
        unfold flNDist
        rw [e1 (k + 2) fun n => (hc n).2, show k + 2 - 1 = k + 1 from rfl, e1 (k + 1) fun n => (hc n).1]
      obtain ⟨d, hd⟩ : ∃ d, flNDist Arith.exact List.sum D (sched D T M) (k + 2) = some d := by
        rw [hdef]
        unfold flNpDistance
        rw [flNpSquares_lift _ _ fun q hq => by rw [gk, ← gk (k + 2)]; exact Dict.mem_keys_of_mem hq]
        exact ⟨_, rfl⟩
      rw [hd] at hgt
      simp only [Num.gt, decide_eq_true_eq, not_lt] at hgt
      rw [hdef] at hd
      have hlen : (flIter Arith.exact D none (sched D T M) (k + 2)).xyz.length = D.nodes.length := by
        have h1 : (flIter Arith.exact D none (sched D T M) (k + 2)).xyz.keys.length = D.nodes.keys.length := by
          rw [gk]
        simpa [Dict.keys] using h1
      intro n hn
      have := flNp_dist_le H hu totals_exact hlen (by rw [gk, gk]) hd hgt (n := n) (by rw [gk]; exact hn)
      simpa using this
  refine ⟨_, _, _, heq, nearForm_of_final I S hdist, fun ha hn => ?_⟩
  have hnn : NoNaN (flNIter Arith.exact D (sched D T M) (k + 2)) := by
    by_cases hc : ∃ n, (flNIter Arith.exact D (sched D T M) (k + 1)).xyz.get? n = some none ∨
        (flNIter Arith.exact D (sched D T M) (k + 2)).xyz.get? n = some none
    · have := hnan hc
      refine (flN_noNaN_iff H hu hz I St hN Gs (i := k + 1) (by omega)).2
        ((nondegenerate_iff H hu I (fl_finalSpec_sched (A := Arith.exact) w V Gs (k + 1))).1 ?_)
      rw [flIter_exact I hg]
      exact hn
    · push Not at hc
      refine flN_noNaN_of H hu hz I Gs ((flN_pos_ne (L := sched D T M) I _).1 fun n => (hc n).1)
        ((flN_pos_ne (L := sched D T M) I _).1 fun n => (hc n).2) fun n hn b hb hty => ?_
      have SF := fl_finalSpec_sched (A := Arith.exact) w V Gs (k + 1)
      have far := ha n b hb hty
      rw [posOf_form w S, posOf_form w S] at far
      have hd := hdist b (mem_keys_of_nbr w hb).1
      rw [SF.seen n hn n le_rfl]
      rcases SF.seen_any n hn b with e | e <;> rw [e] <;> simp only [flIter_exact I hg] <;> intro h
      · rw [h] at hd
        unfold Vec.dist at hd far
        rw [Vec.length_sub_comm] at hd
        linarith
      · rw [h] at far
        unfold Vec.dist at far
        rw [sub_self, Vec.length_zero] at far
        linarith
  have e := flNIter_eq H hu hz I Gs hnn
  rw [flIter_exact I hg] at e
  rw [e]
  exact stateOf_iter I Gs (k + 1) rfl rfl rfl

/-! ## Penalties -/

/-- The nodes and the edge a constraint speaks of. -/
def spots : Constraint ℝ → Int × Int × (Int × Int)
  | .point n _ _ | .plane n _ _ | .line n _ _ | .polyline n _ _ | .reaction n _ _ => (n, n + 1, 0, 0)
  | .trailForce e _ _ => (0, 1, e)
  | .length e _ _ | .direction e _ _ => (e.1, e.2, 0, 0)

/-- The numbers of a form that the penalty of a constraint is computed from. -/
noncomputable def reading (F : Diagram ℝ) : Constraint ℝ → (ℝ × ℝ × ℝ) × (ℝ × ℝ × ℝ) × (ℝ × ℝ × ℝ) × ℝ
  | .point n _ _ | .plane n _ _ | .line n _ _ | .polyline n _ _ => (coords3 (posOf F n), 0, 0, 0)
  | .reaction n _ _ => (0, 0, coords3 (reactionAt F n), 0)
  | .trailForce e _ _ => (0, 0, 0, forceAt F e)
  | .length e _ _ | .direction e _ _ => (coords3 (posOf F e.1), coords3 (posOf F e.2), 0, 0)

/-- A form with nothing but these numbers. -/
noncomputable def probe (c : Constraint ℝ) (z : (ℝ × ℝ × ℝ) × (ℝ × ℝ × ℝ) × (ℝ × ℝ × ℝ) × ℝ) : Diagram ℝ where
  nodes := [((spots c).1, ⟨ofCoords z.1, 0, ofCoords z.2.2.1, some 0, .support⟩),
    ((spots c).2.1, ⟨ofCoords z.2.1, 0, 0, some 0, .support⟩)]
  edges := [((spots c).2.2, ⟨.trail, 0, z.2.2.2, none⟩)]
  maxNode := 0
  gkeyNode := []
  trails := []
  auxTrails := []
  auxLength := 1
  auxVector := 0

theorem probe_reads (c : Constraint ℝ) (z : (ℝ × ℝ × ℝ) × (ℝ × ℝ × ℝ) × (ℝ × ℝ × ℝ) × ℝ) :
    posOf (probe c z) (spots c).1 = ofCoords z.1 ∧
    reactionAt (probe c z) (spots c).1 = ofCoords z.2.2.1 ∧
    ((spots c).1 ≠ (spots c).2.1 → posOf (probe c z) (spots c).2.1 = ofCoords z.2.1 ∧
      reactionAt (probe c z) (spots c).2.1 = 0) ∧
    forceAt (probe c z) (spots c).2.2 = z.2.2.2 ∧ lengthAt (probe c z) (spots c).2.2 = 0 := by
  refine ⟨?_, ?_, fun h => ⟨?_, ?_⟩, ?_, ?_⟩ <;>
  simp_all [probe, posOf, reactionAt, forceAt, lengthAt, Dict.get?]

theorem smooth_probe {k : WithTop ℕ∞} (c : Constraint ℝ) (h : (spots c).1 ≠ (spots c).2.1)
    (z : (ℝ × ℝ × ℝ) × (ℝ × ℝ × ℝ) × (ℝ × ℝ × ℝ) × ℝ) : SmoothForm k (probe c z) (probe c) z := by
  have R := probe_reads c
  refine ⟨fun n hn => ?_, fun n hn => ?_, fun e he => ?_, fun e he _ => ?_⟩
  · simp only [probe, Dict.keys, List.map_cons, List.map_nil, List.mem_cons, List.not_mem_nil, or_false] at hn
    rcases hn with rfl | rfl
    · simp only [(R _).1]
      exact smooth_ofCoords contDiffAt_fst
    · simp only [((R _).2.2.1 h).1]
      exact smooth_ofCoords contDiffAt_snd.fst
  · simp only [probe, Dict.keys, List.map_cons, List.map_nil, List.mem_cons, List.not_mem_nil, or_false] at hn
    rcases hn with rfl | rfl
    · simp only [(R _).2.1]
      exact smooth_ofCoords contDiffAt_snd.snd.fst
    · simp only [((R _).2.2.1 h).2]
      exact SmoothAt.const 0
  · simp only [probe, Dict.keys, List.map_cons, List.map_nil, List.mem_cons, List.not_mem_nil, or_false] at he
    subst he
    simp only [(R _).2.2.2.1]
    exact contDiffAt_snd.snd.snd
  · simp only [probe, Dict.keys, List.map_cons, List.map_nil, List.mem_cons, List.not_mem_nil, or_false] at he
    subst he
    simp only [(R _).2.2.2.2]
    exact contDiffAt_const

theorem posed_probe (c : Constraint ℝ) (z : (ℝ × ℝ × ℝ) × (ℝ × ℝ × ℝ) × (ℝ × ℝ × ℝ) × ℝ) :
    Posed (probe c z) c := by
  cases c <;> simp [Posed, probe, spots, Dict.keys, typeOf, Dict.get?, IsTrail]

theorem penalty_probe {c : Constraint ℝ} (h : (spots c).1 ≠ (spots c).2.1) (F : Diagram ℝ) :
    formPenalty (probe c (reading F c)) c = formPenalty F c ∧
    ∀ k, Clear k (probe c (reading F c)) c ↔ Clear k F c := by
  obtain ⟨r1, r2, r3, r4, _⟩ := probe_reads c (reading F c)
  have r3 := (r3 h).1
  cases c <;> simp only [spots, reading] at r1 r2 r3 r4 ⊢ <;>
    simp only [formPenalty, Clear, r1, r2, r3, r4, ofCoords_coords3] <;> simp

theorem spots_ne {k : WithTop ℕ∞} {F : Diagram ℝ} {c : Constraint ℝ} (h : Clear k F c) :
    (spots c).1 ≠ (spots c).2.1 := by
  cases c <;> simp only [spots] <;> try (intro he; omega)
  · intro he; exact h (by rw [he])
  · intro he; exact h.1 (by rw [he])

section
variable {ι : Type} {l : Filter ι} {w : ι → ℝ}

/-- The penalties of forms that stay close. -/
theorem close_penalty (hw : Vanishing l w) {D : Diagram ℝ} {F G : ι → Diagram ℝ} {H : Diagram ℝ}
    (C : CloseForm l w D F G H) {c : Constraint ℝ} (hp : Posed D c) (hc : Clear 1 H c) :
    Close l w (fun i => formPenalty (F i) c) (fun i => formPenalty (G i) c) (formPenalty H c) ∧
      ∀ᶠ i in l, Clear 0 (F i) c := by
  have hs := spots_ne hc
  have hz : Close l w (fun i => reading (F i) c) (fun i => reading (G i) c) (reading H c) := by
    have zero : Close l w (fun _ => (0 : ℝ × ℝ × ℝ)) (fun _ => 0) 0 := Close.const hw 0
    cases c with
    | point n a b => exact (C.positions n hp).prodMk hw (zero.prodMk hw (zero.prodMk hw (Close.const hw 0)))
    | plane n a b => exact (C.positions n hp).prodMk hw (zero.prodMk hw (zero.prodMk hw (Close.const hw 0)))
    | line n a b => exact (C.positions n hp).prodMk hw (zero.prodMk hw (zero.prodMk hw (Close.const hw 0)))
    | polyline n a b => exact (C.positions n hp).prodMk hw (zero.prodMk hw (zero.prodMk hw (Close.const hw 0)))
    | trailForce e a b =>
      obtain ⟨d, hd, _⟩ := hp
      exact zero.prodMk hw (zero.prodMk hw (zero.prodMk hw (C.forces e (Dict.mem_keys_of_get? hd))))
    | reaction n a b =>
      exact zero.prodMk hw (zero.prodMk hw
        (Close.prodMk hw (C.reactions n (mem_of_typeOf hp)) (Close.const hw 0)))
    | length e a b =>
      exact (C.positions e.1 hp.1).prodMk hw (Close.prodMk hw (C.positions e.2 hp.2)
        (zero.prodMk hw (Close.const hw 0)))
    | direction e a b =>
      exact (C.positions e.1 hp.1).prodMk hw (Close.prodMk hw (C.positions e.2 hp.2)
        (zero.prodMk hw (Close.const hw 0)))
  obtain ⟨h1, h2⟩ := smooth_penalty (smooth_probe (k := 1) c hs (reading H c)).numbers (posed_probe c _)
    (fun m hm => mem_of_typeOf hm) (((penalty_probe hs H).2 1).2 hc)
  refine ⟨?_, ((hz.left hw).eventually h2).mono fun i hi => ((penalty_probe hs (F i)).2 0).1 hi⟩
  have := Close.map hw hz h1
  simp only [(penalty_probe hs _).1] at this
  exact this

/-- Nothing coincides in forms close to one in which nothing does. -/
theorem close_proper (hw : Vanishing l w) {D : Diagram ℝ} (I : ValidInput D) {F G : ι → Diagram ℝ} {H : Diagram ℝ}
    (C : CloseForm l w D F G H) (hF : ∀ᶠ i in l, ∀ e d, (F i).edges.get? e = some d →
      ∃ d', D.edges.get? e = some d' ∧ d'.type = d.type)
    (hH : ∀ e d, D.edges.get? e = some d → ∃ d', H.edges.get? e = some d' ∧ d'.type = d.type)
    (hf : TrailsCarry H) (hX : Distinct D H) : ∀ᶠ i in l, Nondegenerate (F i) ∧
      ∀ n b, b ∈ D.neighbors n → (edgeData D n b).type = .deviation →
        w i < Vec.dist (posOf (F i) b) (posOf (F i) n) := by
  have wf := I.wf
  have h1 : ∀ᶠ i in l, ∀ e ∈ D.edges.keys.toFinset,
      ((∃ d, D.edges.get? e = some d ∧ d.type = .deviation) →
        w i < Vec.dist (posOf (F i) e.1) (posOf (F i) e.2)) ∧
      ((∃ d, D.edges.get? e = some d ∧ d.type = .trail) → forceAt (F i) e ≠ 0) := by
    rw [eventually_all_finset]
    intro e he
    have hm := List.mem_toFinset.1 he
    refine Eventually.and ?_ ?_
    · by_cases h : ∃ d, D.edges.get? e = some d ∧ d.type = .deviation
      · obtain ⟨d, hd, ht⟩ := h
        have h2 := (((C.positions _ (wf.edge_left e hm)).sub hw (C.positions _ (wf.edge_right e hm))).left hw).norm
        have hne : coords3 (posOf H e.1 - posOf H e.2) ≠ 0 := by
          intro h0
          refine hX.apart e d hd ht (sub_eq_zero.1 ?_)
          rw [← ofCoords_coords3 (posOf H e.1 - posOf H e.2), h0]
          rfl
        filter_upwards [hw.lim.eventually_lt h2 (norm_pos_iff.2 hne)] with i hi _
        exact hi.trans_le (coords3_norm_le _)
      · exact Eventually.of_forall fun t h' => absurd h' h
    · by_cases h : ∃ d, D.edges.get? e = some d ∧ d.type = .trail
      · obtain ⟨d, hd, ht⟩ := h
        obtain ⟨d', hd', ht'⟩ := hH e d hd
        have hne : forceAt H e ≠ 0 := by
          unfold forceAt
          rw [hd']
          exact hf e d' hd' (ht'.trans ht)
        exact (((C.forces e hm).left hw).eventually_ne hne).mono fun i hi _ => hi
      · exact Eventually.of_forall fun t h' => absurd h' h
  filter_upwards [h1, hw.nonneg, hF] with i h2 h0 hF
  have comm : ∀ a b : Vec ℝ, Vec.dist a b = Vec.dist b a := by
    intro a b; unfold Vec.dist; rw [Vec.length_sub_comm]
  refine ⟨⟨fun a b d hd ht heq => ?_, fun e d hd ht _ => ?_⟩, fun n b hb hty => ?_⟩
  · obtain ⟨d', hd', ht'⟩ := hF _ d hd
    have := (h2 (a, b) (List.mem_toFinset.2 (Dict.mem_keys_of_get? hd'))).1 ⟨d', hd', ht'.trans ht⟩
    simp only [heq] at this
    unfold Vec.dist at this
    rw [sub_self, Vec.length_zero] at this
    linarith
  · obtain ⟨d', hd', ht'⟩ := hF _ d hd
    have := (h2 e (List.mem_toFinset.2 (Dict.mem_keys_of_get? hd'))).2 ⟨d', hd', ht'.trans ht⟩
    unfold forceAt at this
    rw [hd] at this
    exact this
  · have hd := edgeKey_mem hb
    have := (h2 _ (List.mem_toFinset.2 (Dict.mem_keys_of_get? hd))).1 ⟨_, hd, hty⟩
    rcases edgeKey_ends D n b with e | e <;> simp only [e] at this
    · rw [comm]; exact this
    · exact this

end

/-! ## The objective -/

theorem clear_mono {k k' : WithTop ℕ∞} (hk : k' ≤ k) {F : Diagram ℝ} {c : Constraint ℝ} (h : Clear k F c) :
    Clear k' F c := by
  cases c <;> try exact h
  obtain ⟨m, h1, h2⟩ := h
  exact ⟨m, h1.of_le hk, h2⟩

section
variable {k : WithTop ℕ∞} {o : Optimizer ℝ} {h : List (RegOp (Param ℝ))} {D E F : Diagram ℝ} {n : Nat}
  {x0 : Fin n → ℝ} {tmax : Nat}

/-- C79. Near the values `x0`, and for small thresholds, form finding within an evaluation of the objective
returns, and the value differs from the one without threshold by at most a factor times the threshold. -/
theorem C79_objective (P : SmoothPoint k o h D E F x0 tmax 0) (hk : 1 ≤ k) (hA : Acyclic D)
    (ht : D.nodes.length < tmax) :
    ∃ f : (Fin n → ℝ) → ℝ, ContDiffAt ℝ k f x0 ∧
      (∀ᶠ x in 𝓝 x0, (o.optimizeForm tmax 0 D (List.ofFn x)).2 = .ok (some (f x))) ∧
      ∃ C, ∃ δ > 0, ∀ x, dist x x0 < δ → ∀ eta : ℝ, 0 ≤ eta → eta < δ →
        ∃ J, (o.optimizeForm tmax eta D (List.ofFn x)).2 = .ok (some J) ∧ |J - f x| ≤ C * eta := by
  obtain ⟨G, hG, hsm, hval⟩ := smooth_objective P
  refine ⟨_, hsm, hval, ?_⟩
  have h0 := P.history.nonneg
  have hok := P.written
  have S := smooth_written h0 hok k x0
  have hs : ∀ x : Fin n → ℝ, SameExcept (fun s => ∃ q ∈ o.parameters, q.2.slot = s) D
      (o.updateParameters D (List.ofFn x)).1 := fun x =>
    Optimizer.writeParameters_same (List.ofFn x) o.parameters D
  have J : ∀ x : Fin n → ℝ, ValidInput (o.updateParameters D (List.ofFn x)).1 := fun x =>
    validInput_same (hs x) P.valid
  have hlen : ∀ x : Fin n → ℝ, (o.updateParameters D (List.ofFn x)).1.nodes.length < tmax := fun x => by
    have := congrArg List.length (hs x).nodeKeys
    simp only [Dict.keys, List.length_map] at this
    omega
  have hE : (o.updateParameters D (List.ofFn x0)).1 = E :=
    Spec.Carries.unique P.valid.wf.nodesNodup P.valid.wf.edgesNodup (carries_of_write h0 (hok x0)) P.carries
  have hF : G x0 = F := by
    have := hG x0
    rw [hE, P.form] at this
    exact (Except.ok.inj this).symm
  have hpos := nodes_pos P.valid
  have hset : ∀ x, ∃ q : EqState ℝ × (Int → Vec ℝ), SettledForm (o.updateParameters D (List.ofFn x)).1 (G x) q.1 q.2 :=
    fun x => settled_zero (J x) (by omega) le_rfl (hG x)
  have hrun : ∀ p : (Fin n → ℝ) × ℝ, ∃ q : NState ℝ × EqState ℝ × (Int → Vec ℝ), 0 ≤ p.2 →
      npEquilibriumState (o.updateParameters D (List.ofFn p.1)).1 tmax p.2 false = .ok q.1 ∧
      NearForm (o.updateParameters D (List.ofFn p.1)).1
        (formOf (o.updateParameters D (List.ofFn p.1)).1 q.2.1) p.2 q.2.1 q.2.2 ∧
      ((∀ n b, b ∈ (o.updateParameters D (List.ofFn p.1)).1.neighbors n →
          (edgeData (o.updateParameters D (List.ofFn p.1)).1 n b).type = .deviation →
          p.2 < Vec.dist (posOf (formOf (o.updateParameters D (List.ofFn p.1)).1 q.2.1) b)
            (posOf (formOf (o.updateParameters D (List.ofFn p.1)).1 q.2.1) n)) →
        Nondegenerate (formOf (o.updateParameters D (List.ofFn p.1)).1 q.2.1) →
          StateOf (o.updateParameters D (List.ofFn p.1)).1
            (formOf (o.updateParameters D (List.ofFn p.1)).1 q.2.1) q.1) := by
    intro p
    by_cases hp : 0 ≤ p.2
    · obtain ⟨z, s, r, h1, h2, h3⟩ := np_nearly (J p.1) (acyclic_same (hs p.1) hA) (hlen p.1) hp false
      exact ⟨(z, s, r), fun _ => ⟨h1, h2, h3⟩⟩
    · exact ⟨(npInit D, initState D, fun _ => 0), fun h => absurd h hp⟩
  choose q hq using hrun
  let l : Filter ((Fin n → ℝ) × ℝ) := 𝓝 x0 ×ˢ 𝓝[≥] 0
  have hge : ∀ᶠ p : (Fin n → ℝ) × ℝ in l, 0 ≤ p.2 :=
    tendsto_snd.eventually self_mem_nhdsWithin
  have hw : Vanishing l (fun p => p.2) :=
    ⟨hge, (tendsto_nhdsWithin_iff.1 (tendsto_snd (f := 𝓝 x0) (g := 𝓝[≥] (0 : ℝ)))).1⟩
  have hX := P.distinct
  rw [← hE, ← hF] at hX
  have hc := P.carry
  rw [← hF] at hc
  have CF := close_form (D := fun x : Fin n → ℝ => (o.updateParameters D (List.ofFn x)).1) (t := Prod.fst) (l := l)
    (F := fun p => formOf (o.updateParameters D (List.ofFn p.1)).1 (q p).2.1) (G := fun p => G p.1) hw
    tendsto_fst (J x0) (by rw [hE]; exact P.nonzero) (acyclic_same (hs x0) hA) S
    (hge.mono fun p hp => ⟨(q p).2, (hq p hp).2.1⟩) (.of_forall fun p => hset p.1) (hset x0) hc hX
  have hprop := close_proper hw (J x0) CF (hge.mono fun p hp e d hd => by
      obtain ⟨_, ⟨ind, pp, Q, K⟩, -⟩ := (hq p hp).2.1
      obtain ⟨_, hk, _, hedges⟩ := computed_keeps_data (J p.1) ⟨_, _, _, _, _, rfl, K⟩
      obtain ⟨d', hd'⟩ := (Dict.exists_get?_iff (o.updateParameters D (List.ofFn p.1)).1.edges e).2
        (by rw [← hk]; exact Dict.mem_keys_of_get? hd)
      obtain ⟨d1, e1, e2, _⟩ := hedges e d' hd'
      rw [hd] at e1
      cases e1
      obtain ⟨d0, hd0, ht0⟩ := (edgeType_same (S.same p.1) e d'.type).1 ⟨d', hd', rfl⟩
      exact ⟨d0, hd0, by rw [ht0, e2]⟩) (fun e d hd => by
      obtain ⟨_, _, _, hedges⟩ := C25_keeps_data (J x0) (hG x0)
      obtain ⟨d', h1, h2, _⟩ := hedges e d hd
      exact ⟨d', h1, h2⟩) hc hX
  have hpen := fun c hc' => close_penalty hw CF (posed_same (hs x0) (P.posed c hc'))
    (clear_mono hk (by rw [hF]; exact P.clear c hc'))
  have hclear : ∀ᶠ p in l, ∀ c ∈ o.constraints.vals,
      Clear 0 (formOf (o.updateParameters D (List.ofFn p.1)).1 (q p).2.1) c := by
    have : ∀ cs : List (Constraint ℝ), (∀ c ∈ cs, ∀ᶠ p in l,
          Clear 0 (formOf (o.updateParameters D (List.ofFn p.1)).1 (q p).2.1) c) →
        ∀ᶠ p in l, ∀ c ∈ cs, Clear 0 (formOf (o.updateParameters D (List.ofFn p.1)).1 (q p).2.1) c := by
      intro cs
      induction cs with
      | nil => simp
      | cons c cs ih =>
        intro hl
        filter_upwards [hl c (by simp), ih fun c' hc' => hl c' (by simp [hc'])] with x a1 a2
        simpa using ⟨a1, a2⟩
    exact this _ fun c hc' => (hpen c hc').2
  obtain ⟨C, hC⟩ := (Close.list_sum hw o.constraints.vals
    (a := fun c p => formPenalty (formOf (o.updateParameters D (List.ofFn p.1)).1 (q p).2.1) c)
    (b := fun c p => formPenalty (G p.1) c) (v := fun c => formPenalty (G x0) c)
    fun c hc' => (hpen c hc').1).rate
  have hall : ∀ᶠ p in l, ∃ v, (o.optimizeForm tmax p.2 D (List.ofFn p.1)).2 = .ok (some v) ∧
      |v - (o.constraints.vals.map (formPenalty (G p.1))).sum| ≤ C * p.2 := by
    filter_upwards [hge, hprop, hclear, hC] with p a1 a2 a3 a4
    obtain ⟨b1, _, b2⟩ := hq p a1
    have b3 := b2 (fun m b hb hty => a2.2 m b
      (by rw [neighbors_same (S.same p.1)] at hb; exact hb)
      (by rw [(edgeData_shape (S.same p.1) m b).1] at hty; exact hty)) a2.1
    refine ⟨_, ?_, a4⟩
    unfold Optimizer.optimizeForm
    rcases hu : o.updateParameters D (List.ofFn p.1) with ⟨D', r⟩
    have hr := hok p.1
    rw [hu] at hr b1 b3
    simp only at hr b1 b3
    subst hr
    simp only [b1]
    have := penalties_form (k := 0) b3 (cs := o.constraints.vals) fun c hc' => ⟨?_, by
      have := a3 c hc'
      rw [hu] at this
      exact this⟩
    · exact this
    · have := posed_same (hs p.1) (P.posed c hc')
      rw [hu] at this
      exact this
  obtain ⟨U, hU, V, hV, hUV⟩ := Filter.eventually_prod_iff.1 hall
  obtain ⟨d1, hd1, h1⟩ := Metric.eventually_nhds_iff.1 hU
  obtain ⟨d2, hd2, h2⟩ := Metric.eventually_nhds_iff.1 (eventually_nhdsWithin_iff.1 hV)
  refine ⟨C, min d1 d2, lt_min hd1 hd2, fun x hx eta he0 he => ?_⟩
  refine hUV (h1 (hx.trans_le (min_le_left _ _))) (h2 ?_ he0)
  rw [Real.dist_eq, sub_zero, abs_of_nonneg he0]
  exact he.trans_le (min_le_right _ _)

/-- The error of finite differences of perturbed values. -/
theorem quotient_error {a b a' b' p d e C : ℝ} (hd : d ≠ 0) (h1 : |a' - a| ≤ C * e) (h2 : |b' - b| ≤ C * e) :
    |(a' - b') / d - p| ≤ |(a - b) / d - p| + 2 * C * (e / |d|) := by
  have hd' := abs_pos.2 hd
  have e1 : (a' - b') / d - p = ((a - b) / d - p) + ((a' - a) - (b' - b)) / d := by field_simp; ring
  rw [e1]
  refine (abs_add_le _ _).trans (add_le_add le_rfl ?_)
  rw [abs_div, mul_div_assoc', div_le_div_iff_of_pos_right hd']
  refine (abs_sub _ _).trans ?_
  linarith

/-- The finite difference gradient with a threshold. -/
theorem gradient_near (P : SmoothPoint k o h D E F x0 tmax 0) {f : (Fin n → ℝ) → ℝ} {C δ : ℝ} (hδ : 0 < δ)
    (H : ∀ x, dist x x0 < δ → ∀ eta : ℝ, 0 ≤ eta → eta < δ →
        ∃ J, (o.optimizeForm tmax eta D (List.ofFn x)).2 = .ok (some J) ∧ |J - f x| ≤ C * eta)
    {step eta : ℝ} (s0 : step ≠ 0) (s1 : |step| < δ) (e0 : 0 ≤ eta) (e1 : eta < δ) {E1 : Diagram ℝ}
    (hE1 : SameExcept (fun s => ∃ q ∈ o.parameters, q.2.slot = s) D E1) {grad : List (Num ℝ)}
    (hg : grad.length = n) : ∃ (E2 : Diagram ℝ) (g : Fin n → ℝ),
      gradFiniteDifferences (o.optimizeForm tmax eta) step E1 (List.ofFn x0) grad =
        ((E2, List.ofFn x0), .ok (List.ofFn fun i => some (g i))) ∧
      ∀ i, |g i - partialAt f x0 i| ≤
        |(f (x0 + step • Pi.single i 1) - f x0) / step - partialAt f x0 i| + 2 * C * (eta / |step|) := by
  classical
  have ex : ∀ x, ∃ J, dist x x0 < δ →
      (o.optimizeForm tmax eta D (List.ofFn x)).2 = .ok (some J) ∧ |J - f x| ≤ C * eta := by
    intro x
    by_cases hx : dist x x0 < δ
    · obtain ⟨J, hJ⟩ := H x hx eta e0 e1
      exact ⟨J, fun _ => hJ⟩
    · exact ⟨0, fun h => absurd h hx⟩
  choose J hJ using ex
  have h0 := hJ x0 (by rw [dist_self]; exact hδ)
  have hi : ∀ i : Fin n, dist (x0 + step • Pi.single i 1) x0 < δ := by
    intro i
    rw [dist_eq_norm, add_sub_cancel_left, norm_smul, Pi.norm_single, norm_one, mul_one, Real.norm_eq_abs]
    exact s1
  obtain ⟨E2, h2⟩ := quotients_of P.history.nonneg P.valid s0 h0.1 (fun i => (hJ _ (hi i)).1) hE1 hg
  exact ⟨E2, _, h2, fun i => quotient_error s0 (hJ _ (hi i)).2 h0.2⟩

/-- C79. With a positive threshold, the entries of the finite difference gradient come as close as one likes to the
partial derivatives of the objective without threshold, for all small enough steps and thresholds that are small
compared with the step. -/
theorem C79_gradient (P : SmoothPoint k o h D E F x0 tmax 0) (hk : 1 ≤ k) (hA : Acyclic D)
    (ht : D.nodes.length < tmax) :
    ∃ f : (Fin n → ℝ) → ℝ, ContDiffAt ℝ k f x0 ∧
      (∀ᶠ x in 𝓝 x0, (o.optimizeForm tmax 0 D (List.ofFn x)).2 = .ok (some (f x))) ∧
      ∀ ε > 0, ∃ δ > 0, ∀ step eta : ℝ, 0 < |step| → |step| < δ → 0 ≤ eta → eta ≤ δ * |step| →
        ∀ E1, SameExcept (fun s => ∃ q ∈ o.parameters, q.2.slot = s) D E1 →
        ∀ grad : List (Num ℝ), grad.length = n → ∃ (E2 : Diagram ℝ) (g : Fin n → ℝ),
          gradFiniteDifferences (o.optimizeForm tmax eta) step E1 (List.ofFn x0) grad =
            ((E2, List.ofFn x0), .ok (List.ofFn fun i => some (g i))) ∧
          ∀ i, |g i - partialAt f x0 i| ≤ ε := by
  obtain ⟨f, hf, hv, C, δ, hδ, H⟩ := C79_objective P hk hA ht
  refine ⟨f, hf, hv, fun ε hε => ?_⟩
  have hd : DifferentiableAt ℝ f x0 := hf.differentiableAt (by
    rintro rfl
    simp at hk)
  have h1 := fd_converges hd (half_pos hε)
  rw [eventually_nhdsWithin_iff, Metric.eventually_nhds_iff] at h1
  obtain ⟨d1, hd1, h1⟩ := h1
  have hc : 0 < ε / (4 * (|C| + 1)) := by positivity
  refine ⟨min (min δ 1) (min d1 (ε / (4 * (|C| + 1)))), by positivity, fun step eta s0 s1 e0 e1 E1 hE1 grad hg => ?_⟩
  set m := min (min δ 1) (min d1 (ε / (4 * (|C| + 1)))) with hm
  have m1 : m ≤ δ := (min_le_left _ _).trans (min_le_left _ _)
  have m2 : m ≤ 1 := (min_le_left _ _).trans (min_le_right _ _)
  have m3 : m ≤ d1 := (min_le_right _ _).trans (min_le_left _ _)
  have m4 : m ≤ ε / (4 * (|C| + 1)) := (min_le_right _ _).trans (min_le_right _ _)
  have m0 : 0 < m := s0.trans s1
  have he : eta < δ := by
    have := mul_lt_mul_of_pos_left (s1.trans_le m2) m0
    linarith
  obtain ⟨E2, J, hJ, hC⟩ := gradient_near P hδ H (abs_pos.1 s0) (s1.trans_le m1) e0 he hE1 hg
  refine ⟨E2, _, hJ, fun i => (hC i).trans ?_⟩
  have h2 := h1 (y := step) (by simpa [Real.dist_eq] using s1.trans_le m3) (abs_pos.1 s0) i
  have h3 : eta / |step| ≤ m := by rw [div_le_iff₀ s0]; exact e1
  have h4 : 0 ≤ eta / |step| := by positivity
  have h5 : 2 * C * (eta / |step|) ≤ 2 * (|C| + 1) * (ε / (4 * (|C| + 1))) := by
    have a1 : C ≤ |C| + 1 := (le_abs_self C).trans (by linarith)
    have a2 : 0 ≤ |C| + 1 := by positivity
    have a3 := mul_le_mul a1 (h3.trans m4) h4 a2
    linarith
  have h6 : 2 * (|C| + 1) * (ε / (4 * (|C| + 1))) = ε / 2 := by
    have : |C| + 1 ≠ 0 := by positivity
    field_simp
    ring
  linarith

/-- C79, order. If the objective without threshold is twice continuously differentiable, the error of the
gradient is at most proportional to the step plus the quotient of threshold and step. -/
theorem C79_order (P : SmoothPoint k o h D E F x0 tmax 0) (hk : 2 ≤ k) (hA : Acyclic D)
    (ht : D.nodes.length < tmax) :
    ∃ f : (Fin n → ℝ) → ℝ, ContDiffAt ℝ k f x0 ∧
      (∀ᶠ x in 𝓝 x0, (o.optimizeForm tmax 0 D (List.ofFn x)).2 = .ok (some (f x))) ∧
      ∃ C, ∃ δ > 0, ∀ step eta : ℝ, 0 < |step| → |step| < δ → 0 ≤ eta → eta < δ →
        ∀ E1, SameExcept (fun s => ∃ q ∈ o.parameters, q.2.slot = s) D E1 →
        ∀ grad : List (Num ℝ), grad.length = n → ∃ (E2 : Diagram ℝ) (g : Fin n → ℝ),
          gradFiniteDifferences (o.optimizeForm tmax eta) step E1 (List.ofFn x0) grad =
            ((E2, List.ofFn x0), .ok (List.ofFn fun i => some (g i))) ∧
          ∀ i, |g i - partialAt f x0 i| ≤ C * (|step| + eta / |step|) := by
  obtain ⟨f, hf, hv, C, δ, hδ, H⟩ := C79_objective P (le_trans (by norm_num) hk) hA ht
  obtain ⟨B, hB⟩ := fd_order (hf.of_le hk)
  rw [eventually_nhdsWithin_iff, Metric.eventually_nhds_iff] at hB
  obtain ⟨d1, hd1, h1⟩ := hB
  refine ⟨f, hf, hv, max B (2 * C), min δ d1, lt_min hδ hd1, fun step eta s0 s1 e0 e1 E1 hE1 grad hg => ?_⟩
  obtain ⟨E2, J, hJ, hC⟩ := gradient_near P hδ H (abs_pos.1 s0) (s1.trans_le (min_le_left _ _)) e0
    (e1.trans_le (min_le_left _ _)) hE1 hg
  refine ⟨E2, _, hJ, fun i => (hC i).trans ?_⟩
  have h2 := h1 (y := step) (by simpa [Real.dist_eq] using s1.trans_le (min_le_right _ _)) (abs_pos.1 s0) i
  have h3 : 0 ≤ eta / |step| := by positivity
  have h4 := mul_le_mul_of_nonneg_right (le_max_left B (2 * C)) s0.le
  have h5 := mul_le_mul_of_nonneg_right (le_max_right B (2 * C)) h3
  linarith

end

open TieEx in
/-- An indirect edge whose other end moves with the parameters, and positive thresholds. -/
example : ∃ f : (Fin 2 → ℝ) → ℝ, ContDiffAt ℝ 1 f ![3, -4] ∧ ∃ C, ∃ δ > 0, ∀ x, dist x ![3, -4] < δ →
    ∀ eta : ℝ, 0 ≤ eta → eta < δ →
    ∃ J, (indirectOpt.optimizeForm 5 eta (tie 3 3 4) (List.ofFn x)).2 = .ok (some J) ∧ |J - f x| ≤ C * eta := by
  obtain ⟨F, P⟩ := indirect_point 1
  obtain ⟨f, h1, _, H⟩ := C79_objective P le_rfl (acyclic_tie 3 4) (by change 4 < 5; norm_num)
  exact ⟨f, h1, H⟩

open TieEx in
example : ∃ f : (Fin 2 → ℝ) → ℝ, ContDiffAt ℝ 1 f ![3, -4] ∧ ∀ ε > 0, ∃ δ > 0, ∀ step eta : ℝ,
    0 < |step| → |step| < δ → 0 ≤ eta → eta ≤ δ * |step| → ∃ (E2 : Diagram ℝ) (g : Fin 2 → ℝ),
      gradFiniteDifferences (indirectOpt.optimizeForm 5 eta) step (tie 3 3 4) [3, -4] [none, none] =
        ((E2, [3, -4]), .ok [some (g 0), some (g 1)]) ∧ ∀ i, |g i - partialAt f ![3, -4] i| ≤ ε := by
  obtain ⟨F, P⟩ := indirect_point 1
  obtain ⟨f, h1, _, H⟩ := C79_gradient P le_rfl (acyclic_tie 3 4) (by change 4 < 5; norm_num)
  refine ⟨f, h1, fun ε hε => ?_⟩
  obtain ⟨δ, hδ, H⟩ := H ε hε
  refine ⟨δ, hδ, fun step eta a b c d => ?_⟩
  obtain ⟨E2, g, e, hg⟩ := H step eta a b c d _ (SameExcept.refl _ _) [none, none] rfl
  exact ⟨E2, g, by simpa using e, hg⟩

open TieEx in
example : ∃ f : (Fin 2 → ℝ) → ℝ, ContDiffAt ℝ 2 f ![3, -4] ∧ ∃ C, ∃ δ > 0, ∀ step eta : ℝ,
    0 < |step| → |step| < δ → 0 ≤ eta → eta < δ → ∃ (E2 : Diagram ℝ) (g : Fin 2 → ℝ),
      gradFiniteDifferences (indirectOpt.optimizeForm 5 eta) step (tie 3 3 4) [3, -4] [none, none] =
        ((E2, [3, -4]), .ok [some (g 0), some (g 1)]) ∧
      ∀ i, |g i - partialAt f ![3, -4] i| ≤ C * (|step| + eta / |step|) := by
  obtain ⟨F, P⟩ := indirect_point 2
  obtain ⟨f, h1, _, C, δ, hδ, H⟩ := C79_order P le_rfl (acyclic_tie 3 4) (by change 4 < 5; norm_num)
  refine ⟨f, h1, C, δ, hδ, fun step eta a b c d => ?_⟩
  obtain ⟨E2, g, e, hg⟩ := H step eta a b c d _ (SameExcept.refl _ _) [none, none] rfl
  exact ⟨E2, g, by simpa using e, hg⟩

end Props
end CEM
