import Verif.Lemmas.RoundedRate
import Verif.Spec.Rate
import Verif.Props.Backward

/-!
# Property C76: the error of a form is proportional to the errors of the arithmetic
-/

set_option linter.unusedSectionVars false
set_option linter.unusedSimpArgs false

namespace CEM
namespace Props
open Diagram Spec EqEx Filter Topology

/-- What is nearly settled approaches what is settled with the rate of the errors. -/
theorem rate_all {A : ℕ → Arith ℝ} {u w : ℕ → ℝ} (H : RefinesBy A u w) {D : Diagram ℝ} (I : ValidInput D)
    (hA : Acyclic D) {delta : ℕ → ℝ} {B : ℝ} (hdl : ∀ᶠ j in atTop, delta j ≤ B * w j)
    {P T r : ℕ → Int → Vec ℝ} {P0 T0 r0 : Int → Vec ℝ}
    (hS : ∀ᶠ j in atTop, ∃ Q, FlSettled (A j) D (delta j) (P j) (T j) (r j) Q)
    (h0 : Settled D P0 T0 r0) (hr : Firm D P0 r0) :
    ∀ n ∈ D.nodes.keys, VRateTo w (fun j => P j n) (P0 n) ∧ VRateTo w (fun j => r j n) (r0 n) := by
  have wf := I.wf
  have W := I.trails
  obtain ⟨Q, hQ⟩ := hS.choice
  have hout : ∀ n ∈ D.nodes.keys, VRateTo w (fun j => P j n) (P0 n) → VRateTo w (fun j => T j n) (T0 n) →
      (∀ m ∈ D.neighbors n, (edgeData D n m).type = .deviation → VRateTo w (fun j => P j m) (P0 m)) →
      VRateTo w (fun j => r j n) (r0 n) := by
    intro n hn hP hT hd
    have e : outVec D true P0 (T0 n) n = r0 n := by
      rw [h0.out n hn]; unfold outVec; rw [if_pos rfl]
    rw [← e]
    have hnb : ∀ m ∈ D.neighbors n, (edgeData D n m).type = .deviation →
        VRateTo w (fun j => Q j n m) (P0 m) ∧ P0 m ≠ P0 n := by
      intro m hm hty
      refine ⟨H.vclose (hd m hm hty) (tendsto_const_nhds (x := B)) ?_, hr.apart n m hm hty⟩
      filter_upwards [hQ, hdl] with j hj hB
      exact (hj.near n hn m (mem_keys_of_nbr wf hm).1).trans hB
    refine RefinesBy.vcongr (H.out (D := D) (Q := fun j => Q j n) hT
      (RefinesBy.vcongr hP (hQ.mono fun j hj => hj.self n hn))
      (fun m hm => ?_) fun m hm => ?_) (hQ.mono fun j hj => hj.out n hn)
    · obtain ⟨h1, h2⟩ := List.mem_filter.1 hm
      simp only [decide_eq_true_eq] at h2
      exact hnb m h1 h2.1
    · obtain ⟨h1, h2⟩ := List.mem_filter.1 hm
      simp only [decide_eq_true_eq] at h2
      exact hnb m h1 h2.1
  have hPT : ∀ (c : Nat) (n : Int), (needed D n).card = c → n ∈ D.nodes.keys →
      VRateTo w (fun j => P j n) (P0 n) ∧ VRateTo w (fun j => T j n) (T0 n) := by
    intro c
    induction c using Nat.strong_induction_on with
    | _ c ih =>
      intro n hc hn
      by_cases hex : ∃ a, trailNext D a = some n
      · obtain ⟨a, ha⟩ := hex
        have hf : Follows D a n := (trailNext_iff wf W).1 ha
        have hak := (Follows.mem W hf).1
        obtain ⟨pa, ta⟩ := ih _ (by rw [← hc]; exact needed_lt I hA ⟨a, hf, Or.inl rfl⟩) a rfl hak
        have ra := hout a hak pa ta fun m hm hty => by
          refine (ih _ (by
            rw [← hc]
            exact needed_lt I hA ⟨a, hf, Or.inr ⟨_, (edgeBetween_iff I.simple).2 ⟨hm, rfl⟩, hty⟩⟩)
            m rfl (mem_keys_of_nbr wf hm).1).1
        have hv := hr.trail a n ha
        obtain ⟨e1, e2⟩ := h0.next a hak n ha
        rw [normalize_eq_unit] at e1
        rw [e1, e2]
        exact ⟨RefinesBy.vcongr (H.vadd pa (H.vscale (H.effectiveLength (edgeData D a n) pa ra hv
          fun o N => hr.plane a n o N ha) (H.vnormalize ra hv)))
          (hQ.mono fun j hj => (hj.next a hak n ha).1),
          RefinesBy.vcongr ra (hQ.mono fun j hj => (hj.next a hak n ha).2)⟩
      · have hx : ∀ a, trailNext D a ≠ some n := fun a ha => hex ⟨a, ha⟩
        obtain ⟨e1, e2⟩ := h0.start n hn hx
        rw [e1, e2]
        exact ⟨RefinesBy.vcongr (H.vconst _) (hQ.mono fun j hj => (hj.start n hn hx).1),
          RefinesBy.vcongr (H.vconst _) (hQ.mono fun j hj => (hj.start n hn hx).2)⟩
  exact fun n hn => ⟨(hPT _ n rfl hn).1, hout n hn (hPT _ n rfl hn).1 (hPT _ n rfl hn).2 fun m hm _ =>
    (hPT _ m rfl (mem_keys_of_nbr wf hm).1).1⟩

/-- One factor for finitely many bounds. -/
theorem one_factor {α : Type} {w : ℕ → ℝ} (hw : ∀ j, 0 ≤ w j) (l : List α) {x : α → ℕ → ℝ}
    (h : ∀ a ∈ l, ∃ C : ℝ, ∀ᶠ j in atTop, x a j ≤ C * w j) :
    ∃ C : ℝ, ∀ᶠ j in atTop, ∀ a ∈ l, x a j ≤ C * w j := by
  induction l with
  | nil => exact ⟨0, Eventually.of_forall fun j a ha => by simp at ha⟩
  | cons b l ih =>
    obtain ⟨C, hC⟩ := ih fun a ha => h a (List.mem_cons_of_mem _ ha)
    obtain ⟨E, hE⟩ := h b List.mem_cons_self
    refine ⟨max C E, ?_⟩
    filter_upwards [hC, hE] with j h1 h2 a ha
    rcases List.mem_cons.1 ha with rfl | ha
    · exact h2.trans (mul_le_mul_of_nonneg_right (le_max_right _ _) (hw j))
    · exact (h1 a ha).trans (mul_le_mul_of_nonneg_right (le_max_left _ _) (hw j))

/-- Forms that one more round nearly reproduces approach the one that is reproduced with the rate of the
errors. -/
theorem rate_form {A : ℕ → Arith ℝ} {u w : ℕ → ℝ} (H : RefinesBy A u w) {D : Diagram ℝ} (I : ValidInput D)
    (hl : NonzeroTrails D) (hA : Acyclic D) {delta : ℕ → ℝ} {B : ℝ}
    (hdl : ∀ᶠ j in atTop, delta j ≤ B * w j) {F : ℕ → Diagram ℝ} {G : Diagram ℝ}
    (hS : ∀ᶠ j in atTop, ∃ q : EqState ℝ × (Int → Vec ℝ), FlSettledForm (A j) D (F j) (delta j) q.1 q.2)
    (hG : ∃ q : EqState ℝ × (Int → Vec ℝ), SettledForm D G q.1 q.2)
    (hf : TrailsCarry G) (hX : Distinct D G) :
    ∃ C : ℝ, ∀ᶠ j in atTop, WithinForm D (F j) G (C * w j) := by
  have wf := I.wf
  obtain ⟨q, hq⟩ := hS.choice
  obtain ⟨⟨s0, r0⟩, h0⟩ := hG
  have R := regular_of I hl h0 hf hX
  have M := rate_all H I hA hdl (P := fun j => (q j).1.pos) (T := fun j => (q j).1.res)
    (r := fun j => (q j).2) (hq.mono fun j hj => hj.settled) h0.settled R
  have hG' := h0
  obtain ⟨rfl, ⟨ind, p, Q, S⟩, -⟩ := hG'
  have h1 : ∀ n ∈ D.nodes.keys, VRateTo w (fun j => posOf (F j) n) (posOf (formOf D s0) n) := by
    intro n hn
    rw [posOf_form wf S]
    refine RefinesBy.vcongr (M n hn).1 (hq.mono fun j hj => ?_)
    obtain ⟨e, ⟨_, _, _, S'⟩, -⟩ := hj
    rw [e, fl_posOf_form wf S']
  have h2 : ∀ n ∈ D.nodes.keys, VRateTo w (fun j => reactionAt (F j) n) (reactionAt (formOf D s0) n) := by
    intro n hn
    rw [reactionAt_form wf S I.reaction hn]
    have e : ∀ᶠ j in atTop, reactionAt (F j) n = if nxtK D none n = none then (q j).2 n else 0 := by
      refine hq.mono fun j hj => ?_
      obtain ⟨e, ⟨_, _, _, S'⟩, -⟩ := hj
      rw [e, fl_reactionAt_form wf S' I.reaction hn]
    refine RefinesBy.vcongr ?_ e
    split_ifs
    · exact (M n hn).2
    · exact H.vconst 0
  have h3 : ∀ e ∈ D.edges.keys, RateTo w (fun j => forceAt (F j) e) (forceAt (formOf D s0) e) := by
    intro e he
    obtain ⟨d, hd⟩ := (Dict.exists_get?_iff _ _).2 he
    cases ht : d.type with
    | untyped => exact absurd ht (I.typed _ _ hd)
    | trail =>
      obtain ⟨a, b, hn, rfl⟩ := trail_ends I hd ht
      have ha := (Follows.mem I.trails ((trailNext_iff wf I.trails).1 hn)).1
      have hnx : nxtK D none a = some b := by rw [nxtK_none wf I.trails]; exact hn
      obtain ⟨e1, e2⟩ := edgeData_trail wf I.trails I.simple hn
      obtain ⟨d0, f1, f2, f3⟩ := settled_edge I h0 hn
      have e0 : forceAt (formOf D s0) (edgeKey D a b) =
          CEM.copysign (Vec.length (r0 a)) (CEM.effectiveLength (edgeData D a b) (s0.pos a) (r0 a)) := by
        unfold forceAt; rw [f1]; exact f3
      rw [e0]
      have hv := R.trail a b hn
      refine RefinesBy.congr (H.copysign (H.vlength (M a ha).2) (H.effectiveLength (edgeData D a b) (M a ha).1
        (M a ha).2 hv fun o N => R.plane a b o N hn)
        (effectiveLength_ne_zero (hl _ _ e1 e2) _ _)) (hq.mono fun j hj => ?_)
      obtain ⟨e, ⟨_, _, _, S'⟩, -⟩ := hj
      rw [e, fl_forceAt S' hd, (S'.next a ha b hnx).2.2.1]
      rfl
    | deviation =>
      have hnot : ∀ a ∈ D.nodes.keys, ∀ m, nxtK D none a = some m → edgeKey D a m ≠ e := by
        intro a _ m hm hk
        obtain ⟨e1, e2⟩ := edgeData_trail wf I.trails I.simple (nxtK_trail hm)
        rw [hk, hd] at e1
        rw [← Option.some.inj e1, ht] at e2
        cases e2
      have e0 : forceAt (formOf D s0) e = d.force := by
        unfold forceAt
        rw [formOf_edge S, hd, S.force e hnot]
        simp only [Option.map_some, Option.getD_some, Option.getD_none]
        exact (signedLength_force _ _ _).1
      rw [e0]
      refine RefinesBy.congr (H.const _) (hq.mono fun j hj => ?_)
      obtain ⟨e, ⟨_, _, _, S'⟩, -⟩ := hj
      rw [e, fl_forceAt S' hd, S'.force _ hnot]
      rfl
  obtain ⟨C1, k1⟩ := one_factor H.nonneg D.nodes.keys h1
  obtain ⟨C2, k2⟩ := one_factor H.nonneg D.nodes.keys h2
  obtain ⟨C3, k3⟩ := one_factor H.nonneg D.edges.keys h3
  refine ⟨max C1 (max C2 C3), ?_⟩
  filter_upwards [k1, k2, k3] with j a1 a2 a3
  have up : ∀ {C}, C ≤ max C1 (max C2 C3) → C * w j ≤ max C1 (max C2 C3) * w j :=
    fun h => mul_le_mul_of_nonneg_right h (H.nonneg j)
  exact ⟨fun n hn => (a1 n hn).trans (up (le_max_left _ _)),
    fun n hn => (a2 n hn).trans (up ((le_max_left _ _).trans (le_max_right _ _))),
    fun n hn => (a3 n hn).trans (up ((le_max_right _ _).trans (le_max_right _ _)))⟩

theorem withinForm_mono {D F G : Diagram ℝ} {a b : ℝ} (h : WithinForm D F G a) (hab : a ≤ b) :
    WithinForm D F G b :=
  ⟨fun n hn => (h.positions n hn).trans hab, fun n hn => (h.reactions n hn).trans hab,
    fun n hn => (h.forces n hn).trans hab⟩

/-- C76. Without feedback, if no plane, direction or force of the exact form is on a border, there is one
factor such that all forms found with errors at most `u` and thresholds `eta`, both small enough, differ
from the exact one by at most the factor times `u + eta`. -/
theorem C76_rate {D : Diagram ℝ} (I : ValidInput D) (hl : NonzeroTrails D) (hA : Acyclic D)
    {t : Nat} (h2 : 2 ≤ t) {v : Bool} {G : Diagram ℝ} (hG : staticEquilibrium D none t 0 v = .ok G)
    (hf : TrailsCarry G) (hX : Distinct D G) :
    ∃ C delta : ℝ, 0 < delta ∧ ∀ (A : Arith ℝ) (u : ℝ), Precise A u → u ≤ delta → ∀ eta : ℝ, 0 ≤ eta →
      eta ≤ delta → ∀ (tmax : Nat) (verbose : Bool) (F : Diagram ℝ), 2 ≤ tmax →
      flStaticEquilibrium A D none tmax eta verbose = .ok F → WithinForm D F G (C * (u + eta)) := by
  by_contra hno
  push Not at hno
  choose A u hA1 hu eta he0 he tmax verbose F ht hF hbad using
    fun j : ℕ => hno j (1 / ((j : ℝ) + 1)) (by positivity)
  have lim : Tendsto (fun j : ℕ => 1 / ((j : ℝ) + 1)) atTop (𝓝 0) := tendsto_one_div_add_atTop_nhds_zero_nat
  have hu0 : Tendsto u atTop (𝓝 0) := squeeze_zero (fun j => (hA1 j).nonneg) hu lim
  have he1 : Tendsto eta atTop (𝓝 0) := squeeze_zero he0 he lim
  have R : Refines A u := ⟨hA1, hu0⟩
  have H : RefinesBy A u fun j => u j + eta j :=
    ⟨R, fun j => by linarith [he0 j], by simpa using hu0.add he1⟩
  have hp : Tendsto (fun j => ((1 - u j) ^ (D.nodes.length + 4))⁻¹) atTop (𝓝 1) := by
    have := ((hu0.const_sub 1).pow (D.nodes.length + 4)).inv₀ (by simp)
    simpa using this
  obtain ⟨C, hC⟩ := rate_form H I hl hA (B := 2)
    (delta := fun j => eta j / (1 - u j) ^ (D.nodes.length + 4)) (by
      filter_upwards [hp.eventually_lt_const (show (1 : ℝ) < 2 by norm_num)] with j hj
      rw [div_eq_mul_inv]
      have := mul_le_mul_of_nonneg_left hj.le (he0 j)
      linarith [(hA1 j).nonneg])
    (R.eventually_le.mono fun j hj => fl_settled_eta (hA1 j) hj I (ht j) (hF j))
    (settled_zero I h2 le_rfl hG) hf hX
  obtain ⟨j, h3, h4⟩ := (hC.and (eventually_ge_atTop ⌈C⌉₊)).exists
  exact hbad j (withinForm_mono h3 (mul_le_mul_of_nonneg_right ((Nat.le_ceil C).trans (by exact_mod_cast h4))
    (H.nonneg j)))

/-- C76. Without indirect deviation edges the factor applies to the errors of the arithmetic alone. -/
theorem C76_rate_direct {D : Diagram ℝ} (I : ValidInput D) (hl : NonzeroTrails D) (hd : DirectOnly D)
    {t : Nat} {eta' : ℝ} {v : Bool} {G : Diagram ℝ} (hG : staticEquilibrium D none t eta' v = .ok G)
    (hf : TrailsCarry G) (hX : Distinct D G) :
    ∃ C delta : ℝ, 0 < delta ∧ ∀ (A : Arith ℝ) (u : ℝ), Precise A u → u ≤ delta →
      ∀ (tmax : Nat) (eta : ℝ) (verbose : Bool) (F : Diagram ℝ),
      flStaticEquilibrium A D none tmax eta verbose = .ok F → WithinForm D F G (C * u) := by
  by_contra hno
  push Not at hno
  choose A u hA1 hu tmax eta verbose F hF hbad using
    fun j : ℕ => hno j (1 / ((j : ℝ) + 1)) (by positivity)
  have lim : Tendsto (fun j : ℕ => 1 / ((j : ℝ) + 1)) atTop (𝓝 0) := tendsto_one_div_add_atTop_nhds_zero_nat
  have hu0 : Tendsto u atTop (𝓝 0) := squeeze_zero (fun j => (hA1 j).nonneg) hu lim
  have H : RefinesBy A u u := ⟨⟨hA1, hu0⟩, fun j => le_rfl, hu0⟩
  obtain ⟨C, hC⟩ := rate_form H I hl (acyclic_of_direct I hd) (B := 0) (delta := fun _ => 0)
    (Eventually.of_forall fun j => by simp)
    (Eventually.of_forall fun j => fl_settled_direct I hd (hF j)) (settled_direct I hd hG) hf hX
  obtain ⟨j, h3, h4⟩ := (hC.and (eventually_ge_atTop ⌈C⌉₊)).exists
  exact hbad j (withinForm_mono h3 (mul_le_mul_of_nonneg_right ((Nat.le_ceil C).trans (by exact_mod_cast h4))
    (H.nonneg j)))

/-- C76. With exact arithmetic this bounds the effect of the threshold: the forms that are returned differ
from the exact one by at most a factor times the threshold. -/
theorem C76_threshold {D : Diagram ℝ} (I : ValidInput D) (hl : NonzeroTrails D) (hA : Acyclic D)
    {t : Nat} (h2 : 2 ≤ t) {v : Bool} {G : Diagram ℝ} (hG : staticEquilibrium D none t 0 v = .ok G)
    (hf : TrailsCarry G) (hX : Distinct D G) :
    ∃ C delta : ℝ, 0 < delta ∧ ∀ eta : ℝ, 0 ≤ eta → eta ≤ delta → ∀ (tmax : Nat) (verbose : Bool)
      (F : Diagram ℝ), 2 ≤ tmax → staticEquilibrium D none tmax eta verbose = .ok F →
      WithinForm D F G (C * eta) := by
  obtain ⟨C, delta, hd, h⟩ := C76_rate I hl hA h2 hG hf hX
  refine ⟨C, delta, hd, fun eta h0 h1 tmax verbose F ht hF => ?_⟩
  obtain ⟨e1, e2⟩ := C72_exact D none tmax eta verbose
  have := h Arith.exact 0 e2 hd.le eta h0 h1 tmax verbose F ht (by rw [e1]; exact hF)
  rwa [zero_add] at this

/-- C76. Each binary digit that is added halves the bound of the error. -/
theorem C76_binary {D : Diagram ℝ} (I : ValidInput D) (hl : NonzeroTrails D) (hA : Acyclic D)
    {t : Nat} (h2 : 2 ≤ t) {v : Bool} {G : Diagram ℝ} (hG : staticEquilibrium D none t 0 v = .ok G)
    (hf : TrailsCarry G) (hX : Distinct D G) {tmax : Nat} (ht : D.nodes.length + 1 ≤ tmax) :
    ∃ (C : ℝ) (p0 : ℕ), ∀ p, p0 ≤ p → ∀ verbose, ∃ F,
      flStaticEquilibrium (binaryArith p) D none tmax 0 verbose = .ok F ∧
      WithinForm D F G (C / 2 ^ p) := by
  obtain ⟨C, delta, hd, h⟩ := C76_rate I hl hA h2 hG hf hX
  obtain ⟨p0, hp0⟩ := (eventually_atTop.1 (binary_refines.eventually_lt_const
    (show (0 : ℝ) < min delta (1 / 100) from lt_min hd (by norm_num))))
  have h1 : 1 ≤ D.nodes.length := by
    obtain ⟨⟨key, tr⟩, hk⟩ := List.exists_mem_of_ne_nil _ I.nonempty
    obtain ⟨rest, rfl⟩ := I.trails.head key tr hk
    have := I.trails.mem_keys hk List.mem_cons_self
    have := List.length_pos_of_mem this
    simp only [Dict.keys, List.length_map] at this
    omega
  refine ⟨C, p0, fun p hp verbose => ?_⟩
  have hs := hp0 p hp
  obtain ⟨F, hF, _⟩ := C72_acyclic (C72_binary p) (hs.le.trans (min_le_right _ _)) I hA ht verbose
  refine ⟨F, hF, ?_⟩
  have := h _ _ (C72_binary p) (hs.le.trans (min_le_left _ _)) 0 le_rfl hd.le tmax verbose F (by omega) hF
  rwa [add_zero, ← div_eq_mul_inv] at this

open TieEx in
/-- Two trails with an indirect deviation edge between them. -/
example : ∃ G, staticEquilibrium (tie 3 3 4) none 5 0 false = .ok G ∧ ∃ (C : ℝ) (p0 : ℕ), ∀ p, p0 ≤ p →
    ∀ verbose, ∃ F, flStaticEquilibrium (binaryArith p) (tie 3 3 4) none 100 0 verbose = .ok F ∧
      WithinForm (tie 3 3 4) F G (C / 2 ^ p) := by
  obtain ⟨G, hG, hc, hX⟩ := tie_found
  exact ⟨G (3, 4), hG (3, 4), C76_binary (valid_tie 3 4 (Or.inr rfl)) (nonzero_tie 3 4) (acyclic_tie 3 4)
    (by norm_num) (hG (3, 4)) hc hX (by change 5 ≤ 100; norm_num)⟩

open ColEx in
/-- The force of the column found with square roots that are too large. -/
theorem col_long {u : ℝ} (h0 : 0 ≤ u) {F : Diagram ℝ} {tmax : Nat} {eta : ℝ}
    (hF : flStaticEquilibrium (longArith u) (col none) none tmax eta false = .ok F) :
    forceAt F (0, 1) = -(1 + u) := by
  have I := valid_none
  have hQ := colQ_none
  obtain ⟨ind, p, s, r, Q, rfl, S, _⟩ := fl_returned I (by simp) hF
  have hk : (0 : Int) ∈ (col none).nodes.keys := by
    unfold col Diagram.real; rw [map_nodes_keys, hQ]; simp [colLit, Dict.keys]
  have htr : ((0 : Int), ([0, 1] : List Int)) ∈ (col none).trails := by
    unfold col Diagram.real; rw [map_trails, hQ]; simp [colLit]
  have hnode : (col none).nodes.get? 0 = some ⟨⟨0, 0, 0⟩, ⟨0, 0, -1⟩, ⟨0, 0, 0⟩, some 0, .origin⟩ := by
    unfold col Diagram.real
    rw [map_nodes_get?, hQ]
    simp [colLit, Dict.get?, NodeData.map, Vec.map]
  have hstart := S.start 0 (fun a _ ha => head_not_next I.wf I.trails htr a (nxtK_trail ha))
  have hres : s.res 0 = 0 := by
    rw [hstart.2]
    unfold EqState.res initState
    rw [get?_map_val (col none).nodes (fun d => d.reaction), hnode]
    rfl
  have h01 := col_edges hQ (0, 1)
  rw [if_pos rfl] at h01
  have hdir : dirNbrs (col none) 0 = [] := by
    unfold dirNbrs
    rw [List.filter_eq_nil_iff]
    intro m hm hc
    simp only [decide_eq_true_eq] at hc
    have hd := edgeKey_mem hm
    rw [col_edges hQ] at hd
    split_ifs at hd
    rw [← Option.some.inj hd] at hc
    exact absurd hc.1 (by simp [colEdge])
  have hload : loadOf (col none) 0 = ⟨0, 0, -1⟩ := by unfold loadOf; rw [hnode]; rfl
  have hr : r 0 = ⟨0, 0, 1⟩ := by
    rw [S.out 0 hk]
    unfold flOut
    rw [hdir, indNbrs_direct (directOnly_col hQ) 0, hres, hload]
    simp only [flDevSum, List.foldl_nil, ite_self, flTrailVectorOut, Arith.vadd, longArith, Arith.exact]
    ext <;> simp
  have hlen : (longArith u).vlength ⟨0, 0, 1⟩ = 1 + u := by
    simp [Arith.vlength, Arith.vdot, longArith, Arith.exact]
  obtain ⟨d, hd⟩ := (Dict.exists_get?_iff (flFormOf (longArith u) (col none) s).edges (0, 1)).2 (by
    rw [show (flFormOf (longArith u) (col none) s).edges.keys = (col none).edges.keys from
      fl_formEdges_keys _ _]
    exact Dict.mem_keys_of_get? h01)
  obtain ⟨_, e2⟩ := fl_trail_form I S htr (a := 0) (b := 1) ⟨[], [], rfl⟩ (Or.inl rfl) h01 hd
  have hel : flEffectiveLength (longArith u) (colEdge none)
    (posOf (flFormOf (longArith u) (col none) s) 0) (r 0) = -1 := rfl
  rw [hel, hr, hlen] at e2
  unfold forceAt
  rw [hd, Option.map_some, Option.getD_some, e2]
  unfold copysign
  rw [abs_of_pos (by linarith)]
  norm_num

theorem long_zero : longArith 0 = Arith.exact := by
  unfold longArith
  simp only [add_zero, one_mul]
  rfl

open ColEx in
/-- C76. No bound that grows slower than the errors of the arithmetic holds: there are problems like these
and arithmetics with every error `u` where a force differs from the exact one by `u`. -/
theorem C76_attained : ∃ (D G : Diagram ℝ) (e : Int × Int), ValidInput D ∧ NonzeroTrails D ∧ DirectOnly D ∧
    staticEquilibrium D none 100 0 false = .ok G ∧ TrailsCarry G ∧ Distinct D G ∧ e ∈ D.edges.keys ∧
    ∀ u : ℝ, 0 ≤ u → u ≤ 1 / 100 → ∃ A F, Precise A u ∧
      flStaticEquilibrium A D none 100 0 false = .ok F ∧ |forceAt F e - forceAt G e| = u := by
  have hQ := colQ_none
  obtain ⟨G, hG⟩ := returns hQ valid_none
  have h01 := col_edges hQ (0, 1)
  rw [if_pos rfl] at h01
  refine ⟨col none, G, (0, 1), valid_none, nonzero_col hQ, directOnly_col hQ, hG, ?_, ⟨?_, ?_⟩,
    Dict.mem_keys_of_get? h01, fun u h0 hu => ?_⟩
  · exact forces_col hQ valid_none hG
  · intro e d hd ht
    rw [col_edges hQ] at hd
    split_ifs at hd
    rw [← Option.some.inj hd] at ht
    simp [colEdge] at ht
  · intro a b d o N _ hb hp
    unfold EdgeBetween at hb
    rw [col_edges hQ, col_edges hQ] at hb
    rcases hb with h | h <;> split_ifs at h <;> rw [← Option.some.inj h] at hp <;> simp [colEdge] at hp
  · obtain ⟨F, hF⟩ := C72_returns_direct (rounds_long h0) hu valid_none (directOnly_col hQ)
      (show 1 ≤ 100 by norm_num) (le_refl (0 : ℝ))
    refine ⟨longArith u, F, rounds_long h0, hF, ?_⟩
    have g := col_long (u := 0) le_rfl (F := G) (by rw [long_zero, (C72_exact _ _ _ _ _).1]; exact hG)
    rw [col_long h0 hF, g, show -(1 + u) - -(1 + 0) = -u by ring, abs_neg, abs_of_nonneg h0]

/-- The ends of the trail edges of a form that carry forces are different points. -/
theorem trail_apart {D F : Diagram ℝ} {s : EqState ℝ} {r : Int → Vec ℝ} (I : ValidInput D)
    (hl : NonzeroTrails D) (S : SettledForm D F s r) (R : Firm D s.pos r) {e : Int × Int} {d : EdgeData ℝ}
    (hd : D.edges.get? e = some d) (ht : d.type = .trail) : posOf F e.1 ≠ posOf F e.2 := by
  have w := I.wf
  obtain ⟨a, b, hn, hk⟩ := trail_ends I hd ht
  have ha := (Follows.mem I.trails ((trailNext_iff w I.trails).1 hn)).1
  obtain ⟨e1, e2⟩ := edgeData_trail w I.trails I.simple hn
  have hstep := (S.settled.next a ha b hn).1
  rw [normalize_eq_unit] at hstep
  have hab : posOf F b ≠ posOf F a := by
    obtain ⟨eF, ⟨ind, p, Q, G⟩, -⟩ := S
    rw [eF, posOf_form w G, posOf_form w G, hstep]
    intro hh
    have hz := congrArg Vec.length (add_eq_left.1 hh)
    rw [length_smul_unit_of_ne (R.trail a b hn), Vec.length_zero] at hz
    exact effectiveLength_ne_zero (hl _ _ e1 e2) _ _ (abs_eq_zero.1 hz)
  rcases edgeKey_ends D a b with h | h <;> rw [hk] at h <;> rw [h]
  · exact hab.symm
  · exact hab

/-- A positive number below finitely many positive ones. -/
theorem below_all {α : Type} (l : List α) (f : α → ℝ) (h : ∀ a ∈ l, 0 < f a) :
    ∃ m : ℝ, 0 < m ∧ ∀ a ∈ l, m ≤ f a := by
  induction l with
  | nil => exact ⟨1, one_pos, fun a ha => by simp at ha⟩
  | cons b l ih =>
    obtain ⟨m, h1, h2⟩ := ih fun a ha => h a (List.mem_cons_of_mem _ ha)
    refine ⟨min m (f b), lt_min h1 (h b List.mem_cons_self), fun a ha => ?_⟩
    rcases List.mem_cons.1 ha with rfl | ha
    · exact min_le_right _ _
    · exact (min_le_left _ _).trans (h2 a ha)

/-- Forms next to one whose trail edges carry forces are proper. -/
theorem proper_near {D G : Diagram ℝ} (I : ValidInput D) (hl : NonzeroTrails D)
    (hG : ∃ q : EqState ℝ × (Int → Vec ℝ), SettledForm D G q.1 q.2) (hf : TrailsCarry G) (hX : Distinct D G) :
    ∃ m : ℝ, 0 < m ∧ ∀ (F : Diagram ℝ), KeepsData D F → ∀ eps < m, WithinForm D F G eps →
      ProperTrails F := by
  classical
  obtain ⟨⟨s, r⟩, S⟩ := hG
  have R := regular_of I hl S hf hX
  obtain ⟨m, hm, h⟩ := below_all
    (D.edges.keys.filter fun e => decide (∃ d, D.edges.get? e = some d ∧ d.type = .trail))
    (fun e => min |forceAt G e| (Vec.dist (posOf G e.1) (posOf G e.2) / 2)) (by
      intro e he
      obtain ⟨d, hd, ht⟩ := of_decide_eq_true (List.mem_filter.1 he).2
      refine lt_min (abs_pos.2 ?_) (half_pos (Vec.length_pos (sub_ne_zero.2 (trail_apart I hl S R hd ht))))
      obtain ⟨a, b, hn, rfl⟩ := trail_ends I hd ht
      obtain ⟨d', h1, h2, _⟩ := settled_edge I S hn
      unfold forceAt
      rw [h1]
      exact hf _ _ h1 h2)
  refine ⟨m, hm, fun F K eps he W e d hd ht => ?_⟩
  have hk : e ∈ D.edges.keys := by rw [← K.edgeKeys]; exact Dict.mem_keys_of_get? hd
  obtain ⟨d0, h0⟩ := (Dict.exists_get?_iff _ _).2 hk
  obtain ⟨d1, h1, h2, _⟩ := K.edge e d0 h0
  rw [hd] at h1
  obtain rfl := Option.some.inj h1
  have hb := h e (List.mem_filter.2 ⟨hk, decide_eq_true ⟨d0, h0, by rw [← h2]; exact ht⟩⟩)
  have b1 := he.trans_le (hb.trans (min_le_left _ _))
  have b2 := he.trans_le (hb.trans (min_le_right _ _))
  constructor
  · intro hz
    have := W.forces e hk
    unfold forceAt at this b1
    rw [hd, Option.map_some, Option.getD_some, hz, zero_sub, abs_neg] at this
    exact absurd (this.trans_lt b1) (lt_irrefl _)
  · intro hz
    have k1 := W.positions _ (I.wf.edge_left e hk)
    have k2 := W.positions _ (I.wf.edge_right e hk)
    rw [hz] at k1
    have := Vec.length_sub_le (posOf F e.2 - posOf G e.2) (posOf F e.2 - posOf G e.1)
    rw [sub_sub_sub_cancel_left] at this
    unfold Vec.dist at k1 k2 b2
    linarith

/-- C76. Under the same conditions every trail edge of the forms that are found with small errors and
thresholds carries a force and joins different points, so that C75 applies to them. -/
theorem C76_proper {D : Diagram ℝ} (I : ValidInput D) (hl : NonzeroTrails D) (hA : Acyclic D)
    {t : Nat} (h2 : 2 ≤ t) {v : Bool} {G : Diagram ℝ} (hG : staticEquilibrium D none t 0 v = .ok G)
    (hf : TrailsCarry G) (hX : Distinct D G) :
    ∃ delta : ℝ, 0 < delta ∧ ∀ (A : Arith ℝ) (u : ℝ), Precise A u → u ≤ delta → ∀ eta : ℝ, 0 ≤ eta →
      eta ≤ delta → ∀ (tmax : Nat) (verbose : Bool) (F : Diagram ℝ), 2 ≤ tmax →
      flStaticEquilibrium A D none tmax eta verbose = .ok F → ProperTrails F := by
  obtain ⟨C, delta, hd, h⟩ := C76_rate I hl hA h2 hG hf hX
  obtain ⟨m, hm, hp⟩ := proper_near I hl (settled_zero I h2 le_rfl hG) hf hX
  have hc : 0 < |C| + 1 := by positivity
  refine ⟨min delta (m / (4 * (|C| + 1))), lt_min hd (by positivity), fun A u H hu eta h0 h1 tmax verbose F
    ht hF => ?_⟩
  have hW := h A u H (hu.trans (min_le_left _ _)) eta h0 (h1.trans (min_le_left _ _)) tmax verbose F ht hF
  have K : KeepsData D F := by
    obtain ⟨ind, p, s, r, Q, rfl, S, _⟩ := fl_returned I (by simp) hF
    exact fl_keepsData I S
  refine hp F K _ ?_ hW
  have hs : u + eta ≤ m / (2 * (|C| + 1)) := by
    have e : m / (2 * (|C| + 1)) = m / (4 * (|C| + 1)) + m / (4 * (|C| + 1)) := by field_simp; norm_num
    rw [e]
    exact add_le_add (hu.trans (min_le_right _ _)) (h1.trans (min_le_right _ _))
  have hn : 0 ≤ u + eta := add_nonneg H.nonneg h0
  calc C * (u + eta) ≤ (|C| + 1) * (u + eta) :=
        mul_le_mul_of_nonneg_right (by linarith [le_abs_self C]) hn
    _ ≤ (|C| + 1) * (m / (2 * (|C| + 1))) := mul_le_mul_of_nonneg_left hs hc.le
    _ = m / 2 := by field_simp
    _ < m := by linarith

/-- The force in a column found with square roots that are too large differs by at most a multiple of
the error, and every trail edge is proper. -/
example : ∃ G, staticEquilibrium (ColEx.col none) none 100 0 false = .ok G ∧
    ∃ C delta : ℝ, 0 < delta ∧ ∀ u, 0 ≤ u → u ≤ delta → ∀ F,
      flStaticEquilibrium (longArith u) (ColEx.col none) none 100 0 false = .ok F →
      WithinForm (ColEx.col none) F G (C * u) := by
  obtain ⟨G, hG⟩ := ColEx.returns ColEx.colQ_none ColEx.valid_none
  obtain ⟨C, delta, hd, h⟩ := C76_rate_direct ColEx.valid_none (nonzero_col ColEx.colQ_none)
    (ColEx.directOnly_col ColEx.colQ_none) hG (forces_col ColEx.colQ_none ColEx.valid_none hG) (by
      refine ⟨fun e d hd ht => ?_, fun a b d o N _ hb hp => ?_⟩
      · rw [ColEx.col_edges ColEx.colQ_none] at hd
        split_ifs at hd
        rw [← Option.some.inj hd] at ht
        simp [ColEx.colEdge] at ht
      · unfold EdgeBetween at hb
        rw [ColEx.col_edges ColEx.colQ_none, ColEx.col_edges ColEx.colQ_none] at hb
        rcases hb with h | h <;> split_ifs at h <;> rw [← Option.some.inj h] at hp <;>
          simp [ColEx.colEdge] at hp)
  exact ⟨G, hG, C, delta, hd, fun u h0 hu F hF => h _ u (rounds_long h0) hu 100 0 false F hF⟩

open TieEx in
/-- Two trails with an indirect deviation edge: with small errors and thresholds the forms are proper. -/
example : ∃ delta : ℝ, 0 < delta ∧ ∀ (A : Arith ℝ) (u : ℝ), Precise A u → u ≤ delta → ∀ eta : ℝ, 0 ≤ eta →
    eta ≤ delta → ∀ F, flStaticEquilibrium A (tie 3 3 4) none 100 eta false = .ok F → ProperTrails F := by
  obtain ⟨G, hG, hc, hX⟩ := tie_found
  obtain ⟨delta, hd, h⟩ := C76_proper (valid_tie 3 4 (Or.inr rfl)) (nonzero_tie 3 4) (acyclic_tie 3 4)
    (by norm_num) (hG (3, 4)) hc hX
  exact ⟨delta, hd, fun A u H hu eta h0 h1 F hF => h A u H hu eta h0 h1 100 false F (by norm_num) hF⟩

end Props
end CEM
