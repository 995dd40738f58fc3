import Verif.Lemmas.RoundedLimit
import Verif.Props.Rounded
import Verif.Props.Smooth

/-!
# Properties C72, continued: termination without feedback, and C73: growing precision
-/

set_option linter.unusedSectionVars false
set_option linter.unusedSimpArgs false

namespace CEM
namespace Props
open Diagram Spec EqEx Filter Topology

/-! ## Indirect edges without feedback -/

/-- C72. If the nodes have stages up to `N`, rounding never keeps form finding from
returning within `N + 2` iterations, also with threshold zero. -/
theorem C72_returns_staged {A : Arith ℝ} {u : ℝ} (H : Precise A u) (hu : u ≤ 1 / 100) {D : Diagram ℝ}
    (I : ValidInput D) {stage : Int → Nat} (St : Staged D stage) {N : Nat}
    (hN : ∀ n ∈ D.nodes.keys, stage n ≤ N) {tmax : Nat} (ht : N + 2 ≤ tmax) {eta : ℝ} (he : 0 ≤ eta)
    (verbose : Bool) : ∃ F, flStaticEquilibrium A D none tmax eta verbose = .ok F := by
  obtain ⟨L, G, _, _, h2⟩ := fl_equilibriumState_cases (A := A) I (kmax := none) (by simp) tmax eta verbose
  obtain ⟨m, hm, hm', _, hor, hr⟩ := h2 (by omega)
  unfold flStaticEquilibrium
  rw [hr, if_neg]
  · exact ⟨_, rfl⟩
  · rw [gt_iff_lt, not_lt]
    rcases hor with hlt | rfl
    · exact hlt.le
    · refine le_trans (le_of_eq ?_) he
      obtain ⟨k, rfl⟩ : ∃ k, m = k + 2 := ⟨m - 2, by omega⟩
      apply fl_residual_same H hu
      rintro ⟨n, v⟩ hv
      have g2 := fl_goodState_iter (A := A) I.wf I.trails none L (k + 2)
      have hk : n ∈ (flIter A D none L (k + 2)).xyz.keys := List.mem_map.2 ⟨_, hv, rfl⟩
      have hget := Dict.get?_of_mem (by rw [g2.1]; exact I.wf.nodesNodup) hv
      have hn : n ∈ D.nodes.keys := by rw [← g2.1]; exact hk
      have X := fl_rounds_iter (A := A) I G
      have h := hN n hn
      have := (FlRounds.agree I St X X n hn k (k + 1) (by omega) (by omega)).1
      have hp : (flIter A D none L (k + 2)).pos n = v := by unfold EqState.pos; rw [hget]; rfl
      simp only [hp] at this
      exact this

/-- With threshold zero the last iteration has not moved any node. -/
theorem fl_returned_fixed {A : Arith ℝ} {u : ℝ} (H : Precise A u) (hu : u ≤ 1 / 100) {D : Diagram ℝ}
    (I : ValidInput D) {tmax : Nat} (ht : 2 ≤ tmax) {eta : ℝ} (he : eta ≤ 0) {verbose : Bool}
    {F : Diagram ℝ} (h : flStaticEquilibrium A D none tmax eta verbose = .ok F) :
    ∃ p s r Q, F = flFormOf A D s ∧ FlFinalSpec A D none true p s r Q ∧
      ∀ n ∈ D.nodes.keys, ∀ m ∈ D.nodes.keys, Q n m = s.pos m := by
  obtain ⟨ind, p, s, r, Q, hF, S, h2⟩ := fl_returned I (by simp) h
  obtain ⟨rfl, hres⟩ := h2 ht
  refine ⟨p, s, r, Q, hF, S, fun n hn m hm => ?_⟩
  have h1 := fl_dist_le H hu rfl (hres.trans he) (n := m) (by rw [S.keys.1]; exact hm)
  rw [zero_div] at h1
  have h3 : p.pos m = s.pos m :=
    sub_eq_zero.1 (Vec.length_eq_zero.1 (le_antisymm h1 (Vec.length_nonneg _)))
  rcases S.seen_any n hn m with e | e
  · rw [e, h3]
  · exact e

/-- C72. With threshold zero the imbalance of a node is a rounding error of the node alone. -/
theorem C72_zero {A : Arith ℝ} {u : ℝ} (H : Precise A u) (hu : u ≤ 1 / 100) {D : Diagram ℝ}
    (I : ValidInput D) {tmax : Nat} (ht : 2 ≤ tmax) {eta : ℝ} (he : eta ≤ 0) {verbose : Bool}
    {F : Diagram ℝ} (h : flStaticEquilibrium A D none tmax eta verbose = .ok F) :
    ∀ n ∈ F.nodes.keys, Vec.length (imbalance F n) ≤ roundingBound F u n := by
  obtain ⟨p, s, r, Q, rfl, S, hQ⟩ := fl_returned_fixed H hu I ht he h
  intro n hn
  rw [show (flFormOf A D s).nodes.keys = D.nodes.keys from formNodes_keys _ _] at hn
  have h1 := fl_imbalance H hu I S hn
  rw [if_pos rfl, devSum_congr (P := Q n) (P' := s.pos) (l := indNbrs D n) (hQ n hn n hn) fun m hm =>
    hQ n hn m (mem_keys_of_nbr I.wf (List.mem_filter.1 hm).1).1, sub_self, sub_zero] at h1
  exact h1

/-- C72. Without feedback it returns within one iteration more than there are nodes, and
with threshold zero the imbalance of a node is a rounding error of the node alone. -/
theorem C72_acyclic {A : Arith ℝ} {u : ℝ} (H : Precise A u) (hu : u ≤ 1 / 100) {D : Diagram ℝ}
    (I : ValidInput D) (hA : Acyclic D) {tmax : Nat} (ht : D.nodes.length + 1 ≤ tmax) (verbose : Bool) :
    ∃ F, flStaticEquilibrium A D none tmax 0 verbose = .ok F ∧
      ∀ n ∈ F.nodes.keys, Vec.length (imbalance F n) ≤ roundingBound F u n := by
  obtain ⟨St, hN⟩ := staged_of_acyclic I hA
  obtain ⟨⟨key, tr⟩, h⟩ := List.exists_mem_of_ne_nil _ I.nonempty
  have hpos : 1 ≤ D.nodes.length := by
    obtain ⟨rest, rfl⟩ := I.trails.head key tr h
    have := hN key (I.trails.mem_keys h List.mem_cons_self)
    omega
  obtain ⟨F, hF⟩ := C72_returns_staged H hu I St (N := D.nodes.length - 1)
    (fun n hn => by have := hN n hn; omega) (tmax := tmax) (by omega) (le_refl (0 : ℝ)) verbose
  exact ⟨F, hF, C72_zero H hu I (by omega) le_rfl hF⟩

example : ∃ F, flStaticEquilibrium (binaryArith 53) StageEx.bent none 6 0 false = .ok F ∧
    ∀ n ∈ F.nodes.keys, Vec.length (imbalance F n) ≤ roundingBound F ((2 : ℝ) ^ 53)⁻¹ n :=
  C72_acyclic (C72_binary 53) double_small StageEx.valid_bent StageEx.acyclic_bent
    (by unfold StageEx.bent Diagram.real Diagram.map; simp only [List.length_map]; decide +kernel) false

/-! ## Growing precision -/

/-- Positions `P`, incoming trail vectors `T` and outgoing ones `r` that one more round
with the arithmetic `A` nearly reproduces: node `n` uses the positions `Q n`. -/
structure FlSettled (A : Arith ℝ) (D : Diagram ℝ) (delta : ℝ) (P T r : Int → Vec ℝ)
    (Q : Int → Int → Vec ℝ) : Prop where
  self : ∀ n ∈ D.nodes.keys, Q n n = P n
  near : ∀ n ∈ D.nodes.keys, ∀ m ∈ D.nodes.keys, Vec.dist (Q n m) (P m) ≤ delta
  out : ∀ n ∈ D.nodes.keys, r n = flOut A D true (Q n) (T n) n
  next : ∀ n ∈ D.nodes.keys, ∀ m, trailNext D n = some m →
    P m = A.vadd (P n) (A.vscale (flEffectiveLength A (edgeData D n m) (P n) (r n)) (A.vnormalize (r n))) ∧
    T m = r n
  start : ∀ m ∈ D.nodes.keys, (∀ a, trailNext D a ≠ some m) → P m = posOf D m ∧ T m = 0

/-- A form that one more round nearly reproduces. -/
structure FlSettledForm (A : Arith ℝ) (D F : Diagram ℝ) (delta : ℝ) (s : EqState ℝ) (r : Int → Vec ℝ) :
    Prop where
  form : F = flFormOf A D s
  final : ∃ ind p Q, FlFinalSpec A D none ind p s r Q
  settled : ∃ Q, FlSettled A D delta s.pos s.res r Q

theorem fl_settled_direct {A : Arith ℝ} {D : Diagram ℝ} (I : ValidInput D) (hd : DirectOnly D)
    {tmax : Nat} {eta : ℝ} {verbose : Bool} {F : Diagram ℝ}
    (h : flStaticEquilibrium A D none tmax eta verbose = .ok F) :
    ∃ q : EqState ℝ × (Int → Vec ℝ), FlSettledForm A D F 0 q.1 q.2 := by
  obtain ⟨ind, p, s, r, Q, hF, S, _⟩ := fl_returned I (by simp) h
  have w := I.wf
  have hnx : ∀ a, nxtK D none a = trailNext D a := nxtK_none w I.trails
  refine ⟨(s, r), hF, ⟨ind, p, Q, S⟩, fun _ => s.pos, ⟨fun _ _ => rfl, fun _ _ _ _ => ?_, fun n hn => ?_,
    fun n hn m hm => ?_, fun m hm hx => ?_⟩⟩
  · unfold Vec.dist; rw [sub_self, Vec.length_zero]
  · simp only
    rw [S.out n hn]
    unfold flOut
    rw [indNbrs_direct hd, fl_devSum_congr (l := dirNbrs D n) (S.seen n hn n le_rfl) fun m hm => by
      obtain ⟨_, h2⟩ := List.mem_filter.1 hm
      simp only [decide_eq_true_eq] at h2
      exact S.seen n hn m (by unfold rankOf; rw [h2.2])]
    simp [flDevSum]
  · obtain ⟨h1, h2, _⟩ := S.next n hn m (by rw [hnx]; exact hm)
    exact ⟨h1, h2⟩
  · obtain ⟨h1, h2⟩ := S.start m fun a _ => by rw [hnx]; exact hx a
    exact ⟨by rw [h1, start_position], by rw [h2, start_zero I hm]⟩

theorem fl_settled_eta {A : Arith ℝ} {u : ℝ} (H : Precise A u) (hu : u ≤ 1 / 100) {D : Diagram ℝ}
    (I : ValidInput D) {tmax : Nat} (ht : 2 ≤ tmax) {eta : ℝ} {verbose : Bool} {F : Diagram ℝ}
    (h : flStaticEquilibrium A D none tmax eta verbose = .ok F) :
    ∃ q : EqState ℝ × (Int → Vec ℝ),
      FlSettledForm A D F (eta / (1 - u) ^ (D.nodes.length + 4)) q.1 q.2 := by
  obtain ⟨ind, p, s, r, Q, hF, S, h2⟩ := fl_returned I (by simp) h
  obtain ⟨rfl, hres⟩ := h2 ht
  have w := I.wf
  have hnx : ∀ a, nxtK D none a = trailNext D a := nxtK_none w I.trails
  have hlen : s.xyz.length = D.nodes.length := by
    have h1 : s.xyz.keys.length = D.nodes.keys.length := by rw [S.keys.1]
    simpa [Dict.keys] using h1
  have hd : ∀ m ∈ D.nodes.keys, Vec.dist (p.pos m) (s.pos m) ≤ eta / (1 - u) ^ (D.nodes.length + 4) :=
    fun m hm => fl_dist_le H hu hlen hres (by rw [S.keys.1]; exact hm)
  refine ⟨(s, r), hF, ⟨true, p, Q, S⟩, Q, ⟨fun n hn => S.seen n hn n le_rfl, fun n hn m hm => ?_, S.out,
    fun n hn m hm => ?_, fun m hm hx => ?_⟩⟩
  · rcases S.seen_any n hn m with e | e
    · rw [e]; exact hd m hm
    · rw [e]
      refine le_trans (le_of_eq ?_) ((dist_nonneg _ _).trans (hd m hm))
      unfold Vec.dist; rw [sub_self, Vec.length_zero]
  · obtain ⟨h1, h2, _⟩ := S.next n hn m (by rw [hnx]; exact hm)
    exact ⟨h1, h2⟩
  · obtain ⟨h1, h2⟩ := S.start m fun a _ => by rw [hnx]; exact hx a
    exact ⟨by rw [h1, start_position], by rw [h2, start_zero I hm]⟩

/-- What is nearly settled approaches what is settled. -/
theorem approach_all {A : ℕ → Arith ℝ} {u : ℕ → ℝ} (H : Refines A u) {D : Diagram ℝ} (I : ValidInput D)
    (hA : Acyclic D) {delta : ℕ → ℝ} (hdl : Tendsto delta atTop (𝓝 0))
    {P T r : ℕ → Int → Vec ℝ} {P0 T0 r0 : Int → Vec ℝ}
    (hS : ∀ᶠ j in atTop, ∃ Q, FlSettled (A j) D (delta j) (P j) (T j) (r j) Q)
    (h0 : Settled D P0 T0 r0) (hr : Firm D P0 r0) :
    ∀ n ∈ D.nodes.keys, Approaches (fun j => P j n) (P0 n) ∧ Approaches (fun j => r j n) (r0 n) := by
  have w := I.wf
  have W := I.trails
  obtain ⟨Q, hQ⟩ := hS.choice
  have congr : ∀ {a b : ℕ → Vec ℝ} {v : Vec ℝ}, Approaches a v → (∀ᶠ j in atTop, b j = a j) →
      Approaches b v := by
    intro a b v h e
    exact Tendsto.congr' (e.mono fun j hj => by simp only [hj]) h
  have hout : ∀ n ∈ D.nodes.keys, Approaches (fun j => P j n) (P0 n) → Approaches (fun j => T j n) (T0 n) →
      (∀ m ∈ D.neighbors n, (edgeData D n m).type = .deviation → Approaches (fun j => P j m) (P0 m)) →
      Approaches (fun j => r j n) (r0 n) := by
    intro n hn hP hT hd
    have e : outVec D true P0 (T0 n) n = r0 n := by
      rw [h0.out n hn]; unfold outVec; rw [if_pos rfl]
    rw [← e]
    have hnb : ∀ m ∈ D.neighbors n, (edgeData D n m).type = .deviation →
        Approaches (fun j => Q j n m) (P0 m) ∧ P0 m ≠ P0 n := by
      intro m hm hty
      refine ⟨Refines.near (hd m hm hty) hdl (hQ.mono fun j hj => ?_), hr.apart n m hm hty⟩
      exact hj.near n hn m (mem_keys_of_nbr w hm).1
    refine congr (H.out (D := D) (Q := fun j => Q j n) hT (congr hP (hQ.mono fun j hj => hj.self n hn))
      (fun m hm => ?_) fun m hm => ?_) (hQ.mono fun j hj => hj.out n hn)
    · obtain ⟨h1, h2⟩ := List.mem_filter.1 hm
      simp only [decide_eq_true_eq] at h2
      exact hnb m h1 h2.1
    · obtain ⟨h1, h2⟩ := List.mem_filter.1 hm
      simp only [decide_eq_true_eq] at h2
      exact hnb m h1 h2.1
  have hPT : ∀ (c : Nat) (n : Int), (needed D n).card = c → n ∈ D.nodes.keys →
      Approaches (fun j => P j n) (P0 n) ∧ Approaches (fun j => T j n) (T0 n) := by
    intro c
    induction c using Nat.strong_induction_on with
    | _ c ih =>
      intro n hc hn
      by_cases hex : ∃ a, trailNext D a = some n
      · obtain ⟨a, ha⟩ := hex
        have hf : Follows D a n := (trailNext_iff w W).1 ha
        have hak := (Follows.mem W hf).1
        obtain ⟨pa, ta⟩ := ih _ (by rw [← hc]; exact needed_lt I hA ⟨a, hf, Or.inl rfl⟩) a rfl hak
        have ra := hout a hak pa ta fun m hm hty => by
          refine (ih _ (by
            rw [← hc]
            exact needed_lt I hA ⟨a, hf, Or.inr ⟨_, (edgeBetween_iff I.simple).2 ⟨hm, rfl⟩, hty⟩⟩)
            m rfl (mem_keys_of_nbr w hm).1).1
        have hv := hr.trail a n ha
        obtain ⟨e1, e2⟩ := h0.next a hak n ha
        rw [normalize_eq_unit] at e1
        rw [e1, e2]
        exact ⟨congr (H.vadd pa (H.vscale (H.effectiveLength (edgeData D a n) pa ra hv
          fun o N => hr.plane a n o N ha) (H.vnormalize ra hv)))
          (hQ.mono fun j hj => (hj.next a hak n ha).1), congr ra (hQ.mono fun j hj => (hj.next a hak n ha).2)⟩
      · have hx : ∀ a, trailNext D a ≠ some n := fun a ha => hex ⟨a, ha⟩
        obtain ⟨e1, e2⟩ := h0.start n hn hx
        rw [e1, e2]
        exact ⟨congr (Approach.const _) (hQ.mono fun j hj => (hj.start n hn hx).1),
          congr (Approach.const _) (hQ.mono fun j hj => (hj.start n hn hx).2)⟩
  exact fun n hn => ⟨(hPT _ n rfl hn).1, hout n hn (hPT _ n rfl hn).1 (hPT _ n rfl hn).2 fun m hm _ =>
    (hPT _ m rfl (mem_keys_of_nbr w hm).1).1⟩

/-- The force of an edge of a form found with any arithmetic. -/
theorem fl_forceAt {A : Arith ℝ} {D : Diagram ℝ} {ind : Bool} {p s : EqState ℝ} {r : Int → Vec ℝ}
    {Q : Int → Int → Vec ℝ} (S : FlFinalSpec A D none ind p s r Q) {e : Int × Int} {d : EdgeData ℝ}
    (hd : D.edges.get? e = some d) :
    forceAt (flFormOf A D s) e = (s.trailForces.get? e).getD d.force := by
  unfold forceAt
  rw [fl_formOf_edge S, hd]
  simp only [Option.map_some, Option.getD_some]
  exact (fl_signedLength_force _ _ _).1

/-- Forms that one more round nearly reproduces approach the one that is reproduced. -/
theorem approach_form {A : ℕ → Arith ℝ} {u : ℕ → ℝ} (H : Refines A u) {D : Diagram ℝ} (I : ValidInput D)
    (hl : NonzeroTrails D) (hA : Acyclic D) {delta : ℕ → ℝ} (hdl : Tendsto delta atTop (𝓝 0))
    {F : ℕ → Diagram ℝ} {G : Diagram ℝ}
    (hS : ∀ᶠ j in atTop, ∃ q : EqState ℝ × (Int → Vec ℝ), FlSettledForm (A j) D (F j) (delta j) q.1 q.2)
    (hG : ∃ q : EqState ℝ × (Int → Vec ℝ), SettledForm D G q.1 q.2)
    (hf : TrailsCarry G) (hX : Distinct D G) : FormsApproach D F G := by
  have w := I.wf
  obtain ⟨q, hq⟩ := hS.choice
  obtain ⟨⟨s0, r0⟩, h0⟩ := hG
  have R := regular_of I hl h0 hf hX
  have M := approach_all H I hA hdl (P := fun j => (q j).1.pos) (T := fun j => (q j).1.res)
    (r := fun j => (q j).2) (hq.mono fun j hj => hj.settled) h0.settled R
  have congr : ∀ {a b : ℕ → Vec ℝ} {v : Vec ℝ}, Approaches a v → (∀ᶠ j in atTop, b j = a j) →
      Approaches b v := by
    intro a b v h e
    exact Tendsto.congr' (e.mono fun j hj => by simp only [hj]) h
  have hG' := h0
  obtain ⟨rfl, ⟨ind, p, Q, S⟩, -⟩ := hG'
  refine ⟨?_, ?_, fun n => ?_, fun n hn => ?_, fun n hn => ?_, fun e he => ?_⟩
  · rw [show (formOf D s0).nodes.keys = D.nodes.keys from formNodes_keys _ _]
  · rw [show (formOf D s0).edges.keys = D.edges.keys from formEdges_keys _ _]
  · exact loadAt_form w S n
  · rw [posOf_form w S]
    refine congr (M n hn).1 (hq.mono fun j hj => ?_)
    obtain ⟨e, ⟨_, _, _, S'⟩, -⟩ := hj
    rw [e, fl_posOf_form w S']
  · rw [reactionAt_form w S I.reaction hn]
    have e : ∀ᶠ j in atTop, reactionAt (F j) n = if nxtK D none n = none then (q j).2 n else 0 := by
      refine hq.mono fun j hj => ?_
      obtain ⟨e, ⟨_, _, _, S'⟩, -⟩ := hj
      rw [e, fl_reactionAt_form w S' I.reaction hn]
    refine congr ?_ e
    split_ifs
    · exact (M n hn).2
    · exact Approach.const 0
  · obtain ⟨d, hd⟩ := (Dict.exists_get?_iff _ _).2 he
    cases ht : d.type with
    | untyped => exact absurd ht (I.typed _ _ hd)
    | trail =>
      obtain ⟨a, b, hn, rfl⟩ := trail_ends I hd ht
      have ha := (Follows.mem I.trails ((trailNext_iff w I.trails).1 hn)).1
      have hnx : nxtK D none a = some b := by rw [nxtK_none w I.trails]; exact hn
      obtain ⟨e1, e2⟩ := edgeData_trail w I.trails I.simple hn
      obtain ⟨d0, f1, f2, f3⟩ := settled_edge I h0 hn
      have e0 : forceAt (formOf D s0) (edgeKey D a b) =
          CEM.copysign (Vec.length (r0 a)) (CEM.effectiveLength (edgeData D a b) (s0.pos a) (r0 a)) := by
        unfold forceAt; rw [f1]; exact f3
      rw [e0]
      have hv := R.trail a b hn
      refine (Refines.copysign (H.vlength (M a ha).2) (H.effectiveLength (edgeData D a b) (M a ha).1
        (M a ha).2 hv fun o N => R.plane a b o N hn)
        (effectiveLength_ne_zero (hl _ _ e1 e2) _ _)).congr' (hq.mono fun j hj => ?_)
      obtain ⟨e, ⟨_, _, _, S'⟩, -⟩ := hj
      simp only
      rw [e, fl_forceAt S' hd, (S'.next a ha b hnx).2.2.1]
      rfl
    | deviation =>
      have hnot : ∀ a ∈ D.nodes.keys, ∀ m, nxtK D none a = some m → edgeKey D a m ≠ e := by
        intro a _ m hm hk
        obtain ⟨e1, e2⟩ := edgeData_trail w I.trails I.simple (nxtK_trail hm)
        rw [hk, hd] at e1
        rw [← Option.some.inj e1, ht] at e2
        cases e2
      have e0 : forceAt (formOf D s0) e = d.force := by
        unfold forceAt
        rw [formOf_edge S, hd, S.force e hnot]
        simp only [Option.map_some, Option.getD_some, Option.getD_none]
        exact (signedLength_force _ _ _).1
      rw [e0]
      refine tendsto_const_nhds.congr' (hq.mono fun j hj => ?_)
      obtain ⟨e, ⟨_, _, _, S'⟩, -⟩ := hj
      simp only
      rw [e, fl_forceAt S' hd, S'.force _ hnot]
      rfl

/-- C73. Without feedback, when the errors of the arithmetic and the thresholds approach
zero, the forms approach the exact one, if no plane, direction or force is on a border. -/
theorem C73_converges {D : Diagram ℝ} (I : ValidInput D) (hl : NonzeroTrails D) (hA : Acyclic D)
    {A : ℕ → Arith ℝ} {u : ℕ → ℝ} (H : ∀ j, Precise (A j) (u j)) (hu : Tendsto u atTop (𝓝 0))
    {eta : ℕ → ℝ} (he : Tendsto eta atTop (𝓝 0)) {tmax : ℕ → Nat} (ht : ∀ j, 2 ≤ tmax j)
    {verbose : ℕ → Bool} {F : ℕ → Diagram ℝ}
    (h : ∀ j, flStaticEquilibrium (A j) D none (tmax j) (eta j) (verbose j) = .ok (F j))
    {t : Nat} (h2 : 2 ≤ t) {v : Bool} {G : Diagram ℝ} (hG : staticEquilibrium D none t 0 v = .ok G)
    (hf : TrailsCarry G) (hX : Distinct D G) : FormsApproach D F G := by
  have R : Refines A u := ⟨H, hu⟩
  refine approach_form R I hl hA (delta := fun j => eta j / (1 - u j) ^ (D.nodes.length + 4)) ?_
    (R.eventually_le.mono fun j hj => fl_settled_eta (H j) hj I (ht j) (h j))
    (settled_zero I h2 le_rfl hG) hf hX
  have h1 : Tendsto (fun j => (1 - u j) ^ (D.nodes.length + 4)) atTop (𝓝 1) := by
    have := (hu.const_sub 1).pow (D.nodes.length + 4)
    simpa using this
  have := he.div h1 one_ne_zero
  rw [zero_div] at this
  exact this

/-- C73. The same without indirect deviation edges, with any thresholds. -/
theorem C73_converges_direct {D : Diagram ℝ} (I : ValidInput D) (hl : NonzeroTrails D) (hd : DirectOnly D)
    {A : ℕ → Arith ℝ} {u : ℕ → ℝ} (H : ∀ j, Precise (A j) (u j)) (hu : Tendsto u atTop (𝓝 0))
    {eta : ℕ → ℝ} {tmax : ℕ → Nat} {verbose : ℕ → Bool} {F : ℕ → Diagram ℝ}
    (h : ∀ j, flStaticEquilibrium (A j) D none (tmax j) (eta j) (verbose j) = .ok (F j))
    {t : Nat} {eta' : ℝ} {v : Bool} {G : Diagram ℝ} (hG : staticEquilibrium D none t eta' v = .ok G)
    (hf : TrailsCarry G) (hX : Distinct D G) : FormsApproach D F G :=
  approach_form ⟨H, hu⟩ I hl (acyclic_of_direct I hd) (delta := fun _ => 0) tendsto_const_nhds
    (Eventually.of_forall fun j => fl_settled_direct I hd (h j)) (settled_direct I hd hG) hf hX

/-- `IEEE` precision has arbitrarily small errors when digits are added. -/
theorem binary_refines : Tendsto (fun p : ℕ => ((2 : ℝ) ^ p)⁻¹) atTop (𝓝 0) := by
  have := tendsto_pow_atTop_nhds_zero_of_lt_one (r := (2 : ℝ)⁻¹) (by norm_num) (by norm_num)
  simpa only [inv_pow] using this

open TieEx in
/-- Forms found with more and more digits approach the exact one, also with an indirect
deviation edge. -/
example : ∃ (F : ℕ → Diagram ℝ) (G : Diagram ℝ),
    (∀ j, flStaticEquilibrium (binaryArith (j + 7)) (tie 3 3 4) none 5 0 false = .ok (F j)) ∧
    staticEquilibrium (tie 3 3 4) none 5 0 false = .ok G ∧ FormsApproach (tie 3 3 4) F G := by
  obtain ⟨G, hG, hc, hX⟩ := tie_found
  have hp : ∀ j : ℕ, ((2 : ℝ) ^ (j + 7))⁻¹ ≤ 1 / 100 := by
    intro j
    rw [inv_eq_one_div]
    apply one_div_le_one_div_of_le (by norm_num)
    calc (100 : ℝ) ≤ 2 ^ 7 := by norm_num
      _ ≤ 2 ^ (j + 7) := pow_le_pow_right₀ (by norm_num) (by omega)
  choose F hF _ using fun j : ℕ => C72_acyclic (C72_binary (j + 7)) (hp j) (valid_tie 3 4 (Or.inr rfl))
    (acyclic_tie 3 4) (tmax := 5) (by change 5 ≤ 5; norm_num) false
  refine ⟨F, G (3, 4), hF, hG (3, 4), ?_⟩
  exact C73_converges (valid_tie 3 4 (Or.inr rfl)) (nonzero_tie 3 4) (acyclic_tie 3 4)
    (fun j => C72_binary (j + 7)) ((tendsto_add_atTop_iff_nat 7).2 binary_refines) tendsto_const_nhds
    (fun _ => by norm_num) hF (by norm_num) (hG (3, 4)) hc hX

namespace CancelEx
open TieEx

/-- Two trails whose loads cancel the forces of the deviation edge between them. -/
noncomputable def cancel : Diagram ℝ := { tie 2 1 0 with
  nodes := [(0, ⟨⟨0, 0, 0⟩, ⟨-1, 0, 0⟩, ⟨0, 0, 0⟩, some 0, .origin⟩),
    (1, ⟨⟨2, 0, 0⟩, ⟨0, 0, 0⟩, ⟨0, 0, 0⟩, some 1, .support⟩),
    (2, ⟨⟨1, 0, 0⟩, ⟨1, 0, 0⟩, ⟨0, 0, 0⟩, some 0, .origin⟩),
    (3, ⟨⟨3, 0, 0⟩, ⟨0, 0, 0⟩, ⟨0, 0, 0⟩, some 1, .support⟩)] }

theorem cancel_nodes (n : Int) : cancel.nodes.get? n =
    if n = 0 then some ⟨⟨0, 0, 0⟩, ⟨-1, 0, 0⟩, ⟨0, 0, 0⟩, some 0, .origin⟩
    else if n = 1 then some ⟨⟨2, 0, 0⟩, ⟨0, 0, 0⟩, ⟨0, 0, 0⟩, some 1, .support⟩
    else if n = 2 then some ⟨⟨1, 0, 0⟩, ⟨1, 0, 0⟩, ⟨0, 0, 0⟩, some 0, .origin⟩
    else if n = 3 then some ⟨⟨3, 0, 0⟩, ⟨0, 0, 0⟩, ⟨0, 0, 0⟩, some 1, .support⟩ else none := by
  simp only [cancel, Dict.get?, eq_comm (b := n)]

theorem same_cancel : SameExcept (fun _ => True) (tie 2 1 0) cancel := by
  refine ⟨rfl, rfl, ?_, ?_, rfl, rfl, rfl, rfl, rfl, rfl⟩
  · intro n d d' h h'
    rw [tie_nodes] at h
    rw [cancel_nodes] at h'
    split_ifs at h h' <;> simp at h h' <;> subst h <;> subst h' <;> simp
  · intro e d d' h h'
    rw [show cancel.edges = (tie 2 1 0).edges from rfl, h] at h'
    cases h'
    simp

theorem valid_cancel : ValidInput cancel := validInput_same same_cancel (valid_tie 1 0 (Or.inl rfl))
theorem direct_cancel : DirectOnly cancel := directOnly_same same_cancel (direct_tie 1 0)
theorem nonzero_cancel : NonzeroTrails cancel := fun e d => nonzero_tie (c := 2) 1 0 e d

theorem cancel_facts : trailNext cancel 0 = some 1 ∧ (∀ a, trailNext cancel a ≠ some 0) ∧
    (∀ a, trailNext cancel a ≠ some 2) ∧ edgeData cancel 0 1 = ⟨.trail, -5, 0, none⟩ ∧
    edgeData cancel 0 2 = ⟨.deviation, 0, 1, none⟩ ∧ dirNbrs cancel 0 = [2] ∧ indNbrs cancel 0 = [] ∧
    loadOf cancel 0 = ⟨-1, 0, 0⟩ ∧ posOf cancel 0 = 0 ∧ posOf cancel 2 = ⟨1, 0, 0⟩ ∧
    (0 : Int) ∈ cancel.nodes.keys ∧ (2 : Int) ∈ cancel.nodes.keys := by
  obtain ⟨x0, _, x3, x4⟩ := tie_next 1 0 (c := 2) (Or.inl rfl)
  obtain ⟨d1, _, d3, _⟩ := tie_data 1 0 (c := 2) (Or.inl rfl)
  have d1' : edgeData cancel 0 1 = ⟨.trail, -5, 0, none⟩ := d1
  have d3' : edgeData cancel 0 2 = ⟨.deviation, 0, 1, none⟩ := d3
  have hnb : cancel.neighbors 0 = [1, 2] := (tie_nbrs 1 0).1
  have sq : seqOf cancel 0 = some 0 ∧ seqOf cancel 2 = some 0 := by
    unfold seqOf; simp [cancel_nodes]
  refine ⟨?_, ?_, ?_, d1', d3', ?_, ?_, ?_, ?_, ?_, ?_, ?_⟩
  · rw [trailNext_shape same_cancel]; exact x0
  · intro a; rw [trailNext_shape same_cancel]; exact x3 a
  · intro a; rw [trailNext_shape same_cancel]; exact x4 a
  · unfold dirNbrs; rw [hnb]; simp [d1', d3', sq]
  · unfold indNbrs; rw [hnb]; simp [d1', d3', sq]
  · unfold loadOf; simp [cancel_nodes]
  · unfold posOf; simp [cancel_nodes]; rfl
  · unfold posOf; simp [cancel_nodes]
  · simp [cancel, Dict.keys]
  · simp [cancel, Dict.keys]

/-- Exactly, the first trail edge carries no force and shrinks to a point. -/
theorem cancel_exact {F : Diagram ℝ} {tmax : Nat} {eta : ℝ}
    (h : staticEquilibrium cancel none tmax eta false = .ok F) :
    posOf F 0 = 0 ∧ posOf F 1 = 0 ∧ posOf F 2 = ⟨1, 0, 0⟩ := by
  obtain ⟨⟨s, r⟩, S⟩ := settled_direct valid_cancel direct_cancel h
  obtain ⟨f1, f2, f3, f4, f5, f6, f7, f8, f9, f10, k0, k2⟩ := cancel_facts
  obtain ⟨p0, t0⟩ := S.settled.start 0 k0 f2
  obtain ⟨p2, _⟩ := S.settled.start 2 k2 f3
  have o := S.settled.out 0 k0
  have u1 : unit (⟨1, 0, 0⟩ : Vec ℝ) = ⟨1, 0, 0⟩ := by
    have : Vec.length (⟨1, 0, 0⟩ : Vec ℝ) = 1 := by simp [Vec.length_def, Vec.dot]
    unfold unit; rw [this]; simp
  rw [f6, f7, f8, t0] at o
  simp only [devSum, List.map_cons, List.map_nil, List.sum_cons, List.sum_nil, devTerm_real] at o
  rw [f5, p0, p2, f9, f10, sub_zero (⟨1, 0, 0⟩ : Vec ℝ), u1] at o
  have hr : r 0 = 0 := by simp only at o; rw [o]; ext <;> simp
  obtain ⟨p1, _⟩ := S.settled.next 0 k0 1 f1
  simp only at p0 p1 p2
  rw [normalize_eq_unit, hr, unit_zero, smul_zero, add_zero, p0, f9] at p1
  obtain ⟨eF, ⟨ind, p, Q, G⟩, -⟩ := S
  rw [eF, posOf_form valid_cancel.wf G, posOf_form valid_cancel.wf G, posOf_form valid_cancel.wf G]
  exact ⟨by rw [p0, f9], p1, by rw [p2, f10]⟩

/-- With rounding it carries a small force and keeps its length. -/
theorem cancel_rounded {u : ℝ} (h0 : 0 < u) {F : Diagram ℝ} {tmax : Nat} {eta : ℝ}
    (h : flStaticEquilibrium (longArith u) cancel none tmax eta false = .ok F) :
    posOf F 1 = ⟨-5 / (1 + u), 0, 0⟩ := by
  obtain ⟨⟨s, r⟩, S⟩ := fl_settled_direct valid_cancel direct_cancel h
  obtain ⟨f1, f2, f3, f4, f5, f6, f7, f8, f9, f10, k0, k2⟩ := cancel_facts
  obtain ⟨eF, ⟨ind, p, Q, G⟩, Q', S'⟩ := S
  obtain ⟨p0, t0⟩ := S'.start 0 k0 f2
  obtain ⟨p2, _⟩ := S'.start 2 k2 f3
  have hu1 : (1 + u) ≠ 0 := by linarith
  have hl : ∀ c : ℝ, (longArith u).vlength ⟨c, 0, 0⟩ = (1 + u) * |c| := by
    intro c
    simp [Arith.vlength, Arith.vdot, longArith, Arith.exact, Real.sqrt_mul_self_eq_abs]
  have hnrm : ∀ c : ℝ, 0 < c → (longArith u).vnormalize ⟨c, 0, 0⟩ = ⟨1 / (1 + u), 0, 0⟩ := by
    intro c hc
    unfold Arith.vnormalize
    rw [hl, abs_of_pos hc, if_neg (mul_ne_zero hu1 hc.ne')]
    ext
    · simp only [longArith, Arith.exact]; field_simp
    · simp [longArith, Arith.exact]
    · simp [longArith, Arith.exact]
  have o := S'.out 0 k0
  have q0 : Q' 0 0 = 0 := by rw [S'.self 0 k0, p0, f9]
  have q2 : Q' 0 2 = ⟨1, 0, 0⟩ := by
    have := S'.near 0 k0 2 k2
    rw [p2, f10] at this
    exact sub_eq_zero.1 (Vec.length_eq_zero.1 (le_antisymm this (Vec.length_nonneg _)))
  have hsub : (longArith u).vsub ⟨1, 0, 0⟩ 0 = ⟨1, 0, 0⟩ := by
    ext <;> simp [Arith.vsub, longArith, Arith.exact]
  unfold flOut at o
  rw [f6, f7, f8, t0] at o
  simp only [flDevSum, List.foldl_cons, List.foldl_nil] at o
  rw [f5, q0, q2, hsub, hnrm 1 one_pos] at o
  have hr : r 0 = ⟨1 - 1 / (1 + u), 0, 0⟩ := by
    simp only at o
    rw [o]
    simp only [flTrailVectorOut, Arith.vadd, Arith.vscale, longArith, Arith.exact, if_true]
    ext <;> simp
    ring
  have hpos : 0 < 1 - 1 / (1 + u) := by
    rw [sub_pos, div_lt_one (by linarith)]; linarith
  obtain ⟨p1, _⟩ := S'.next 0 k0 1 f1
  simp only at p0 p1
  have hel : flEffectiveLength (longArith u) ⟨.trail, -5, 0, none⟩ (s.pos 0) (r 0) = -5 := rfl
  rw [f4, hel, hr, hnrm _ hpos, p0, f9] at p1
  rw [eF, fl_posOf_form valid_cancel.wf G]
  simp only
  rw [p1]
  ext <;> simp [Arith.vadd, Arith.vscale, longArith, Arith.exact]
  ring

end CancelEx

open CancelEx in
/-- C73. It matters that the trail edges of the exact form carry forces: forms found with
growing precision can stay away from an exact form in which a force vanishes. -/
theorem C73_border : ∃ (D G : Diagram ℝ) (A : ℕ → Arith ℝ) (u : ℕ → ℝ) (F : ℕ → Diagram ℝ),
    ValidInput D ∧ NonzeroTrails D ∧ DirectOnly D ∧ (∀ j, Precise (A j) (u j)) ∧
    Tendsto u atTop (𝓝 0) ∧ (∀ j, flStaticEquilibrium (A j) D none 100 0 false = .ok (F j)) ∧
    staticEquilibrium D none 100 0 false = .ok G ∧ Distinct D G ∧ ¬ FormsApproach D F G := by
  have hp : ∀ j : ℕ, (0 : ℝ) < 1 / ((j : ℝ) + 100) := fun j => by positivity
  have hs : ∀ j : ℕ, 1 / ((j : ℝ) + 100) ≤ 1 / 100 := fun j =>
    one_div_le_one_div_of_le (by norm_num) (by linarith [Nat.cast_nonneg (α := ℝ) j])
  choose F hF using fun j : ℕ => C72_returns_direct (rounds_long (hp j).le) (hs j) valid_cancel
    direct_cancel (show 1 ≤ 100 by norm_num) (le_refl (0 : ℝ))
  obtain ⟨G, hG⟩ := C20_returns_without_indirect valid_cancel direct_cancel (show 1 ≤ 100 by norm_num)
    (le_refl (0 : ℝ))
  obtain ⟨g0, g1, g2⟩ := cancel_exact hG
  refine ⟨cancel, G, fun j => longArith (1 / ((j : ℝ) + 100)), fun j => 1 / ((j : ℝ) + 100), F, valid_cancel,
    nonzero_cancel, direct_cancel, fun j => rounds_long (hp j).le, ?_, hF, hG, ⟨?_, ?_⟩, fun hc => ?_⟩
  · have := tendsto_const_div_atTop_nhds_zero_nat (1 : ℝ)
    have := (tendsto_add_atTop_iff_nat 100).2 this
    refine this.congr fun j => ?_
    push_cast
    rfl
  · intro e d hd ht
    have hd' : (TieEx.tie 2 1 0).edges.get? e = some d := hd
    rw [TieEx.tie_edges] at hd'
    split_ifs at hd' with h1 h2 h3 <;> simp at hd' <;> subst hd' <;> simp at ht
    subst h3
    simp only
    rw [g0, g2]
    intro h
    simpa using congrArg Vec.x h
  · intro a b d o N _ hb hpl
    have hb' : EdgeBetween (TieEx.tie 2 1 0) a b d := hb
    unfold EdgeBetween at hb'
    rw [TieEx.tie_edges, TieEx.tie_edges] at hb'
    rcases hb' with h | h <;> split_ifs at h <;> simp at h <;> subst h <;> simp at hpl
  · have h1 := hc.positions 1 (by simp [cancel, Dict.keys])
    obtain ⟨j, hj⟩ := ((h1.eventually_lt_const (show (0 : ℝ) < 4 by norm_num))).exists
    simp only at hj
    rw [g1, cancel_rounded (hp j) (hF j)] at hj
    unfold Vec.dist at hj
    rw [sub_zero, Vec.length_def, Vec.dot] at hj
    simp only [mul_zero, add_zero, Real.sqrt_mul_self_eq_abs] at hj
    rw [abs_of_neg (div_neg_of_neg_of_pos (by norm_num) (by linarith [hp j])), neg_div, neg_neg,
      div_lt_iff₀ (by linarith [hp j])] at hj
    linarith [hs j]

end Props
end CEM
