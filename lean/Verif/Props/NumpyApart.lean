import Verif.Spec.Apart
import Verif.Props.NumpyForms
import Verif.Props.Symmetry

/-!
# When the numpy solver cannot return NaN (C92)
-/

set_option linter.unusedSectionVars false
set_option linter.unusedSimpArgs false

namespace CEM
namespace Props
open Diagram Spec

theorem apart_of_reach {D : Diagram ℝ} (I : ValidInput D) (hA : KeptApart D) {e : Int × Int} {d : EdgeData ℝ}
    (he : D.edges.get? e = some d) (ht : d.type = .deviation) {x y : Vec ℝ}
    (hx : ∀ key tr l q, (key, tr) ∈ D.trails → tr = l ++ e.1 :: q → Vec.dist x (posOf D key) ≤ walked D (l ++ [e.1]))
    (hy : ∀ key tr l q, (key, tr) ∈ D.trails → tr = l ++ e.2 :: q → Vec.dist y (posOf D key) ≤ walked D (l ++ [e.2])) :
    x ≠ y := by
  rintro rfl
  have hm := Dict.mem_keys_of_get? he
  obtain ⟨⟨ka, ta⟩, h1, m1⟩ := List.mem_flatMap.1 (I.trails.partition.mem_iff.2 (I.wf.edge_left e hm))
  obtain ⟨⟨kb, tb⟩, h2, m2⟩ := List.mem_flatMap.1 (I.trails.partition.mem_iff.2 (I.wf.edge_right e hm))
  simp only at m1 m2
  obtain ⟨la, qa, rfl⟩ := List.append_of_mem m1
  obtain ⟨lb, qb, rfl⟩ := List.append_of_mem m2
  have h3 := hA e d he ht ka la qa kb lb qb h1 h2
  have h4 := hx ka _ la qa h1 rfl
  have h5 := hy kb _ lb qb h2 rfl
  have h6 : Vec.dist (posOf D ka) (posOf D kb) ≤ Vec.dist x (posOf D ka) + Vec.dist x (posOf D kb) := by
    have := Vec.length_add_le (posOf D ka - x) (x - posOf D kb)
    rw [sub_add_sub_cancel, Vec.length_sub_comm (posOf D ka) x] at this
    exact this
  linarith

/-- Positions after at least one sweep are within reach. -/
theorem iter_reach {D : Diagram ℝ} (I : ValidInput D) (hp : NoPlanes D) {L : List Int} (G : GoodSched D none L) (m : Nat)
    {n key : Int} {tr l q : List Int} (htr : (key, tr) ∈ D.trails) (hl : tr = l ++ n :: q) :
    Vec.dist ((iter D none L (m + 1)).pos n) (posOf D key) ≤ walked D (l ++ [n]) := by
  have S := finalSpec_sched I.wf I.trails G m
  have := computed_reach I ⟨_, _, _, _, _, rfl, S⟩ htr hp hl
  rwa [posOf_form I.wf S] at this

/-- Nothing is divided by zero in any sweep. -/
theorem clean_of_apart {D : Diagram ℝ} (I : ValidInput D) (hp : NoPlanes D) (hA : KeptApart D) {L : List Int}
    (G : GoodSched D none L) (m : Nat) :
    ∀ n ∈ L, Clean D (nxtK D none) (decide (m ≠ 0))
      (stateAt D (nxtK D none) (decide (m ≠ 0)) L (iter D none L m) n) n := by
  have S := finalSpec_sched I.wf I.trails G m
  intro n hn
  have hk := (G.mem n).1 hn
  refine ⟨fun b hb => ?_, fun b hb hpl => ?_⟩
  · have hnb : b ∈ D.neighbors n ∧ (edgeData D n b).type = .deviation := by
      unfold allNbrs at hb
      rcases List.mem_append.1 hb with hb | hb
      · have := List.mem_filter.1 hb
        simp only [decide_eq_true_eq] at this
        exact ⟨this.1, this.2.1⟩
      · split_ifs at hb
        · have := List.mem_filter.1 hb
          simp only [decide_eq_true_eq] at this
          exact ⟨this.1, this.2.1⟩
        · simp at hb
    have hQ : ∃ j, (stateAt D (nxtK D none) (decide (m ≠ 0)) L (iter D none L m) n).pos b =
        (iter D none L (j + 1)).pos b := by
      unfold allNbrs at hb
      rcases List.mem_append.1 hb with hb | hb
      · exact ⟨m, S.seen n hk b (rank_dirNbr hb).le⟩
      · split_ifs at hb with hm
        · rcases S.seen_any n hk b with h | h
          · obtain ⟨j, rfl⟩ : ∃ j, m = j + 1 := ⟨m - 1, by simp at hm; omega⟩
            exact ⟨j, h⟩
          · exact ⟨m, h⟩
        · simp at hb
    obtain ⟨j, hj⟩ := hQ
    rw [hj, S.seen n hk n le_rfl]
    intro h0
    have heq := sub_eq_zero.1 (Vec.length_eq_zero.1 h0)
    rcases (edgeBetween_iff I.simple).2 ⟨hnb.1, rfl⟩ with he | he
    · exact apart_of_reach I hA he hnb.2 (fun _ _ _ _ => iter_reach I hp G m) (fun _ _ _ _ => iter_reach I hp G j) heq.symm
    · exact apart_of_reach I hA he hnb.2 (fun _ _ _ _ => iter_reach I hp G j) (fun _ _ _ _ => iter_reach I hp G m) heq
  · exfalso
    rw [nxtK_none I.wf I.trails] at hb
    obtain ⟨key, tr, htr, hc⟩ := (trailNext_iff I.wf I.trails).1 hb
    obtain ⟨d, hd, ht⟩ : ∃ d, EdgeBetween D n b d ∧ d.type = .trail := by
      obtain ⟨l, q, hl⟩ := hc
      have hadj := I.trails.chain key tr htr
      rw [hl] at hadj
      rcases (List.isChain_cons_cons.1 (List.isChain_append.1 hadj).2.1).1 with ⟨d, h, t⟩ | ⟨d, h, t⟩
      · exact ⟨d, Or.inl h, t⟩
      · exact ⟨d, Or.inr h, t⟩
    have h2 := ((edgeBetween_iff I.simple).1 hd).2
    rw [h2] at hpl
    rcases hd with hd | hd
    · exact hpl (hp _ _ hd ht)
    · exact hpl (hp _ _ hd ht)

theorem nIter_apart {D : Diagram ℝ} (I : ValidInput D) (hp : NoPlanes D) (hA : KeptApart D) {L : List Int}
    (G : GoodSched D none L) (m : Nat) : nIter D L m = liftS (iter D none L m) := by
  induction m with
  | zero => exact (liftS_init D).symm
  | succ m ih =>
    rw [nIter, ih]
    have hb : decide (m > 0) = decide (m ≠ 0) := by
      simp only [gt_iff_lt, ne_eq, Nat.pos_iff_ne_zero]
    rw [hb]
    rcases sweep_clean_or_nan (D := D) (ind := decide (m ≠ 0)) G.sched (iter D none L m) with ⟨_, h2⟩ | ⟨h1, _⟩
    · exact h2
    · exact absurd (clean_of_apart I hp hA G m) h1

section
variable {D : Diagram ℝ} (I : ValidInput D) (hp : NoPlanes D) (hA : KeptApart D)
include I hp hA

/-- **C92.**  If the ends of deviation edges are kept apart by prescribed lengths and no trail edge has a plane, no state
of the numpy solver contains NaN, and after every sweep it has all numbers of the plain solver. -/
theorem C92_sweeps :
    ∃ (T : Dict Int (Dict Int Int)) (tab : NTables ℝ) (N : Int) (st : Nat → EqState ℝ)
      (nst : Nat → NState ℝ), D.trailsSequences = .ok T ∧ npTables D = .ok tab ∧
      D.numberOfSequences = .ok N ∧
      (∀ m, sweepsN D T none N m = .ok (st m)) ∧ (∀ m, numpySweeps D tab T N m = .ok (nst m)) ∧
      ∀ m, NoNaN (nst m) ∧ SameNumbers (st m) (nst m) := by
  obtain ⟨T, N, hT, hN, hg, hlt⟩ := goodSeqs_of_valid I.wf I.trails I.nonempty
  obtain ⟨tab, htab, GT⟩ := npTables_ok I.wf fun n hn =>
    let ⟨k, h, _⟩ := allSequenced_of_valid I.trails n hn; ⟨k, h⟩
  have G := goodSched I.wf I.trails hg none hlt
  refine ⟨T, tab, N, iter D none (sched D T N), nIter D (sched D T N), hT, htab, hN,
    fun m => sweepsN_eq I.wf I.trails hg none N m, fun m => numpySweeps_eq I hg GT N m, fun m => ?_⟩
  rw [nIter_apart I hp hA G]
  exact ⟨noNaN_lift _, sameNumbers_lift _⟩

/-- **C92.**  What the numpy solver returns is free of NaN. -/
theorem C92_no_nan {tmax : Nat} {eta : ℝ} {verbose : Bool} {G : Diagram (Num ℝ)}
    (h : staticEquilibriumNumpy D tmax eta verbose = .ok G) : ∃ F : Diagram ℝ, G = F.num := by
  obtain ⟨T, N, hT, hN, hg, hlt⟩ := goodSeqs_of_valid I.wf I.trails I.nonempty
  have GS := goodSched I.wf I.trails hg none hlt
  obtain ⟨b0, b1, b2⟩ := npEquilibriumState_cases I hT hN hg tmax eta verbose
  have close : ∀ m, npEquilibriumState D tmax eta verbose = .ok (nIter D (sched D T N) m) → ∃ F : Diagram ℝ, G = F.num := by
    intro m hm
    unfold staticEquilibriumNumpy at h
    rw [hm] at h
    simp only [Except.ok.injEq] at h
    rw [← h, nIter_apart I hp hA GS]
    exact ⟨_, npForm_lift I _ _⟩
  unfold staticEquilibriumNumpy at h
  rcases Nat.lt_or_ge tmax 2 with ht | ht
  · rcases (by omega : tmax = 0 ∨ tmax = 1) with rfl | rfl
    · rw [b0 rfl] at h; cases h
    · have := b1 rfl
      cases verbose with
      | true => rw [this] at h; cases h
      | false => exact close 1 this
  · obtain ⟨m, _, _, _, _, hm⟩ := b2 ht
    by_cases hgt : (nDist D (sched D T N) m).gt eta = true
    · rw [if_pos hgt] at hm
      rw [hm] at h; cases h
    · rw [if_neg hgt] at hm
      exact close m hm

/-- **C92.**  So it is in equilibrium up to the threshold (without the exception of C78). -/
theorem C92_equilibrium (hl : NonzeroTrails D) {tmax : Nat} (ht : 2 ≤ tmax) {eta : ℝ} {verbose : Bool} {F : Diagram ℝ}
    (h : staticEquilibriumNumpy D tmax eta verbose = .ok F.num) :
    ∀ n ∈ F.nodes.keys, Vec.length (imbalance F n) ≤ nodalBound F eta n := by
  rcases C78_nodal_partial I hl ht h with h | ⟨T', tab', N', s, n, hT', htab', hN', hs, hn⟩
  · exact h
  · obtain ⟨T, tab, N, st, nst, hT, htab, hN, _, h2, h3⟩ := C92_sweeps I hp hA
    rw [hT'] at hT; rw [htab'] at htab; rw [hN'] at hN
    obtain rfl := Except.ok.inj hT
    obtain rfl := Except.ok.inj htab
    obtain rfl := Except.ok.inj hN
    rw [h2] at hs
    obtain rfl := Except.ok.inj hs
    exact absurd hn ((h3 _).1.1 n)

/-- **C92.**  If the plain solver returns a form, the numpy solver returns one too. -/
theorem C92_returns {tmax : Nat} (ht : 2 ≤ tmax) {eta : ℝ} {verbose : Bool} {F : Diagram ℝ}
    (hF : staticEquilibrium D none tmax eta verbose = .ok F) :
    ∃ F' : Diagram ℝ, staticEquilibriumNumpy D tmax eta verbose = .ok F'.num := by
  obtain ⟨T, tab, N, st, nst, hT, htab, hN, _, h2, h3⟩ := C92_sweeps I hp hA
  obtain ⟨_, _, _, _, _, s', _, _, _, _, _, _, _, _, h⟩ := C33_stops_no_later I ht hF (by
    intro T' tab' N' m s hT' htab' hN' _ _ hs
    rw [hT'] at hT; rw [htab'] at htab; rw [hN'] at hN
    obtain rfl := Except.ok.inj hT
    obtain rfl := Except.ok.inj htab
    obtain rfl := Except.ok.inj hN
    rw [h2] at hs
    obtain rfl := Except.ok.inj hs
    exact (h3 _).1)
  exact ⟨_, h⟩

/-- **C92.**  In no form of either solver do the ends of a deviation edge meet. -/
theorem C92_apart {tmax : Nat} {eta : ℝ} {verbose : Bool} {F : Diagram ℝ}
    (h : staticEquilibrium D none tmax eta verbose = .ok F ∨ staticEquilibriumNumpy D tmax eta verbose = .ok F.num)
    {e : Int × Int} {d : EdgeData ℝ} (he : D.edges.get? e = some d) (ht : d.type = .deviation) :
    posOf F e.1 ≠ posOf F e.2 := by
  have hc : Computed D F := h.elim (computed_of_returned I) (computed_of_numpy I)
  exact apart_of_reach I hA he ht (fun _ _ _ _ htr hl => computed_reach I hc htr hp hl)
    (fun _ _ _ _ htr hl => computed_reach I hc htr hp hl)

end

/-! ## Examples -/

namespace MirrorEx
open TrailEx

local instance apartSqrt : PySqrt ℚ := ⟨id⟩

abbrev steppedQ : Diagram ℚ := mirrorQ [dev 2 1, dev 3 2]

theorem stepped_trails : stepped.trails = [(0, [0, 1]), (4, [4, 3]), (2, [2, 5])] := by
  unfold stepped Diagram.real
  rw [map_trails]
  decide +kernel

theorem stepped_pos {n : Int} {p : Vec ℚ} (h : (steppedQ.nodes.get? n).map (·.pos) = some p) :
    posOf stepped n = p.map fun q : ℚ => (q : ℝ) := by
  obtain ⟨q, hq, rfl⟩ := Option.map_eq_some_iff.1 h
  unfold posOf stepped Diagram.real
  rw [map_nodes_get?, hq]
  rfl

theorem stepped_length {a b : Int} (h : steppedQ.edges.get? (a, b) = some ⟨.trail, -1, 0, none⟩) :
    walked stepped [a, b] = 1 := by
  have : stepped.edges.get? (a, b) = some ⟨.trail, -1, 0, none⟩ := by
    unfold stepped Diagram.real
    rw [map_edges_get?, h]
    simp [EdgeData.map]
  simp [walked, lengthBetween, this]

theorem stepped_plane_free : NoPlanes stepped := by
  intro e d hd _
  have hpl : ∀ p ∈ steppedQ.edges, p.2.plane = none := by decide +kernel
  unfold stepped Diagram.real at hd
  rw [map_edges_get?] at hd
  obtain ⟨q, hq, rfl⟩ := Option.map_eq_some_iff.1 hd
  have := hpl _ (Dict.mem_of_get? hq)
  simp only at this
  simp [EdgeData.map, this]

theorem split_pair {a b x : Int} {l q : List Int} (h : [a, b] = l ++ x :: q) : l = [] ∧ x = a ∨ l = [a] ∧ x = b := by
  rcases l with _ | ⟨y, _ | ⟨z, l⟩⟩
  · simp at h; exact Or.inl ⟨rfl, h.1.symm⟩
  · simp at h; exact Or.inr ⟨by rw [h.1], h.2.1.symm⟩
  · simp at h

theorem stepped_apart : KeptApart stepped := by
  intro e d hd ht ka la qa kb lb qb ha hb
  have hdev : ∀ p ∈ steppedQ.edges, p.2.type = .deviation → p.1 = (2, 1) ∨ p.1 = (3, 2) := by decide +kernel
  have he : e = (2, 1) ∨ e = (3, 2) := by
    unfold stepped Diagram.real at hd
    rw [map_edges_get?] at hd
    obtain ⟨q, hq, rfl⟩ := Option.map_eq_some_iff.1 hd
    exact hdev _ (Dict.mem_of_get? hq) ht
  have p0 : posOf stepped 0 = ⟨0, 0, 0⟩ := by
    rw [stepped_pos (p := ⟨0, 0, 0⟩) (by decide +kernel)]; simp [Vec.map]
  have p2 : posOf stepped 2 = ⟨2, 0, 0⟩ := by
    rw [stepped_pos (p := ⟨2, 0, 0⟩) (by decide +kernel)]; simp [Vec.map]
  have p4 : posOf stepped 4 = ⟨4, 0, 0⟩ := by
    rw [stepped_pos (p := ⟨4, 0, 0⟩) (by decide +kernel)]; simp [Vec.map]
  have w1 : walked stepped [0, 1] = 1 := stepped_length (by decide +kernel)
  have w3 : walked stepped [4, 3] = 1 := stepped_length (by decide +kernel)
  have hl : ∀ a : ℝ, Vec.length (⟨a, 0, 0⟩ : Vec ℝ) = |a| := by
    intro a
    simp [Vec.length, Vec.dot, PySqrt.sqrt, Real.sqrt_mul_self_eq_abs]
  have d1 : Vec.dist (posOf stepped 2) (posOf stepped 0) = 2 := by
    rw [p0, p2, Vec.dist, show (⟨2, 0, 0⟩ : Vec ℝ) - ⟨0, 0, 0⟩ = ⟨2, 0, 0⟩ by ext <;> simp, hl]; norm_num
  have d2 : Vec.dist (posOf stepped 4) (posOf stepped 2) = 2 := by
    rw [p4, p2, Vec.dist, show (⟨4, 0, 0⟩ : Vec ℝ) - ⟨2, 0, 0⟩ = ⟨2, 0, 0⟩ by ext <;> simp; norm_num, hl]; norm_num
  have w0 : ∀ n, walked stepped [n] = 0 := fun _ => rfl
  rw [stepped_trails] at ha hb
  simp only [List.mem_cons, List.not_mem_nil, or_false, Prod.mk.injEq] at ha hb
  rcases he with rfl | rfl
  · obtain ⟨rfl, rfl⟩ : ka = 2 ∧ la = [] := by
      rcases ha with ⟨_, h⟩ | ⟨_, h⟩ | ⟨k, h⟩ <;> rcases split_pair h.symm with ⟨h1, h2⟩ | ⟨h1, h2⟩ <;> simp_all
    obtain ⟨rfl, rfl⟩ : kb = 0 ∧ lb = [0] := by
      rcases hb with ⟨_, h⟩ | ⟨_, h⟩ | ⟨k, h⟩ <;> rcases split_pair h.symm with ⟨h1, h2⟩ | ⟨h1, h2⟩ <;> simp_all
    rw [d1]
    simp only [List.nil_append, List.singleton_append, w0, w1]
    norm_num
  · obtain ⟨rfl, rfl⟩ : ka = 4 ∧ la = [4] := by
      rcases ha with ⟨_, h⟩ | ⟨_, h⟩ | ⟨k, h⟩ <;> rcases split_pair h.symm with ⟨h1, h2⟩ | ⟨h1, h2⟩ <;> simp_all
    obtain ⟨rfl, rfl⟩ : kb = 2 ∧ lb = [] := by
      rcases hb with ⟨_, h⟩ | ⟨_, h⟩ | ⟨k, h⟩ <;> rcases split_pair h.symm with ⟨h1, h2⟩ | ⟨h1, h2⟩ <;> simp_all
    rw [d2]
    simp only [List.nil_append, List.singleton_append, w0, w3]
    norm_num

theorem nonzero_stepped : NonzeroTrails stepped := NonzeroCheck.nonzero (by decide +kernel)

theorem stepped_nodes : stepped.nodes.length = 6 := by
  have hk : stepped.nodes.keys = [0, 1, 2, 3, 4, 5] := by
    unfold stepped Diagram.real; rw [map_nodes_keys]; decide +kernel
  have := congrArg List.length hk
  simpa [Dict.keys] using this

end MirrorEx

open MirrorEx in
/-- A problem with indirect deviation edges: whatever the settings, there is no NaN. -/
example : ¬ DirectOnly stepped ∧
    (∀ tmax eta verbose G, staticEquilibriumNumpy stepped tmax eta verbose = .ok G → ∃ F : Diagram ℝ, G = F.num) ∧
    ∃ F F' : Diagram ℝ, staticEquilibrium stepped none 100 0 false = .ok F ∧
      staticEquilibriumNumpy stepped 100 0 false = .ok F'.num ∧
      (∀ n ∈ F'.nodes.keys, Vec.length (imbalance F' n) ≤ nodalBound F' 0 n) ∧ posOf F' 2 ≠ posOf F' 1 := by
  refine ⟨fun h => ?_, fun _ _ _ _ => C92_no_nan valid_stepped stepped_plane_free stepped_apart, ?_⟩
  · have h1 : seqOf steppedQ 2 = some 0 ∧ seqOf steppedQ 1 = some 1 := by decide +kernel
    have h2 : ∀ n, seqOf stepped n = seqOf steppedQ n := fun n => map_seqOf _
    have h3 : steppedQ.edges.get? (2, 1) = some ⟨.deviation, 0, 1, none⟩ := by decide +kernel
    have := h 2 1 (EdgeData.map (fun q : ℚ => (q : ℝ)) ⟨.deviation, 0, 1, none⟩) (by
      unfold stepped Diagram.real; rw [map_edges_get?, h3]; rfl) rfl
    rw [h2, h2, h1.1, h1.2] at this
    simp at this
  · obtain ⟨St, hb⟩ := staged_of_acyclic valid_stepped acyclic_stepped
    obtain ⟨F, hF⟩ := C65_returns valid_stepped St (N := 6)
      (fun n hn => by have := hb n hn; have := stepped_nodes; omega) (show 6 + 2 ≤ 100 by norm_num) (le_refl (0 : ℝ)) false
    obtain ⟨F', hF'⟩ := C92_returns valid_stepped stepped_plane_free stepped_apart (by norm_num) hF
    have h3 : steppedQ.edges.get? (2, 1) = some ⟨.deviation, 0, 1, none⟩ := by decide +kernel
    exact ⟨F, F', hF, hF', C92_equilibrium valid_stepped stepped_plane_free stepped_apart nonzero_stepped (by norm_num) hF',
      C92_apart valid_stepped stepped_plane_free stepped_apart (Or.inr hF') (e := (2, 1))
        (d := EdgeData.map (fun q : ℚ => (q : ℝ)) ⟨.deviation, 0, 1, none⟩) (by
          unfold stepped Diagram.real; rw [map_edges_get?, h3]; rfl) rfl⟩

end Props
end CEM
