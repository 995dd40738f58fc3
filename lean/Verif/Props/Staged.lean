import Verif.Props.Exact
import Mathlib.Data.Finset.Card

/-!
# Property C65: indirect edges that do not feed back are solved exactly
-/

set_option linter.unusedSectionVars false
set_option linter.unusedSimpArgs false

namespace CEM
namespace Props
open Diagram Spec EqEx

/-- An equilibrium gives constant rounds. -/
theorem rounds_equilibrium {D G : Diagram ℝ} (I : ValidInput D) (E : EquilibriumOf D G) :
    ∃ T r : Int → Vec ℝ,
      Rounds D (fun _ => true) (fun _ => posOf G) (fun _ => T) (fun _ => r) (fun _ _ => posOf G) ∧
      (∀ n, trailNext D n = none → r n = reactionAt G n) ∧
      (∀ n m, trailNext D n = some m → forceIn D G n m ≠ 0 ∧
        AsPrescribed (edgeData D n m) (forceIn D G n m) (posOf G n) (posOf G m) ∧
        r n = forceIn D G n m • unit (posOf G m - posOf G n)) := by
  have w := I.wf
  have V := I.trails
  have hnx : ∀ a, nxtK D none a = trailNext D a := nxtK_none w V
  obtain ⟨T, r, h1, h2, h3, h4, h5⟩ := EquilibriumOf.solves_all I E
  refine ⟨T, r, ⟨fun _ _ => rfl, fun _ _ _ _ _ => rfl, fun _ _ _ _ => Or.inl rfl, fun _ => h1, ?_, ?_⟩,
    h4, h5⟩
  · intro _ n hn m hm
    exact h2 n hn m (by rw [hnx]; exact hm)
  · intro _ m hm hx
    obtain ⟨tr, htr⟩ := head_of_no_prev w V hm hx
    exact ⟨E.origins m tr htr, h3 m hx⟩

/-- C65. If the nodes have stages up to `N`, form finding returns a form within `N + 2` iterations,
whatever the threshold. -/
theorem C65_returns {D : Diagram ℝ} (I : ValidInput D) {stage : Int → Nat} (St : Staged D stage)
    {N : Nat} (hN : ∀ n ∈ D.nodes.keys, stage n ≤ N) {tmax : Nat} (ht : N + 2 ≤ tmax) {eta : ℝ}
    (he : 0 ≤ eta) (verbose : Bool) : ∃ F, staticEquilibrium D none tmax eta verbose = .ok F := by
  obtain ⟨L, G, _, _, h2⟩ := equilibriumState_cases I (kmax := none) (by simp) tmax eta verbose
  obtain ⟨m, hm, hm', _, hor, hr⟩ := h2 (by omega)
  unfold staticEquilibrium
  rw [hr, if_neg]
  · exact ⟨_, rfl⟩
  · rw [gt_iff_lt, not_lt]
    rcases hor with hlt | rfl
    · exact hlt.le
    · refine le_trans (le_of_eq ?_) he
      obtain ⟨k, rfl⟩ : ∃ k, m = k + 2 := ⟨m - 2, by omega⟩
      refine residual_zero I.wf (goodState_iter I.wf I.trails none L _) fun n hn => ?_
      have A := rounds_iter I G
      have h := hN n hn
      exact (Rounds.agree I St A A n hn k (k + 1) (by omega) (by omega)).1

/-- C65. Every equilibrium of a problem whose nodes have stages has the positions, reactions and
forces of the form found with threshold zero. -/
theorem C65_unique {D : Diagram ℝ} (I : ValidInput D) {stage : Int → Nat} (St : Staged D stage)
    {tmax : Nat} (ht : 2 ≤ tmax) {eta : ℝ} (he : eta ≤ 0) {verbose : Bool} {F : Diagram ℝ}
    (h : staticEquilibrium D none tmax eta verbose = .ok F) {G : Diagram ℝ} (E : EquilibriumOf D G) :
    (∀ n ∈ D.nodes.keys, posOf F n = posOf G n ∧ reactionAt F n = reactionAt G n) ∧
    (∀ e dF dG, F.edges.get? e = some dF → G.edges.get? e = some dG → dF.force = dG.force) := by
  obtain ⟨p, s, r, Q, rfl, S, hp⟩ := returned_fixed I ht he h
  obtain ⟨T, r', B, h4, h5⟩ := rounds_equilibrium I E
  have A := rounds_fixed I S hp
  refine equal_of_agree I S E h4 h5 fun n hn => ⟨?_, ?_⟩
  · exact (Rounds.agree I St A B n hn (stage n) (stage n) le_rfl le_rfl).1
  · obtain ⟨N, hN⟩ : ∃ N, ∀ n ∈ D.nodes.keys, stage n ≤ N := by
      refine ⟨(D.nodes.keys.map stage).sum, fun n hn => ?_⟩
      exact List.single_le_sum (by simp) _ (List.mem_map.2 ⟨n, hn, rfl⟩)
    exact Rounds.agree_out I St A B hN (Nat.lt_succ_self N) (Nat.lt_succ_self N) n hn

/-- C65. Two equilibria of a problem whose nodes have stages have the same positions, reactions and
forces. -/
theorem C65_equilibria {D : Diagram ℝ} (I : ValidInput D) {stage : Int → Nat} (St : Staged D stage)
    {G G' : Diagram ℝ} (E : EquilibriumOf D G) (E' : EquilibriumOf D G') :
    (∀ n ∈ D.nodes.keys, posOf G n = posOf G' n ∧ reactionAt G n = reactionAt G' n) ∧
    (∀ e d d', G.edges.get? e = some d → G'.edges.get? e = some d' → d.force = d'.force) := by
  obtain ⟨F, h⟩ := C65_returns I St (N := (D.nodes.keys.map stage).sum)
    (fun n hn => List.single_le_sum (by simp) _ (List.mem_map.2 ⟨n, hn, rfl⟩)) le_rfl
    (le_refl (0 : ℝ)) false
  have u := C65_unique I St (by omega) le_rfl h E
  have u' := C65_unique I St (by omega) le_rfl h E'
  refine ⟨fun n hn => ⟨?_, ?_⟩, fun e d d' hd hd' => ?_⟩
  · rw [← (u.1 n hn).1, (u'.1 n hn).1]
  · rw [← (u.1 n hn).2, (u'.1 n hn).2]
  · have hm : e ∈ F.edges.keys := by
      rw [(C25_keeps_data I h).2.1]
      exact E.edges.mem_iff.1 (Dict.mem_keys_of_get? hd)
    obtain ⟨d0, h0⟩ := (Dict.exists_get?_iff _ _).2 hm
    rw [← u.2 e d0 d h0 hd, u'.2 e d0 d' h0 hd']

/-- C65. A problem whose nodes have stages has an equilibrium exactly if all trail edges of the form
found with threshold zero carry forces; this form then is one, and no other has other positions,
reactions or forces. -/
theorem C65_solvable {D : Diagram ℝ} (I : ValidInput D) (hl : NonzeroTrails D)
    {stage : Int → Nat} (St : Staged D stage) {tmax : Nat} (ht : 2 ≤ tmax) {eta : ℝ} (he : eta ≤ 0)
    {verbose : Bool} {F : Diagram ℝ} (h : staticEquilibrium D none tmax eta verbose = .ok F) :
    (∃ G, EquilibriumOf D G) ↔
      ∀ e d, F.edges.get? e = some d → d.type = .trail → d.force ≠ 0 := by
  constructor
  · rintro ⟨G, E⟩ e d hF htr
    obtain ⟨-, k2, -, k4⟩ := C25_keeps_data I h
    have hm : e ∈ D.edges.keys := by rw [← k2]; exact Dict.mem_keys_of_get? hF
    obtain ⟨d0, h0⟩ := (Dict.exists_get?_iff _ _).2 hm
    obtain ⟨d1, h1⟩ := (Dict.exists_get?_iff G.edges e).2 (E.edges.mem_iff.2 hm)
    rw [(C65_unique I St ht he h E).2 e d d1 hF h1]
    obtain ⟨d2, h2, e1, _⟩ := k4 e d0 h0
    rw [hF] at h2
    obtain rfl := Option.some.inj h2
    obtain ⟨a, b⟩ := e
    obtain ⟨key, tr, htr', hc⟩ := I.trails.complete a b (Or.inl ⟨d0, h0, by rw [← e1]; exact htr⟩)
    rcases hc with hc | hc
    · exact (E.trail key tr a b _ d0 d1 htr' hc (Or.inl rfl) h0 h1).1
    · exact (E.trail key tr b a _ d0 d1 htr' hc (Or.inr rfl) h0 h1).1
  · exact fun hf => ⟨F, C58_exact I hl ht he h hf⟩

/-- C65. The form found with threshold zero depends neither on the number of iterations nor on the
flag for output. -/
theorem C65_same {D : Diagram ℝ} (I : ValidInput D) {stage : Int → Nat} (St : Staged D stage)
    {t1 t2 : Nat} (h1 : 2 ≤ t1) (h2 : 2 ≤ t2) {eta1 eta2 : ℝ} (he1 : eta1 ≤ 0) (he2 : eta2 ≤ 0)
    {v1 v2 : Bool} {F1 F2 : Diagram ℝ} (r1 : staticEquilibrium D none t1 eta1 v1 = .ok F1)
    (r2 : staticEquilibrium D none t2 eta2 v2 = .ok F2) :
    (∀ n ∈ D.nodes.keys, posOf F1 n = posOf F2 n ∧ reactionAt F1 n = reactionAt F2 n) ∧
    (∀ e d1 d2, F1.edges.get? e = some d1 → F2.edges.get? e = some d2 → d1.force = d2.force) := by
  have w := I.wf
  have V := I.trails
  have k1 := C25_keeps_data I r1
  have k2 := C25_keeps_data I r2
  obtain ⟨p, s, r, Q, rfl, S, hp⟩ := returned_fixed I h1 he1 r1
  obtain ⟨p', s', r', Q', rfl, S', hp'⟩ := returned_fixed I h2 he2 r2
  have A := rounds_fixed I S hp
  have B := rounds_fixed I S' hp'
  obtain ⟨N, hN⟩ : ∃ N, ∀ n ∈ D.nodes.keys, stage n ≤ N := by
    refine ⟨(D.nodes.keys.map stage).sum, fun n hn => ?_⟩
    exact List.single_le_sum (by simp) _ (List.mem_map.2 ⟨n, hn, rfl⟩)
  have hpos : ∀ n ∈ D.nodes.keys, s.pos n = s'.pos n := fun n hn =>
    (Rounds.agree I St A B n hn (stage n) (stage n) le_rfl le_rfl).1
  have hout : ∀ n ∈ D.nodes.keys, r n = r' n :=
    Rounds.agree_out I St A B hN (Nat.lt_succ_self N) (Nat.lt_succ_self N)
  refine ⟨fun n hn => ⟨?_, ?_⟩, ?_⟩
  · rw [posOf_form w S, posOf_form w S', hpos n hn]
  · rw [reactionAt_form w S I.reaction hn, reactionAt_form w S' I.reaction hn, hout n hn]
  · intro e d1 d2 g1 g2
    have hm : e ∈ D.edges.keys := by rw [← k1.2.1]; exact Dict.mem_keys_of_get? g1
    obtain ⟨d0, h0⟩ := (Dict.exists_get?_iff _ _).2 hm
    cases ht : d0.type with
    | untyped => exact absurd ht (I.typed _ _ h0)
    | deviation =>
      obtain ⟨x, hx, _, _, x3⟩ := k1.2.2.2 e d0 h0
      obtain ⟨y, hy, _, _, y3⟩ := k2.2.2.2 e d0 h0
      rw [g1] at hx
      rw [g2] at hy
      rw [Option.some.inj hx, Option.some.inj hy, x3 ht, y3 ht]
    | trail =>
      obtain ⟨a, b⟩ := e
      obtain ⟨key, tr, htr, hc⟩ := V.complete a b (Or.inl ⟨d0, h0, ht⟩)
      have go : ∀ x y, Consecutive tr x y → ((a, b) = (x, y) ∨ (a, b) = (y, x)) →
          d1.force = d2.force := by
        intro x y hxy hends
        have hx := V.mem_keys htr hxy.mem_left
        rw [(trail_form I S htr hxy hends h0 g1).2.1, (trail_form I S' htr hxy hends h0 g2).2.1,
          posOf_form w S, posOf_form w S', hpos x hx, hout x hx]
      rcases hc with hc | hc
      · exact go a b hc (Or.inl rfl)
      · exact go b a hc (Or.inr rfl)

/-! ## Stages of diagrams in which no position needs itself -/

section
variable {R : Type} [Field R] [LinearOrder R] [PySqrt R]

theorem Needs.mem {D : Diagram R} (I : ValidInput D) {b x : Int} (h : Needs D b x) :
    b ∈ D.nodes.keys ∧ x ∈ D.nodes.keys := by
  obtain ⟨a, hf, h⟩ := h
  refine ⟨(Follows.mem I.trails hf).2, ?_⟩
  rcases h with rfl | ⟨d, hd, _⟩
  · exact (Follows.mem I.trails hf).1
  · exact (mem_keys_of_nbr I.wf ((edgeBetween_iff I.simple).1 hd).1).1

open Classical in
/-- The nodes that a node needs, directly or through others. -/
noncomputable def needed (D : Diagram R) (b : Int) : Finset Int :=
  D.nodes.keys.toFinset.filter fun x => Relation.TransGen (Needs D) b x

theorem needed_lt {D : Diagram R} (I : ValidInput D) (hA : Acyclic D) {b x : Int}
    (h : Needs D b x) : (needed D x).card < (needed D b).card := by
  refine Finset.card_lt_card ⟨?_, ?_⟩
  · intro y hy
    simp only [needed, Finset.mem_filter] at hy ⊢
    exact ⟨hy.1, Relation.TransGen.head h hy.2⟩
  · intro hsub
    have : x ∈ needed D b := by
      simp only [needed, Finset.mem_filter, List.mem_toFinset]
      exact ⟨(Needs.mem I h).2, Relation.TransGen.single h⟩
    have := hsub this
    simp only [needed, Finset.mem_filter] at this
    exact hA x this.2

/-- Counting the nodes that are needed gives stages. -/
theorem staged_of_acyclic {D : Diagram R} (I : ValidInput D) (hA : Acyclic D) :
    Staged D (fun b => (needed D b).card) ∧
      ∀ n ∈ D.nodes.keys, (needed D n).card + 1 ≤ D.nodes.length := by
  have lt := fun {b x : Int} (h : Needs D b x) => needed_lt I hA h
  refine ⟨⟨?_, ?_, ?_, ?_⟩, ?_⟩
  · exact fun a b hf => (lt ⟨a, hf, Or.inl rfl⟩).le
  · exact fun a b m d hf hd ht _ => (lt ⟨a, hf, Or.inr ⟨d, hd, ht⟩⟩).le
  · intro a b m d i j hf hd ht _ _ _
    have := lt ⟨a, hf, Or.inr ⟨d, hd, ht⟩⟩
    exact ⟨by omega, this.le⟩
  · exact fun a b m d _ _ hf hd ht _ _ _ => lt ⟨a, hf, Or.inr ⟨d, hd, ht⟩⟩
  · intro n hn
    have h1 : needed D n ⊂ D.nodes.keys.toFinset := by
      refine ⟨fun x hx => ?_, fun hsub => ?_⟩
      · simp only [needed, Finset.mem_filter] at hx
        exact hx.1
      have := hsub (List.mem_toFinset.2 hn)
      simp only [needed, Finset.mem_filter] at this
      exact hA n this.2
    have h2 := Finset.card_lt_card h1
    rw [List.toFinset_card_of_nodup I.wf.nodesNodup] at h2
    have : D.nodes.keys.length = D.nodes.length := by unfold Dict.keys; simp
    omega

/-- A measure that decreases along needs excludes that a position needs itself. -/
theorem acyclic_of_measure {D : Diagram R} (mu : Int → Nat)
    (h : ∀ b x, Needs D b x → mu x < mu b) : Acyclic D := by
  have : ∀ b x, Relation.TransGen (Needs D) b x → mu x < mu b := by
    intro b x hx
    induction hx with
    | single h1 => exact h _ _ h1
    | tail _ h1 ih => exact (h _ _ h1).trans ih
  exact fun n hn => lt_irrefl _ (this n n hn)

/-- Without indirect deviation edges no position needs itself. -/
theorem acyclic_of_direct {D : Diagram R} (I : ValidInput D) (hd : DirectOnly D) : Acyclic D := by
  refine acyclic_of_measure (fun n => ((seqOf D n).getD 0).toNat) ?_
  rintro b x ⟨a, hf, hx⟩
  obtain ⟨k, h0, e1, e2⟩ := Follows.seq I.trails hf
  have : seqOf D x = some k := by
    rcases hx with rfl | ⟨d, hd' | hd', ht⟩
    · exact e1
    · rw [← hd a x d hd' ht]; exact e1
    · rw [hd x a d hd' ht]; exact e1
  simp only [this, e2, Option.getD_some]
  omega

/-- Finite check of a measure that decreases along needs. -/
def NeedsCheck (D : Diagram R) (mu : Int → Nat) : Prop :=
  ∀ t ∈ D.trails, ∀ p ∈ t.2.zip t.2.tail, mu p.1 < mu p.2 ∧ ∀ e ∈ D.edges, e.2.type = .deviation →
    (e.1.1 = p.1 → mu e.1.2 < mu p.2) ∧ (e.1.2 = p.1 → mu e.1.1 < mu p.2)

instance (D : Diagram R) (mu : Int → Nat) : Decidable (NeedsCheck D mu) := by
  unfold NeedsCheck; infer_instance

theorem mem_zip_of_consecutive {l : List Int} {a b : Int} (h : Consecutive l a b) :
    (a, b) ∈ l.zip l.tail := by
  obtain ⟨p, s, rfl⟩ := h
  induction p with
  | nil => simp
  | cons x p ih =>
    cases p with
    | nil => simp
    | cons y p =>
      simp only [List.cons_append, List.tail_cons, List.zip_cons_cons, List.mem_cons] at ih ⊢
      exact Or.inr ih

end

theorem NeedsCheck.acyclic {D : Diagram ℚ} {mu : Int → Nat} (h : NeedsCheck D mu) :
    Acyclic D.real := by
  have key : ∀ e d, D.real.edges.get? e = some d → ∃ d0, (e, d0) ∈ D.edges ∧ d.type = d0.type := by
    intro e d hd
    unfold Diagram.real at hd
    rw [map_edges_get?] at hd
    obtain ⟨d0, hd0, rfl⟩ := Option.map_eq_some_iff.1 hd
    exact ⟨d0, Dict.mem_of_get? hd0, rfl⟩
  refine acyclic_of_measure mu ?_
  rintro b x ⟨a, ⟨k, tr, ht, hc⟩, hx⟩
  obtain ⟨h1, h2⟩ := h (k, tr) ht (a, b) (mem_zip_of_consecutive hc)
  rcases hx with rfl | ⟨d, hd | hd, hty⟩
  · exact h1
  · obtain ⟨d0, hm, e⟩ := key _ _ hd
    exact (h2 _ hm (by rw [← e]; exact hty)).1 rfl
  · obtain ⟨d0, hm, e⟩ := key _ _ hd
    exact (h2 _ hm (by rw [← e]; exact hty)).2 rfl

/-- C65. If no position needs itself, more iterations than nodes suffice: form finding returns an
exactly balanced form with threshold zero, every equilibrium of the problem has its positions,
reactions and forces, and there is one exactly if its trail edges carry forces. -/
theorem C65_acyclic {D : Diagram ℝ} (I : ValidInput D) (hl : NonzeroTrails D) (hA : Acyclic D)
    {tmax : Nat} (ht : D.nodes.length < tmax) (verbose : Bool) :
    ∃ F, staticEquilibrium D none tmax 0 verbose = .ok F ∧
      (∀ n ∈ F.nodes.keys, imbalance F n = 0) ∧
      ((∃ G, EquilibriumOf D G) ↔
        ∀ e d, F.edges.get? e = some d → d.type = .trail → d.force ≠ 0) ∧
      ∀ G, EquilibriumOf D G →
        (∀ n ∈ D.nodes.keys, posOf F n = posOf G n ∧ reactionAt F n = reactionAt G n) ∧
        (∀ e dF dG, F.edges.get? e = some dF → G.edges.get? e = some dG → dF.force = dG.force) := by
  obtain ⟨St, hb⟩ := staged_of_acyclic I hA
  have hpos : 1 ≤ D.nodes.length := by
    by_contra h0
    have hnil : D.nodes = [] := List.length_eq_zero_iff.1 (by omega)
    have hne := I.nonempty
    obtain ⟨⟨key, tr⟩, l, hl'⟩ := List.exists_cons_of_ne_nil hne
    have htr : (key, tr) ∈ D.trails := by rw [hl']; simp
    obtain ⟨rest, rfl⟩ := I.trails.head key tr htr
    have := I.trails.mem_keys htr List.mem_cons_self
    rw [hnil] at this
    simp [Dict.keys] at this
  obtain ⟨F, h⟩ := C65_returns I St (N := D.nodes.length - 1) (fun n hn => by have := hb n hn; omega)
    (tmax := tmax) (by omega) (le_refl (0 : ℝ)) verbose
  have h2 : 2 ≤ tmax := by omega
  exact ⟨F, h, C21_exact I hl h2 le_rfl h, C65_solvable I hl St h2 le_rfl h,
    fun G E => C65_unique I St h2 le_rfl h E⟩

/-! ## Example: an indirect edge across two trails that are not in line -/

namespace StageEx
open TrailEx

local instance stageSqrt : PySqrt ℚ := ⟨id⟩

/-- Trails `0-1-2` and `3-4` and the indirect deviation edge `(1, 3)`. -/
def bentOps : List (Op ℚ) := [.addNode none ⟨0, 0, 0⟩, .addNode none ⟨1, 0, 0⟩, .addNode none ⟨2, 0, 0⟩,
  .addNode none ⟨3, 1, 0⟩, .addNode none ⟨4, 1, 1⟩, trail 0 1, trail 1 2, trail 3 4,
  .addEdge (.deviation (.key 1) (.key 3) (-1)), sup 2, sup 4, load 0 ⟨0, 1, 0⟩, load 3 ⟨0, 0, 2⟩]

def bentQ : Diagram ℚ := after key (bentOps ++ [.buildTrails])

theorem valid_bentQ : ValidInput bentQ :=
  validInput_of_history key bentOps (RegularCheck.regular (WF.after _ _) (by decide +kernel))
    (by decide +kernel)

noncomputable def bent : Diagram ℝ := bentQ.real

theorem valid_bent : ValidInput bent := validInput_real valid_bentQ

theorem nonzero_bent : NonzeroTrails bent := NonzeroCheck.nonzero (D := bentQ) (by decide +kernel)

/-- Node 2 needs 1 and 3, node 4 needs 3 and 1, node 1 needs 0. -/
theorem acyclic_bent : Acyclic bent :=
  NeedsCheck.acyclic (D := bentQ) (mu := fun n => if n = 1 then 1 else if n = 2 ∨ n = 4 then 2 else 0)
    (by decide +kernel)

theorem indirect_bent : ¬ DirectOnly bent := by
  intro hd
  have h0 : ∃ d, bent.edges.get? (1, 3) = some d ∧ d.type = .deviation := by
    have : bentQ.edges.get? (1, 3) = some ⟨.deviation, 0, -1, none⟩ := by decide +kernel
    unfold bent Diagram.real
    rw [map_edges_get?, this]
    exact ⟨_, rfl, rfl⟩
  obtain ⟨d, h1, h2⟩ := h0
  have := hd 1 3 d h1 h2
  have s1 : bentQ.nodes.get? 1 = some ⟨⟨1, 0, 0⟩, ⟨0, 0, 0⟩, ⟨0, 0, 0⟩, some 1, .free⟩ := by
    decide +kernel
  have s3 : bentQ.nodes.get? 3 = some ⟨⟨3, 1, 0⟩, ⟨0, 0, 2⟩, ⟨0, 0, 0⟩, some 0, .origin⟩ := by
    decide +kernel
  unfold seqOf bent Diagram.real at this
  rw [map_nodes_get?, map_nodes_get?, s1, s3] at this
  simp [NodeData.map] at this

example : ¬ DirectOnly bent ∧ ∃ F, staticEquilibrium bent none 6 0 false = .ok F ∧
    ∀ n ∈ F.nodes.keys, imbalance F n = 0 := by
  obtain ⟨F, h, hb, _⟩ := C65_acyclic valid_bent nonzero_bent acyclic_bent (tmax := 6)
    (by unfold bent Diagram.real Diagram.map; simp only [List.length_map]; decide +kernel) false
  exact ⟨indirect_bent, F, h, hb⟩

end StageEx

/-! ## Indirect edges that feed back: form finding need not settle -/

namespace FlipEx
open TrailEx

local instance flipSqrt : PySqrt ℚ := ⟨id⟩

/-- Trails `0-1` and `2-3` along the x axis; node 1 is pushed to the side of 0 on which 3 is, and
node 3 to the side of 2 on which 1 is not. -/
def flipOps : List (Op ℚ) := [.addNode none ⟨0, 0, 0⟩, .addNode none ⟨2, 0, 0⟩, .addNode none ⟨1, 0, 0⟩,
  .addNode none ⟨3, 0, 0⟩, .addEdge (.trail (.key 0) (.key 1) (-2) none),
  .addEdge (.trail (.key 2) (.key 3) (-2) none), .addEdge (.deviation (.key 0) (.key 3) 3),
  .addEdge (.deviation (.key 2) (.key 1) (-3)), sup 1, sup 3, load 0 ⟨1, 0, 0⟩, load 2 ⟨1, 0, 0⟩]

def flipQ : Diagram ℚ := after key (flipOps ++ [.buildTrails])

def flipLit : Diagram ℚ where
  nodes := [(0, ⟨⟨0, 0, 0⟩, ⟨1, 0, 0⟩, ⟨0, 0, 0⟩, some 0, .origin⟩),
    (1, ⟨⟨2, 0, 0⟩, ⟨0, 0, 0⟩, ⟨0, 0, 0⟩, some 1, .support⟩),
    (2, ⟨⟨1, 0, 0⟩, ⟨1, 0, 0⟩, ⟨0, 0, 0⟩, some 0, .origin⟩),
    (3, ⟨⟨3, 0, 0⟩, ⟨0, 0, 0⟩, ⟨0, 0, 0⟩, some 1, .support⟩)]
  edges := [((0, 1), ⟨.trail, -2, 0, none⟩), ((2, 3), ⟨.trail, -2, 0, none⟩),
    ((0, 3), ⟨.deviation, 0, 3, none⟩), ((2, 1), ⟨.deviation, 0, -3, none⟩)]
  maxNode := 3
  gkeyNode := [("0", 0), ("2", 1), ("1", 2), ("3", 3)]
  trails := [(0, [0, 1]), (2, [2, 3])]
  auxTrails := []
  auxLength := -1
  auxVector := ⟨1, 1, 1⟩

theorem flipQ_eq : flipQ = flipLit := by decide +kernel

theorem valid_flipQ : ValidInput flipQ :=
  validInput_of_history key flipOps (RegularCheck.regular (WF.after _ _) (by decide +kernel))
    (by decide +kernel)

noncomputable def flip : Diagram ℝ := flipLit.real

theorem valid_flip : ValidInput flip := by
  have := validInput_real valid_flipQ
  rwa [flipQ_eq] at this

theorem nonzero_flip : NonzeroTrails flip := NonzeroCheck.nonzero (D := flipLit) (by decide +kernel)

theorem flip_nodes (n : Int) : flip.nodes.get? n =
    if n = 0 then some ⟨⟨0, 0, 0⟩, ⟨1, 0, 0⟩, ⟨0, 0, 0⟩, some 0, .origin⟩
    else if n = 1 then some ⟨⟨2, 0, 0⟩, ⟨0, 0, 0⟩, ⟨0, 0, 0⟩, some 1, .support⟩
    else if n = 2 then some ⟨⟨1, 0, 0⟩, ⟨1, 0, 0⟩, ⟨0, 0, 0⟩, some 0, .origin⟩
    else if n = 3 then some ⟨⟨3, 0, 0⟩, ⟨0, 0, 0⟩, ⟨0, 0, 0⟩, some 1, .support⟩ else none := by
  unfold flip Diagram.real
  rw [map_nodes_get?]
  simp only [flipLit, Dict.get?, eq_comm (b := n)]
  split_ifs <;> simp [NodeData.map, Vec.map]

theorem flip_edges (e : Int × Int) : flip.edges.get? e =
    if e = (0, 1) then some ⟨.trail, -2, 0, none⟩ else if e = (2, 3) then some ⟨.trail, -2, 0, none⟩
    else if e = (0, 3) then some ⟨.deviation, 0, 3, none⟩
    else if e = (2, 1) then some ⟨.deviation, 0, -3, none⟩ else none := by
  unfold flip Diagram.real
  rw [map_edges_get?]
  simp only [flipLit, Dict.get?, eq_comm (b := e)]
  split_ifs <;> simp [EdgeData.map]

theorem flip_keys : flip.nodes.keys = [0, 1, 2, 3] := by
  unfold flip Diagram.real; rw [map_nodes_keys]; decide +kernel

theorem flip_edge_keys : flip.edges.keys = [(0, 1), (2, 3), (0, 3), (2, 1)] := by
  unfold flip Diagram.real; rw [map_edges_keys]; decide +kernel

theorem flip_next : trailNext flip 0 = some 1 ∧ trailNext flip 2 = some 3 ∧
    (∀ a, trailNext flip a ≠ some 0) ∧ (∀ a, trailNext flip a ≠ some 2) := by
  have w := valid_flip.wf
  have V := valid_flip.trails
  have ht : flip.trails = [(0, [0, 1]), (2, [2, 3])] := rfl
  have hc : ∀ u v a b : Int, Consecutive [u, v] a b → a = u ∧ b = v := by
    rintro u v a b ⟨l1, l2, h⟩
    rcases l1 with _ | ⟨x, _ | ⟨y, l1⟩⟩ <;> simp at h
    exact ⟨h.1.symm, h.2.1.symm⟩
  refine ⟨(trailNext_iff w V).2 ⟨0, [0, 1], by rw [ht]; simp, ⟨[], [], rfl⟩⟩,
    (trailNext_iff w V).2 ⟨2, [2, 3], by rw [ht]; simp, ⟨[], [], rfl⟩⟩, ?_, ?_⟩ <;>
  · intro a ha
    obtain ⟨key, tr, hm, hcon⟩ := (trailNext_iff w V).1 ha
    rw [ht] at hm
    simp only [List.mem_cons, Prod.mk.injEq, List.not_mem_nil, or_false] at hm
    rcases hm with ⟨_, rfl⟩ | ⟨_, rfl⟩ <;> have := (hc _ _ _ _ hcon).2 <;> omega

theorem flip_data : edgeData flip 0 1 = ⟨.trail, -2, 0, none⟩ ∧
    edgeData flip 2 3 = ⟨.trail, -2, 0, none⟩ ∧ edgeData flip 0 3 = ⟨.deviation, 0, 3, none⟩ ∧
    edgeData flip 2 1 = ⟨.deviation, 0, -3, none⟩ := by
  have hh : ∀ e, flip.edges.has e = decide (e ∈ flip.edges.keys) := by
    intro e
    rw [Bool.eq_iff_iff, Dict.has_iff, decide_eq_true_iff]
  unfold edgeData edgeKey
  simp only [hh, flip_edge_keys, flip_edges]
  simp

theorem flip_nbrs : flip.neighbors 0 = [1, 3] ∧ flip.neighbors 2 = [3, 1] := by
  unfold Diagram.neighbors
  rw [flip_edge_keys]
  decide +kernel

theorem flip_dir : dirNbrs flip 0 = [] ∧ dirNbrs flip 2 = [] ∧ indNbrs flip 0 = [3] ∧
    indNbrs flip 2 = [1] := by
  obtain ⟨n0, n2⟩ := flip_nbrs
  obtain ⟨d0, d2, d3, d4⟩ := flip_data
  have s : seqOf flip 0 = some 0 ∧ seqOf flip 1 = some 1 ∧ seqOf flip 2 = some 0 ∧
      seqOf flip 3 = some 1 := by
    unfold seqOf; simp [flip_nodes]
  unfold dirNbrs indNbrs
  rw [n0, n2]
  simp [d0, d2, d3, d4, s]

/-- Unit vectors along the x axis. -/
theorem unit_axis (a : ℝ) : Vec.normalize (⟨a, 0, 0⟩ : Vec ℝ) =
    ⟨if 0 < a then 1 else if a < 0 then -1 else 0, 0, 0⟩ := by
  have h1 : (⟨a, 0, 0⟩ : Vec ℝ) = a • ⟨1, 0, 0⟩ := by ext <;> simp
  have h2 : Vec.length (⟨1, 0, 0⟩ : Vec ℝ) = 1 := by simp [Vec.length_def, Vec.dot]
  have h3 : unit (⟨1, 0, 0⟩ : Vec ℝ) = ⟨1, 0, 0⟩ := by unfold unit; rw [h2]; simp
  rw [normalize_eq_unit, h1]
  rcases lt_trichotomy a 0 with h | rfl | h
  · rw [unit_smul_neg h, h3, if_neg h.not_gt, if_pos h]; ext <;> simp
  · simp [unit]; rfl
  · rw [unit_smul_pos h, h3, if_pos h]

/-- One round: where nodes 1 and 3 come to lie, depending on where they were seen. -/
theorem flip_round {p s : EqState ℝ} {ind : Bool} {r : Int → Vec ℝ} {Q : Int → Int → Vec ℝ}
    (S : FinalSpec flip none ind p s r Q) :
    ((ind = true → Q 0 3 = ⟨3, 0, 0⟩ ∨ Q 0 3 = ⟨-1, 0, 0⟩) →
      s.pos 1 = if ind = true ∧ Q 0 3 = ⟨-1, 0, 0⟩ then ⟨-2, 0, 0⟩ else ⟨2, 0, 0⟩) ∧
    ((ind = true → Q 2 1 = ⟨2, 0, 0⟩ ∨ Q 2 1 = ⟨-2, 0, 0⟩) →
      s.pos 3 = if ind = true ∧ Q 2 1 = ⟨2, 0, 0⟩ then ⟨-1, 0, 0⟩ else ⟨3, 0, 0⟩) := by
  have w := valid_flip.wf
  have V := valid_flip.trails
  obtain ⟨x0, x2, y0, y2⟩ := flip_next
  obtain ⟨d0, d2, d3, d4⟩ := flip_data
  obtain ⟨e0, e2, f0, f2⟩ := flip_dir
  have hnx : ∀ a, nxtK flip none a = trailNext flip a := nxtK_none w V
  have hq : loadOf flip 0 = ⟨1, 0, 0⟩ ∧ loadOf flip 2 = ⟨1, 0, 0⟩ := by
    unfold loadOf; simp [flip_nodes]
  have k0 : (0 : Int) ∈ flip.nodes.keys := by rw [flip_keys]; simp
  have k2 : (2 : Int) ∈ flip.nodes.keys := by rw [flip_keys]; simp
  obtain ⟨s0, t0⟩ := S.start 0 fun a _ => by rw [hnx]; exact y0 a
  obtain ⟨s2, t2⟩ := S.start 2 fun a _ => by rw [hnx]; exact y2 a
  rw [start_position] at s0 s2
  rw [start_zero valid_flip k0] at t0
  rw [start_zero valid_flip k2] at t2
  have p0 : s.pos 0 = ⟨0, 0, 0⟩ := by rw [s0]; unfold posOf; simp [flip_nodes]
  have p2 : s.pos 2 = ⟨1, 0, 0⟩ := by rw [s2]; unfold posOf; simp [flip_nodes]
  have q0 : Q 0 0 = ⟨0, 0, 0⟩ := by rw [S.seen 0 k0 0 le_rfl, p0]
  have q2 : Q 2 2 = ⟨1, 0, 0⟩ := by rw [S.seen 2 k2 2 le_rfl, p2]
  have n1 := (S.next 0 k0 1 (by rw [hnx]; exact x0)).1
  have n3 := (S.next 2 k2 3 (by rw [hnx]; exact x2)).1
  have r0 := S.out 0 k0
  have r2 := S.out 2 k2
  have zero : (⟨0, 0, 0⟩ : Vec ℝ) = 0 := rfl
  constructor
  · intro h3
    rw [n1, p0, r0, d0, outVec, t0, hq.1, e0, f0]
    cases ind with
    | false =>
      have : (0 : Vec ℝ) - ⟨1, 0, 0⟩ - devSum flip (Q 0) 0 [] -
          (if (false = true) then devSum flip (Q 0) 0 [3] else 0) = ⟨-1, 0, 0⟩ := by
        simp only [devSum, List.map_nil, List.sum_nil, Bool.false_eq_true, if_false]
        ext <;> simp
      rw [this, unit_axis]
      ext <;> simp [effectiveLength] <;> norm_num
    | true =>
      rcases h3 rfl with h | h
      · have : (0 : Vec ℝ) - ⟨1, 0, 0⟩ - devSum flip (Q 0) 0 [] -
            (if (true = true) then devSum flip (Q 0) 0 [3] else 0) = ⟨-4, 0, 0⟩ := by
          have : (⟨3, 0, 0⟩ : Vec ℝ) - ⟨0, 0, 0⟩ = ⟨3, 0, 0⟩ := by ext <;> simp
          simp only [devSum, devTerm, List.map_nil, List.sum_nil, List.map_cons, List.sum_cons, d3, h,
            q0, this, unit_axis, if_true]
          ext <;> simp <;> norm_num
        rw [this, unit_axis, h]
        have hne : ¬ (⟨3, 0, 0⟩ : Vec ℝ) = ⟨-1, 0, 0⟩ := by
          intro h'; have := congrArg Vec.x h'; norm_num at this
        rw [if_neg (by simp [hne])]
        ext <;> simp [effectiveLength] <;> norm_num
      · have : (0 : Vec ℝ) - ⟨1, 0, 0⟩ - devSum flip (Q 0) 0 [] -
            (if (true = true) then devSum flip (Q 0) 0 [3] else 0) = ⟨2, 0, 0⟩ := by
          have : (⟨-1, 0, 0⟩ : Vec ℝ) - ⟨0, 0, 0⟩ = ⟨-1, 0, 0⟩ := by ext <;> simp
          simp only [devSum, devTerm, List.map_nil, List.sum_nil, List.map_cons, List.sum_cons, d3, h,
            q0, this, unit_axis, if_true]
          ext <;> simp <;> norm_num
        rw [this, h, if_pos ⟨rfl, rfl⟩, unit_axis]
        ext <;> simp [effectiveLength]
  · intro h1
    rw [n3, p2, r2, d2, outVec, t2, hq.2, e2, f2]
    cases ind with
    | false =>
      have : (0 : Vec ℝ) - ⟨1, 0, 0⟩ - devSum flip (Q 2) 2 [] -
          (if (false = true) then devSum flip (Q 2) 2 [1] else 0) = ⟨-1, 0, 0⟩ := by
        simp only [devSum, List.map_nil, List.sum_nil, Bool.false_eq_true, if_false]
        ext <;> simp
      rw [this, unit_axis]
      ext <;> simp [effectiveLength] <;> norm_num
    | true =>
      rcases h1 rfl with h | h
      · have : (0 : Vec ℝ) - ⟨1, 0, 0⟩ - devSum flip (Q 2) 2 [] -
            (if (true = true) then devSum flip (Q 2) 2 [1] else 0) = ⟨2, 0, 0⟩ := by
          have : (⟨2, 0, 0⟩ : Vec ℝ) - ⟨1, 0, 0⟩ = ⟨1, 0, 0⟩ := by ext <;> simp <;> norm_num
          simp only [devSum, devTerm, List.map_nil, List.sum_nil, List.map_cons, List.sum_cons, d4, h,
            q2, this, unit_axis, if_true]
          ext <;> simp <;> norm_num
        rw [this, h, if_pos ⟨rfl, rfl⟩, unit_axis]
        ext <;> simp [effectiveLength] <;> norm_num
      · have : (0 : Vec ℝ) - ⟨1, 0, 0⟩ - devSum flip (Q 2) 2 [] -
            (if (true = true) then devSum flip (Q 2) 2 [1] else 0) = ⟨-4, 0, 0⟩ := by
          have : (⟨-2, 0, 0⟩ : Vec ℝ) - ⟨1, 0, 0⟩ = ⟨-3, 0, 0⟩ := by ext <;> simp <;> norm_num
          simp only [devSum, devTerm, List.map_nil, List.sum_nil, List.map_cons, List.sum_cons, d4, h,
            q2, this, unit_axis, if_true]
          ext <;> simp <;> norm_num
        rw [this, unit_axis, h]
        have hne : ¬ (⟨-2, 0, 0⟩ : Vec ℝ) = ⟨2, 0, 0⟩ := by
          intro h'; have := congrArg Vec.x h'; norm_num at this
        rw [if_neg (by simp [hne])]
        ext <;> simp [effectiveLength] <;> norm_num

/-- The positions that can be seen are among those before and after the round, and one of the nodes 0
and 2 sees the other trail as it was before. -/
theorem flip_iter {L : List Int} (G : GoodSched flip none L) (m : Nat) :
    ((iter flip none L m).pos 1 = ⟨2, 0, 0⟩ ∨ (iter flip none L m).pos 1 = ⟨-2, 0, 0⟩) ∧
    ((iter flip none L m).pos 3 = ⟨3, 0, 0⟩ ∨ (iter flip none L m).pos 3 = ⟨-1, 0, 0⟩) := by
  have w := valid_flip.wf
  have V := valid_flip.trails
  have hnx : ∀ a, nxtK flip none a = trailNext flip a := nxtK_none w V
  obtain ⟨x0, x2, _, _⟩ := flip_next
  have k0 : (0 : Int) ∈ flip.nodes.keys := by rw [flip_keys]; simp
  have k2 : (2 : Int) ∈ flip.nodes.keys := by rw [flip_keys]; simp
  induction m with
  | zero =>
    have hp : (initState flip).pos 1 = ⟨2, 0, 0⟩ ∧ (initState flip).pos 3 = ⟨3, 0, 0⟩ := by
      rw [start_position, start_position]; unfold posOf; simp [flip_nodes]
    exact ⟨Or.inl hp.1, Or.inl hp.2⟩
  | succ m ih =>
    obtain ⟨i1, i3⟩ := ih
    have S := finalSpec_sched w V G m
    obtain ⟨R1, R3⟩ := flip_round S
    have pick : ∀ {v a b : Vec ℝ} {c : Prop} [Decidable c], v = (if c then a else b) → v = b ∨ v = a := by
      intro v a b c _ h
      rw [h]
      split_ifs
      · exact Or.inr rfl
      · exact Or.inl rfl
    obtain ⟨L1, L2, hL⟩ := List.append_of_mem ((G.mem 0).2 k0)
    by_cases h2 : (2 : Int) ∈ L1
    · obtain ⟨L3, L4, hL'⟩ := List.append_of_mem h2
      have hnd := G.sched.nodup
      have h0 : (0 : Int) ∉ L3 := by
        intro h
        rw [hL, List.nodup_append] at hnd
        exact hnd.2.2 0 (by rw [hL']; simp [h]) 0 (by simp) rfl
      have old := stateAt_old (D := flip) (ind := decide (m ≠ 0)) G.sched (iter flip none L m)
        (L1 := L3) (L2 := L4 ++ 0 :: L2) (n := 2) (by rw [hL, hL']; simp) (m := 1) (by
          intro a ha hn
          have : a = 0 := trailNext_inj w V (by rw [← hnx]; exact hn) x0
          exact h0 (this ▸ ha))
      have e3 := pick (R3 fun _ => by rw [old]; exact i1)
      refine ⟨pick (R1 fun _ => ?_), e3⟩
      rcases S.seen_any 0 k0 3 with h | h
      · rw [h]; exact i3
      · rw [h]; exact e3
    · have old := stateAt_old (D := flip) (ind := decide (m ≠ 0)) G.sched (iter flip none L m)
        (L1 := L1) (L2 := L2) (n := 0) hL (m := 3) (by
          intro a ha hn
          have : a = 2 := trailNext_inj w V (by rw [← hnx]; exact hn) x2
          exact h2 (this ▸ ha))
      have e1 := pick (R1 fun _ => by rw [old]; exact i3)
      refine ⟨e1, pick (R3 fun _ => ?_)⟩
      rcases S.seen_any 2 k2 1 with h | h
      · rw [h]; exact i1
      · rw [h]; exact e1

/-- Consecutive iterates after the first are at least 4 apart. -/
theorem flip_moves {L : List Int} (G : GoodSched flip none L) {m : Nat} (hm : m ≠ 0) :
    4 ≤ residualDistance (iter flip none L m).xyz (iter flip none L (m + 1)).xyz := by
  have w := valid_flip.wf
  have V := valid_flip.trails
  have k0 : (0 : Int) ∈ flip.nodes.keys := by rw [flip_keys]; simp
  have k1 : (1 : Int) ∈ flip.nodes.keys := by rw [flip_keys]; simp
  have k2 : (2 : Int) ∈ flip.nodes.keys := by rw [flip_keys]; simp
  have k3 : (3 : Int) ∈ flip.nodes.keys := by rw [flip_keys]; simp
  have g := goodState_iter w V none L (m + 1)
  have S := finalSpec_sched w V G m
  obtain ⟨R1, R3⟩ := flip_round S
  obtain ⟨i1, i3⟩ := flip_iter G m
  obtain ⟨j1, j3⟩ := flip_iter G (m + 1)
  have apart : ∀ a b : ℝ, Vec.dist (⟨a, 0, 0⟩ : Vec ℝ) ⟨b, 0, 0⟩ = |a - b| := by
    intro a b
    have : (⟨a, 0, 0⟩ : Vec ℝ) - ⟨b, 0, 0⟩ = (a - b) • ⟨1, 0, 0⟩ := by ext <;> simp
    have h2 : Vec.length (⟨1, 0, 0⟩ : Vec ℝ) = 1 := by simp [Vec.length_def, Vec.dot]
    unfold Vec.dist
    rw [this, Vec.length_smul, h2, mul_one]
  have d1 := dist_le_residual (iter flip none L m) (iter flip none L (m + 1)) (n := 1)
    (by rw [g.1]; exact k1)
  have d3 := dist_le_residual (iter flip none L m) (iter flip none L (m + 1)) (n := 3)
    (by rw [g.1]; exact k3)
  by_cases e1 : (iter flip none L m).pos 1 = (iter flip none L (m + 1)).pos 1
  · by_cases e3 : (iter flip none L m).pos 3 = (iter flip none L (m + 1)).pos 3
    · exfalso
      have q3 := S.seen_any 0 k0 3
      have q1 := S.seen_any 2 k2 1
      rw [e3, or_self] at q3
      rw [e1, or_self] at q1
      have r1 := R1 fun _ => by rw [q3]; exact j3
      have r3 := R3 fun _ => by rw [q1]; exact j1
      rw [q3] at r1
      rw [q1] at r3
      have n1 : ¬ (⟨2, 0, 0⟩ : Vec ℝ) = ⟨-2, 0, 0⟩ := by
        intro h'; have := congrArg Vec.x h'; norm_num at this
      have n3 : ¬ (⟨3, 0, 0⟩ : Vec ℝ) = ⟨-1, 0, 0⟩ := by
        intro h'; have := congrArg Vec.x h'; norm_num at this
      rcases j1 with h1 | h1 <;> rcases j3 with h3 | h3 <;> rw [h1, h3] at r1 r3
      · rw [if_pos ⟨by simpa using hm, rfl⟩] at r3; exact n3 r3
      · rw [if_pos ⟨by simpa using hm, rfl⟩] at r1; exact n1 r1
      · rw [if_neg (by simp [n3])] at r1; exact n1 r1.symm
      · rw [if_neg (by rintro ⟨_, h⟩; exact n1 h.symm)] at r3; exact n3 r3.symm
    · refine le_trans ?_ d3
      rcases i3 with h | h <;> rcases j3 with h' | h' <;> rw [h, h'] at e3 ⊢
      · exact absurd rfl e3
      · rw [apart]; norm_num
      · rw [apart]; norm_num
      · exact absurd rfl e3
  · refine le_trans ?_ d1
    rcases i1 with h | h <;> rcases j1 with h' | h' <;> rw [h, h'] at e1 ⊢
    · exact absurd rfl e1
    · rw [apart]; norm_num
    · rw [apart]; norm_num
    · exact absurd rfl e1

end FlipEx

/-- C65. Positions that need themselves need not settle: there is a valid problem with trail edges of
nonzero length for which form finding raises an error for all thresholds below 4, with whatever
number of iterations. -/
theorem C65_feedback : ∃ D : Diagram ℝ, ValidInput D ∧ NonzeroTrails D ∧ ¬ Acyclic D ∧
    ∀ tmax eta verbose, 2 ≤ tmax → eta < 4 →
      staticEquilibrium D none tmax eta verbose = .error .valueError := by
  refine ⟨FlipEx.flip, FlipEx.valid_flip, FlipEx.nonzero_flip, ?_, ?_⟩
  · intro hA
    have t : FlipEx.flip.trails = [(0, [0, 1]), (2, [2, 3])] := rfl
    refine hA 1 (Relation.TransGen.tail (Relation.TransGen.single (b := 3) ?_) ?_)
    · exact ⟨0, ⟨0, [0, 1], by rw [t]; simp, [], [], rfl⟩,
        Or.inr ⟨_, Or.inl (by rw [FlipEx.flip_edges]; simp; rfl), rfl⟩⟩
    · exact ⟨2, ⟨2, [2, 3], by rw [t]; simp, [], [], rfl⟩,
        Or.inr ⟨_, Or.inl (by rw [FlipEx.flip_edges]; simp; rfl), rfl⟩⟩
  · intro tmax eta verbose ht he
    obtain ⟨L, G, _, _, h2⟩ := equilibriumState_cases FlipEx.valid_flip (kmax := none) (by simp) tmax
      eta verbose
    obtain ⟨m, hm, _, _, _, hr⟩ := h2 ht
    obtain ⟨k, rfl⟩ : ∃ k, m = k + 1 + 1 := ⟨m - 2, by omega⟩
    have := FlipEx.flip_moves G (m := k + 1) (by omega)
    unfold staticEquilibrium
    rw [hr, if_pos (by simp only [Nat.add_sub_cancel]; exact lt_of_lt_of_le he this)]


end Props
end CEM
