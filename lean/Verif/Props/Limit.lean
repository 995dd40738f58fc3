import Verif.Lemmas.Limit
import Verif.Props.Uniqueness
import Verif.Props.TrailEdges
import Mathlib.Analysis.SpecificLimits.Basic

/-!
# Property C61: forms found with smaller and smaller thresholds
-/

set_option linter.unusedSectionVars false
set_option linter.unusedSimpArgs false

namespace CEM
namespace Props
open Diagram Spec EqEx Filter Topology

/-- The edge pulls of forms that approach a form approach its pulls. -/
theorem approaches_pullAt {D : Diagram ℝ} {F : ℕ → Diagram ℝ} {G : Diagram ℝ}
    (A : FormsApproach D F G) {n : Int} {e : Int × Int} (he : e ∈ D.edges.keys)
    (h1 : e.1 ∈ D.nodes.keys) (h2 : e.2 ∈ D.nodes.keys)
    (hG : posOf G e.1 ≠ posOf G e.2 ∨ forceAt G e = 0) :
    Approaches (fun j => pullAt (F j) n e) (pullAt G n e) := by
  have key : ∀ a b : Int, a ∈ D.nodes.keys → b ∈ D.nodes.keys →
      (posOf G a ≠ posOf G b ∨ forceAt G e = 0) →
      Approaches (fun j => forceAt (F j) e • unit (posOf (F j) b - posOf (F j) a))
        (forceAt G e • unit (posOf G b - posOf G a)) := by
    intro a b ha hb hab
    rcases hab with hab | h0
    · exact Approach.smul (A.forces e he) (Approach.unit (Approach.sub (A.positions b hb)
        (A.positions a ha)) (sub_ne_zero.2 (Ne.symm hab)))
    · rw [h0, zero_smul]
      refine Approach.squeeze (b := fun j => |forceAt (F j) e|) ?_ (Eventually.of_forall fun j => ?_)
      · have := (A.forces e he).abs
        rwa [h0, abs_zero] at this
      · rw [sub_zero, Vec.length_smul]
        exact mul_le_of_le_one_right (abs_nonneg _) (length_unit_le _)
  unfold pullAt
  refine Approach.add ?_ ?_
  · by_cases hn : e.1 = n
    · simp only [hn, if_true]
      simp only [← hn]
      exact key _ _ h1 h2 hG
    · simp only [hn, if_false]; exact Approach.const 0
  · by_cases hn : e.2 = n
    · simp only [hn, if_true]
      simp only [← hn]
      exact key _ _ h2 h1 (hG.imp Ne.symm id)
    · simp only [hn, if_false]; exact Approach.const 0

/-- The unbalanced forces of returned forms that approach a form approach its unbalanced forces. -/
theorem approaches_imbalance {D : Diagram ℝ} (I : ValidInput D) {F : ℕ → Diagram ℝ} {G : Diagram ℝ}
    {tmax : ℕ → Nat} {eta : ℕ → ℝ} {v : Bool}
    (h : ∀ j, staticEquilibrium D none (tmax j) (eta j) v = .ok (F j)) (A : FormsApproach D F G)
    (hG : ∀ e ∈ D.edges.keys, posOf G e.1 ≠ posOf G e.2 ∨ forceAt G e = 0) {n : Int}
    (hn : n ∈ D.nodes.keys) : Approaches (fun j => imbalance (F j) n) (imbalance G n) := by
  have hperm := A.edges
  have hnd : G.edges.keys.Nodup := hperm.nodup_iff.2 I.wf.edgesNodup
  have e2 : imbalance G n = loadAt D n + reactionAt G n + (D.edges.keys.map (pullAt G n)).sum := by
    unfold imbalance
    rw [A.loads, sum_pull_keys hnd, (hperm.map _).sum_eq]
  have e1 : ∀ j, imbalance (F j) n =
      loadAt D n + reactionAt (F j) n + (D.edges.keys.map (pullAt (F j) n)).sum := by
    intro j
    obtain ⟨k1, k2, k3, _⟩ := C25_keeps_data I (h j)
    unfold imbalance
    rw [sum_pull_keys (by rw [k2]; exact I.wf.edgesNodup), k2]
    obtain ⟨d, hd⟩ := (Dict.exists_get?_iff _ _).2 hn
    obtain ⟨d', hd', el, _⟩ := k3 n d hd
    congr 2
    unfold loadAt
    rw [hd, hd']; simp [el]
  rw [e2, show (fun j => imbalance (F j) n) = fun j => loadAt D n + reactionAt (F j) n +
    (D.edges.keys.map (pullAt (F j) n)).sum from funext e1]
  refine Approach.add (Approach.add (Approach.const _) (A.reactions n hn)) ?_
  exact Approach.list_sum _ fun e he => approaches_pullAt A he (I.wf.edge_left _ he)
    (I.wf.edge_right _ he) (hG e he)

/-- The admitted unbalanced forces vanish with the threshold. -/
theorem tendsto_nodalBound {D : Diagram ℝ} (I : ValidInput D) {F : ℕ → Diagram ℝ} {G : Diagram ℝ}
    {tmax : ℕ → Nat} {eta : ℕ → ℝ} {v : Bool}
    (h : ∀ j, staticEquilibrium D none (tmax j) (eta j) v = .ok (F j)) (A : FormsApproach D F G)
    (he : Tendsto eta atTop (𝓝 0))
    (hG : ∀ e ∈ D.edges.keys, posOf G e.1 ≠ posOf G e.2 ∨ forceAt G e = 0) (n : Int) :
    ∃ b : ℕ → ℝ, Tendsto b atTop (𝓝 0) ∧ ∀ j, nodalBound (F j) (eta j) n ≤ b j := by
  let t : ℕ → Int × Int → ℝ := fun j e => |forceAt (F j) e| *
    max 0 (slack (eta j) (Vec.length (posOf (F j) e.2 - posOf (F j) e.1)))
  have t0 : ∀ j e, 0 ≤ t j e := fun j e => mul_nonneg (abs_nonneg _) (le_max_left _ _)
  refine ⟨fun j => (D.edges.keys.map (t j)).sum, ?_, fun j => ?_⟩
  · have hsum : ∀ l : List (Int × Int), (∀ e ∈ l, Tendsto (fun j => t j e) atTop (𝓝 0)) →
        Tendsto (fun j => (l.map (t j)).sum) atTop (𝓝 0) := by
      intro l
      induction l with
      | nil => intro _; exact tendsto_const_nhds
      | cons e l ih =>
        intro hl
        simp only [List.map_cons, List.sum_cons]
        simpa using (hl e (by simp)).add (ih fun f hf => hl f (by simp [hf]))
    refine hsum _ fun e hm => ?_
    have hf := (A.forces e hm).abs
    rcases hG e hm with hne | h0
    · have hd := Approach.length (Approach.sub (A.positions _ (I.wf.edge_right _ hm))
        (A.positions _ (I.wf.edge_left _ hm)))
      have hpos : 0 < Vec.length (posOf G e.2 - posOf G e.1) :=
        Vec.length_pos (sub_ne_zero.2 (Ne.symm hne))
      have hq : Tendsto (fun j => |forceAt (F j) e| *
          |2 * eta j / Vec.length (posOf (F j) e.2 - posOf (F j) e.1)|) atTop (𝓝 0) := by
        have := hf.mul (((he.const_mul 2).div hd hpos.ne').abs)
        simpa using this
      refine squeeze_zero' (Eventually.of_forall fun j => t0 j e) ?_ hq
      filter_upwards [hd.eventually (lt_mem_nhds hpos)] with j hj
      refine mul_le_mul_of_nonneg_left (max_le (abs_nonneg _) ?_) (abs_nonneg _)
      unfold slack
      rw [if_neg hj.ne']
      exact (min_le_right _ _).trans (le_abs_self _)
    · rw [h0, abs_zero] at hf
      have hq : Tendsto (fun j => |forceAt (F j) e| * 2) atTop (𝓝 0) := by
        simpa using hf.mul_const 2
      refine squeeze_zero (fun j => t0 j e) (fun j => ?_) hq
      refine mul_le_mul_of_nonneg_left (max_le (by norm_num) ?_) (abs_nonneg _)
      unfold slack
      split_ifs
      · exact le_refl _
      · exact min_le_left _ _
  · obtain ⟨_, k2, _, _⟩ := C25_keeps_data I (h j)
    have hnd : (F j).edges.keys.Nodup := by rw [k2]; exact I.wf.edgesNodup
    show _ ≤ (D.edges.keys.map (t j)).sum
    rw [← k2]
    unfold nodalBound Dict.keys
    rw [List.map_map]
    refine List.sum_le_sum ?_
    rintro ⟨e, d⟩ hm
    have hg : forceAt (F j) e = d.force := by
      unfold forceAt
      rw [Dict.get?_of_mem hnd hm]; rfl
    simp only [Function.comp]
    split_ifs
    · show _ ≤ |forceAt (F j) e| * _
      rw [hg]
      exact mul_le_mul_of_nonneg_left (le_max_right _ _) (abs_nonneg _)
    · exact t0 j e

/-- **C61, balance.**  If forms found with thresholds that tend to zero approach a form, then all
nodes of this form are balanced, unless an edge that carries a force shrinks to a point. -/
theorem C61_balanced {D : Diagram ℝ} (I : ValidInput D) (hl : NonzeroTrails D) {F : ℕ → Diagram ℝ}
    {G : Diagram ℝ} {tmax : ℕ → Nat} (ht : ∀ j, 2 ≤ tmax j) {eta : ℕ → ℝ} {v : Bool}
    (h : ∀ j, staticEquilibrium D none (tmax j) (eta j) v = .ok (F j)) (A : FormsApproach D F G)
    (he : Tendsto eta atTop (𝓝 0))
    (hG : ∀ e ∈ D.edges.keys, posOf G e.1 ≠ posOf G e.2 ∨ forceAt G e = 0) :
    ∀ n ∈ D.nodes.keys, imbalance G n = 0 := by
  intro n hn
  obtain ⟨b, hb, hle⟩ := tendsto_nodalBound I h A he hG n
  have h1 := approaches_imbalance I h A hG hn
  have h2 : Approaches (fun j => imbalance (F j) n) 0 := by
    refine Approach.squeeze hb (Eventually.of_forall fun j => ?_)
    rw [sub_zero]
    refine (C21_nodal_equilibrium I hl (ht j) (h j) n ?_).trans (hle j)
    rw [(C25_keeps_data I (h j)).1]; exact hn
  exact Approach.unique h1 h2

/-- **C61.**  If forms found with thresholds that tend to zero approach a form in which all trail
edges carry forces and no deviation edge that carries a force has shrunk to a point, then this form
is an equilibrium of the problem: it has the prescribed lengths, force states and deviation forces,
and all nodes are balanced.  Trail edges have no planes here. -/
theorem C61_limit {D : Diagram ℝ} (I : ValidInput D) (hl : NonzeroTrails D) {F : ℕ → Diagram ℝ}
    {G : Diagram ℝ} {tmax : ℕ → Nat} (ht : ∀ j, 2 ≤ tmax j) {eta : ℕ → ℝ} {v : Bool}
    (h : ∀ j, staticEquilibrium D none (tmax j) (eta j) v = .ok (F j)) (A : FormsApproach D F G)
    (he : Tendsto eta atTop (𝓝 0))
    (hp : ∀ e d, D.edges.get? e = some d → d.type = .trail → d.plane = none)
    (hf : ∀ e d, D.edges.get? e = some d → d.type = .trail → forceAt G e ≠ 0)
    (hG : ∀ e d, D.edges.get? e = some d → d.type = .deviation →
      posOf G e.1 ≠ posOf G e.2 ∨ forceAt G e = 0) : EquilibriumOf D G := by
  have w := I.wf
  have fAt : ∀ j e d', (F j).edges.get? e = some d' → forceAt (F j) e = d'.force := by
    intro j e d' h'; unfold forceAt; rw [h']; rfl
  -- lengths and force states of trail edges
  have htrail : ∀ e d, D.edges.get? e = some d → d.type = .trail →
      Vec.dist (posOf G e.1) (posOf G e.2) = |d.length| ∧ 0 < forceAt G e * d.length := by
    intro e d h0 htt
    have hm := Dict.mem_keys_of_get? h0
    have hl0 := hl e d h0 htt
    have hev : ∀ᶠ j in atTop, forceAt (F j) e ≠ 0 :=
      (A.forces e hm).eventually_ne (hf e d h0 htt)
    have hj : ∀ᶠ j in atTop, Vec.dist (posOf (F j) e.1) (posOf (F j) e.2) = |d.length| ∧
        0 < forceAt (F j) e * d.length := by
      filter_upwards [hev] with j hne
      obtain ⟨d', h', _⟩ := (C25_keeps_data I (h j)).2.2.2 e d h0
      rw [fAt j e d' h'] at hne ⊢
      obtain ⟨q1, q2, q3, _⟩ := C26_trail_length_sign I (h j) h0 htt (hp e d h0 htt) h' hne
      refine ⟨q1, ?_⟩
      rcases lt_or_gt_of_ne hl0 with hlt | hgt
      · exact mul_pos_of_neg_of_neg (q3 hlt) hlt
      · exact mul_pos (q2 hgt) hgt
    have hd := Approach.length (Approach.sub (A.positions _ (w.edge_left _ hm))
      (A.positions _ (w.edge_right _ hm)))
    constructor
    · exact tendsto_nhds_unique (hd.congr' (hj.mono fun j hh => hh.1)) tendsto_const_nhds
    · have := ge_of_tendsto ((A.forces e hm).mul_const d.length) (hj.mono fun j hh => hh.2.le)
      exact lt_of_le_of_ne this (Ne.symm (mul_ne_zero (hf e d h0 htt) hl0))
  have hG' : ∀ e ∈ D.edges.keys, posOf G e.1 ≠ posOf G e.2 ∨ forceAt G e = 0 := by
    intro e hm
    obtain ⟨d, h0⟩ := (Dict.exists_get?_iff _ _).2 hm
    cases htt : d.type with
    | trail =>
      left
      intro heq
      have h1 := (htrail e d h0 htt).1
      unfold Vec.dist at h1
      rw [heq, sub_self, Vec.length_zero] at h1
      exact hl e d h0 htt (abs_eq_zero.1 h1.symm)
    | deviation => exact hG e d h0 htt
    | untyped => exact absurd htt (I.typed e d h0)
  refine ⟨A.nodes, A.edges, A.loads, ?_, ?_, C61_balanced I hl ht h A he hG', ?_, ?_⟩
  · intro n tr htr
    obtain ⟨rest, rfl⟩ := I.trails.head n tr htr
    have hn := I.trails.mem_keys htr List.mem_cons_self
    obtain ⟨d, hdn⟩ := (Dict.exists_get?_iff _ _).2 hn
    refine Approach.unique (A.positions n hn) ?_
    have : (fun j => posOf (F j) n) = fun _ => posOf D n := by
      funext j
      obtain ⟨d', hd', _, _, _, e4, _⟩ := (C25_keeps_data I (h j)).2.2.1 n d hdn
      unfold posOf
      rw [hdn, hd']
      simp [e4 ⟨_, htr⟩]
    rw [this]
    exact Approach.const _
  · intro n hn hs
    obtain ⟨d, hdn⟩ := (Dict.exists_get?_iff _ _).2 hn
    refine Approach.unique (A.reactions n hn) ?_
    have : (fun j => reactionAt (F j) n) = fun _ => 0 := by
      funext j
      obtain ⟨d', hd', _, _, _, _, e5⟩ := (C25_keeps_data I (h j)).2.2.1 n d hdn
      have ht' : d.type ≠ .support := by
        rintro ht'
        exact hs (by unfold typeOf; rw [hdn, Option.map_some, ht'])
      unfold reactionAt
      rw [hd']
      simp [e5 ht']
    rw [this]
    exact Approach.const _
  · intro e d d' h0 h1 htt
    have hm := Dict.mem_keys_of_get? h0
    have hg : forceAt G e = d'.force := by unfold forceAt; rw [h1]; rfl
    rw [← hg]
    have : (fun j => forceAt (F j) e) = fun _ => d.force := by
      funext j
      obtain ⟨d2, h2, _, _, e3⟩ := (C25_keeps_data I (h j)).2.2.2 e d h0
      rw [fAt j e d2 h2, e3 htt]
    have h2 := A.forces e hm
    rw [this] at h2
    exact tendsto_nhds_unique h2 tendsto_const_nhds |>.symm ▸ rfl
  · intro key tr a b e d d' htr hc hab h0 h1
    have hadj : TrailAdj D a b := (isChain_iff_consecutive tr).1 (I.trails.chain key tr htr) a b hc
    have htt : d.type = .trail := by
      rcases hadj with ⟨d3, h3, t3⟩ | ⟨d3, h3, t3⟩ <;> rcases hab with rfl | rfl
      · rw [h0] at h3; rw [Option.some.inj h3]; exact t3
      · exact absurd (Dict.mem_keys_of_get? h0) (I.simple.noAnti _ _ (Dict.mem_keys_of_get? h3))
      · exact absurd (Dict.mem_keys_of_get? h0) (I.simple.noAnti _ _ (Dict.mem_keys_of_get? h3))
      · rw [h0] at h3; rw [Option.some.inj h3]; exact t3
    have hg : forceAt G e = d'.force := by unfold forceAt; rw [h1]; rfl
    obtain ⟨q1, q2⟩ := htrail e d h0 htt
    refine ⟨by rw [← hg]; exact hf e d h0 htt, ?_⟩
    unfold AsPrescribed
    rw [hp e d h0 htt]
    refine ⟨?_, by rw [← hg]; exact q2⟩
    rcases hab with rfl | rfl
    · exact q1
    · rw [← q1]; unfold Vec.dist; exact Vec.length_sub_comm _ _

/-- A form approaches itself. -/
theorem FormsApproach.const {D F : Diagram ℝ} (I : ValidInput D) {tmax : Nat} {eta : ℝ} {v : Bool}
    (h : staticEquilibrium D none tmax eta v = .ok F) : FormsApproach D (fun _ => F) F := by
  obtain ⟨k1, k2, k3, _⟩ := C25_keeps_data I h
  refine ⟨by rw [k1], by rw [k2], ?_, fun n _ => Approach.const _, fun n _ => Approach.const _,
    fun e _ => tendsto_const_nhds⟩
  intro n
  unfold loadAt
  cases hn : D.nodes.get? n with
  | none =>
    have : F.nodes.get? n = none := by
      rw [Dict.get?_eq_none_iff, k1]; exact (Dict.get?_eq_none_iff _ _).1 hn
    rw [this]
  | some d =>
    obtain ⟨d', hd', e1, _⟩ := k3 n d hn
    rw [hd']; simp [e1]

open ColEx in
/-- The column, found with the thresholds 1, 1/2, 1/3, ….  It has no indirect edges. -/
example : ∃ F : ℕ → Diagram ℝ,
    (∀ j : ℕ, staticEquilibrium (col none) none 100 (1 / ((j : ℝ) + 1)) false = .ok (F j)) ∧
    FormsApproach (col none) F (F 0) ∧ EquilibriumOf (col none) (F 0) := by
  have hret : ∀ j : ℕ, ∃ F, staticEquilibrium (col none) none 100 (1 / ((j : ℝ) + 1)) false = .ok F :=
    fun j => C20_returns_without_indirect valid_none (directOnly_col colQ_none) (by norm_num) (by positivity)
  choose F hF using hret
  have A0 := FormsApproach.const valid_none (hF 0)
  have hsame := fun j => C32_determined valid_none valid_none (SameProblem.refl' _)
    (directOnly_col colQ_none) (hF j) (hF 0)
  have hk := fun j => C25_keeps_data valid_none (hF j)
  have A : FormsApproach (col none) F (F 0) := by
    refine ⟨A0.nodes, A0.edges, A0.loads, fun n hn => ?_, fun n hn => ?_, fun e he => ?_⟩
    · rw [show (fun j => posOf (F j) n) = fun _ => posOf (F 0) n from
        funext fun j => ((hsame j).2.1 n (by rw [(hk j).1]; exact hn)).1]
      exact Approach.const _
    · rw [show (fun j => reactionAt (F j) n) = fun _ => reactionAt (F 0) n from
        funext fun j => ((hsame j).2.1 n (by rw [(hk j).1]; exact hn)).2]
      exact Approach.const _
    · rw [show (fun j => forceAt (F j) e) = fun _ => forceAt (F 0) e from funext fun j => by
        obtain ⟨d, hd⟩ := (Dict.exists_get?_iff (F j).edges e).2 (by rw [(hk j).2.1]; exact he)
        obtain ⟨d', hd', hf, _⟩ := (hsame j).2.2 e d hd
        unfold forceAt
        rw [hd, hd', Option.map_some, Option.map_some, hf]]
      exact tendsto_const_nhds
  refine ⟨F, hF, A, C61_limit valid_none (nonzero_col colQ_none) (fun _ => by norm_num) hF A
    tendsto_one_div_add_atTop_nhds_zero_nat ?_ ?_ ?_⟩
  · intro e d hd _
    rw [col_edges colQ_none] at hd
    split_ifs at hd
    rw [← Option.some.inj hd]
    rfl
  · intro e d hd ht
    obtain ⟨d', hd', e1, _⟩ := (hk 0).2.2.2 e d hd
    unfold forceAt
    rw [hd', Option.map_some, Option.getD_some]
    exact forces_col colQ_none valid_none (hF 0) e d' hd' (by rw [e1]; exact ht)
  · intro e d hd ht
    rw [col_edges colQ_none] at hd
    split_ifs at hd
    rw [← Option.some.inj hd] at ht
    simp [colEdge] at ht

end Props
end CEM
