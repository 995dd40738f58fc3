import Verif.Lemmas.Reach
import Verif.Props.Exact
import Mathlib.Topology.Sequences
import Mathlib.Topology.Order.Compact
import Mathlib.Topology.Instances.Real.Lemmas

/-!
# What is known of a form before it is found (C90)
-/

set_option linter.unusedSectionVars false
set_option linter.unusedSimpArgs false

namespace CEM
namespace Props
open Diagram Spec Filter Topology

section
variable {D : Diagram ℝ} (I : ValidInput D) {F : Diagram ℝ} (h : Computed D F) {key : Int} {tr : List Int}
  (htr : (key, tr) ∈ D.trails)
include I h htr

theorem computed_trail_force {l q : List Int} {a b : Int} (hl : tr = l ++ a :: b :: q) {e : Int × Int}
    (he : e = (a, b) ∨ e = (b, a)) {d : EdgeData ℝ} (hd : F.edges.get? e = some d) :
    |d.force| ≤ pushes D (l ++ [a]) := by
  obtain ⟨ind, p, s, r, Q, rfl, S⟩ := h
  have hm : e ∈ D.edges.keys := by
    rw [← show (formOf D s).edges.keys = D.edges.keys from formEdges_keys _ _]
    exact Dict.mem_keys_of_get? hd
  obtain ⟨d0, h0⟩ := (Dict.exists_get?_iff _ _).2 hm
  obtain ⟨_, hf, _⟩ := trail_form I S htr ⟨l, q, hl⟩ he h0 hd
  rw [hf, abs_copysign_length]
  exact length_passed_le I S htr l a (b :: q) hl

theorem computed_reaction {n : Int} (hn : n ∈ tr) : Vec.length (reactionAt F n) ≤ pushes D tr := by
  obtain ⟨ind, p, s, r, Q, rfl, S⟩ := h
  have hk := I.trails.mem_keys htr hn
  rw [reactionAt_form I.wf S I.reaction hk]
  obtain ⟨l, q, hl⟩ := List.append_of_mem hn
  have h0 : pushes D tr = pushes D (l ++ [n]) + pushes D q := by rw [hl]; simp [pushes, add_assoc]
  have hq : 0 ≤ pushes D q := List.sum_nonneg fun x hx => by
    obtain ⟨m, _, rfl⟩ := List.mem_map.1 hx; exact pushAt_nonneg D m
  have h1 := length_passed_le I S htr l n q hl
  split_ifs
  · linarith
  · rw [Vec.length_zero]; linarith [Vec.length_nonneg (r n)]

theorem computed_reach (hp : NoPlanes D) : ∀ {l q : List Int} {n : Int}, tr = l ++ n :: q →
    Vec.dist (posOf F n) (posOf D key) ≤ walked D (l ++ [n]) := by
  obtain ⟨ind, p, s, r, Q, rfl, S⟩ := h
  intro l
  induction l using List.reverseRecOn with
  | nil =>
    intro q n hl
    obtain ⟨rest, hr⟩ := I.trails.head key tr htr
    have hn : n = key := by rw [hr] at hl; exact (List.cons.inj hl).1.symm
    subst hn
    have hs := S.start n fun a _ ha => head_not_next I.wf I.trails htr a (nxtK_trail ha)
    have : posOf (formOf D s) n = posOf D n := by
      rw [posOf_form I.wf S, hs.1]
      unfold EqState.pos initState posOf
      rw [get?_map_val D.nodes (fun d => d.pos)]
    rw [this]
    simp [Vec.dist, walked]
  | append_singleton l a ih =>
    intro q n hl
    have hl' : tr = l ++ a :: (n :: q) := by rw [hl]; simp
    have hc : Consecutive tr a n := ⟨l, q, hl'⟩
    have ih := ih hl'
    have key : ∃ e d0, (e = (a, n) ∨ e = (n, a)) ∧ D.edges.get? e = some d0 ∧ d0.type = .trail ∧
        lengthBetween D a n = |d0.length| := by
      have hadj := (I.trails.chain key tr htr)
      rw [hl'] at hadj
      have : TrailAdj D a n := by
        have := (List.isChain_append.1 hadj).2.1
        exact (List.isChain_cons_cons.1 this).1
      rcases this with ⟨d0, h0, ht⟩ | ⟨d0, h0, ht⟩
      · exact ⟨_, d0, Or.inl rfl, h0, ht, by simp [lengthBetween, h0]⟩
      · refine ⟨_, d0, Or.inr rfl, h0, ht, ?_⟩
        have : D.edges.get? (a, n) = none := by
          cases hg : D.edges.get? (a, n) with
          | none => rfl
          | some d1 =>
            exact absurd (Dict.mem_keys_of_get? hg) (I.simple.noAnti _ _ (Dict.mem_keys_of_get? h0))
        simp [lengthBetween, h0, this]
    obtain ⟨e, d0, he, h0, ht, hlen⟩ := key
    obtain ⟨d, hd⟩ := (Dict.exists_get?_iff (formOf D s).edges e).2 (by
      rw [show (formOf D s).edges.keys = D.edges.keys from formEdges_keys _ _]
      exact Dict.mem_keys_of_get? h0)
    obtain ⟨h1, _⟩ := trail_form I S htr hc he h0 hd
    have heff : ∀ x v, effectiveLength d0 x v = d0.length := by
      intro x v; unfold effectiveLength; rw [hp e d0 h0 ht]
    rw [heff] at h1
    rw [List.append_assoc, List.singleton_append, walked_concat, hlen, h1]
    have e1 : Vec.dist (posOf (formOf D s) a + d0.length • unit (r a)) (posOf D key) ≤
        Vec.dist (posOf (formOf D s) a) (posOf D key) + Vec.length (d0.length • unit (r a)) := by
      have := Vec.length_add_le (posOf (formOf D s) a - posOf D key) (d0.length • unit (r a))
      have e : posOf (formOf D s) a + d0.length • unit (r a) - posOf D key =
        posOf (formOf D s) a - posOf D key + d0.length • unit (r a) := by abel
      rw [Vec.dist, e]
      exact this
    have e2 : Vec.length (d0.length • unit (r a)) ≤ |d0.length| := by
      rw [Vec.length_smul]
      have := length_unit_le (r a)
      nlinarith [abs_nonneg d0.length]
    linarith

end

section
variable {D : Diagram ℝ} (I : ValidInput D) {tmax : Nat} {eta : ℝ} {verbose : Bool} {F : Diagram ℝ}
  (h : staticEquilibrium D none tmax eta verbose = .ok F) {key : Int} {tr : List Int}
  (htr : (key, tr) ∈ D.trails)
include I h htr

/-- **C90.**  A trail edge carries at most the loads and the forces of deviation edges at the nodes
of its trail up to it, whatever the number of sweeps, converged or not. -/
theorem C90_trail_force {l q : List Int} {a b : Int} (hl : tr = l ++ a :: b :: q) {e : Int × Int}
    (he : e = (a, b) ∨ e = (b, a)) {d : EdgeData ℝ} (hd : F.edges.get? e = some d) :
    |d.force| ≤ pushes D (l ++ [a]) :=
  computed_trail_force I (computed_of_returned I h) htr hl he hd

/-- **C90.**  The reaction of a support is at most the loads and the forces of deviation edges at
the nodes of its trail; other nodes have none. -/
theorem C90_reaction {n : Int} (hn : n ∈ tr) : Vec.length (reactionAt F n) ≤ pushes D tr :=
  computed_reaction I (computed_of_returned I h) htr hn

/-- **C90.**  A node is at most as far from the first node of its trail as the prescribed lengths of
the edges between them allow, if these have no planes. -/
theorem C90_reach (hp : NoPlanes D) {l q : List Int} {n : Int} (hl : tr = l ++ n :: q) :
    Vec.dist (posOf F n) (posOf D key) ≤ walked D (l ++ [n]) :=
  computed_reach I (computed_of_returned I h) htr hp hl

end

/-! ## Subsequences -/

/-- **C90.**  Without planes there are bounds for all positions, reactions and forces of all forms
that are found for a diagram with any settings. -/
theorem C90_bounded {D : Diagram ℝ} (I : ValidInput D) (hp : NoPlanes D) :
    (∀ n ∈ D.nodes.keys, ∃ B, ∀ tmax eta verbose F, staticEquilibrium D none tmax eta verbose = .ok F →
      Vec.length (posOf F n) ≤ B ∧ Vec.length (reactionAt F n) ≤ B) ∧
    ∀ e ∈ D.edges.keys, ∃ B, ∀ tmax eta verbose F, staticEquilibrium D none tmax eta verbose = .ok F →
      |forceAt F e| ≤ B := by
  constructor
  · intro n hn
    obtain ⟨⟨key, tr⟩, htr, hm⟩ := List.mem_flatMap.1 (I.trails.partition.mem_iff.2 hn)
    simp only at hm
    obtain ⟨l, q, hl⟩ := List.append_of_mem hm
    refine ⟨max (walked D (l ++ [n]) + Vec.length (posOf D key)) (pushes D tr), fun tmax eta v F h => ⟨?_, ?_⟩⟩
    · refine le_trans ?_ (le_max_left _ _)
      have h1 := C90_reach I h htr hp hl
      have h2 := Vec.length_add_le (posOf F n - posOf D key) (posOf D key)
      rw [sub_add_cancel] at h2
      unfold Vec.dist at h1
      linarith
    · exact (C90_reaction I h htr hm).trans (le_max_right _ _)
  · rintro ⟨a, b⟩ he
    obtain ⟨d0, h0⟩ := (Dict.exists_get?_iff _ _).2 he
    cases ht : d0.type with
    | untyped => exact absurd ht (I.typed _ _ h0)
    | deviation =>
      refine ⟨|d0.force|, fun tmax eta v F h => ?_⟩
      obtain ⟨d', hd', _, _, hf⟩ := (C25_keeps_data I h).2.2.2 _ _ h0
      unfold forceAt
      rw [hd', Option.map_some, Option.getD_some, hf ht]
    | trail =>
      obtain ⟨key, tr, htr, hc⟩ := I.trails.complete a b (Or.inl ⟨d0, h0, ht⟩)
      have : ∃ B, ∀ tmax eta v F, staticEquilibrium D none tmax eta v = .ok F → ∀ d,
          F.edges.get? (a, b) = some d → |d.force| ≤ B := by
        rcases hc with ⟨l, q, hl⟩ | ⟨l, q, hl⟩
        · exact ⟨_, fun _ _ _ F h d hd => C90_trail_force I h htr hl (Or.inl rfl) hd⟩
        · exact ⟨_, fun _ _ _ F h d hd => C90_trail_force I h htr hl (Or.inr rfl) hd⟩
      obtain ⟨B, hB⟩ := this
      refine ⟨B, fun tmax eta v F h => ?_⟩
      obtain ⟨d', hd', _⟩ := (C25_keeps_data I h).2.2.2 _ _ h0
      unfold forceAt
      rw [hd', Option.map_some, Option.getD_some]
      exact hB _ _ _ F h d' hd'


/-- The diagram with other positions, reactions and forces. -/
def placed (D : Diagram ℝ) (x y : Int → Vec ℝ) (f : Int × Int → ℝ) : Diagram ℝ :=
  { D with
    nodes := D.nodes.map fun p => (p.1, { p.2 with pos := x p.1, reaction := y p.1 })
    edges := D.edges.map fun p => (p.1, { p.2 with force := f p.1 }) }

theorem placed_node (D : Diagram ℝ) (x y : Int → Vec ℝ) (f : Int × Int → ℝ) (n : Int) :
    (placed D x y f).nodes.get? n = (D.nodes.get? n).map fun d => { d with pos := x n, reaction := y n } :=
  get?_map_key D.nodes (fun n (d : NodeData ℝ) => ({ d with pos := x n, reaction := y n } : NodeData ℝ)) n

theorem placed_edge (D : Diagram ℝ) (x y : Int → Vec ℝ) (f : Int × Int → ℝ) (e : Int × Int) :
    (placed D x y f).edges.get? e = (D.edges.get? e).map fun d => { d with force := f e } :=
  get?_map_key D.edges (fun e (d : EdgeData ℝ) => ({ d with force := f e } : EdgeData ℝ)) e

theorem abs_coordinate_le (v : Vec ℝ) : |v.x| ≤ Vec.length v ∧ |v.y| ≤ Vec.length v ∧ |v.z| ≤ Vec.length v := by
  rw [Vec.length_def]
  refine ⟨?_, ?_, ?_⟩ <;>
  · rw [← Real.sqrt_sq_eq_abs]
    apply Real.sqrt_le_sqrt
    simp only [Vec.dot]
    nlinarith [sq_nonneg v.x, sq_nonneg v.y, sq_nonneg v.z]

theorem approaches_of_coordinates {u : ℕ → Vec ℝ} {v : Vec ℝ}
    (hx : Tendsto (fun j => (u j).x) atTop (𝓝 v.x)) (hy : Tendsto (fun j => (u j).y) atTop (𝓝 v.y))
    (hz : Tendsto (fun j => (u j).z) atTop (𝓝 v.z)) : Approaches u v := by
  unfold Approaches Vec.dist
  simp only [Vec.length_def, Vec.dot, Vec.sub_x, Vec.sub_y, Vec.sub_z]
  have hx := hx.sub_const v.x
  have hy := hy.sub_const v.y
  have hz := hz.sub_const v.z
  have := (((hx.mul hx).add (hy.mul hy)).add (hz.mul hz)).sqrt
  simpa using this

/-- Bounded sequences of numbers, countably many at once. -/
theorem common_subsequence {ι : Type} [Countable ι] (u : ℕ → ι → ℝ) (h : ∀ i, ∃ B, ∀ j, |u j i| ≤ B) :
    ∃ (φ : ℕ → ℕ) (v : ι → ℝ), StrictMono φ ∧ ∀ i, Tendsto (fun j => u (φ j) i) atTop (𝓝 (v i)) := by
  choose B hB using h
  have hc : IsCompact (Set.univ.pi fun i => Set.Icc (-B i) (B i)) :=
    isCompact_univ_pi fun i => isCompact_Icc
  obtain ⟨v, _, φ, hφ, hv⟩ := hc.tendsto_subseq (x := u) fun j i _ => abs_le.1 (hB i j)
  exact ⟨φ, v, hφ, fun i => (tendsto_pi_nhds.1 hv i)⟩

/-- **C90.**  Without planes, every sequence of forms found for a diagram, with any settings, has a
subsequence that approaches a form. -/
theorem C90_subsequence {D : Diagram ℝ} (I : ValidInput D) (hp : NoPlanes D) {F : ℕ → Diagram ℝ}
    {tmax : ℕ → Nat} {eta : ℕ → ℝ} {v : ℕ → Bool}
    (h : ∀ j, staticEquilibrium D none (tmax j) (eta j) (v j) = .ok (F j)) :
    ∃ (φ : ℕ → ℕ) (G : Diagram ℝ), StrictMono φ ∧ FormsApproach D (fun j => F (φ j)) G := by
  obtain ⟨hn, he⟩ := C90_bounded I hp
  have hpos : ∀ n, ∃ B, ∀ j, Vec.length (posOf (F j) n) ≤ B ∧ Vec.length (reactionAt (F j) n) ≤ B := by
    intro n
    by_cases hk : n ∈ D.nodes.keys
    · obtain ⟨B, hB⟩ := hn n hk
      exact ⟨B, fun j => hB _ _ _ _ (h j)⟩
    · refine ⟨0, fun j => ?_⟩
      have : (F j).nodes.get? n = none := by
        rw [Dict.get?_eq_none_iff, (C25_keeps_data I (h j)).1]; exact hk
      unfold posOf reactionAt
      rw [this]
      exact ⟨Vec.length_zero.le, Vec.length_zero.le⟩
  have hfor : ∀ e, ∃ B, ∀ j, |forceAt (F j) e| ≤ B := by
    intro e
    by_cases hk : e ∈ D.edges.keys
    · obtain ⟨B, hB⟩ := he e hk
      exact ⟨B, fun j => hB _ _ _ _ (h j)⟩
    · refine ⟨0, fun j => ?_⟩
      have : (F j).edges.get? e = none := by
        rw [Dict.get?_eq_none_iff, (C25_keeps_data I (h j)).2.1]; exact hk
      unfold forceAt
      rw [this]
      simp
  obtain ⟨φ, w, hφ, hw⟩ := common_subsequence (ι := (Int × Fin 6) ⊕ (Int × Int))
    (fun j i => match i with
      | .inl (n, c) => ![(posOf (F j) n).x, (posOf (F j) n).y, (posOf (F j) n).z,
          (reactionAt (F j) n).x, (reactionAt (F j) n).y, (reactionAt (F j) n).z] c
      | .inr e => forceAt (F j) e) (by
    rintro (⟨n, c⟩ | e)
    · obtain ⟨B, hB⟩ := hpos n
      refine ⟨B, fun j => ?_⟩
      obtain ⟨h1, h2, h3⟩ := abs_coordinate_le (posOf (F j) n)
      obtain ⟨h4, h5, h6⟩ := abs_coordinate_le (reactionAt (F j) n)
      obtain ⟨b1, b2⟩ := hB j
      fin_cases c
      · exact h1.trans b1
      · exact h2.trans b1
      · exact h3.trans b1
      · exact h4.trans b2
      · exact h5.trans b2
      · exact h6.trans b2
    · exact hfor e)
  let x : Int → Vec ℝ := fun n => ⟨w (.inl (n, 0)), w (.inl (n, 1)), w (.inl (n, 2))⟩
  let y : Int → Vec ℝ := fun n => ⟨w (.inl (n, 3)), w (.inl (n, 4)), w (.inl (n, 5))⟩
  let f : Int × Int → ℝ := fun e => w (.inr e)
  refine ⟨φ, placed D x y f, hφ, ?_, ?_, ?_, ?_, ?_, ?_⟩
  · rw [show (placed D x y f).nodes.keys = D.nodes.keys from
      keys_map_key D.nodes fun n (d : NodeData ℝ) => ({ d with pos := x n, reaction := y n } : NodeData ℝ)]
  · rw [show (placed D x y f).edges.keys = D.edges.keys from
      keys_map_key D.edges fun e (d : EdgeData ℝ) => ({ d with force := f e } : EdgeData ℝ)]
  · intro n
    unfold loadAt
    rw [placed_node]
    cases D.nodes.get? n <;> rfl
  · intro n hk
    obtain ⟨d, hd⟩ := (Dict.exists_get?_iff _ _).2 hk
    have : posOf (placed D x y f) n = x n := by unfold posOf; rw [placed_node, hd]; rfl
    rw [this]
    exact approaches_of_coordinates (hw (.inl (n, 0))) (hw (.inl (n, 1))) (hw (.inl (n, 2)))
  · intro n hk
    obtain ⟨d, hd⟩ := (Dict.exists_get?_iff _ _).2 hk
    have : reactionAt (placed D x y f) n = y n := by unfold reactionAt; rw [placed_node, hd]; rfl
    rw [this]
    exact approaches_of_coordinates (hw (.inl (n, 3))) (hw (.inl (n, 4))) (hw (.inl (n, 5)))
  · intro e hk
    obtain ⟨d, hd⟩ := (Dict.exists_get?_iff _ _).2 hk
    have : forceAt (placed D x y f) e = f e := by unfold forceAt; rw [placed_edge, hd]; rfl
    rw [this]
    exact hw (.inr e)

/-- **C90.**  If form finding succeeds with thresholds that tend to zero, and in the forms found all
trail edges carry at least a force `c` and all deviation edges with a force are at least `c` long,
then the problem has an equilibrium, and a subsequence of the forms approaches it. -/
theorem C90_equilibrium {D : Diagram ℝ} (I : ValidInput D) (hp : NoPlanes D) (hl : NonzeroTrails D)
    {F : ℕ → Diagram ℝ} {tmax : ℕ → Nat} (ht : ∀ j, 2 ≤ tmax j) {eta : ℕ → ℝ} {v : Bool}
    (h : ∀ j, staticEquilibrium D none (tmax j) (eta j) v = .ok (F j)) (he : Tendsto eta atTop (𝓝 0))
    {c : ℝ} (hc : 0 < c)
    (hf : ∀ j e d, D.edges.get? e = some d → d.type = .trail → c ≤ |forceAt (F j) e|)
    (hg : ∀ j e d, D.edges.get? e = some d → d.type = .deviation → d.force ≠ 0 →
      c ≤ Vec.dist (posOf (F j) e.1) (posOf (F j) e.2)) :
    ∃ (φ : ℕ → ℕ) (G : Diagram ℝ), StrictMono φ ∧ FormsApproach D (fun j => F (φ j)) G ∧
      EquilibriumOf D G := by
  obtain ⟨φ, G, hφ, A⟩ := C90_subsequence I hp h
  refine ⟨φ, G, hφ, A, C61_limit I hl (fun j => ht (φ j)) (fun j => h (φ j)) A
    (he.comp hφ.tendsto_atTop) hp ?_ ?_⟩
  · intro e d hd htr h0
    have h1 := (A.forces e (Dict.mem_keys_of_get? hd)).abs
    rw [h0, abs_zero] at h1
    exact absurd (ge_of_tendsto' h1 fun j => hf (φ j) e d hd htr) (not_le.2 hc)
  · intro e d hd htd
    have hm := Dict.mem_keys_of_get? hd
    by_cases hz : d.force = 0
    · right
      have h1 := A.forces e hm
      have h2 : ∀ j, forceAt (F (φ j)) e = 0 := by
        intro j
        obtain ⟨d', hd', _, _, hf'⟩ := (C25_keeps_data I (h (φ j))).2.2.2 _ _ hd
        unfold forceAt
        rw [hd', Option.map_some, Option.getD_some, hf' htd, hz]
      simp only [h2] at h1
      exact (tendsto_nhds_unique h1 tendsto_const_nhds)
    · left
      intro h0
      have h1 := Approach.length (Approach.sub (A.positions e.1 (I.wf.edge_left e hm))
        (A.positions e.2 (I.wf.edge_right e hm)))
      rw [h0, sub_self, Vec.length_zero] at h1
      exact absurd (ge_of_tendsto' h1 fun j => hg (φ j) e d hd htd hz) (not_le.2 hc)

/-- **C90.**  If moreover the problem has no two different equilibria, all the forms approach its
equilibrium. -/
theorem C90_converges {D : Diagram ℝ} (I : ValidInput D) (hp : NoPlanes D) (hl : NonzeroTrails D)
    {F : ℕ → Diagram ℝ} {tmax : ℕ → Nat} (ht : ∀ j, 2 ≤ tmax j) {eta : ℕ → ℝ} {v : Bool}
    (h : ∀ j, staticEquilibrium D none (tmax j) (eta j) v = .ok (F j)) (he : Tendsto eta atTop (𝓝 0))
    {c : ℝ} (hc : 0 < c)
    (hf : ∀ j e d, D.edges.get? e = some d → d.type = .trail → c ≤ |forceAt (F j) e|)
    (hg : ∀ j e d, D.edges.get? e = some d → d.type = .deviation → d.force ≠ 0 →
      c ≤ Vec.dist (posOf (F j) e.1) (posOf (F j) e.2))
    (hu : ∀ G G', EquilibriumOf D G → EquilibriumOf D G' →
      (∀ n ∈ D.nodes.keys, posOf G n = posOf G' n ∧ reactionAt G n = reactionAt G' n) ∧
      ∀ e d d', G.edges.get? e = some d → G'.edges.get? e = some d' → d.force = d'.force) :
    ∃ G, EquilibriumOf D G ∧ FormsApproach D F G := by
  obtain ⟨_, G, _, A, E⟩ := C90_equilibrium I hp hl ht h he hc hf hg
  have sub : ∀ ns : ℕ → ℕ, Tendsto ns atTop atTop → ∃ (ms : ℕ → ℕ) (G' : Diagram ℝ),
      FormsApproach D (fun j => F (ns (ms j))) G' ∧ EquilibriumOf D G' := by
    intro ns hns
    obtain ⟨ms, G', _, A', E'⟩ := C90_equilibrium I hp hl (F := fun j => F (ns j)) (fun j => ht (ns j))
      (fun j => h (ns j)) (he.comp hns) hc (fun j => hf (ns j)) (fun j => hg (ns j))
    exact ⟨ms, G', A', E'⟩
  refine ⟨G, E, A.nodes, A.edges, A.loads, fun n hn => ?_, fun n hn => ?_, fun e hm => ?_⟩
  · refine tendsto_of_subseq_tendsto fun ns hns => ?_
    obtain ⟨ms, G', A', E'⟩ := sub ns hns
    refine ⟨ms, ?_⟩
    rw [((hu G G' E E').1 n hn).1]
    exact A'.positions n hn
  · refine tendsto_of_subseq_tendsto fun ns hns => ?_
    obtain ⟨ms, G', A', E'⟩ := sub ns hns
    refine ⟨ms, ?_⟩
    rw [((hu G G' E E').1 n hn).2]
    exact A'.reactions n hn
  · refine tendsto_of_subseq_tendsto fun ns hns => ?_
    obtain ⟨ms, G', A', E'⟩ := sub ns hns
    refine ⟨ms, ?_⟩
    obtain ⟨d, hd⟩ := (Dict.exists_get?_iff G.edges e).2 (E.edges.mem_iff.2 hm)
    obtain ⟨d', hd'⟩ := (Dict.exists_get?_iff G'.edges e).2 (E'.edges.mem_iff.2 hm)
    have : forceAt G e = forceAt G' e := by
      unfold forceAt
      rw [hd, hd', Option.map_some, Option.map_some, Option.getD_some, Option.getD_some]
      exact (hu G G' E E').2 e d d' hd hd'
    rw [this]
    exact A'.forces e hm

/-- Without indirect deviation edges there are no two different equilibria. -/
theorem direct_equilibria {D : Diagram ℝ} (I : ValidInput D) (hd : DirectOnly D) {G G' : Diagram ℝ}
    (E : EquilibriumOf D G) (E' : EquilibriumOf D G') :
    (∀ n ∈ D.nodes.keys, posOf G n = posOf G' n ∧ reactionAt G n = reactionAt G' n) ∧
    ∀ e d d', G.edges.get? e = some d → G'.edges.get? e = some d' → d.force = d'.force := by
  obtain ⟨F, h⟩ := C20_returns_without_indirect I hd (le_refl 1) (le_refl (0 : ℝ))
  have u := C58_unique I hd h E
  have u' := C58_unique I hd h E'
  refine ⟨fun n hn => ⟨?_, ?_⟩, fun e d d' hG hG' => ?_⟩
  · rw [← (u.1 n hn).1, (u'.1 n hn).1]
  · rw [← (u.1 n hn).2, (u'.1 n hn).2]
  · obtain ⟨dF, hF⟩ := (Dict.exists_get?_iff F.edges e).2 (by
      rw [(C25_keeps_data I h).2.1]; exact E.edges.mem_iff.1 (Dict.mem_keys_of_get? hG))
    rw [← u.2 e dF d hF hG, u'.2 e dF d' hF hG']

/-! ## Examples -/

namespace ReachEx
open ColEx AxisEx

theorem col_trail {pl : Option (Vec ℚ × Vec ℚ)} (h : colQ pl = colLit pl) : (0, [0, 1]) ∈ (col pl).trails := by
  unfold col Diagram.real; rw [map_trails, h]; simp [colLit]

theorem col_walk {pl : Option (Vec ℚ × Vec ℚ)} (h : colQ pl = colLit pl) : walked (col pl) [0, 1] = 1 := by
  simp [walked, lengthBetween, col_edges h, colEdge]

theorem col_origin {pl : Option (Vec ℚ × Vec ℚ)} (h : colQ pl = colLit pl) : posOf (col pl) 0 = 0 := by
  unfold posOf col Diagram.real
  rw [map_nodes_get?, h]
  simp [colLit, Dict.get?, NodeData.map, Vec.map]
  rfl

theorem col_push {pl : Option (Vec ℚ × Vec ℚ)} (h : colQ pl = colLit pl) : pushes (col pl) [0] = 1 := by
  have h1 : loadAt (col pl) 0 = ⟨0, 0, -1⟩ := by
    unfold loadAt col Diagram.real
    rw [map_nodes_get?, h]
    simp [colLit, Dict.get?, NodeData.map, Vec.map]
  have h2 : deviationsAt (col pl) 0 = 0 := by
    unfold deviationsAt col Diagram.real
    rw [h]
    simp [colLit, Diagram.map, EdgeData.map]
  simp [pushes, pushAt, h1, h2, Vec.length_def, Vec.dot]

theorem plane_free : NoPlanes (col none) := by
  intro e d hd _
  rw [col_edges colQ_none] at hd
  split_ifs at hd
  rw [← Option.some.inj hd]
  rfl

theorem axis_plane_free : NoPlanes axis := by
  intro e d hd _
  rw [axis_edges] at hd
  split_ifs at hd <;> rw [← Option.some.inj hd]

end ReachEx

open ReachEx ColEx in
/-- The column reaches as far and carries as much as it can. -/
example : ∃ F d, staticEquilibrium (col none) none 100 0 false = .ok F ∧
    F.edges.get? (0, 1) = some d ∧
    |d.force| ≤ pushes (col none) [0] ∧ |d.force| = 1 ∧ pushes (col none) [0] = 1 ∧
    Vec.dist (posOf F 1) (posOf (col none) 0) ≤ walked (col none) [0, 1] ∧
    Vec.dist (posOf F 1) (posOf (col none) 0) = 1 ∧ walked (col none) [0, 1] = 1 ∧
    Vec.length (reactionAt F 1) ≤ pushes (col none) [0, 1] := by
  obtain ⟨F, h⟩ := returns colQ_none valid_none
  obtain ⟨d, hd, _, h1, hf⟩ := col_form colQ_none valid_none h
  rw [len_none] at h1 hf
  refine ⟨F, d, h, hd, C90_trail_force valid_none h (col_trail colQ_none) (l := []) (q := []) rfl
    (Or.inl rfl) hd, by rw [hf]; norm_num [copysign], col_push colQ_none,
    C90_reach valid_none h (col_trail colQ_none) plane_free (l := [0]) (q := []) rfl, ?_,
    col_walk colQ_none, C90_reaction valid_none h (col_trail colQ_none) (by simp)⟩
  rw [col_origin colQ_none, h1]
  simp [Vec.dist, Vec.length_def, Vec.dot]

open ReachEx ColEx in
/-- **C90, with planes.**  A plane can place a node farther away than the prescribed lengths. -/
theorem C90_plane_beyond : ∃ D : Diagram ℝ, ValidInput D ∧ (0, [0, 1]) ∈ D.trails ∧
    walked D [0, 1] = 1 ∧ ∃ F, staticEquilibrium D none 100 0 false = .ok F ∧
      Vec.dist (posOf F 1) (posOf D 0) = 2 := by
  obtain ⟨F, h⟩ := returns colQ_below valid_below
  obtain ⟨d, _, _, h1, _⟩ := col_form colQ_below valid_below h
  refine ⟨_, valid_below, col_trail colQ_below, col_walk colQ_below, F, h, ?_⟩
  rw [len_below] at h1
  rw [col_origin colQ_below, h1]
  simp only [Vec.dist, Vec.length_def, Vec.dot, sub_zero]
  rw [show (0 : ℝ) * 0 + 0 * 0 + -2 * -2 = 2 ^ 2 by norm_num, Real.sqrt_sq (by norm_num)]

open ReachEx AxisEx in
/-- Bounds for a diagram with an indirect deviation edge, for all settings. -/
example : ∃ B, ∀ tmax eta verbose F, staticEquilibrium axis none tmax eta verbose = .ok F →
    Vec.length (posOf F 3) ≤ B ∧ Vec.length (reactionAt F 3) ≤ B :=
  (C90_bounded valid_axis axis_plane_free).1 3 (by rw [axis_keys]; simp)

open ReachEx AxisEx in
/-- With thresholds that tend to zero. -/
example : ∃ F : ℕ → Diagram ℝ,
    (∀ j : ℕ, staticEquilibrium axis none (j + 2) (1 / ((j : ℝ) + 1)) false = .ok (F j)) ∧
    ∃ (φ : ℕ → ℕ) (G : Diagram ℝ), StrictMono φ ∧ FormsApproach axis (fun j => F (φ j)) G := by
  have hret : ∀ j : ℕ, ∃ F, staticEquilibrium axis none (j + 2) (1 / ((j : ℝ) + 1)) false = .ok F :=
    fun j => by
      obtain ⟨F, h, _⟩ := axis_returns (tmax := j + 2) (by omega)
        (eta := 1 / ((j : ℝ) + 1)) (by positivity)
      exact ⟨F, h⟩
  choose F hF using hret
  exact ⟨F, hF, C90_subsequence valid_axis axis_plane_free (tmax := fun j => j + 2) hF⟩

open ReachEx ColEx in
example : ∃ F : ℕ → Diagram ℝ,
    (∀ j : ℕ, staticEquilibrium (col none) none 100 (1 / ((j : ℝ) + 1)) false = .ok (F j)) ∧
    ∃ (φ : ℕ → ℕ) (G : Diagram ℝ), StrictMono φ ∧ FormsApproach (col none) (fun j => F (φ j)) G ∧
      EquilibriumOf (col none) G := by
  have hret : ∀ j : ℕ, ∃ F, staticEquilibrium (col none) none 100 (1 / ((j : ℝ) + 1)) false = .ok F :=
    fun j => C20_returns_without_indirect valid_none (directOnly_col colQ_none) (by norm_num) (by positivity)
  choose F hF using hret
  refine ⟨F, hF, C90_equilibrium valid_none plane_free (nonzero_col colQ_none)
    (tmax := fun _ => 100) (fun _ => by norm_num) hF tendsto_one_div_add_atTop_nhds_zero_nat
    (zero_lt_one (α := ℝ)) ?_ ?_⟩
  · intro j e d hd _
    rw [col_edges colQ_none] at hd
    split_ifs at hd with he
    subst he
    obtain ⟨d', hd', _, _, hf⟩ := col_form colQ_none valid_none (hF j)
    unfold forceAt
    rw [hd', Option.map_some, Option.getD_some, hf, len_none]
    norm_num [copysign]
  · intro j e d hd ht
    rw [col_edges colQ_none] at hd
    split_ifs at hd
    rw [← Option.some.inj hd] at ht
    simp [colEdge] at ht

open ReachEx ColEx in
/-- The column has one equilibrium. -/
example : ∃ F : ℕ → Diagram ℝ,
    (∀ j : ℕ, staticEquilibrium (col none) none 100 (1 / ((j : ℝ) + 1)) false = .ok (F j)) ∧
    ∃ G, EquilibriumOf (col none) G ∧ FormsApproach (col none) F G := by
  have hret : ∀ j : ℕ, ∃ F, staticEquilibrium (col none) none 100 (1 / ((j : ℝ) + 1)) false = .ok F :=
    fun j => C20_returns_without_indirect valid_none (directOnly_col colQ_none) (by norm_num) (by positivity)
  choose F hF using hret
  refine ⟨F, hF, C90_converges valid_none plane_free (nonzero_col colQ_none)
    (tmax := fun _ => 100) (fun _ => by norm_num) hF tendsto_one_div_add_atTop_nhds_zero_nat
    (zero_lt_one (α := ℝ)) ?_ ?_ fun G G' => direct_equilibria valid_none (directOnly_col colQ_none)⟩
  · intro j e d hd _
    rw [col_edges colQ_none] at hd
    split_ifs at hd with he
    subst he
    obtain ⟨d', hd', _, _, hf⟩ := col_form colQ_none valid_none (hF j)
    unfold forceAt
    rw [hd', Option.map_some, Option.getD_some, hf, len_none]
    norm_num [copysign]
  · intro j e d hd ht
    rw [col_edges colQ_none] at hd
    split_ifs at hd
    rw [← Option.some.inj hd] at ht
    simp [colEdge] at ht

open ReachEx AxisEx in
/-- The same with an indirect deviation edge that carries a force, and the threshold zero. -/
example : ∃ F : Diagram ℝ, staticEquilibrium axis none 100 0 false = .ok F ∧
    ∃ (φ : ℕ → ℕ) (G : Diagram ℝ), StrictMono φ ∧ FormsApproach axis (fun _ => F) G ∧
      EquilibriumOf axis G := by
  obtain ⟨F, h, hp⟩ := axis_returns (tmax := 100) (by norm_num) (le_refl (0 : ℝ))
  obtain ⟨h1, h2⟩ := axis_form h hp
  obtain ⟨_, _, _, k4⟩ := C25_keeps_data valid_axis h
  have hf : ∀ e ∈ [((0 : Int), (1 : Int)), (2, 3)], 0 < |forceAt F e| := by
    intro e he
    have hd : ∃ d, axis.edges.get? e = some d ∧ d.type = .trail := by
      simp only [List.mem_cons, List.not_mem_nil, or_false] at he
      rcases he with rfl | rfl <;> exact ⟨_, by rw [axis_edges]; simp; rfl, rfl⟩
    obtain ⟨d, hd, ht⟩ := hd
    obtain ⟨d', hd', e1, _⟩ := k4 e d hd
    unfold forceAt
    rw [hd', Option.map_some, Option.getD_some]
    exact abs_pos.2 (h2 e d' hd' (by rw [e1]; exact ht))
  have hg : 0 < Vec.dist (posOf F 1) (posOf F 2) := by
    obtain ⟨d', hd', _⟩ := k4 (1, 2) _ (by rw [axis_edges]; simp; rfl)
    exact Vec.length_pos (sub_ne_zero.2 (h1 (1, 2) d' hd'))
  have f1 := hf (0, 1) (by simp)
  have f2 := hf (2, 3) (by simp)
  refine ⟨F, h, C90_equilibrium valid_axis axis_plane_free nonzero_axis (F := fun _ => F)
    (tmax := fun _ => 100) (eta := fun _ => 0) (fun _ => by norm_num) (fun _ => h) tendsto_const_nhds
    (c := min (min |forceAt F (0, 1)| |forceAt F (2, 3)|) (Vec.dist (posOf F 1) (posOf F 2)))
    (lt_min (lt_min f1 f2) hg) ?_ ?_⟩
  · intro _ e d hd ht
    rw [axis_edges] at hd
    split_ifs at hd with a b c
    · subst a; exact (min_le_left _ _).trans (min_le_left _ _)
    · subst b; exact (min_le_left _ _).trans (min_le_right _ _)
    · rw [← Option.some.inj hd] at ht; cases ht
  · intro _ e d hd ht _
    rw [axis_edges] at hd
    split_ifs at hd with a b c
    · rw [← Option.some.inj hd] at ht; cases ht
    · rw [← Option.some.inj hd] at ht; cases ht
    · subst c; exact min_le_right _ _

end Props
end CEM
