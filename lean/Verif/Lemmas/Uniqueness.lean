import Verif.Spec.Uniqueness
import Verif.Lemmas.Returned

/-!
# Every equilibrium of a problem without indirect deviation edges solves the equations
-/

set_option linter.unusedSectionVars false
set_option linter.unusedSimpArgs false

namespace CEM
open Diagram Spec

theorem SameProblem.refl' {R : Type} [Field R] (D : Diagram R) : SameProblem D D :=
  ⟨fun _ => rfl, fun _ _ _ => rfl, fun _ => Iff.rfl, fun _ => Iff.rfl,
    fun _ _ _ h h' => by rw [h] at h'; rw [Option.some.inj h'],
    fun _ _ _ h h' _ => by rw [h] at h'; rw [Option.some.inj h']; exact ⟨rfl, rfl⟩,
    fun _ _ _ h h' _ => by rw [h] at h'; rw [Option.some.inj h']⟩

/-- A node that follows no other node is the first one of a trail. -/
theorem head_of_no_prev {R : Type} [Field R] [LinearOrder R] [PySqrt R] {D : Diagram R} (w : WF D) (V : ValidTrails D) {m : Int}
    (hm : m ∈ D.nodes.keys) (hx : ∀ a, trailNext D a ≠ some m) : ∃ tr, (m, tr) ∈ D.trails := by
  obtain ⟨⟨key, tr⟩, htr, hmem⟩ := List.mem_flatMap.1 (V.partition.mem_iff.2 hm)
  have hhead : m = key := by
    obtain ⟨rest, rfl⟩ := V.head key tr htr
    obtain ⟨l1, l2, hl⟩ := List.append_of_mem hmem
    rcases List.eq_nil_or_concat l1 with rfl | ⟨l1', a, rfl⟩
    · simp only [List.nil_append] at hl
      exact (List.cons.inj hl).1.symm
    · exfalso
      have hc : Consecutive (key :: rest) a m := ⟨l1', l2, by simpa using hl⟩
      exact hx a ((trailNext_iff w V).2 ⟨key, _, htr, hc⟩)
  exact ⟨tr, hhead ▸ htr⟩

/-- The force of the edge between `n` and `m` in `G`. -/
noncomputable def forceIn (D G : Diagram ℝ) (n m : Int) : ℝ :=
  ((G.edges.get? (edgeKey D n m)).map (·.force)).getD 0

/-- All edge forces at a node of a form as a sum over its neighbours. -/
theorem sum_pull_of {D G : Diagram ℝ} (w : WF D) (g : SimpleGraph D)
    (he : G.edges.keys.Perm D.edges.keys) (n : Int) :
    (G.edges.map (pull G n)).sum =
      ((D.neighbors n).map fun m => forceIn D G n m • unit (posOf G m - posOf G n)).sum := by
  rw [sum_neighbors w g, ← (he.map _).sum_eq]
  unfold Dict.keys
  rw [List.map_map]
  congr 1
  apply List.map_congr_left
  rintro ⟨⟨a, b⟩, d⟩ hm
  have hnd : G.edges.keys.Nodup := he.nodup_iff.2 w.edgesNodup
  have hget := Dict.get?_of_mem hnd hm
  have hmem : (a, b) ∈ D.edges.keys := he.mem_iff.1 (Dict.mem_keys_of_get? hget)
  obtain ⟨k1, k2⟩ := edgeKey_of_mem g hmem
  have e1 : forceIn D G a b = d.force := by unfold forceIn; rw [k1, hget]; rfl
  have e2 : forceIn D G b a = d.force := by unfold forceIn; rw [k2, hget]; rfl
  simp only [pull, Function.comp]
  congr 1
  · split_ifs with h
    · subst h; rw [e1]
    · rfl
  · split_ifs with h
    · subst h; rw [e2]
    · rfl

private theorem dist_unit (a b : Vec ℝ) : Vec.dist a b • unit (b - a) = b - a := by
  rw [Vec.dist, Vec.length_sub_comm]; exact length_smul_unit _

/-- The signed length that the computation uses for an edge that is as prescribed. -/
theorem effectiveLength_of {d : EdgeData ℝ} {f : ℝ} {a b : Vec ℝ} (h : AsPrescribed d f a b)
    (hf : f ≠ 0) : b ≠ a ∧
      effectiveLength d a (f • unit (b - a)) = (if f < 0 then -Vec.dist a b else Vec.dist a b) := by
  have hby : ∀ l, ByLength l f a b → b ≠ a ∧
      l = (if f < 0 then -Vec.dist a b else Vec.dist a b) := by
    rintro l ⟨h1, h2⟩
    constructor
    · rintro rfl
      have : Vec.dist b b = 0 := by unfold Vec.dist; rw [sub_self, Vec.length_zero]
      rw [this] at h1
      have := abs_eq_zero.1 h1.symm
      rw [this] at h2; simp at h2
    · rw [h1]
      rcases lt_or_gt_of_ne hf with hn | hp
      · rw [if_pos hn, abs_of_neg (by nlinarith), neg_neg]
      · rw [if_neg hp.not_gt, abs_of_pos (by nlinarith)]
  have hunit : b ≠ a → unit (f • unit (b - a)) = (if f < 0 then -unit (b - a) else unit (b - a)) := by
    intro _
    rcases lt_or_gt_of_ne hf with hn | hp
    · rw [if_pos hn, unit_smul_neg hn, unit_unit]
    · rw [if_neg hp.not_gt, unit_smul_pos hp, unit_unit]
  unfold AsPrescribed at h
  unfold effectiveLength
  cases hp : d.plane with
  | none =>
    rw [hp] at h
    exact hby _ h
  | some q =>
    obtain ⟨o, N⟩ := q
    rw [hp] at h
    obtain ⟨h1, h2⟩ := h
    have hneg : ∀ v : Vec ℝ, Vec.dot N (-v) = - Vec.dot N v := by
      intro v; simp only [Vec.dot, Vec.neg_x, Vec.neg_y, Vec.neg_z]; ring
    have hdot : Vec.dot N (o - a) = - Vec.dot N (a - o) := by rw [← hneg, neg_sub]
    by_cases hu : PlaneUsed o N a b
    · have hb := h1 hu
      have hab : b ≠ a := by
        rintro rfl
        exact hu.2 hb
      refine ⟨hab, ?_⟩
      simp only
      have hc : Vec.dot N (unit (b - a)) ≠ 0 := by
        intro h0
        have := hu.1
        rw [h0, abs_zero] at this
        norm_num at this
      have hlin : Vec.dist a b * Vec.dot N (unit (b - a)) = Vec.dot N (o - a) := by
        have e1 : Vec.dot N (b - a) = Vec.dot N (b - o) + Vec.dot N (o - a) := by
          simp only [Vec.dot, Vec.sub_x, Vec.sub_y, Vec.sub_z]; ring
        have e2 : Vec.dot N (Vec.dist a b • unit (b - a)) =
            Vec.dist a b * Vec.dot N (unit (b - a)) := by
          simp only [Vec.dot, Vec.smul_x, Vec.smul_y, Vec.smul_z]; ring
        rw [← e2, dist_unit, e1, hb, zero_add]
      have hne : Vec.dot N (o - a) ≠ 0 := by rw [hdot]; simpa using hu.2
      unfold planeLength planeTol
      simp only [normalize_eq_unit, hunit hab]
      rcases lt_or_gt_of_ne hf with hn | hp
      · simp only [if_pos hn, hneg, abs_neg]
        rw [if_neg (not_lt.2 hu.1)]
        have : Vec.dot N (o - a) / -Vec.dot N (unit (b - a)) = -Vec.dist a b := by
          rw [← hlin]; field_simp
        simp only [this]
        rw [if_neg]
        intro h0
        have : Vec.dist a b = 0 := by linarith
        rw [this, zero_mul] at hlin
        exact hne hlin.symm
      · simp only [if_neg hp.not_gt]
        rw [if_neg (not_lt.2 hu.1)]
        have : Vec.dot N (o - a) / Vec.dot N (unit (b - a)) = Vec.dist a b := by
          rw [← hlin]; field_simp
        simp only [this]
        rw [if_neg]
        intro h0
        rw [h0, zero_mul] at hlin
        exact hne hlin.symm
    · obtain ⟨hab, hl⟩ := hby _ (h2 hu)
      refine ⟨hab, ?_⟩
      rw [← hl]
      simp only
      unfold planeLength planeTol
      simp only [normalize_eq_unit, hunit hab]
      have habs : |Vec.dot N (if f < 0 then -unit (b - a) else unit (b - a))| =
          |Vec.dot N (unit (b - a))| := by
        split_ifs
        · rw [hneg, abs_neg]
        · rfl
      rw [habs]
      by_cases ht : |Vec.dot N (unit (b - a))| < 1 / 1000000
      · rw [if_pos ht]
      · rw [if_neg ht]
        have h0 : Vec.dot N (a - o) = 0 := by
          by_contra hne
          exact hu ⟨not_lt.1 ht, hne⟩
        simp only [hdot, h0, neg_zero, zero_div, if_true]

open Classical in
/-- An equilibrium solves the equations of the computation with all deviation edges. -/
theorem EquilibriumOf.solves_all {D G : Diagram ℝ} (I : ValidInput D)
    (E : EquilibriumOf D G) : ∃ T r : Int → Vec ℝ,
      (∀ n ∈ D.nodes.keys, r n = outVec D true (posOf G) (T n) n) ∧
      (∀ n ∈ D.nodes.keys, ∀ m, nxtK D none n = some m →
        posOf G m = posOf G n +
          effectiveLength (edgeData D n m) (posOf G n) (r n) • Vec.normalize (r n) ∧ T m = r n) ∧
      (∀ m, (∀ a, trailNext D a ≠ some m) → T m = 0) ∧
      (∀ n, trailNext D n = none → r n = reactionAt G n) ∧
      (∀ n m, trailNext D n = some m → forceIn D G n m ≠ 0 ∧
        AsPrescribed (edgeData D n m) (forceIn D G n m) (posOf G n) (posOf G m) ∧
        r n = forceIn D G n m • unit (posOf G m - posOf G n)) := by
  have w := I.wf
  have V := I.trails
  have g := I.simple
  have hnx : ∀ a, nxtK D none a = trailNext D a := nxtK_none w V
  let r : Int → Vec ℝ := fun n => match trailNext D n with
    | some m => forceIn D G n m • unit (posOf G m - posOf G n)
    | none => reactionAt G n
  let T : Int → Vec ℝ := fun n => if h : ∃ a, trailNext D a = some n then r h.choose else 0
  have hr1 : ∀ n m, trailNext D n = some m →
      r n = forceIn D G n m • unit (posOf G m - posOf G n) := fun n m h => by simp only [r, h]
  have hr0 : ∀ n, trailNext D n = none → r n = reactionAt G n := fun n h => by simp only [r, h]
  have hT1 : ∀ a n, trailNext D a = some n → T n = r a := by
    intro a n h
    have hex : ∃ a, trailNext D a = some n := ⟨a, h⟩
    simp only [T, dif_pos hex]
    rw [trailNext_inj w V hex.choose_spec h]
  have hT0 : ∀ m, (∀ a, trailNext D a ≠ some m) → T m = 0 := by
    intro m h
    simp only [T]
    rw [dif_neg]
    rintro ⟨a, ha⟩
    exact h a ha
  have hedge : ∀ n m, trailNext D n = some m → forceIn D G n m ≠ 0 ∧
      AsPrescribed (edgeData D n m) (forceIn D G n m) (posOf G n) (posOf G m) := by
    intro n m h
    obtain ⟨key, tr, htr, hc⟩ := (trailNext_iff w V).1 h
    have hnb := adj_mem_neighbors (trailNext_adj w V h)
    have h0 := edgeKey_mem hnb
    obtain ⟨d', hd'⟩ := (Dict.exists_get?_iff G.edges (edgeKey D n m)).2
      (E.edges.mem_iff.2 (Dict.mem_keys_of_get? h0))
    have := E.trail key tr n m _ _ d' htr hc (edgeKey_ends D n m) h0 hd'
    have hf : forceIn D G n m = d'.force := by unfold forceIn; rw [hd']; rfl
    rw [hf]
    exact this
  refine ⟨T, r, ?_, ?_, hT0, hr0, fun n m h => ⟨(hedge n m h).1, (hedge n m h).2, hr1 n m h⟩⟩
  · intro n hn
    have hbal := E.balanced n hn
    unfold imbalance at hbal
    rw [sum_pull_of w g E.edges, sum_nbrs_split I.typed] at hbal
    have hdev : ∀ l : List Int, (∀ m ∈ l, m ∈ D.neighbors n ∧ (edgeData D n m).type = .deviation) →
        (l.map fun m => forceIn D G n m • unit (posOf G m - posOf G n)).sum =
        devSum D (posOf G) n l := by
      intro l hl
      unfold devSum
      congr 1
      apply List.map_congr_left
      intro m hm
      obtain ⟨hm1, hm2⟩ := hl m hm
      have h0 := edgeKey_mem hm1
      obtain ⟨d', hd'⟩ := (Dict.exists_get?_iff G.edges (edgeKey D n m)).2
        (E.edges.mem_iff.2 (Dict.mem_keys_of_get? h0))
      have hf : forceIn D G n m = d'.force := by unfold forceIn; rw [hd']; rfl
      rw [devTerm_real, hf, E.deviation _ _ _ h0 hd' hm2]
    have htr := sum_trlNbrs w V g n (fun m => forceIn D G n m • unit (posOf G m - posOf G n))
      (if trailNext D n = none then 0 else r n) (-(T n))
      (by intro m hm; rw [if_neg (by simp [hm]), hr1 n m hm])
      (by intro h; rw [if_pos h])
      (by
        intro m hm
        have hkey := edgeKey_comm g (adj_mem_neighbors (trailNext_adj w V hm))
        have hff : forceIn D G n m = forceIn D G m n := by unfold forceIn; rw [hkey]
        rw [hff, ← neg_sub, unit_neg, smul_neg, hT1 m n hm, hr1 m n hm])
      (by intro h; rw [hT0 n h, neg_zero])
    have hdir := hdev (dirNbrs D n) fun m hm => by
      obtain ⟨h1, h2⟩ := List.mem_filter.1 hm
      simp only [decide_eq_true_eq] at h2
      exact ⟨h1, h2.1⟩
    have hind := hdev (indNbrs D n) fun m hm => by
      obtain ⟨h1, h2⟩ := List.mem_filter.1 hm
      simp only [decide_eq_true_eq] at h2
      exact ⟨h1, h2.1⟩
    rw [hdir, hind, htr] at hbal
    have hload : loadAt G n = loadOf D n := E.loads n
    have hreact : reactionAt G n + (if trailNext D n = none then 0 else r n) = r n := by
      by_cases hx : trailNext D n = none
      · rw [if_pos hx, add_zero, hr0 n hx]
      · rw [if_neg hx]
        obtain ⟨m, hm⟩ := Option.ne_none_iff_exists'.1 hx
        rw [E.reactions n hn (trailNext_support w V hm), zero_add]
    unfold outVec
    simp only [if_true]
    rw [hload] at hbal
    have : loadOf D n + (reactionAt G n + (if trailNext D n = none then 0 else r n)) - T n +
        devSum D (posOf G) n (dirNbrs D n) + devSum D (posOf G) n (indNbrs D n) = 0 := by
      refine Eq.trans ?_ hbal
      abel
    rw [hreact] at this
    have h2 : r n = r n - (loadOf D n + r n - T n + devSum D (posOf G) n (dirNbrs D n) +
        devSum D (posOf G) n (indNbrs D n)) := by
      rw [this, sub_zero]
    rw [h2]; abel
  · intro n hn m hm
    rw [hnx] at hm
    refine ⟨?_, hT1 n m hm⟩
    obtain ⟨hf, hp⟩ := hedge n m hm
    obtain ⟨hne, he⟩ := effectiveLength_of hp hf
    rw [hr1 n m hm, he, normalize_eq_unit]
    have hd := dist_unit (posOf G n) (posOf G m)
    rcases lt_or_gt_of_ne hf with h | h
    · rw [if_pos h, unit_smul_neg h, unit_unit, neg_smul, smul_neg, neg_neg, hd]; abel
    · rw [if_neg h.not_gt, unit_smul_pos h, unit_unit, hd]; abel

/-- An equilibrium without indirect edges solves the equations without these. -/
theorem EquilibriumOf.solves {D G : Diagram ℝ} (I : ValidInput D) (hd : DirectOnly D)
    (E : EquilibriumOf D G) : ∃ T r, Solves D none (posOf G) T r ∧
      (∀ m, (∀ a, trailNext D a ≠ some m) → T m = 0) ∧
      (∀ n, trailNext D n = none → r n = reactionAt G n) ∧
      (∀ n m, trailNext D n = some m → forceIn D G n m ≠ 0 ∧
        AsPrescribed (edgeData D n m) (forceIn D G n m) (posOf G n) (posOf G m) ∧
        r n = forceIn D G n m • unit (posOf G m - posOf G n)) := by
  obtain ⟨T, r, h1, h2, h3⟩ := EquilibriumOf.solves_all I E
  refine ⟨T, r, ⟨fun n hn => ?_, h2⟩, h3⟩
  rw [h1 n hn]
  unfold outVec
  rw [indNbrs_direct hd]
  simp [devSum]

end CEM
