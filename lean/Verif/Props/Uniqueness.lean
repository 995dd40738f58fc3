import Verif.Lemmas.Uniqueness
import Verif.Props.Returned

/-!
# Property C58: the returned form is the only equilibrium
-/

set_option linter.unusedSectionVars false
set_option linter.unusedSimpArgs false

namespace CEM
namespace Props
open Diagram Spec

/-- If the form that is returned has the positions and trail vectors of an equilibrium, it has its
reactions and forces. -/
theorem equal_of_agree {D : Diagram ℝ} (I : ValidInput D)
    {ind : Bool} {p s : EqState ℝ} {r : Int → Vec ℝ} {Q : Int → Int → Vec ℝ}
    (S : FinalSpec D none ind p s r Q) {G : Diagram ℝ} (E : EquilibriumOf D G) {r' : Int → Vec ℝ}
    (hr0 : ∀ n, trailNext D n = none → r' n = reactionAt G n)
    (hedge : ∀ n m, trailNext D n = some m → forceIn D G n m ≠ 0 ∧
        AsPrescribed (edgeData D n m) (forceIn D G n m) (posOf G n) (posOf G m) ∧
        r' n = forceIn D G n m • unit (posOf G m - posOf G n))
    (hu : ∀ n ∈ D.nodes.keys, s.pos n = posOf G n ∧ r n = r' n) :
    (∀ n ∈ D.nodes.keys, posOf (formOf D s) n = posOf G n ∧
      reactionAt (formOf D s) n = reactionAt G n) ∧
    (∀ e dF dG, (formOf D s).edges.get? e = some dF → G.edges.get? e = some dG →
      dF.force = dG.force) := by
  have w := I.wf
  have V := I.trails
  have hnx : ∀ a, nxtK D none a = trailNext D a := nxtK_none w V
  refine ⟨?_, ?_⟩
  · intro n hn
    obtain ⟨h1, h3⟩ := hu n hn
    refine ⟨by rw [posOf_form w S, h1], ?_⟩
    rw [reactionAt_form w S I.reaction hn, hnx, h3]
    split_ifs with hx
    · exact hr0 n hx
    · obtain ⟨m, hm⟩ := Option.ne_none_iff_exists'.1 hx
      exact (E.reactions n hn (trailNext_support w V hm)).symm
  · intro e dF dG hF hG
    obtain ⟨a, b⟩ := e
    have hm : (a, b) ∈ D.edges.keys := E.edges.mem_iff.1 (Dict.mem_keys_of_get? hG)
    obtain ⟨d0, h0⟩ := (Dict.exists_get?_iff _ _).2 hm
    cases ht : d0.type with
    | untyped => exact absurd ht (I.typed _ _ h0)
    | deviation =>
      obtain ⟨d', hd', _, _, h5⟩ := (computed_keeps_data I ⟨_, _, _, _, _, rfl, S⟩).2.2.2 _ _ h0
      rw [hF] at hd'
      obtain rfl := Option.some.inj hd'
      rw [h5 ht, E.deviation _ _ _ h0 hG ht]
    | trail =>
      obtain ⟨key, tr, htr, hc⟩ := V.complete a b (Or.inl ⟨d0, h0, ht⟩)
      have go : ∀ x y, Consecutive tr x y → edgeKey D x y = (a, b) → dF.force = dG.force := by
        intro x y hxy hke
        have hx := V.mem_keys htr hxy.mem_left
        have hn : trailNext D x = some y := (trailNext_iff w V).2 ⟨key, tr, htr, hxy⟩
        obtain ⟨f1, f2, f3⟩ := hedge x y hn
        have hf : forceIn D G x y = dG.force := by unfold forceIn; rw [hke, hG]; rfl
        have h0' : edgeData D x y = d0 := by unfold edgeData; rw [hke, h0]; rfl
        rw [hf] at f1 f2 f3
        rw [h0'] at f2
        have hends : (a, b) = (x, y) ∨ (a, b) = (y, x) := by rw [← hke]; exact edgeKey_ends D x y
        obtain ⟨_, t2, _⟩ := trail_form I S htr hxy hends h0 hF
        obtain ⟨u1, u3⟩ := hu x hx
        obtain ⟨hne, he⟩ := effectiveLength_of f2 f1
        rw [t2, posOf_form w S, u1, u3, f3, he, Vec.length_smul,
          length_unit (sub_ne_zero.2 hne), mul_one]
        have hdist : 0 < Vec.dist (posOf G x) (posOf G y) := by
          unfold Vec.dist
          rw [Vec.length_sub_comm]
          exact Vec.length_pos (sub_ne_zero.2 hne)
        unfold copysign
        rw [abs_abs]
        rcases lt_or_gt_of_ne f1 with hlt | hgt
        · rw [if_pos hlt, if_pos (by linarith), abs_of_neg hlt, neg_neg]
        · rw [if_neg hgt.not_gt, if_neg (by linarith), abs_of_pos hgt]
      rcases hc with hc | hc
      · exact go a b hc (edgeKey_of_mem I.simple hm).1
      · exact go b a hc (edgeKey_of_mem I.simple hm).2

/-- C58. Without indirect deviation edges, every equilibrium of the problem has the positions,
reactions and forces of the form that is returned. -/
theorem C58_unique {D : Diagram ℝ} (I : ValidInput D) (hd : DirectOnly D) {tmax : Nat} {eta : ℝ}
    {verbose : Bool} {F : Diagram ℝ} (h : staticEquilibrium D none tmax eta verbose = .ok F)
    {G : Diagram ℝ} (E : EquilibriumOf D G) :
    (∀ n ∈ D.nodes.keys, posOf F n = posOf G n ∧ reactionAt F n = reactionAt G n) ∧
    (∀ e dF dG, F.edges.get? e = some dF → G.edges.get? e = some dG → dF.force = dG.force) := by
  have w := I.wf
  have V := I.trails
  have hnx : ∀ a, nxtK D none a = trailNext D a := nxtK_none w V
  obtain ⟨T, r', SG, hT0, hr0, hedge⟩ := EquilibriumOf.solves I hd E
  obtain ⟨ind, p, s, r, Q, rfl, S, _⟩ := returned_final I (by simp) h
  have hu := solves_unique (SameProblem.refl' D) I.simple w V w V (S.solves hd) SG (by
    intro m hm hx
    have hprev : ∀ a, trailNext D a ≠ some m := by
      intro a ha
      obtain ⟨key, tr, ht, hc⟩ := (trailNext_iff w V).1 ha
      exact hx a (V.mem_keys ht hc.mem_left) (by rw [hnx]; exact ha)
    obtain ⟨tr, htr⟩ := head_of_no_prev w V hm hprev
    obtain ⟨h1, h2⟩ := S.start m hx
    refine ⟨by rw [h1, posOf_init, E.origins m tr htr], ?_⟩
    obtain ⟨d, hdn⟩ := (Dict.exists_get?_iff _ _).2 hm
    rw [h2, hT0 m hprev]
    unfold EqState.res initState
    rw [get?_map_val D.nodes (fun d => d.reaction), hdn]
    simp [I.reaction m d hdn])
  exact equal_of_agree I S E hr0 hedge fun n hn => ⟨(hu n hn).1, (hu n hn).2.2⟩

/-- A trail edge of a computed form that carries a force is as prescribed. -/
theorem computed_prescribed {D : Diagram ℝ} (I : ValidInput D) (hl : NonzeroTrails D)
    {F : Diagram ℝ} (h : Computed D F) {key : Int} {tr : List Int} {a b : Int} {e : Int × Int}
    {d d' : EdgeData ℝ} (htr : (key, tr) ∈ D.trails) (hc : Consecutive tr a b)
    (he : e = (a, b) ∨ e = (b, a)) (h0 : D.edges.get? e = some d) (h1 : F.edges.get? e = some d')
    (hne : d'.force ≠ 0) : AsPrescribed d d'.force (posOf F a) (posOf F b) := by
  have hpos : ∀ l f : ℝ, l ≠ 0 → (0 < l → 0 < f) → (l < 0 → f < 0) → 0 < f * l := by
    intro l f h0 h1 h2
    rcases lt_or_gt_of_ne h0 with h | h
    · exact mul_pos_of_neg_of_neg (h2 h) h
    · exact mul_pos (h1 h) h
  have hadj : TrailAdj D a b := (isChain_iff_consecutive tr).1 (I.trails.chain key tr htr) a b hc
  have ht : d.type = .trail := by
    rcases hadj with ⟨d3, h3, t3⟩ | ⟨d3, h3, t3⟩ <;> rcases he with rfl | rfl
    · rw [h0] at h3; rw [Option.some.inj h3]; exact t3
    · exact absurd (Dict.mem_keys_of_get? h0) (I.simple.noAnti _ _ (Dict.mem_keys_of_get? h3))
    · exact absurd (Dict.mem_keys_of_get? h0) (I.simple.noAnti _ _ (Dict.mem_keys_of_get? h3))
    · rw [h0] at h3; rw [Option.some.inj h3]; exact t3
  unfold AsPrescribed
  cases hp : d.plane with
  | none =>
    obtain ⟨q1, q2, q3, _⟩ := computed_trail_length_sign I h h0 ht hp h1 hne
    refine ⟨?_, hpos _ _ (hl e d h0 ht) q2 q3⟩
    rcases he with rfl | rfl
    · exact q1
    · rw [← q1]; unfold Vec.dist; exact Vec.length_sub_comm _ _
  | some q =>
    obtain ⟨o, N⟩ := q
    obtain ⟨q1, q2⟩ := computed_plane I h htr hc he h0 h1 hp
    refine ⟨fun hu => q1 hu.1 hu.2, fun hu => ?_⟩
    have : |Vec.dot N (unit (posOf F b - posOf F a))| < 1 / 1000000 ∨
        Vec.dot N (posOf F a - o) = 0 := by
      by_contra hcon
      push Not at hcon
      exact hu ⟨hcon.1, hcon.2⟩
    obtain ⟨s1, s2, s3⟩ := q2 this hne
    exact ⟨s1, hpos _ _ (hl e d h0 ht) s2 s3⟩

/-- A computed form that is balanced and whose trail edges carry forces is an equilibrium. -/
theorem equilibriumOf_computed {D : Diagram ℝ} (I : ValidInput D) (hl : NonzeroTrails D)
    {F : Diagram ℝ} (h : Computed D F)
    (hf : ∀ e d, F.edges.get? e = some d → d.type = .trail → d.force ≠ 0)
    (hb : ∀ n ∈ F.nodes.keys, imbalance F n = 0) :
    EquilibriumOf D F := by
  obtain ⟨k1, k2, k3, k4⟩ := computed_keeps_data I h
  refine ⟨by rw [k1], by rw [k2], ?_, ?_, ?_, ?_, ?_, ?_⟩
  · intro n
    unfold loadAt
    cases hn : D.nodes.get? n with
    | none =>
      have : F.nodes.get? n = none := by
        rw [Dict.get?_eq_none_iff, k1]; exact (Dict.get?_eq_none_iff _ _).1 hn
      rw [this]
    | some d =>
      obtain ⟨d', hd', e1, _⟩ := k3 n d hn
      rw [hd']; simp [e1]
  · intro n tr htr
    obtain ⟨rest, rfl⟩ := I.trails.head n tr htr
    have hn := I.trails.mem_keys htr List.mem_cons_self
    obtain ⟨d, hdn⟩ := (Dict.exists_get?_iff _ _).2 hn
    obtain ⟨d', hd', _, _, _, e4, _⟩ := k3 n d hdn
    unfold posOf
    rw [hdn, hd']
    simp [e4 ⟨_, htr⟩]
  · intro n hn hs
    obtain ⟨d, hdn⟩ := (Dict.exists_get?_iff _ _).2 hn
    obtain ⟨d', hd', _, _, _, _, e5⟩ := k3 n d hdn
    unfold reactionAt
    rw [hd']
    have : d.type ≠ .support := by
      rintro ht
      exact hs (by unfold typeOf; rw [hdn, Option.map_some, ht])
    simp [e5 this]
  · intro n hn
    exact hb n (by rw [k1]; exact hn)
  · intro e d d' h0 h1 ht
    obtain ⟨d2, h2, _, _, e3⟩ := k4 e d h0
    rw [h1] at h2
    rw [Option.some.inj h2]
    exact e3 ht
  · intro key tr a b e d d' htr hc he h0 h1
    obtain ⟨d2, h2, e1, _, _⟩ := k4 e d h0
    rw [h1] at h2
    obtain rfl := Option.some.inj h2
    have hadj : TrailAdj D a b := (isChain_iff_consecutive tr).1 (I.trails.chain key tr htr) a b hc
    have ht : d.type = .trail := by
      rcases hadj with ⟨d3, h3, t3⟩ | ⟨d3, h3, t3⟩ <;> rcases he with rfl | rfl
      · rw [h0] at h3; rw [Option.some.inj h3]; exact t3
      · exact absurd (Dict.mem_keys_of_get? h0) (I.simple.noAnti _ _ (Dict.mem_keys_of_get? h3))
      · exact absurd (Dict.mem_keys_of_get? h0) (I.simple.noAnti _ _ (Dict.mem_keys_of_get? h3))
      · rw [h0] at h3; rw [Option.some.inj h3]; exact t3
    have hne := hf e d' h1 (by rw [e1]; exact ht)
    exact ⟨hne, computed_prescribed I hl h htr hc he h0 h1 hne⟩

/-- A returned form that is balanced and whose trail edges carry forces is an equilibrium. -/
theorem equilibriumOf_of_balanced {D : Diagram ℝ} (I : ValidInput D) (hl : NonzeroTrails D)
    {tmax : Nat} {eta : ℝ} {verbose : Bool} {F : Diagram ℝ}
    (h : staticEquilibrium D none tmax eta verbose = .ok F)
    (hf : ∀ e d, F.edges.get? e = some d → d.type = .trail → d.force ≠ 0)
    (hb : ∀ n ∈ F.nodes.keys, imbalance F n = 0) :
    EquilibriumOf D F :=
  equilibriumOf_computed I hl (computed_of_returned I h) hf hb

/-- C58. The returned form is itself an equilibrium of the problem, if its trail edges carry
forces. -/
theorem C58_equilibrium {D : Diagram ℝ} (I : ValidInput D) (hl : NonzeroTrails D)
    (hd : DirectOnly D) {tmax : Nat} {eta : ℝ} {verbose : Bool} {F : Diagram ℝ}
    (h : staticEquilibrium D none tmax eta verbose = .ok F)
    (hf : ∀ e d, F.edges.get? e = some d → d.type = .trail → d.force ≠ 0) :
    EquilibriumOf D F :=
  equilibriumOf_of_balanced I hl h hf (C22_exact_equilibrium I hl hd h)

/-- C58. A problem has an equilibrium exactly if all trail edges of the returned form carry
forces; the returned form then is one. -/
theorem C58_solvable {D : Diagram ℝ} (I : ValidInput D) (hl : NonzeroTrails D)
    (hd : DirectOnly D) {tmax : Nat} {eta : ℝ} {verbose : Bool} {F : Diagram ℝ}
    (h : staticEquilibrium D none tmax eta verbose = .ok F) :
    (∃ G, EquilibriumOf D G) ↔
      ∀ e d, F.edges.get? e = some d → d.type = .trail → d.force ≠ 0 := by
  constructor
  · rintro ⟨G, E⟩ e d hF ht
    obtain ⟨-, k2, -, k4⟩ := C25_keeps_data I h
    have hm : e ∈ D.edges.keys := by rw [← k2]; exact Dict.mem_keys_of_get? hF
    obtain ⟨d0, h0⟩ := (Dict.exists_get?_iff _ _).2 hm
    obtain ⟨d1, h1⟩ := (Dict.exists_get?_iff G.edges e).2 (E.edges.mem_iff.2 hm)
    rw [(C58_unique I hd h E).2 e d d1 hF h1]
    obtain ⟨d2, h2, e1, _⟩ := k4 e d0 h0
    rw [hF] at h2
    obtain rfl := Option.some.inj h2
    obtain ⟨a, b⟩ := e
    obtain ⟨key, tr, htr, hc⟩ := I.trails.complete a b (Or.inl ⟨d0, h0, by rw [← e1]; exact ht⟩)
    rcases hc with hc | hc
    · exact (E.trail key tr a b _ d0 d1 htr hc (Or.inl rfl) h0 h1).1
    · exact (E.trail key tr b a _ d0 d1 htr hc (Or.inr rfl) h0 h1).1
  · exact fun hf => ⟨F, C58_equilibrium I hl hd h hf⟩

open ColEx

theorem nonzero_col {pl : Option (Vec ℚ × Vec ℚ)} (h : colQ pl = colLit pl) :
    NonzeroTrails (col pl) := by
  intro e d hd _
  rw [col_edges h] at hd
  split_ifs at hd
  rw [← Option.some.inj hd]
  simp [colEdge]

/-- The trail edge of the column carries a force, with any of the planes. -/
theorem forces_col {pl : Option (Vec ℚ × Vec ℚ)} (h : colQ pl = colLit pl)
    (I : ValidInput (col pl)) {tmax : Nat} {eta : ℝ} {verbose : Bool} {F : Diagram ℝ}
    (hF : staticEquilibrium (col pl) none tmax eta verbose = .ok F) :
    ∀ e d, F.edges.get? e = some d → d.type = .trail → d.force ≠ 0 := by
  intro e d hd _
  have hm : e ∈ (col pl).edges.keys := by
    rw [← (C25_keeps_data I hF).2.1]; exact Dict.mem_keys_of_get? hd
  obtain ⟨d0, h0⟩ := (Dict.exists_get?_iff _ _).2 hm
  rw [col_edges h] at h0
  split_ifs at h0 with he
  subst he
  obtain ⟨d', hd', _, _, hf⟩ := col_form h I hF
  rw [hd] at hd'
  rw [Option.some.inj hd', hf]
  unfold copysign
  split_ifs <;> norm_num

example : ∃ F, staticEquilibrium (col none) none 100 0 false = .ok F ∧ EquilibriumOf (col none) F := by
  obtain ⟨F, h⟩ := returns colQ_none valid_none
  exact ⟨F, h, C58_equilibrium valid_none (nonzero_col colQ_none) (directOnly_col colQ_none) h
    (forces_col colQ_none valid_none h)⟩

example : ∃ G, EquilibriumOf (col (some below)) G := by
  obtain ⟨F, h⟩ := returns colQ_below valid_below
  exact (C58_solvable valid_below (nonzero_col colQ_below) (directOnly_col colQ_below) h).2
    (forces_col colQ_below valid_below h)

/-! ## C28 -/

/-- Everything acting on node `n` except the edge `e`. -/
noncomputable def restOn (F : Diagram ℝ) (e : Int × Int) (n : Int) : Vec ℝ :=
  loadAt F n + reactionAt F n + ((F.edges.filter fun p => p.1 ≠ e).map (pull F n)).sum

private theorem sum_without {F : Diagram ℝ} {e : Int × Int} {d : EdgeData ℝ} (n : Int)
    (hnd : F.edges.keys.Nodup) (hd : F.edges.get? e = some d) :
    (F.edges.map (pull F n)).sum =
      pull F n (e, d) + ((F.edges.filter fun p => p.1 ≠ e).map (pull F n)).sum := by
  have key : ∀ l : Dict (Int × Int) (EdgeData ℝ), l.keys.Nodup → l.get? e = some d →
      (l.map (pull F n)).sum = pull F n (e, d) + ((l.filter fun p => p.1 ≠ e).map (pull F n)).sum := by
    intro l
    induction l with
    | nil => intro _ h; simp [Dict.get?] at h
    | cons q l ih =>
      obtain ⟨k, v⟩ := q
      intro hn h
      simp only [Dict.keys, List.map_cons, List.nodup_cons] at hn
      simp only [Dict.get?] at h
      by_cases hk : k = e
      · rw [if_pos hk] at h
        obtain rfl := Option.some.inj h
        subst hk
        have : l.filter (fun p => p.1 ≠ k) = l := by
          rw [List.filter_eq_self]
          intro p hp
          simp only [ne_eq, decide_not, Bool.not_eq_true', decide_eq_false_iff_not]
          rintro rfl
          exact hn.1 (List.mem_map.2 ⟨p, hp, rfl⟩)
        rw [List.map_cons, List.sum_cons, List.filter_cons_of_neg (by simp), this]
      · rw [if_neg hk] at h
        rw [List.map_cons, List.sum_cons, ih hn.2 h, List.filter_cons_of_pos (by simpa using hk),
          List.map_cons, List.sum_cons]
        abel
  exact key F.edges hnd hd

/-- C28, when the sign changes.  The force of a trail edge with a plane that is used is positive
exactly if the plane is on the side of the first node to which the edge has to pull, that is opposite
to what the rest of the structure does there; the prescribed sign has no influence. -/
theorem C28_sign_iff {D : Diagram ℝ} (I : ValidInput D) (hl : NonzeroTrails D)
    (hd : DirectOnly D) {tmax : Nat} {eta : ℝ} {verbose : Bool} {F : Diagram ℝ}
    (h : staticEquilibrium D none tmax eta verbose = .ok F) {key : Int} {tr : List Int}
    (htr : (key, tr) ∈ D.trails) {a b : Int} (hc : Consecutive tr a b) {e : Int × Int}
    (he : e = (a, b) ∨ e = (b, a)) {d0 d : EdgeData ℝ} (h0 : D.edges.get? e = some d0)
    (h1 : F.edges.get? e = some d) {o N : Vec ℝ} (hp : d0.plane = some (o, N))
    (hu : PlaneUsed o N (posOf F a) (posOf F b)) :
    (0 < d.force ↔ Vec.dot N (o - posOf F a) * Vec.dot N (restOn F e a) < 0) ∧
    (d.force < 0 ↔ 0 < Vec.dot N (o - posOf F a) * Vec.dot N (restOn F e a)) := by
  have hb := (C27_plane I h htr hc he h0 h1 hp).1 hu.1 hu.2
  have ha := I.trails.mem_keys htr hc.mem_left
  obtain ⟨k1, k2, -, -⟩ := C25_keeps_data I h
  have hbal := C22_exact_equilibrium I hl hd h a (by rw [k1]; exact ha)
  have hne : a ≠ b := by
    rintro rfl
    have := I.trails.trail_nodup I.wf htr
    obtain ⟨p, q, hpq⟩ := hc
    rw [hpq, List.nodup_append] at this
    exact (List.nodup_cons.1 this.2.1).1 List.mem_cons_self
  have hpull : pull F a (e, d) = d.force • unit (posOf F b - posOf F a) := by
    rcases he with rfl | rfl
    · simp [pull, hne.symm]
    · simp [pull, hne.symm]
  have hrest : restOn F e a = -(d.force • unit (posOf F b - posOf F a)) := by
    unfold imbalance at hbal
    rw [sum_without a (by rw [k2]; exact I.wf.edgesNodup) h1, hpull] at hbal
    unfold restOn
    rw [eq_neg_iff_add_eq_zero]
    refine Eq.trans ?_ hbal
    abel
  have hx : Vec.dot N (o - posOf F a) ≠ 0 := by
    intro hz
    apply hu.2
    have : Vec.dot N (posOf F a - o) = - Vec.dot N (o - posOf F a) := by
      simp only [Vec.dot, Vec.sub_x, Vec.sub_y, Vec.sub_z]; ring
    rw [this, hz, neg_zero]
  have hlin : Vec.dot N (posOf F b - posOf F a) = Vec.dot N (o - posOf F a) := by
    have : Vec.dot N (posOf F b - posOf F a) =
        Vec.dot N (posOf F b - o) + Vec.dot N (o - posOf F a) := by
      simp only [Vec.dot, Vec.sub_x, Vec.sub_y, Vec.sub_z]; ring
    rw [this, hb, zero_add]
  have hba : posOf F b - posOf F a ≠ 0 := by
    intro hz
    rw [hz] at hlin
    apply hx
    rw [← hlin]
    simp [Vec.dot]
  have hlen := Vec.length_pos hba
  have hdot : Vec.dot N (restOn F e a) =
      -(d.force * ((Vec.length (posOf F b - posOf F a))⁻¹ * Vec.dot N (o - posOf F a))) := by
    rw [hrest, ← hlin]
    unfold unit
    simp only [Vec.dot, Vec.neg_x, Vec.neg_y, Vec.neg_z, Vec.smul_x, Vec.smul_y, Vec.smul_z]
    ring
  have hpos : 0 < (Vec.length (posOf F b - posOf F a))⁻¹ *
      (Vec.dot N (o - posOf F a) * Vec.dot N (o - posOf F a)) :=
    mul_pos (inv_pos.2 hlen) (mul_self_pos.2 hx)
  have hprod : Vec.dot N (o - posOf F a) * Vec.dot N (restOn F e a) =
      -(d.force * ((Vec.length (posOf F b - posOf F a))⁻¹ *
        (Vec.dot N (o - posOf F a) * Vec.dot N (o - posOf F a)))) := by
    rw [hdot]; ring
  rw [hprod]
  constructor
  · rw [neg_lt_zero]
    exact ⟨fun hf => mul_pos hf hpos, fun hf => by
      by_contra hcon
      exact absurd hf (not_lt.2 (mul_nonpos_of_nonpos_of_nonneg (not_lt.1 hcon) hpos.le))⟩
  · rw [neg_pos]
    exact ⟨fun hf => mul_neg_of_neg_of_pos hf hpos, fun hf => by
      by_contra hcon
      exact absurd hf (not_lt.2 (mul_nonneg (not_lt.1 hcon) hpos.le))⟩

/-- C28. No algorithm could keep the sign: there is a diagram with a plane on the only edge, of
prescribed negative length, all equilibria of which have a tensile edge. -/
theorem C28_unavoidable : ∃ D : Diagram ℝ, ValidInput D ∧ (∃ G, EquilibriumOf D G) ∧
    ∃ d0, D.edges.get? (0, 1) = some d0 ∧ d0.type = .trail ∧ d0.plane.isSome ∧ d0.length < 0 ∧
      ∀ G d, EquilibriumOf D G → G.edges.get? (0, 1) = some d → 0 < d.force := by
  obtain ⟨F, h⟩ := returns colQ_above valid_above
  have h0 := col_edges colQ_above (0, 1)
  rw [if_pos rfl] at h0
  refine ⟨_, valid_above, ⟨F, C58_equilibrium valid_above (nonzero_col colQ_above)
    (directOnly_col colQ_above) h (forces_col colQ_above valid_above h)⟩, _, h0, rfl, rfl,
    by simp [colEdge], fun G d E hG => ?_⟩
  obtain ⟨d', hd', _, _, hf⟩ := col_form colQ_above valid_above h
  rw [← (C58_unique valid_above (directOnly_col colQ_above) h E).2 _ d' d hd' hG, hf, len_above]
  norm_num [copysign]

example : ∃ (F : Diagram ℝ) (d : EdgeData ℝ), staticEquilibrium (col (some above)) none 100 0 false = .ok F ∧
    F.edges.get? (0, 1) = some d ∧ PlaneUsed ⟨0, 0, 1⟩ ⟨0, 0, 1⟩ (posOf F 0) (posOf F 1) := by
  obtain ⟨F, h⟩ := returns colQ_above valid_above
  obtain ⟨d, hd, p0, p1, _⟩ := col_form colQ_above valid_above h
  refine ⟨F, d, h, hd, ?_⟩
  rw [p0, p1, len_above, PlaneUsed, sub_zero, unit_up]
  norm_num [Vec.dot]

end Props
end CEM
