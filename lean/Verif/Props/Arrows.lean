import Verif.Lemmas.Drawing
import Verif.Lemmas.VecReal
import Verif.Props.Equilibrium
import Verif.Props.Queries

/-!
# C52: arrows for loads and reactions
-/

set_option linter.unusedSectionVars false
set_option linter.unusedSimpArgs false

namespace CEM
namespace Props
open Diagram Spec Drawing TrailEx

variable {R : Type}

local instance arrowSqrt : PySqrt ℚ := ⟨id⟩

/-! ## One arrow -/

/-- C52. An arrow is left out exactly if the force is smaller than the tolerance; otherwise
it is the force to scale. -/
theorem C52_to_scale [Field R] [LinearOrder R] [PySqrt R] (f pos : Vec R) (scale gap tol : R)
    (shift : Bool) :
    (forceArrow f pos scale gap tol shift = none ↔ Vec.length f < tol) ∧
    ∀ a, forceArrow f pos scale gap tol shift = some a → a.stop - a.start = scale • f := by
  unfold forceArrow
  simp only
  refine ⟨by split_ifs with h <;> simp [h], ?_⟩
  intro a
  split_ifs with h1 h2
  · simp
  all_goals
    simp only [Option.some.injEq]
    rintro rfl
    simp only
    abel

/-- C52. An arrow that is not shifted starts at the gap from the node, in the direction of
the force, and points away from the node. -/
theorem C52_unshifted {f pos : Vec ℝ} {scale gap tol : ℝ} {a : Arrow ℝ}
    (h : forceArrow f pos scale gap tol false = some a) :
    a.start = pos + gap • unit f ∧ a.stop = pos + (gap + scale * Vec.length f) • unit f := by
  unfold forceArrow at h
  simp only [Bool.false_eq_true, if_false] at h
  split_ifs at h with h1
  simp only [Option.some.injEq] at h
  subst h
  simp only [normalize_eq_unit, true_and]
  have : scale • f = (scale * Vec.length f) • unit f := by
    rw [mul_smul, length_smul_unit]
  rw [this, add_smul]; abel

/-- C52. A shifted arrow with a scale that is not negative ends at the gap from the node, on
the side the force comes from, and points towards the node. -/
theorem C52_shifted {f pos : Vec ℝ} {scale gap tol : ℝ} (hs : 0 ≤ scale) {a : Arrow ℝ}
    (h : forceArrow f pos scale gap tol true = some a) :
    a.start = pos - (gap + scale * Vec.length f) • unit f ∧ a.stop = pos - gap • unit f := by
  unfold forceArrow at h
  simp only [if_true] at h
  split_ifs at h with h1
  simp only [Option.some.injEq] at h
  subst h
  have e1 : Vec.length (scale • f) = scale * Vec.length f := by
    rw [Vec.length_smul, abs_of_nonneg hs]
  have e2 : scale • f = (scale * Vec.length f) • unit f := by
    rw [mul_smul, length_smul_unit]
  simp only [normalize_eq_unit, e1]
  refine ⟨by rw [mul_neg_one, neg_smul, sub_eq_add_neg], ?_⟩
  rw [e2, mul_neg_one, neg_smul, add_smul]; abel

/-- C52. With a negative scale a shifted arrow does not end at the gap: it is twice its
length further away. -/
theorem C52_negative_scale {f pos : Vec ℝ} {scale gap tol : ℝ} (hs : scale < 0) {a : Arrow ℝ}
    (h : forceArrow f pos scale gap tol true = some a) :
    a.stop = pos - (gap + 2 * (|scale| * Vec.length f)) • unit f := by
  unfold forceArrow at h
  simp only [if_true] at h
  split_ifs at h with h1
  simp only [Option.some.injEq] at h
  subst h
  have e1 : Vec.length (scale • f) = |scale| * Vec.length f := Vec.length_smul _ _
  have e2 : scale • f = -((|scale| * Vec.length f) • unit f) := by
    rw [abs_of_neg hs, mul_smul, length_smul_unit, neg_smul, neg_neg]
  simp only [normalize_eq_unit, e1]
  rw [e2, mul_neg_one, neg_smul, add_smul, add_smul, two_mul, add_smul]; abel

/-- C52. The viewer draws the arrows of the plotter with no gap. -/
theorem C52_viewer [Field R] [LinearOrder R] [PySqrt R] (f pos : Vec R) (scale tol : R)
    (shift : Bool) : viewerArrow f pos scale tol shift = forceArrow f pos scale 0 tol shift := by
  unfold viewerArrow forceArrow
  cases shift <;> simp

/-- A load of size 2 at the origin with gap 1: drawn from 1 to 3, or shifted from -3 to -1. -/
example : forceArrow (⟨2, 0, 0⟩ : Vec ℝ) 0 1 1 (1 / 1000) false ≠ none ∧
    forceArrow (⟨2, 0, 0⟩ : Vec ℝ) 0 1 1 (1 / 1000) true ≠ none ∧ Vec.length (⟨2, 0, 0⟩ : Vec ℝ) = 2 := by
  have hl : Vec.length (⟨2, 0, 0⟩ : Vec ℝ) = 2 := by
    rw [Vec.length_def]
    simp only [Vec.dot, mul_zero, add_zero]
    rw [show (2 : ℝ) * 2 = 2 ^ 2 by norm_num]
    exact Real.sqrt_sq (by norm_num)
  refine ⟨?_, ?_, hl⟩ <;>
  · intro h
    have := (C52_to_scale _ _ _ _ _ _).1.1 h
    rw [hl] at this
    norm_num at this

/-! ## All arrows -/

section
variable [Field R] [LinearOrder R] [PySqrt R]

theorem mem_drawForces {D : Diagram R} {vec : NodeData R → Vec R} {scale tol : R}
    {gap : Int → R} {shift : Dict Int Bool} {nodes : List Int} {arrows : List (Int × Arrow R)}
    (h : drawForces D vec scale tol gap shift nodes = .ok arrows) {n : Int} {a : Arrow R} :
    (n, a) ∈ arrows ↔ n ∈ nodes ∧ ∃ d s, D.nodes.get? n = some d ∧
      ¬ Vec.length (vec d) < tol ∧ shift.get? n = some s ∧
      forceArrow (vec d) d.pos scale (gap n) tol s = some a := by
  induction nodes generalizing arrows with
  | nil => simp only [drawForces, Except.ok.injEq] at h; subst h; simp
  | cons m l ih =>
    unfold drawForces at h
    cases hd : D.nodes.get? m with
    | none => simp [hd] at h
    | some d =>
      simp only [hd] at h
      by_cases hl : Vec.length (vec d) < tol
      · rw [if_pos hl] at h
        rw [ih h, List.mem_cons]
        constructor
        · rintro ⟨h1, h2⟩; exact ⟨Or.inr h1, h2⟩
        · rintro ⟨rfl | h1, d', s, h2, h3, h4⟩
          · rw [hd] at h2; cases h2; exact absurd hl h3
          · exact ⟨h1, d', s, h2, h3, h4⟩
      · rw [if_neg hl] at h
        cases hs : shift.getE m with
        | error e => simp [hs] at h
        | ok s =>
          simp only [hs] at h
          cases hr : drawForces D vec scale tol gap shift l with
          | error e => simp [hr] at h
          | ok rest =>
            simp only [hr, Except.ok.injEq] at h
            subst h
            rw [List.mem_append, ih hr, List.mem_cons]
            have hs' := Dict.getE_eq_ok_iff.1 hs
            constructor
            · rintro (h1 | ⟨h1, h2⟩)
              · simp only [Option.mem_toList, Option.mem_def, Option.map_eq_some_iff,
                  Prod.mk.injEq] at h1
                obtain ⟨a', h1, rfl, rfl⟩ := h1
                exact ⟨Or.inl rfl, d, s, hd, hl, hs', h1⟩
              · exact ⟨Or.inr h1, h2⟩
            · rintro ⟨rfl | h1, d', s', h2, h3, h4, h5⟩
              · rw [hd] at h2; cases h2
                rw [hs'] at h4; cases h4
                left
                simp [h5]
              · exact Or.inr ⟨h1, d', s', h2, h3, h4, h5⟩

private theorem noShifts_get? (nodes : List Int) (n : Int) :
    (noShifts nodes).get? n = if n ∈ nodes then some false else none := by
  unfold noShifts
  have : ∀ (l : List Int) (acc : Dict Int Bool),
      (l.foldl (fun acc e => acc.set e false) acc).get? n =
        if n ∈ l then some false else acc.get? n := by
    intro l
    induction l with
    | nil => intro acc; simp
    | cons a l ih =>
      intro acc
      simp only [List.foldl_cons, ih, Dict.get?_set, List.mem_cons]
      by_cases h1 : n ∈ l
      · simp [h1]
      · by_cases h2 : n = a
        · simp [h2]
        · simp [h1, h2, Ne.symm h2]
  simpa using this nodes []

private theorem drawForces_ok (D : Diagram R) (vec : NodeData R → Vec R) (scale tol : R)
    (gap : Int → R) (shift : Dict Int Bool) (nodes : List Int)
    (h1 : ∀ n ∈ nodes, n ∈ D.nodes.keys) (h2 : ∀ n ∈ nodes, n ∈ shift.keys) :
    ∃ arrows, drawForces D vec scale tol gap shift nodes = .ok arrows := by
  induction nodes with
  | nil => exact ⟨[], rfl⟩
  | cons n l ih =>
    obtain ⟨rest, hr⟩ := ih (fun m hm => h1 m (by simp [hm])) (fun m hm => h2 m (by simp [hm]))
    obtain ⟨d, hd⟩ := (Dict.exists_get?_iff _ _).2 (h1 n (by simp))
    obtain ⟨s, hs⟩ := (Dict.exists_get?_iff _ _).2 (h2 n (by simp))
    unfold drawForces
    simp only [hd, Dict.getE_eq_ok_iff.2 hs, hr]
    split_ifs
    · exact ⟨_, rfl⟩
    · exact ⟨_, rfl⟩

/-- C52. Drawing the loads of nodes of the diagram never fails; the nodes with an arrow are
those asked for with a load not smaller than the tolerance, and no arrow is shifted. -/
theorem C52_loads (D : Diagram R) (scale tol : R) (gap : Int → R) {nodes : List Int}
    (hn : ∀ n ∈ nodes, n ∈ D.nodes.keys) :
    ∃ arrows, drawLoads D scale tol gap nodes = .ok arrows ∧
      ∀ n a, (n, a) ∈ arrows ↔ n ∈ nodes ∧ ∃ d, D.nodes.get? n = some d ∧
        ¬ Vec.length d.load < tol ∧ forceArrow d.load d.pos scale (gap n) tol false = some a := by
  obtain ⟨arrows, h⟩ := drawForces_ok D (·.load) scale tol gap (noShifts nodes) nodes hn (by
    intro n hn
    rw [← Dict.exists_get?_iff]
    exact ⟨false, by rw [noShifts_get?, if_pos hn]⟩)
  refine ⟨arrows, h, fun n a => ?_⟩
  rw [mem_drawForces h]
  constructor
  · rintro ⟨h1, d, s, h2, h3, h4, h5⟩
    rw [noShifts_get?, if_pos h1] at h4
    cases h4
    exact ⟨h1, d, h2, h3, h5⟩
  · rintro ⟨h1, d, h2, h3, h5⟩
    exact ⟨h1, d, false, h2, h3, by rw [noShifts_get?, if_pos h1], h5⟩

end

example : drawLoads (run key two [.addLoad (.key 1) ⟨0, 0, -2⟩]) 3 1 (fun _ => 0) [0, 1, 2] =
    .ok [(1, ⟨⟨1, 0, 0⟩, ⟨1, 0, -6⟩⟩)] := by decide +kernel

/-! ## Reactions -/

section
variable [Field R] [LinearOrder R] [PySqrt R]

private theorem largestForce_ok {l : List R} {m : R} (h : largestForce l = .ok m) :
    m ∈ l ∧ ∀ x ∈ l, |x| ≤ |m| := by
  have key : ∀ (l : List R) (a : R),
      let m := l.foldl (fun m x => if |x| > |m| then x else m) a
      (m = a ∨ m ∈ l) ∧ |a| ≤ |m| ∧ ∀ x ∈ l, |x| ≤ |m| := by
    intro l
    induction l with
    | nil => intro a; simp
    | cons b l ih =>
      intro a
      simp only [List.foldl_cons]
      obtain ⟨h1, h2, h3⟩ := ih (if |b| > |a| then b else a)
      refine ⟨?_, ?_, ?_⟩
      · split_ifs at h1 ⊢ with h
        · rcases h1 with h1 | h1
          · exact Or.inr (by rw [h1]; simp)
          · exact Or.inr (by simp [h1])
        · rcases h1 with h1 | h1
          · exact Or.inl h1
          · exact Or.inr (by simp [h1])
      · refine le_trans ?_ h2
        split_ifs with h
        · exact (gt_iff_lt.1 h).le
        · exact le_rfl
      · intro x hx
        rcases List.mem_cons.1 hx with rfl | hx
        · refine le_trans ?_ h2
          split_ifs with h
          · exact le_rfl
          · exact not_lt.1 h
        · exact h3 x hx
  cases l with
  | nil => simp [largestForce] at h
  | cons a l =>
    obtain ⟨h1, h2, h3⟩ := key l a
    simp only [largestForce, Except.ok.injEq] at h
    rw [h] at h1 h2 h3
    refine ⟨by rcases h1 with h1 | h1 <;> simp [h1], ?_⟩
    intro x hx
    rcases List.mem_cons.1 hx with rfl | hx
    · exact h2
    · exact h3 x hx

private theorem edgeForce_ok {D : Diagram R} {e : Int × Int} {d : EdgeData R}
    (h : D.edges.get? e = some d) : D.edgeForce e = .ok d.force := by simp [edgeForce, h]

private theorem reactionShift_forces {D : Diagram R} (n : Int)
    (hk : ∀ e ∈ D.connectedEdges n, e ∈ D.edges.keys) :
    mapE D.edgeForce (D.connectedEdges n) =
      .ok ((D.connectedEdges n).map fun e => ((D.edges.get? e).map (·.force)).getD 0) := by
  apply mapE_pure
  intro e he
  obtain ⟨d, hd⟩ := (Dict.exists_get?_iff _ _).2 (hk e he)
  rw [edgeForce_ok hd, hd]; rfl

private theorem connected_keys {D : Diagram R} (g : SimpleGraph D) (n : Int) :
    ∀ e ∈ D.connectedEdges n, e ∈ D.edges.keys := fun _ he => ((mem_connectedEdges g).1 he).1

/-- C52. Whether a reaction is shifted is decided by an edge at the node with a force of
largest size: it is shifted if every such edge is in compression, and not shifted if none
is. A node without edges makes the drawing fail with `ValueError`. -/
theorem C52_shift_rule {D : Diagram R} (g : SimpleGraph D) (n : Int) :
    ((∀ e ∈ D.edges.keys, e.1 ≠ n ∧ e.2 ≠ n) → reactionShift D n = .error .valueError) ∧
    ((∃ e ∈ D.edges.keys, e.1 = n ∨ e.2 = n) → ∃ s e d, reactionShift D n = .ok s ∧
      (e.1 = n ∨ e.2 = n) ∧ D.edges.get? e = some d ∧
      (∀ e' d', (e'.1 = n ∨ e'.2 = n) → D.edges.get? e' = some d' → |d'.force| ≤ |d.force|) ∧
      (s = true ↔ d.force < 0)) := by
  constructor
  · intro h
    have h0 : D.connectedEdges n = [] := by
      rw [List.eq_nil_iff_forall_not_mem]
      intro e he
      obtain ⟨h1, h2⟩ := (mem_connectedEdges g).1 he
      rcases h2 with h2 | h2
      · exact (h e h1).1 h2
      · exact (h e h1).2 h2
    unfold reactionShift
    rw [h0]; rfl
  · rintro ⟨e0, h0, hn⟩
    have hm0 := (mem_connectedEdges g).2 ⟨h0, hn⟩
    set fs := (D.connectedEdges n).map fun e => ((D.edges.get? e).map (·.force)).getD 0 with hfs
    have hne : fs ≠ [] := by
      intro h
      rw [hfs, List.map_eq_nil_iff] at h
      rw [h] at hm0; simp at hm0
    obtain ⟨m, hm⟩ : ∃ m, largestForce fs = .ok m := by
      cases h : fs with
      | nil => exact absurd h hne
      | cons a l => exact ⟨_, rfl⟩
    obtain ⟨h1, h2⟩ := largestForce_ok hm
    rw [hfs, List.mem_map] at h1
    obtain ⟨e, he, hem⟩ := h1
    obtain ⟨hk, hen⟩ := (mem_connectedEdges g).1 he
    obtain ⟨d, hd⟩ := (Dict.exists_get?_iff _ _).2 hk
    have hmd : m = d.force := by rw [← hem, hd]; rfl
    refine ⟨decide (m < 0), e, d, ?_, hen, hd, ?_, ?_⟩
    · unfold reactionShift
      rw [reactionShift_forces n (connected_keys g n), ← hfs]
      simp only [hm]
    · intro e' d' hen' hd'
      rw [← hmd]
      apply h2
      rw [hfs, List.mem_map]
      exact ⟨e', (mem_connectedEdges g).2 ⟨Dict.mem_keys_of_get? hd', hen'⟩, by rw [hd']; rfl⟩
    · rw [hmd]; simp

/-- C52. If the force in one edge at the node is larger than in the others, the reaction is
shifted exactly if that edge is in compression. -/
theorem C52_shift_dominant {D : Diagram R} (g : SimpleGraph D) {n : Int} {e : Int × Int}
    {d : EdgeData R} (he : D.edges.get? e = some d) (hn : e.1 = n ∨ e.2 = n)
    (hdom : ∀ e' d', e' ≠ e → (e'.1 = n ∨ e'.2 = n) → D.edges.get? e' = some d' →
      |d'.force| < |d.force|) :
    reactionShift D n = .ok (decide (d.force < 0)) := by
  obtain ⟨s, e', d', h1, h2, h3, h4, h5⟩ :=
    (C52_shift_rule g n).2 ⟨e, Dict.mem_keys_of_get? he, hn⟩
  have : e' = e := by
    by_contra hne
    exact absurd (h4 e d hn he) (not_le.2 (hdom e' d' hne h2 h3))
  subst this
  rw [he] at h3; cases h3
  rw [h1]
  congr 1
  rw [Bool.eq_iff_iff, h5]; simp

theorem reactionShifts_get? {D : Diagram R} {l : List Int} {acc r : Dict Int Bool}
    (h : reactionShifts D l acc = .ok r) (n : Int) :
    (n ∈ l → ∃ s, reactionShift D n = .ok s ∧ r.get? n = some s) ∧
    (n ∉ l → r.get? n = acc.get? n) := by
  induction l generalizing acc with
  | nil => simp only [reactionShifts, Except.ok.injEq] at h; subst h; simp
  | cons a l ih =>
    unfold reactionShifts at h
    cases ha : reactionShift D a with
    | error e => simp [ha] at h
    | ok s =>
      simp only [ha] at h
      obtain ⟨h1, h2⟩ := ih h
      constructor
      · intro hm
        by_cases hl : n ∈ l
        · exact h1 hl
        · have hna : n = a := (List.mem_cons.1 hm).resolve_right hl
          subst hna
          refine ⟨s, ha, ?_⟩
          rw [h2 hl]; simp
      · intro hm
        simp only [List.mem_cons, not_or] at hm
        rw [h2 hm.2, Dict.get?_set_ne _ _ (Ne.symm hm.1)]

private theorem reactionShifts_error {D : Diagram R} {l : List Int} {acc : Dict Int Bool} {n : Int}
    (hn : n ∈ l) {e : PyErr} (he : ∀ m ∈ l, ∀ e', reactionShift D m = .error e' → e' = e)
    (h : reactionShift D n = .error e) : reactionShifts D l acc = .error e := by
  induction l generalizing acc with
  | nil => simp at hn
  | cons a l ih =>
    unfold reactionShifts
    cases ha : reactionShift D a with
    | error e' => simp [he a (by simp) e' ha]
    | ok s =>
      rcases List.mem_cons.1 hn with rfl | hn
      · rw [h] at ha; simp at ha
      · exact ih hn fun m hm => he m (by simp [hm])

theorem reactionShifts_ok {D : Diagram R} {l : List Int} {acc : Dict Int Bool}
    (h : ∀ n ∈ l, ∃ s, reactionShift D n = .ok s) : ∃ r, reactionShifts D l acc = .ok r := by
  induction l generalizing acc with
  | nil => exact ⟨acc, rfl⟩
  | cons a l ih =>
    obtain ⟨s, hs⟩ := h a (by simp)
    unfold reactionShifts
    simp only [hs]
    exact ih fun n hn => h n (by simp [hn])

/-- C52. If every node has an edge, the plotter draws the reactions asked for: one arrow for
each node with a reaction not smaller than the tolerance. In Grasshopper it is enough that
the nodes asked for have edges, and the arrows are the same. -/
theorem C52_reactions {D : Diagram R} (g : SimpleGraph D) (scale tol : R) (gap : Int → R)
    {nodes : List Int} (hn : ∀ n ∈ nodes, n ∈ D.nodes.keys)
    (he : ∀ n ∈ nodes, ∃ e ∈ D.edges.keys, e.1 = n ∨ e.2 = n) :
    ∃ arrows, ghReactions D scale tol gap nodes = .ok arrows ∧
      (∀ n a, (n, a) ∈ arrows ↔ n ∈ nodes ∧ ∃ d s, D.nodes.get? n = some d ∧
        reactionShift D n = .ok s ∧ forceArrow d.reaction d.pos scale (gap n) tol s = some a) ∧
      ((∀ n ∈ D.nodes.keys, ∃ e ∈ D.edges.keys, e.1 = n ∨ e.2 = n) →
        ∃ arrows', plotterReactions D scale tol gap nodes = .ok arrows' ∧
          ∀ p, p ∈ arrows' ↔ p ∈ arrows) := by
  have hok : ∀ n, (∃ e ∈ D.edges.keys, e.1 = n ∨ e.2 = n) → ∃ s, reactionShift D n = .ok s := by
    intro n h
    obtain ⟨s, _, _, hs, _⟩ := (C52_shift_rule g n).2 h
    exact ⟨s, hs⟩
  have key : ∀ l : List Int, (∀ n ∈ nodes, n ∈ l) →
      (∀ n ∈ l, ∃ e ∈ D.edges.keys, e.1 = n ∨ e.2 = n) →
      ∃ r arrows, reactionShifts D l [] = .ok r ∧
        drawForces D (·.reaction) scale tol gap r nodes = .ok arrows ∧
        ∀ n a, (n, a) ∈ arrows ↔ n ∈ nodes ∧ ∃ d s, D.nodes.get? n = some d ∧
          reactionShift D n = .ok s ∧
          forceArrow d.reaction d.pos scale (gap n) tol s = some a := by
    intro l hl hel
    obtain ⟨r, hr⟩ := reactionShifts_ok (acc := []) fun n hn => hok n (hel n hn)
    obtain ⟨arrows, ha⟩ := drawForces_ok D (·.reaction) scale tol gap r nodes hn (by
      intro n hnn
      obtain ⟨s, _, hs⟩ := (reactionShifts_get? hr n).1 (hl n hnn)
      exact Dict.mem_keys_of_get? hs)
    refine ⟨r, arrows, hr, ha, fun n a => ?_⟩
    rw [mem_drawForces ha]
    constructor
    · rintro ⟨h1, d, s, h2, _, h4, h5⟩
      obtain ⟨s', h6, h7⟩ := (reactionShifts_get? hr n).1 (hl n h1)
      rw [h4] at h7; cases h7
      exact ⟨h1, d, s, h2, h6, h5⟩
    · rintro ⟨h1, d, s, h2, h4, h5⟩
      obtain ⟨s', h6, h7⟩ := (reactionShifts_get? hr n).1 (hl n h1)
      rw [h4] at h6; cases h6
      refine ⟨h1, d, s, h2, ?_, h7, h5⟩
      intro hlt
      rw [(C52_to_scale d.reaction d.pos scale (gap n) tol s).1.2 hlt] at h5
      simp at h5
  obtain ⟨r, arrows, h1, h2, h3⟩ := key nodes (fun _ h => h) he
  refine ⟨arrows, by unfold ghReactions; simp only [h1, h2], h3, fun hall => ?_⟩
  obtain ⟨r', arrows', h1', h2', h3'⟩ := key D.nodes.keys hn hall
  refine ⟨arrows', by unfold plotterReactions; simp only [h1', h2'], fun p => ?_⟩
  obtain ⟨n, a⟩ := p
  rw [h3, h3']

/-- C52. One node without edges keeps the plotter from drawing any reaction; in Grasshopper
it does so only if the node is among those asked for. -/
theorem C52_isolated {D : Diagram R} (g : SimpleGraph D) {n : Int} (hn : n ∈ D.nodes.keys)
    (hi : ∀ e ∈ D.edges.keys, e.1 ≠ n ∧ e.2 ≠ n) (scale tol : R) (gap : Int → R)
    (nodes : List Int) :
    plotterReactions D scale tol gap nodes = .error .valueError ∧
    (n ∈ nodes → ghReactions D scale tol gap nodes = .error .valueError) := by
  have he : ∀ m e', reactionShift D m = .error e' → e' = .valueError := by
    intro m e' h
    by_cases hm : ∃ e ∈ D.edges.keys, e.1 = m ∨ e.2 = m
    · obtain ⟨s, _, _, hs, _⟩ := (C52_shift_rule g m).2 hm
      rw [hs] at h; simp at h
    · push Not at hm
      rw [(C52_shift_rule g m).1 hm] at h
      simpa using h.symm
  have h0 := (C52_shift_rule g n).1 hi
  constructor
  · unfold plotterReactions
    rw [reactionShifts_error hn (fun m _ => he m) h0]
  · intro hm
    unfold ghReactions
    rw [reactionShifts_error hm (fun m _ => he m) h0]

end

/-- Node 5 has no edges. -/
example : let D := run key two [.addNode (some 5) ⟨9, 9, 9⟩]
    plotterReactions D 1 1 (fun _ => 0) [0] = .error .valueError ∧
    ghReactions D 1 1 (fun _ => 0) [0] = .ok [] ∧
    ghReactions D 1 1 (fun _ => 0) [0, 5] = .error .valueError := by decide +kernel

/-- C52. The comment in the code says a reaction is shifted if the connected trail edge is
in compression. It is not: a larger tension in a deviation edge at the support wins. -/
theorem C52_comment_wrong :
    ∃ D : Diagram ℚ, D.isNodeSupport 0 = .ok true ∧ D.connectedTrailEdges 0 = .ok [(0, 1)] ∧
      D.edgeForce (0, 1) = .ok (-1) ∧ reactionShift D 0 = .ok false := by
  refine ⟨{ (after key (nodes 3 ++ [trail 0 1, .addEdge (.deviation (.key 0) (.key 2) 2), sup 0])) with
    edges := (after key (nodes 3 ++ [trail 0 1, .addEdge (.deviation (.key 0) (.key 2) 2), sup 0])).edges.modify
      (0, 1) fun d => { d with force := -1 } }, ?_⟩
  decide +kernel

/-! ## On which side of a support the reaction is drawn -/

/-- C52. At a support of a form in equilibrium that holds one edge and no load, the arrow of
the reaction lies on the line of the edge on the other side of the node, at least the gap
away from it, in tension as well as in compression. -/
theorem C52_reaction_side {F : Diagram ℝ} (w : WF F) (g : SimpleGraph F) {n m : Int}
    {e : Int × Int} {d : EdgeData ℝ} (he : F.edges.get? e = some d) (hends : e = (n, m) ∨ e = (m, n))
    (honly : ∀ e' ∈ F.edges.keys, e'.1 = n ∨ e'.2 = n → e' = e)
    (hload : loadAt F n = 0) (hbal : imbalance F n = 0)
    {scale tol : ℝ} {gap : Int → ℝ} (hs : 0 ≤ scale) (ht : 0 < tol)
    {nodes : List Int} {arrows : List (Int × Arrow ℝ)}
    (h : plotterReactions F scale tol gap nodes = .ok arrows ∨
      ghReactions F scale tol gap nodes = .ok arrows)
    {a : Arrow ℝ} (ha : (n, a) ∈ arrows) :
    ∃ s t, gap n ≤ s ∧ gap n ≤ t ∧
      a.start = posOf F n - s • unit (posOf F m - posOf F n) ∧
      a.stop = posOf F n - t • unit (posOf F m - posOf F n) := by
  set u := unit (posOf F m - posOf F n) with hu
  have hmn : m ≠ n := by
    rintro rfl
    have := Dict.mem_keys_of_get? he
    rcases hends with rfl | rfl <;> exact g.noLoop _ this
  have hen : e.1 = n ∨ e.2 = n := by rcases hends with rfl | rfl <;> simp
  -- the reaction balances the pull of the edge
  have hpull : (F.edges.map (pull F n)).sum = d.force • u := by
    have h1 : ∀ p ∈ F.edges, p ≠ (e, d) → pull F n p = 0 := by
      rintro ⟨e', d'⟩ hp hne
      have hk := Dict.mem_keys_of_mem hp
      have hg := Dict.get?_of_mem w.edgesNodup hp
      have hnot : ¬ (e'.1 = n ∨ e'.2 = n) := by
        intro hc
        have := honly e' hk hc
        subst this
        rw [he] at hg; cases hg
        exact hne rfl
      push Not at hnot
      simp [pull, hnot.1, hnot.2]
    have h2 : pull F n (e, d) = d.force • u := by
      rcases hends with rfl | rfl
      · simp [pull, hmn, hu]
      · simp [pull, hmn, hu]
    have hnd : F.edges.Nodup := List.Nodup.of_map _ w.edgesNodup
    have hmem := Dict.mem_of_get? he
    clear_value u
    revert h1 hnd hmem
    generalize F.edges = l
    induction l with
    | nil => intro _ _ h; simp at h
    | cons p l ih =>
      intro h1 hnd hmem
      rw [List.map_cons, List.sum_cons]
      rcases List.mem_cons.1 hmem with rfl | hmem
      · rw [h2, List.sum_eq_zero, add_zero]
        intro x hx
        obtain ⟨q, hq, rfl⟩ := List.mem_map.1 hx
        refine h1 q (by simp [hq]) ?_
        rintro rfl
        exact (List.nodup_cons.1 hnd).1 hq
      · rw [h1 p (by simp) (fun hp => (List.nodup_cons.1 hnd).1 (hp ▸ hmem)), zero_add]
        exact ih (fun q hq => h1 q (by simp [hq])) (List.nodup_cons.1 hnd).2 hmem
  have hreact : reactionAt F n = -(d.force • u) := by
    unfold imbalance at hbal
    rw [hload, zero_add, hpull] at hbal
    exact eq_neg_of_add_eq_zero_left hbal
  have hshift : reactionShift F n = .ok (decide (d.force < 0)) := by
    apply C52_shift_dominant g he hen
    intro e' d' hne hn' hg'
    exact absurd (honly e' (Dict.mem_keys_of_get? hg') hn') hne
  -- the arrow
  obtain ⟨nd, hnd, hlen, s, hsn, harr⟩ : ∃ nd, F.nodes.get? n = some nd ∧
      ¬ Vec.length nd.reaction < tol ∧ ∃ s, s = decide (d.force < 0) ∧
        forceArrow nd.reaction nd.pos scale (gap n) tol s = some a := by
    rcases h with h | h
    · unfold plotterReactions at h
      cases hr : reactionShifts F F.nodes.keys [] with
      | error err => simp [hr] at h
      | ok sh =>
        simp only [hr] at h
        obtain ⟨_, nd, s, h1, h2, h3, h4⟩ := (mem_drawForces h).1 ha
        obtain ⟨s', h5, h6⟩ := (reactionShifts_get? hr n).1 (Dict.mem_keys_of_get? h1)
        rw [hshift] at h5
        simp only [Except.ok.injEq] at h5
        rw [h3, ← h5] at h6
        simp only [Option.some.injEq] at h6
        exact ⟨nd, h1, h2, s, h6, h4⟩
    · unfold ghReactions at h
      cases hr : reactionShifts F nodes [] with
      | error err => simp [hr] at h
      | ok sh =>
        simp only [hr] at h
        obtain ⟨h0, nd, s, h1, h2, h3, h4⟩ := (mem_drawForces h).1 ha
        obtain ⟨s', h5, h6⟩ := (reactionShifts_get? hr n).1 h0
        rw [hshift] at h5
        simp only [Except.ok.injEq] at h5
        rw [h3, ← h5] at h6
        simp only [Option.some.injEq] at h6
        exact ⟨nd, h1, h2, s, h6, h4⟩
  have hr' : nd.reaction = -(d.force • u) := by
    rw [← hreact]; simp [reactionAt, hnd]
  have hp' : nd.pos = posOf F n := by simp [posOf, hnd]
  rw [hr', hp'] at harr
  rw [hr'] at hlen
  have hf0 : d.force ≠ 0 := by
    intro h0
    rw [h0, zero_smul, neg_zero, Vec.length_zero] at hlen
    exact hlen ht
  have huu : unit u = u := by rw [hu, unit_unit]
  rcases lt_or_gt_of_ne hf0 with hneg | hpos'
  · have : s = true := by rw [hsn]; simpa using hneg
    subst this
    obtain ⟨h1, h2⟩ := C52_shifted hs harr
    have hunit : unit (-(d.force • u)) = u := by
      rw [← neg_smul, unit_smul_pos (neg_pos.2 hneg), huu]
    rw [hunit] at h1 h2
    refine ⟨_, _, ?_, le_rfl, h1, h2⟩
    have := mul_nonneg hs (Vec.length_nonneg (-(d.force • u)))
    linarith
  · have : s = false := by rw [hsn]; simpa using hpos'.le
    subst this
    obtain ⟨h1, h2⟩ := C52_unshifted harr
    have hunit : unit (-(d.force • u)) = -u := by
      rw [unit_neg, unit_smul_pos hpos', huu]
    rw [hunit, smul_neg, ← sub_eq_add_neg] at h1 h2
    refine ⟨_, _, le_rfl, ?_, h1, h2⟩
    have := mul_nonneg hs (Vec.length_nonneg (-(d.force • u)))
    linarith

/-- C52. The same for a form found from a topology diagram without indirect deviation
edges: at a support with one edge and no load the reaction is drawn outside of the form. -/
theorem C52_found_form {D F : Diagram ℝ} (I : ValidInput D) (hl : NonzeroTrails D)
    (hd : DirectOnly D) {tmax : Nat} {eta : ℝ} {verbose : Bool}
    (hF : staticEquilibrium D none tmax eta verbose = .ok F) {n m : Int} {e : Int × Int}
    (he : e ∈ D.edges.keys) (hends : e = (n, m) ∨ e = (m, n))
    (honly : ∀ e' ∈ D.edges.keys, e'.1 = n ∨ e'.2 = n → e' = e) (hload : loadAt D n = 0)
    {scale tol : ℝ} {gap : Int → ℝ} (hs : 0 ≤ scale) (ht : 0 < tol)
    {nodes : List Int} {arrows : List (Int × Arrow ℝ)}
    (h : plotterReactions F scale tol gap nodes = .ok arrows ∨
      ghReactions F scale tol gap nodes = .ok arrows)
    {a : Arrow ℝ} (ha : (n, a) ∈ arrows) :
    ∃ s t, gap n ≤ s ∧ gap n ≤ t ∧
      a.start = posOf F n - s • unit (posOf F m - posOf F n) ∧
      a.stop = posOf F n - t • unit (posOf F m - posOf F n) := by
  obtain ⟨k1, k2, k3, -⟩ := C25_keeps_data I hF
  have w : WF F := by
    obtain ⟨_, _, s, _, _, rfl, _, _⟩ := returned_final I (by simp) hF
    exact WF.formUpdate (WF.form I.wf) s
  have g : SimpleGraph F := ⟨by rw [k2]; exact I.simple.noLoop, by rw [k2]; exact I.simple.noAnti⟩
  have hn : n ∈ D.nodes.keys := by
    rcases hends with rfl | rfl
    · exact I.wf.edge_left _ he
    · exact I.wf.edge_right _ he
  obtain ⟨d, hdn⟩ := (Dict.exists_get?_iff _ _).2 hn
  obtain ⟨d', hd', hq, _⟩ := k3 n d hdn
  obtain ⟨ed, hed⟩ := (Dict.exists_get?_iff _ _).2 (show e ∈ F.edges.keys by rw [k2]; exact he)
  refine C52_reaction_side w g hed hends (by rw [k2]; exact honly) ?_
    (C22_exact_equilibrium I hl hd hF n (by rw [k1]; exact hn)) hs ht h ha
  rw [← hload]
  simp [loadAt, hd', hdn, hq]

/-- A bar hanging from support 1 that carries a load at node 0. -/
def hangQ : Diagram ℚ :=
  after key (nodes 2 ++ [trail 0 1, sup 1, .addLoad (.key 0) ⟨0, 0, -1⟩] ++ [.buildTrails])

noncomputable def hang : Diagram ℝ := hangQ.real

theorem valid_hang : ValidInput hang :=
  validInput_real (validInput_of_history key _
    (RegularCheck.regular (WF.after _ _) (by decide +kernel)) (by decide +kernel))

theorem directOnly_hang : DirectOnly hang :=
  map_directOnly (DirectCheck.direct (D := hangQ) (by decide +kernel))

theorem nonzero_hang : NonzeroTrails hang := NonzeroCheck.nonzero (D := hangQ) (by decide +kernel)

/-- The arrow of its reaction is drawn, and the theorem applies to it. -/
example : ∃ F arrows a, staticEquilibrium hang none 1 0 false = .ok F ∧
    (0, 1) ∈ hang.edges.keys ∧ loadAt hang 1 = 0 ∧
    (∀ e' ∈ hang.edges.keys, e'.1 = 1 ∨ e'.2 = 1 → e' = (0, 1)) ∧
    plotterReactions F 1 (1 / 2) (fun _ => 0) [1] = .ok arrows ∧ (1, a) ∈ arrows := by
  obtain ⟨F, h⟩ := C20_returns_without_indirect valid_hang directOnly_hang (le_refl 1) (le_refl (0 : ℝ))
  have hE : hang.edges.keys = [(0, 1)] := by
    unfold hang Diagram.real; rw [map_edges_keys]; decide +kernel
  have hN : hang.nodes.keys = [0, 1] := by
    unfold hang Diagram.real; rw [map_nodes_keys]; decide +kernel
  have hn0 : hangQ.nodes.get? 0 = some ⟨⟨0, 0, 0⟩, ⟨0, 0, -1⟩, 0, some 0, .origin⟩ := by decide +kernel
  have hn1 : hangQ.nodes.get? 1 = some ⟨⟨1, 0, 0⟩, 0, 0, some 1, .support⟩ := by decide +kernel
  have hr0 := map_nodes_get? (f := fun q : ℚ => (q : ℝ)) (D := hangQ) 0
  rw [hn0, Option.map_some, show hangQ.map _ = hang from rfl] at hr0
  have hr1 := map_nodes_get? (f := fun q : ℚ => (q : ℝ)) (D := hangQ) 1
  rw [hn1, Option.map_some, show hangQ.map _ = hang from rfl] at hr1
  obtain ⟨k1, k2, k3, -⟩ := C25_keeps_data valid_hang h
  obtain ⟨d0, hd0, l0, _, _, _, r0⟩ := k3 0 _ hr0
  obtain ⟨d1, hd1, l1, _, _, _, _⟩ := k3 1 _ hr1
  have r0 := r0 (by simp [NodeData.map])
  have hg : SimpleGraph F := ⟨by rw [k2]; exact valid_hang.simple.noLoop, by rw [k2]; exact valid_hang.simple.noAnti⟩
  obtain ⟨arrows, -, hmem, hplot⟩ := C52_reactions hg 1 (1 / 2) (fun _ => 0) (nodes := [1])
    (by rw [k1, hN]; simp) (by rw [k2, hE]; simp)
  obtain ⟨arrows', hp, hiff⟩ := hplot (by rw [k1, k2, hN, hE]; simp)
  have htot := C23_global_force valid_hang directOnly_hang h
  have hreact : d1.reaction = ⟨0, 0, 1⟩ := by
    unfold totalForce at htot
    rw [k1, hN] at htot
    simp only [List.map_cons, List.map_nil, List.sum_cons, List.sum_nil, loadAt, reactionAt, hd0, hd1,
      Option.map_some, Option.getD_some, l0, l1, r0, NodeData.map, Vec.map] at htot
    have e1 := congrArg Vec.x htot
    have e2 := congrArg Vec.y htot
    have e3 := congrArg Vec.z htot
    simp at e1 e2 e3
    ext <;> simp <;> linarith
  obtain ⟨s, _, _, hs, _⟩ := (C52_shift_rule hg 1).2 (by rw [k2, hE]; simp)
  cases harr : forceArrow d1.reaction d1.pos 1 0 (1 / 2) s with
  | none =>
    have := (C52_to_scale _ _ _ _ _ _).1.1 harr
    rw [hreact, Vec.length_def] at this
    simp [Vec.dot] at this
    norm_num at this
  | some a =>
    refine ⟨F, arrows', a, h, by rw [hE]; simp, ?_, by rw [hE]; simp, hp, ?_⟩
    · simp [loadAt, hr1, NodeData.map, Vec.map]; rfl
    · rw [hiff, hmem]
      exact ⟨by simp, d1, s, hd1, hs, harr⟩

end Props
end CEM
