import Verif.Spec.Constraints
import Verif.Lemmas.VecReal
import Verif.Lemmas.Dict
import Mathlib.Tactic.FieldSimp
import Mathlib.Tactic.Linarith
import Mathlib.Tactic.Ring

/-!
# Lemmas on closest points and penalties
-/

set_option linter.unusedSectionVars false
set_option linter.unusedSimpArgs false

namespace CEM
open Spec Vec

theorem distSq_eq (p q : Vec ℝ) : distSq p q = sqDist p q := by
  simp only [distSq, sqDist, dot, sub_x, sub_y, sub_z]; ring

theorem sqDist_comm (p q : Vec ℝ) : sqDist p q = sqDist q p := by unfold sqDist; ring

theorem sqDist_eq_dot (p q : Vec ℝ) : sqDist p q = dot (p - q) (p - q) := by
  simp only [sqDist, dot, sub_x, sub_y, sub_z]; ring

theorem sqDist_nonneg (p q : Vec ℝ) : 0 ≤ sqDist p q := by
  rw [sqDist_eq_dot]; exact dot_self_nonneg _

theorem sqDist_eq_zero {p q : Vec ℝ} : sqDist p q = 0 ↔ p = q := by
  rw [sqDist_eq_dot, dot_self_eq_zero, sub_eq_zero]

theorem dist_eq (p q : Vec ℝ) : Vec.dist p q = Real.sqrt (sqDist p q) := by
  rw [sqDist_eq_dot]; rfl

theorem dist_lt (p q r : Vec ℝ) : Vec.dist p q < Vec.dist p r ↔ sqDist p q < sqDist p r := by
  rw [dist_eq, dist_eq]; exact Real.sqrt_lt_sqrt_iff (sqDist_nonneg _ _)

/-- The parameter of the closest point on a line. -/
noncomputable def foot (p a b : Vec ℝ) : ℝ := dot (p - a) (b - a) / dot (b - a) (b - a)

theorem closestOnLine_eq (p a b : Vec ℝ) : closestOnLine p a b = a + foot p a b • (b - a) := by
  unfold closestOnLine vectorComponent foot
  split_ifs with h
  · rw [dot_self_eq_zero.1 h]; simp
  · rfl

theorem sqDist_line (p a b : Vec ℝ) (t : ℝ) :
    sqDist p (a + t • (b - a)) =
      sqDist p (a + foot p a b • (b - a)) + (t - foot p a b) ^ 2 * dot (b - a) (b - a) := by
  have key : foot p a b * dot (b - a) (b - a) = dot (p - a) (b - a) := by
    unfold foot
    by_cases h : dot (b - a) (b - a) = 0
    · rw [h, dot_self_eq_zero.1 h]; simp [dot]
    · field_simp
  generalize foot p a b = u at key ⊢
  simp only [sqDist, dot, sub_x, sub_y, sub_z, add_x, add_y, add_z, smul_x, smul_y, smul_z] at key ⊢
  linear_combination (2 * t - 2 * u) * key

theorem closestOnLine_least (p a b : Vec ℝ) :
    IsSqDistTo p (OnLine a b) (sqDist p (closestOnLine p a b)) := by
  rw [closestOnLine_eq]
  refine ⟨⟨_, ⟨_, rfl⟩, rfl⟩, ?_⟩
  rintro q ⟨t, rfl⟩
  rw [sqDist_line p a b t]
  nlinarith [sq_nonneg (t - foot p a b), dot_self_nonneg (b - a),
    mul_nonneg (sq_nonneg (t - foot p a b)) (dot_self_nonneg (b - a))]

theorem closestOnLine_on (p a b : Vec ℝ) : OnLine a b (closestOnLine p a b) :=
  ⟨foot p a b, closestOnLine_eq p a b⟩

theorem closestOnSegment_least (p a b : Vec ℝ) :
    OnSegment a b (closestOnSegment p a b) ∧
      ∀ q, OnSegment a b q → sqDist p (closestOnSegment p a b) ≤ sqDist p q := by
  have hL := dot_self_nonneg (b - a)
  have e1 : distSq a (closestOnLine p a b) = foot p a b ^ 2 * dot (b - a) (b - a) := by
    rw [closestOnLine_eq, distSq_eq]
    simp only [sqDist, dot, sub_x, sub_y, sub_z, add_x, add_y, add_z, smul_x, smul_y, smul_z]; ring
  have e2 : distSq b (closestOnLine p a b) = (1 - foot p a b) ^ 2 * dot (b - a) (b - a) := by
    rw [closestOnLine_eq, distSq_eq]
    simp only [sqDist, dot, sub_x, sub_y, sub_z, add_x, add_y, add_z, smul_x, smul_y, smul_z]; ring
  have e0 : distSq a b = dot (b - a) (b - a) := rfl
  have hq : ∀ q, OnSegment a b q → ∃ t, 0 ≤ t ∧ t ≤ 1 ∧ sqDist p q =
      sqDist p (a + foot p a b • (b - a)) + (t - foot p a b) ^ 2 * dot (b - a) (b - a) := by
    rintro q ⟨t, h0, h1, rfl⟩
    exact ⟨t, h0, h1, sqDist_line p a b t⟩
  have ea : sqDist p a = sqDist p (a + foot p a b • (b - a)) +
      (0 - foot p a b) ^ 2 * dot (b - a) (b - a) := by
    rw [← sqDist_line]; simp
  have eb : sqDist p b = sqDist p (a + foot p a b • (b - a)) +
      (1 - foot p a b) ^ 2 * dot (b - a) (b - a) := by
    rw [← sqDist_line]; simp
  unfold closestOnSegment
  simp only [e0, e1, e2]
  rw [closestOnLine_eq]
  generalize foot p a b = u at hq ea eb ⊢
  generalize hLd : dot (b - a) (b - a) = L at hL hq ea eb ⊢
  by_cases hout : u ^ 2 * L > L ∨ (1 - u) ^ 2 * L > L
  · rw [if_pos hout]
    have hpos : 0 < L := by
      rcases hL.lt_or_eq with h | h
      · exact h
      · rw [← h] at hout; simp at hout
    have hout' : u ^ 2 > 1 ∨ (1 - u) ^ 2 > 1 := by
      rcases hout with h | h
      · left; by_contra hc; nlinarith
      · right; by_contra hc; nlinarith
    by_cases hlt : u ^ 2 * L < (1 - u) ^ 2 * L
    · rw [if_pos hlt]
      have hu : u < 1 / 2 := by
        have : u ^ 2 < (1 - u) ^ 2 := lt_of_mul_lt_mul_right hlt hL
        nlinarith
      have hneg : u < 0 := by
        by_contra hc
        rcases hout' with h | h <;> nlinarith
      refine ⟨⟨0, le_rfl, zero_le_one, by simp⟩, fun q h => ?_⟩
      obtain ⟨t, h0, h1, e⟩ := hq q h
      rw [ea, e]
      have : (0 - u) ^ 2 ≤ (t - u) ^ 2 := by nlinarith
      nlinarith
    · rw [if_neg hlt]
      have hu : 1 / 2 ≤ u := by
        have : (1 - u) ^ 2 ≤ u ^ 2 := le_of_mul_le_mul_right (not_lt.1 hlt) hpos
        nlinarith
      have hone : 1 < u := by
        by_contra hc
        rcases hout' with h | h <;> nlinarith
      refine ⟨⟨1, zero_le_one, le_rfl, by simp⟩, fun q h => ?_⟩
      obtain ⟨t, h0, h1, e⟩ := hq q h
      rw [eb, e]
      have : (1 - u) ^ 2 ≤ (t - u) ^ 2 := by nlinarith
      nlinarith
  · rw [if_neg hout]
    push Not at hout
    have hmin : ∀ q, OnSegment a b q → sqDist p (a + u • (b - a)) ≤ sqDist p q := fun q h => by
      obtain ⟨t, h0, h1, e⟩ := hq q h
      rw [e]
      nlinarith [mul_nonneg (sq_nonneg (t - u)) hL]
    refine ⟨?_, hmin⟩
    rcases hL.lt_or_eq with hpos | hz
    · refine ⟨u, ?_, ?_, rfl⟩
      · by_contra hc
        have : (1 - u) ^ 2 ≤ 1 := by
          by_contra h; nlinarith [hout.2]
        nlinarith
      · by_contra hc
        have : u ^ 2 ≤ 1 := by
          by_contra h; nlinarith [hout.1]
        nlinarith
    · refine ⟨0, le_rfl, zero_le_one, ?_⟩
      rw [← hz] at hLd
      rw [dot_self_eq_zero.1 hLd]
      simp

theorem firstClosest_spec (p : Vec ℝ) (best : Vec ℝ) (l : List (Vec ℝ)) :
    (firstClosest p best l = best ∨ firstClosest p best l ∈ l) ∧
      sqDist p (firstClosest p best l) ≤ sqDist p best ∧
      ∀ q ∈ l, sqDist p (firstClosest p best l) ≤ sqDist p q := by
  induction l generalizing best with
  | nil => simp [firstClosest]
  | cons q l ih =>
    simp only [firstClosest]
    obtain ⟨h1, h2, h3⟩ := ih (if Vec.dist p q < Vec.dist p best then q else best)
    by_cases h : Vec.dist p q < Vec.dist p best
    · simp only [if_pos h] at h1 h2 h3 ⊢
      have := (dist_lt p q best).1 h
      refine ⟨.inr ?_, h2.trans this.le, ?_⟩
      · rcases h1 with h1 | h1
        · rw [h1]; simp
        · simp [h1]
      · intro r hr
        rcases List.mem_cons.1 hr with rfl | hr
        · exact h2
        · exact h3 r hr
    · simp only [if_neg h] at h1 h2 h3 ⊢
      have := not_lt.1 (fun hc => h ((dist_lt p q best).2 hc))
      refine ⟨?_, h2, ?_⟩
      · rcases h1 with h1 | h1
        · exact .inl h1
        · exact .inr (by simp [h1])
      · intro r hr
        rcases List.mem_cons.1 hr with rfl | hr
        · exact h2.trans this
        · exact h3 r hr

theorem mem_zip_tail {α : Type} {l : List α} {a b : α} :
    (a, b) ∈ l.zip l.tail ↔ ∃ i : Nat, l[i]? = some a ∧ l[i + 1]? = some b := by
  rw [List.mem_iff_getElem?]
  simp only [List.getElem?_zip_eq_some, List.getElem?_tail]

theorem closestOnPolyline_least (p : Vec ℝ) {pts : List (Vec ℝ)} (h : 2 ≤ pts.length) :
    ∃ q, closestOnPolyline p pts = .ok q ∧ OnPolyline pts q ∧
      ∀ r, OnPolyline pts r → sqDist p q ≤ sqDist p r := by
  have hmem : ∀ a b, (a, b) ∈ pts.zip pts.tail ↔ ∃ i : Nat, pts[i]? = some a ∧ pts[i + 1]? = some b :=
    fun a b => mem_zip_tail
  unfold closestOnPolyline
  cases hz : (pts.zip pts.tail).map (fun s => closestOnSegment p s.1 s.2) with
  | nil =>
    exfalso
    have := congrArg List.length hz
    simp at this
    omega
  | cons q0 qs =>
    obtain ⟨h1, h2, h3⟩ := firstClosest_spec p q0 qs
    refine ⟨firstClosest p q0 qs, rfl, ?_, ?_⟩
    · have hin : firstClosest p q0 qs ∈ (pts.zip pts.tail).map
          (fun s => closestOnSegment p s.1 s.2) := by
        rw [hz]
        rcases h1 with h1 | h1
        · rw [h1]; simp
        · simp [h1]
      obtain ⟨⟨a, b⟩, hab, e⟩ := List.mem_map.1 hin
      obtain ⟨i, hi, hj⟩ := (hmem a b).1 hab
      rw [← e]
      exact ⟨i, a, b, hi, hj, (closestOnSegment_least p a b).1⟩
    · rintro r ⟨i, a, b, hi, hj, hr⟩
      have hin : closestOnSegment p a b ∈ (pts.zip pts.tail).map
          (fun s => closestOnSegment p s.1 s.2) :=
        List.mem_map.2 ⟨(a, b), (hmem a b).2 ⟨i, hi, hj⟩, rfl⟩
      rw [hz] at hin
      refine le_trans ?_ ((closestOnSegment_least p a b).2 r hr)
      rcases List.mem_cons.1 hin with e | hin
      · rw [e]; exact h2
      · exact h3 _ hin

theorem closestOnPolyline_short (p : Vec ℝ) {pts : List (Vec ℝ)} (h : pts.length < 2) :
    closestOnPolyline p pts = .error .valueError := by
  rcases pts with _ | ⟨a, _ | ⟨b, l⟩⟩
  · rfl
  · rfl
  · simp at h

theorem closestOnPlane_least (p base : Vec ℝ) {n : Vec ℝ} (hn : n ≠ 0) :
    ∃ q, closestOnPlane p base n = some q ∧ OnPlane base n q ∧
      ∀ r, OnPlane base n r → sqDist p q ≤ sqDist p r := by
  have hl := length_pos hn
  have hne : dot (unit n) (unit n) ≠ 0 := by
    rw [← length_sq, length_unit hn]; norm_num
  unfold closestOnPlane
  simp only [normalize_eq_unit, if_neg hne]
  have hun : ∀ v : Vec ℝ, dot n v = 0 ↔ dot (unit n) v = 0 := fun v => by
    have : dot (unit n) v = (length n)⁻¹ * dot n v := by
      simp only [unit, dot, smul_x, smul_y, smul_z]; ring
    rw [this]
    simp [hl.ne']
  have h1 : dot (unit n) (unit n) = 1 := by rw [← length_sq, length_unit hn]; norm_num
  refine ⟨_, rfl, ?_, ?_⟩
  · rw [OnPlane, hun]
    rw [h1]
    simp only [dot, sub_x, sub_y, sub_z, smul_x, smul_y, smul_z] at h1 ⊢
    linear_combination (-(((unit n).x * p.x + (unit n).y * p.y + (unit n).z * p.z) -
      ((unit n).x * base.x + (unit n).y * base.y + (unit n).z * base.z)) / 1) * h1
  · intro r hr
    rw [OnPlane, hun] at hr
    rw [h1, div_one]
    set u := unit n
    set k := dot u p - dot u base with hk
    have hku : k = dot u (p - r) := by
      rw [hk]
      simp only [dot, sub_x, sub_y, sub_z] at hr ⊢
      linear_combination hr
    have e1 : sqDist p (p - k • u) = k ^ 2 := by
      simp only [sqDist, sub_x, sub_y, sub_z, smul_x, smul_y, smul_z]
      simp only [dot] at h1
      linear_combination k ^ 2 * h1
    rw [e1, hku, sqDist_eq_dot]
    have hlu : length u = 1 := length_unit hn
    have hd := dot_le u (p - r)
    have hd' := dot_le u (-(p - r))
    rw [length_neg] at hd'
    have : dot u (-(p - r)) = -dot u (p - r) := by simp only [dot, neg_x, neg_y, neg_z]; ring
    rw [this] at hd'
    rw [hlu, one_mul] at hd hd'
    rw [← length_sq]
    nlinarith [length_nonneg (p - r)]

/-! ## Penalties as sums -/

/-- The penalties of a list of constraints, if none raises and none is NaN. -/
theorem calculatePenalty_acc (s : NState ℝ) (cs : List (Constraint ℝ)) (a : ℝ) (v : ℝ) :
    calculatePenalty s cs (some a) = .ok (some v) ↔
      ∃ ps : List ℝ, List.Forall₂ (fun c p => c.penalty s = .ok (some p)) cs ps ∧ v = a + ps.sum := by
  induction cs generalizing a with
  | nil =>
    simp only [calculatePenalty, Except.ok.injEq, Option.some.injEq, List.forall₂_nil_left_iff]
    constructor
    · rintro rfl; exact ⟨[], rfl, by simp⟩
    · rintro ⟨ps, rfl, rfl⟩; simp
  | cons c cs ih =>
    simp only [calculatePenalty]
    cases hp : c.penalty s with
    | error err =>
      simp only [reduceCtorEq, false_iff]
      rintro ⟨ps, hps, _⟩
      obtain ⟨p, ps', hc, _⟩ := List.forall₂_cons_left_iff.1 hps
      rw [hp] at hc
      cases hc
    | ok q =>
      cases q with
      | none =>
        have hn : ∀ cs : List (Constraint ℝ), calculatePenalty s cs none ≠ .ok (some v) := by
          intro cs
          induction cs with
          | nil => simp [calculatePenalty]
          | cons c cs ih =>
            simp only [calculatePenalty]
            cases c.penalty s with
            | error err => simp
            | ok q => simpa [lift2] using ih
        simp only [lift2, hn cs, false_iff]
        rintro ⟨ps, hps, _⟩
        obtain ⟨p, ps', hc, _⟩ := List.forall₂_cons_left_iff.1 hps
        rw [hp] at hc
        cases hc
      | some q =>
        simp only [lift2]
        rw [ih]
        constructor
        · rintro ⟨ps, h1, rfl⟩
          exact ⟨q :: ps, .cons hp h1, by simp [add_assoc]⟩
        · rintro ⟨ps, h1, rfl⟩
          obtain ⟨p, ps', hc, h2, rfl⟩ := List.forall₂_cons_left_iff.1 h1
          rw [hp] at hc
          cases hc
          exact ⟨ps', h2, by simp [add_assoc]⟩

theorem dict_getE_ok {K V : Type} [DecidableEq K] {d : Dict K V} {k : K} {v : V}
    (h : d.get? k = some v) : d.getE k = .ok v := Dict.getE_eq_ok_iff.2 h

/-! ## Directions -/

theorem edgeDirection_eq {s : NState ℝ} {e : Int × Int} {a b : Vec ℝ} (ha : At s e.1 a)
    (hb : At s e.2 b) (hab : a ≠ b) : edgeDirection s.xyz e = .ok (some (unit (b - a))) := by
  have hne : b - a ≠ 0 := fun h => hab (sub_eq_zero.1 h).symm
  have hl : PySqrt.sqrt (dot (b - a) (b - a)) ≠ 0 := (length_pos hne).ne'
  unfold edgeDirection
  rw [dict_getE_ok ha, dict_getE_ok hb]
  simp only [lift2, Option.bind_some, if_neg hl]
  simp only [one_div]
  rfl

theorem direction_penalty {s : NState ℝ} {e : Int × Int} {a b t : Vec ℝ} (w : ℝ)
    (ha : At s e.1 a) (hb : At s e.2 b) (hab : a ≠ b) (ht : t ≠ 0) :
    (Constraint.direction e t w).penalty s =
      .ok (some ((2 - 2 * |dot (unit (b - a)) (unit t)|) * w)) := by
  have hne : b - a ≠ 0 := fun h => hab (sub_eq_zero.1 h).symm
  simp only [Constraint.penalty, edgeDirection_eq ha hb hab, alignedTarget, normalize_eq_unit,
    vectorPenalty]
  set r := unit (b - a)
  set u := unit t
  have hr : dot r r = 1 := by rw [← length_sq, length_unit hne]; norm_num
  have hu : dot u u = 1 := by rw [← length_sq, length_unit ht]; norm_num
  have hc : dot u r = dot r u := by simp only [dot]; ring
  split_ifs with h
  · rw [hc] at h
    simp only [lift2, Option.map_some]
    rw [abs_of_neg h]
    congr 3
    simp only [distSq, dot, sub_x, sub_y, sub_z, smul_x, smul_y, smul_z] at hr hu ⊢
    linear_combination hr + hu
  · rw [hc] at h
    simp only [lift2, Option.map_some]
    rw [abs_of_nonneg (not_lt.1 h)]
    congr 3
    simp only [distSq, dot, sub_x, sub_y, sub_z] at hr hu ⊢
    linear_combination hr + hu

theorem direction_zero {s : NState ℝ} {e : Int × Int} {a b : Vec ℝ} (w : ℝ)
    (ha : At s e.1 a) (hb : At s e.2 b) (hab : a ≠ b) :
    (Constraint.direction e 0 w).penalty s = .ok (some w) := by
  have hne : b - a ≠ 0 := fun h => hab (sub_eq_zero.1 h).symm
  simp only [Constraint.penalty, edgeDirection_eq ha hb hab, alignedTarget, normalize_eq_unit,
    unit_zero, vectorPenalty]
  have hr : dot (unit (b - a)) (unit (b - a)) = 1 := by
    rw [← length_sq, length_unit hne]; norm_num
  have h0 : ¬ dot (0 : Vec ℝ) (unit (b - a)) < 0 := by simp [dot]
  rw [if_neg h0]
  simp only [lift2, Option.map_some]
  congr 2
  simp only [distSq, dot, sub_x, sub_y, sub_z, zero_x, zero_y, zero_z] at hr ⊢
  linear_combination w * hr

theorem abs_dot_le (a b : Vec ℝ) : |dot a b| ≤ length a * length b := by
  rw [abs_le]
  refine ⟨?_, dot_le a b⟩
  have := dot_le a (-b)
  rw [length_neg] at this
  have e : dot a (-b) = -dot a b := by simp only [dot, neg_x, neg_y, neg_z]; ring
  linarith

/-- Unit vectors with `|cos| = 1` are equal or opposite. -/
theorem parallel_of_abs_dot {a t : Vec ℝ} (ha : a ≠ 0) (ht : t ≠ 0) :
    |dot (unit a) (unit t)| = 1 ↔ ∃ c : ℝ, a = c • t := by
  have hr : dot (unit a) (unit a) = 1 := by rw [← length_sq, length_unit ha]; norm_num
  have hu : dot (unit t) (unit t) = 1 := by rw [← length_sq, length_unit ht]; norm_num
  constructor
  · intro h
    have hz : ∀ σ : ℝ, σ ^ 2 = 1 → dot (unit a) (unit t) = σ → unit a = σ • unit t := by
      intro σ hσ h
      have : dot (unit a - σ • unit t) (unit a - σ • unit t) = 0 := by
        simp only [dot, sub_x, sub_y, sub_z, smul_x, smul_y, smul_z] at hr hu h ⊢
        linear_combination hr + σ ^ 2 * hu - 2 * σ * h - hσ
      exact sub_eq_zero.1 (dot_self_eq_zero.1 this)
    have hex : ∃ σ : ℝ, unit a = σ • unit t := by
      rcases abs_eq (zero_le_one (α := ℝ)) |>.1 h with h | h
      · exact ⟨1, hz 1 (by norm_num) h⟩
      · exact ⟨-1, hz (-1) (by norm_num) h⟩
    obtain ⟨σ, hσ⟩ := hex
    refine ⟨length a * (σ * (length t)⁻¹), ?_⟩
    conv_lhs => rw [← length_smul_unit a, hσ]
    simp only [unit, smul_smul, mul_assoc]
  · rintro ⟨c, rfl⟩
    have hc : c ≠ 0 := fun h => ha (by simp [h])
    rcases lt_or_gt_of_ne hc with h | h
    · rw [unit_smul_neg h]
      have : dot (-unit t) (unit t) = -1 := by
        simp only [dot, neg_x, neg_y, neg_z] at hu ⊢; linear_combination -hu
      rw [this]; norm_num
    · rw [unit_smul_pos h, hu]; norm_num

end CEM
