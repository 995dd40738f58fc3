import Verif.Lemmas.Staged
import Verif.Lemmas.Limit

/-!
# Forms under small additional forces at the nodes
-/

set_option linter.unusedSectionVars false
set_option linter.unusedSimpArgs false

namespace CEM
open Diagram Spec

/-- Positions `P`, incoming trail vectors `T` and outgoing ones `r` of the problem without indirect
edges and with the additional forces `κ` at the nodes. -/
structure Driven (D : Diagram ℝ) (κ P T r : Int → Vec ℝ) : Prop where
  out : ∀ n ∈ D.nodes.keys, r n = T n - loadOf D n - devSum D P n (dirNbrs D n) - κ n
  next : ∀ n ∈ D.nodes.keys, ∀ m, trailNext D n = some m →
    P m = P n + effectiveLength (edgeData D n m) (P n) (r n) • Vec.normalize (r n) ∧ T m = r n
  start : ∀ m ∈ D.nodes.keys, (∀ a, trailNext D a ≠ some m) → P m = posOf D m ∧ T m = 0

structure Sol (D : Diagram ℝ) where
  κ : Int → Vec ℝ
  P : Int → Vec ℝ
  T : Int → Vec ℝ
  r : Int → Vec ℝ
  driven : Driven D κ P T r

/-- The difference `d` of two solutions is bounded by that of the additional forces, if these are
small. -/
def Tame (D : Diagram ℝ) (d : Sol D → Sol D → ℝ) : Prop :=
  ∃ C ε : ℝ, 0 ≤ C ∧ 0 < ε ∧ ∀ σ τ : Sol D, (∀ n ∈ D.nodes.keys, Vec.length (σ.κ n) ≤ ε) →
    (∀ n ∈ D.nodes.keys, Vec.length (τ.κ n) ≤ ε) → ∀ b, 0 ≤ b →
    (∀ n ∈ D.nodes.keys, Vec.length (σ.κ n - τ.κ n) ≤ b) → d σ τ ≤ C * b

def TameV (D : Diagram ℝ) (g : Sol D → Vec ℝ) : Prop := Tame D fun σ τ => Vec.length (g σ - g τ)
def TameR (D : Diagram ℝ) (g : Sol D → ℝ) : Prop := Tame D fun σ τ => |g σ - g τ|

section
variable {D : Diagram ℝ}

/-- Differences near a solution without additional forces. -/
theorem Tame.of_near {d d1 d2 : Sol D → Sol D → ℝ} (h1 : Tame D d1) (h2 : Tame D d2)
    {σ0 : Sol D} (hκ : ∀ n ∈ D.nodes.keys, σ0.κ n = 0) {K η : ℝ} (hK : 0 ≤ K) (hη : 0 < η)
    (h : ∀ σ τ, d1 σ σ0 ≤ η → d1 τ σ0 ≤ η → d2 σ σ0 ≤ η → d2 τ σ0 ≤ η →
      d σ τ ≤ K * (d1 σ τ + d2 σ τ)) : Tame D d := by
  obtain ⟨C1, ε1, c1, e1, H1⟩ := h1
  obtain ⟨C2, ε2, c2, e2, H2⟩ := h2
  have p1 : 0 < η / (C1 + 1) := div_pos hη (by linarith)
  have p2 : 0 < η / (C2 + 1) := div_pos hη (by linarith)
  refine ⟨K * (C1 + C2), min (min ε1 ε2) (min (η / (C1 + 1)) (η / (C2 + 1))), by positivity,
    lt_min (lt_min e1 e2) (lt_min p1 p2), ?_⟩
  intro σ τ hσ hτ b hb hd
  have l1 : ∀ {x : ℝ}, x ≤ min (min ε1 ε2) (min (η / (C1 + 1)) (η / (C2 + 1))) → x ≤ ε1 :=
    fun h => h.trans ((min_le_left _ _).trans (min_le_left _ _))
  have l2 : ∀ {x : ℝ}, x ≤ min (min ε1 ε2) (min (η / (C1 + 1)) (η / (C2 + 1))) → x ≤ ε2 :=
    fun h => h.trans ((min_le_left _ _).trans (min_le_right _ _))
  have l3 : ∀ {x : ℝ}, x ≤ min (min ε1 ε2) (min (η / (C1 + 1)) (η / (C2 + 1))) →
      x ≤ η / (C1 + 1) := fun h => h.trans ((min_le_right _ _).trans (min_le_left _ _))
  have l4 : ∀ {x : ℝ}, x ≤ min (min ε1 ε2) (min (η / (C1 + 1)) (η / (C2 + 1))) →
      x ≤ η / (C2 + 1) := fun h => h.trans ((min_le_right _ _).trans (min_le_right _ _))
  have z1 : ∀ n ∈ D.nodes.keys, Vec.length (σ0.κ n) ≤ ε1 := by
    intro n hn; rw [hκ n hn, Vec.length_zero]; exact e1.le
  have z2 : ∀ n ∈ D.nodes.keys, Vec.length (σ0.κ n) ≤ ε2 := by
    intro n hn; rw [hκ n hn, Vec.length_zero]; exact e2.le
  have small : ∀ {C : ℝ}, 0 ≤ C → C * (η / (C + 1)) ≤ η := by
    intro C hC
    rw [mul_div_assoc', div_le_iff₀ (by linarith)]
    nlinarith
  have near1 : ∀ ρ : Sol D, (∀ n ∈ D.nodes.keys, Vec.length (ρ.κ n) ≤
      min (min ε1 ε2) (min (η / (C1 + 1)) (η / (C2 + 1)))) → d1 ρ σ0 ≤ η := fun ρ hρ =>
    (H1 ρ σ0 (fun n hn => l1 (hρ n hn)) z1 _ p1.le fun n hn => by
      rw [hκ n hn, sub_zero]; exact l3 (hρ n hn)).trans (small c1)
  have near2 : ∀ ρ : Sol D, (∀ n ∈ D.nodes.keys, Vec.length (ρ.κ n) ≤
      min (min ε1 ε2) (min (η / (C1 + 1)) (η / (C2 + 1)))) → d2 ρ σ0 ≤ η := fun ρ hρ =>
    (H2 ρ σ0 (fun n hn => l2 (hρ n hn)) z2 _ p2.le fun n hn => by
      rw [hκ n hn, sub_zero]; exact l4 (hρ n hn)).trans (small c2)
  refine (h σ τ (near1 σ hσ) (near1 τ hτ) (near2 σ hσ) (near2 τ hτ)).trans ?_
  have a1 := H1 σ τ (fun n hn => l1 (hσ n hn)) (fun n hn => l1 (hτ n hn)) b hb hd
  have a2 := H2 σ τ (fun n hn => l2 (hσ n hn)) (fun n hn => l2 (hτ n hn)) b hb hd
  rw [mul_assoc]
  exact mul_le_mul_of_nonneg_left (by linarith) hK

theorem Tame.zero : Tame D fun _ _ => 0 :=
  ⟨0, 1, le_rfl, one_pos, fun _ _ _ _ b _ _ => by simp⟩

theorem Tame.mono {d d1 : Sol D → Sol D → ℝ} (h1 : Tame D d1) {K : ℝ} (hK : 0 ≤ K)
    (h : ∀ σ τ, d σ τ ≤ K * d1 σ τ) : Tame D d := by
  obtain ⟨C, ε, c, e, H⟩ := h1
  refine ⟨K * C, ε, by positivity, e, fun σ τ hσ hτ b hb hd => (h σ τ).trans ?_⟩
  rw [mul_assoc]
  exact mul_le_mul_of_nonneg_left (H σ τ hσ hτ b hb hd) hK

theorem Tame.add {d1 d2 : Sol D → Sol D → ℝ} (h1 : Tame D d1) (h2 : Tame D d2) :
    Tame D fun σ τ => d1 σ τ + d2 σ τ := by
  obtain ⟨C1, ε1, c1, e1, H1⟩ := h1
  obtain ⟨C2, ε2, c2, e2, H2⟩ := h2
  refine ⟨C1 + C2, min ε1 ε2, by positivity, lt_min e1 e2, fun σ τ hσ hτ b hb hd => ?_⟩
  have a1 := H1 σ τ (fun n hn => (hσ n hn).trans (min_le_left _ _))
    (fun n hn => (hτ n hn).trans (min_le_left _ _)) b hb hd
  have a2 := H2 σ τ (fun n hn => (hσ n hn).trans (min_le_right _ _))
    (fun n hn => (hτ n hn).trans (min_le_right _ _)) b hb hd
  simp only
  linarith

theorem Tame.list_sum {α : Type} (l : List α) {d : α → Sol D → Sol D → ℝ}
    (h : ∀ a ∈ l, Tame D (d a)) : Tame D fun σ τ => (l.map fun a => d a σ τ).sum := by
  induction l with
  | nil => simpa using Tame.zero
  | cons a l ih =>
    simp only [List.map_cons, List.sum_cons]
    exact (h a (by simp)).add (ih fun b hb => h b (by simp [hb]))

namespace TameV

theorem const (v : Vec ℝ) : TameV D fun _ => v := by
  unfold TameV
  simpa using Tame.zero

theorem add {g h : Sol D → Vec ℝ} (hg : TameV D g) (hh : TameV D h) : TameV D fun σ => g σ + h σ := by
  refine (Tame.add hg hh).mono zero_le_one fun σ τ => ?_
  have : g σ + h σ - (g τ + h τ) = (g σ - g τ) + (h σ - h τ) := by abel
  rw [this, one_mul]
  exact Vec.length_add_le _ _

theorem sub {g h : Sol D → Vec ℝ} (hg : TameV D g) (hh : TameV D h) : TameV D fun σ => g σ - h σ := by
  refine (Tame.add hg hh).mono zero_le_one fun σ τ => ?_
  have : g σ - h σ - (g τ - h τ) = (g σ - g τ) - (h σ - h τ) := by abel
  rw [this, one_mul]
  exact Vec.length_sub_le _ _

theorem const_smul (c : ℝ) {g : Sol D → Vec ℝ} (hg : TameV D g) : TameV D fun σ => c • g σ := by
  refine Tame.mono hg (abs_nonneg c) fun σ τ => ?_
  rw [← smul_sub, Vec.length_smul]

theorem list_sum {α : Type} (l : List α) {g : α → Sol D → Vec ℝ} (h : ∀ a ∈ l, TameV D (g a)) :
    TameV D fun σ => (l.map fun a => g a σ).sum := by
  induction l with
  | nil => simpa using const 0
  | cons a l ih =>
    simp only [List.map_cons, List.sum_cons]
    exact add (h a (by simp)) (ih fun b hb => h b (by simp [hb]))

theorem unit {g : Sol D → Vec ℝ} (hg : TameV D g) {σ0 : Sol D}
    (hκ : ∀ n ∈ D.nodes.keys, σ0.κ n = 0) (h0 : g σ0 ≠ 0) : TameV D fun σ => Spec.unit (g σ) := by
  have hp := Vec.length_pos h0
  refine Tame.of_near hg hg hκ (K := 4 / Vec.length (g σ0)) (η := Vec.length (g σ0) / 2)
    (by positivity) (by positivity) ?_
  intro σ τ _ hτ _ _
  have hl : Vec.length (g σ0) / 2 ≤ Vec.length (g τ) := by
    have := (abs_le.1 (Vec.abs_length_sub_le (g τ) (g σ0))).1
    linarith
  have hne : g τ ≠ 0 := by
    intro h; rw [h, Vec.length_zero] at hl; linarith
  refine (length_unit_sub_le _ hne).trans ?_
  rw [div_le_iff₀ (Vec.length_pos hne)]
  have hx := Vec.length_nonneg (g σ - g τ)
  have : 4 / Vec.length (g σ0) * (Vec.length (g σ - g τ) + Vec.length (g σ - g τ)) *
      Vec.length (g τ) = 8 * Vec.length (g σ - g τ) * (Vec.length (g τ) / Vec.length (g σ0)) := by
    field_simp; ring
  rw [this]
  have h2 : 1 / 2 ≤ Vec.length (g τ) / Vec.length (g σ0) := by
    rw [le_div_iff₀ hp]; linarith
  nlinarith

theorem dot (N : Vec ℝ) {g : Sol D → Vec ℝ} (hg : TameV D g) : TameR D fun σ => Vec.dot N (g σ) := by
  refine Tame.mono hg (Vec.length_nonneg N) fun σ τ => ?_
  have e : Vec.dot N (g σ) - Vec.dot N (g τ) = Vec.dot N (g σ - g τ) := by
    simp only [Vec.dot, Vec.sub_x, Vec.sub_y, Vec.sub_z]; ring
  rw [e, abs_le]
  constructor
  · have := Vec.dot_le N (-(g σ - g τ))
    rw [Vec.length_neg] at this
    have e2 : Vec.dot N (-(g σ - g τ)) = - Vec.dot N (g σ - g τ) := by
      simp only [Vec.dot, Vec.neg_x, Vec.neg_y, Vec.neg_z]; ring
    linarith
  · exact Vec.dot_le _ _

/-- A tame factor times a tame vector. -/
theorem smul {c : Sol D → ℝ} {g : Sol D → Vec ℝ} (hc : TameR D c) (hg : TameV D g) {σ0 : Sol D}
    (hκ : ∀ n ∈ D.nodes.keys, σ0.κ n = 0) : TameV D fun σ => c σ • g σ := by
  have p1 := abs_nonneg (c σ0)
  have p2 := Vec.length_nonneg (g σ0)
  refine Tame.of_near hc hg hκ (K := |c σ0| + 1 + (Vec.length (g σ0) + 1)) (η := 1)
    (by positivity) one_pos ?_
  intro σ τ h1 h2 h3 h4
  have e : c σ • g σ - c τ • g τ = c σ • (g σ - g τ) + (c σ - c τ) • g τ := by
    rw [smul_sub, sub_smul]; abel
  rw [e]
  refine (Vec.length_add_le _ _).trans ?_
  rw [Vec.length_smul, Vec.length_smul]
  have b1 : |c σ| ≤ |c σ0| + 1 := by
    have := abs_sub_abs_le_abs_sub (c σ) (c σ0); linarith
  have b2 : Vec.length (g τ) ≤ Vec.length (g σ0) + 1 := by
    have := (abs_le.1 (Vec.abs_length_sub_le (g τ) (g σ0))).2; linarith
  have x1 := Vec.length_nonneg (g σ - g τ)
  have x2 := abs_nonneg (c σ - c τ)
  have y1 := mul_le_mul_of_nonneg_right b1 x1
  have y2 := mul_le_mul_of_nonneg_left b2 x2
  nlinarith

end TameV

namespace TameR

theorem const (c : ℝ) : TameR D fun _ => c := by
  unfold TameR
  simpa using Tame.zero

/-- Tame near a solution if equal to a tame number there. -/
theorem congr_near {g h : Sol D → ℝ} (hg : TameR D g) {k : Sol D → ℝ} (hk : TameR D k) {σ0 : Sol D}
    (hκ : ∀ n ∈ D.nodes.keys, σ0.κ n = 0) {η : ℝ} (hη : 0 < η)
    (e : ∀ σ, |k σ - k σ0| ≤ η → h σ = g σ) : TameR D h := by
  refine Tame.of_near hg hk hκ (K := 1) zero_le_one hη ?_
  intro σ τ _ _ h3 h4
  rw [e σ h3, e τ h4, one_mul]
  linarith [abs_nonneg (k σ - k τ)]

theorem div {g h : Sol D → ℝ} (hg : TameR D g) (hh : TameR D h) {σ0 : Sol D}
    (hκ : ∀ n ∈ D.nodes.keys, σ0.κ n = 0) (h0 : h σ0 ≠ 0) : TameR D fun σ => g σ / h σ := by
  have hp := abs_pos.2 h0
  have pg := abs_nonneg (g σ0)
  set η := min 1 (|h σ0| / 2) with hη
  have hη0 : 0 < η := lt_min one_pos (by positivity)
  refine Tame.of_near hg hh hκ (K := (4 / |h σ0| ^ 2) * (|h σ0| + 1 + (|g σ0| + 1))) (η := η)
    (by positivity) hη0 ?_
  intro σ τ h1 h2 h3 h4
  have lo : ∀ ρ : Sol D, |h ρ - h σ0| ≤ η → |h σ0| / 2 ≤ |h ρ| := by
    intro ρ hρ
    have := abs_sub_abs_le_abs_sub (h σ0) (h ρ)
    rw [abs_sub_comm] at this
    have : η ≤ |h σ0| / 2 := min_le_right _ _
    linarith
  have l1 := lo σ h3
  have l2 := lo τ h4
  have n1 : h σ ≠ 0 := by intro h; rw [h, abs_zero] at l1; linarith
  have n2 : h τ ≠ 0 := by intro h; rw [h, abs_zero] at l2; linarith
  have hη1 : η ≤ 1 := min_le_left _ _
  have u1 : |h τ| ≤ |h σ0| + 1 := by
    have := abs_sub_abs_le_abs_sub (h τ) (h σ0); linarith
  have u2 : |g τ| ≤ |g σ0| + 1 := by
    have := abs_sub_abs_le_abs_sub (g τ) (g σ0); linarith
  have e : g σ / h σ - g τ / h τ = ((g σ - g τ) * h τ - g τ * (h σ - h τ)) / (h σ * h τ) := by
    field_simp; ring
  rw [e, abs_div, abs_mul (h σ)]
  have hden : |h σ0| ^ 2 / 4 ≤ |h σ| * |h τ| := by nlinarith
  have hnum : |(g σ - g τ) * h τ - g τ * (h σ - h τ)| ≤
      (|h σ0| + 1 + (|g σ0| + 1)) * (|g σ - g τ| + |h σ - h τ|) := by
    refine (abs_sub _ _).trans ?_
    rw [abs_mul, abs_mul]
    have x1 := abs_nonneg (g σ - g τ)
    have x2 := abs_nonneg (h σ - h τ)
    have y1 := mul_le_mul_of_nonneg_left u1 x1
    have y2 := mul_le_mul_of_nonneg_right u2 x2
    nlinarith
  have hd0 : 0 < |h σ| * |h τ| := mul_pos (abs_pos.2 n1) (abs_pos.2 n2)
  rw [div_le_iff₀ hd0]
  set A := (|h σ0| + 1 + (|g σ0| + 1)) * (|g σ - g τ| + |h σ - h τ|) with hA
  have hA0 : 0 ≤ A := by positivity
  have : 4 / |h σ0| ^ 2 * (|h σ0| + 1 + (|g σ0| + 1)) * (|g σ - g τ| + |h σ - h τ|) *
      (|h σ| * |h τ|) = A * ((|h σ| * |h τ|) / (|h σ0| ^ 2 / 4)) := by
    rw [hA]; field_simp
  rw [this]
  have h1' : 1 ≤ (|h σ| * |h τ|) / (|h σ0| ^ 2 / 4) := by
    rw [one_le_div (by positivity)]; exact hden
  nlinarith

end TameR

/-- A solution without additional forces, at which small additional forces have small effects: trail
edges carry forces, direct deviation edges have lengths, and planes are clearly used or clearly not
used. -/
structure Steady (σ0 : Sol D) : Prop where
  none : ∀ n ∈ D.nodes.keys, σ0.κ n = 0
  trail : ∀ n m, trailNext D n = some m → σ0.r n ≠ 0
  direct : ∀ n ∈ D.nodes.keys, ∀ m ∈ dirNbrs D n, σ0.P m ≠ σ0.P n
  plane : ∀ n m o N, trailNext D n = some m → (edgeData D n m).plane = some (o, N) →
    |Vec.dot N (Spec.unit (σ0.r n))| < 1 / 1000000 ∨
    (1 / 1000000 < |Vec.dot N (Spec.unit (σ0.r n))| ∧ Vec.dot N (o - σ0.P n) ≠ 0)

theorem tame_length {σ0 : Sol D} (S : Steady σ0) {n m : Int} (hm : trailNext D n = some m)
    (hP : TameV D fun σ => σ.P n) (hr : TameV D fun σ => σ.r n) :
    TameR D fun σ => effectiveLength (edgeData D n m) (σ.P n) (σ.r n) := by
  cases hp : (edgeData D n m).plane with
  | none =>
    have : (fun σ : Sol D => effectiveLength (edgeData D n m) (σ.P n) (σ.r n)) =
        fun _ => (edgeData D n m).length := by
      funext σ; unfold effectiveLength; rw [hp]
    rw [this]
    exact TameR.const _
  | some q =>
    obtain ⟨o, N⟩ := q
    have hu := hr.unit S.none (S.trail n m hm)
    have hc : TameR D fun σ => Vec.dot N (Spec.unit (σ.r n)) := hu.dot N
    have hx : TameR D fun σ => Vec.dot N (o - σ.P n) := ((TameV.const o).sub hP).dot N
    have hl : ∀ σ : Sol D, effectiveLength (edgeData D n m) (σ.P n) (σ.r n) =
        if |Vec.dot N (Spec.unit (σ.r n))| < 1 / 1000000 then (edgeData D n m).length else
        if Vec.dot N (o - σ.P n) / Vec.dot N (Spec.unit (σ.r n)) = 0 then (edgeData D n m).length
        else Vec.dot N (o - σ.P n) / Vec.dot N (Spec.unit (σ.r n)) := by
      intro σ
      unfold effectiveLength planeLength planeTol
      rw [hp]
      simp only [normalize_eq_unit]
      by_cases h : |Vec.dot N (Spec.unit (σ.r n))| < 1 / 1000000
      · rw [if_pos h, if_pos h]
      · rw [if_neg h, if_neg h]
    rcases S.plane n m o N hm hp with h | ⟨h, h'⟩
    · refine (TameR.const (edgeData D n m).length).congr_near hc S.none
        (η := (1 / 1000000 - |Vec.dot N (Spec.unit (σ0.r n))|) / 2) (by linarith) ?_
      intro σ hσ
      rw [hl, if_pos]
      have := abs_sub_abs_le_abs_sub (Vec.dot N (Spec.unit (σ.r n))) (Vec.dot N (Spec.unit (σ0.r n)))
      linarith
    · have hc0 : Vec.dot N (Spec.unit (σ0.r n)) ≠ 0 := by
        intro h0; rw [h0, abs_zero] at h; norm_num at h
      have hq := hx.div hc S.none hc0
      refine Tame.of_near (d1 := fun σ τ => |Vec.dot N (Spec.unit (σ.r n)) -
          Vec.dot N (Spec.unit (τ.r n))| + |Vec.dot N (o - σ.P n) - Vec.dot N (o - τ.P n)|)
        (Tame.add hc hx) hq S.none (K := 1)
        (η := min ((|Vec.dot N (Spec.unit (σ0.r n))| - 1 / 1000000) / 2) (|Vec.dot N (o - σ0.P n)| / 2))
        zero_le_one ?_ ?_
      · have := abs_pos.2 h'
        exact lt_min (by linarith) (by linarith)
      · have main : ∀ σ : Sol D, |Vec.dot N (Spec.unit (σ.r n)) -
            Vec.dot N (Spec.unit (σ0.r n))| + |Vec.dot N (o - σ.P n) - Vec.dot N (o - σ0.P n)| ≤
            min ((|Vec.dot N (Spec.unit (σ0.r n))| - 1 / 1000000) / 2) (|Vec.dot N (o - σ0.P n)| / 2) →
            effectiveLength (edgeData D n m) (σ.P n) (σ.r n) =
              Vec.dot N (o - σ.P n) / Vec.dot N (Spec.unit (σ.r n)) := by
          intro σ hσ
          have m1 := hσ.trans (min_le_left _ _)
          have m2 := hσ.trans (min_le_right _ _)
          have a1 := abs_nonneg (Vec.dot N (Spec.unit (σ.r n)) - Vec.dot N (Spec.unit (σ0.r n)))
          have a2 := abs_nonneg (Vec.dot N (o - σ.P n) - Vec.dot N (o - σ0.P n))
          have b1 := abs_sub_abs_le_abs_sub (Vec.dot N (Spec.unit (σ0.r n)))
            (Vec.dot N (Spec.unit (σ.r n)))
          have b2 := abs_sub_abs_le_abs_sub (Vec.dot N (o - σ0.P n)) (Vec.dot N (o - σ.P n))
          rw [abs_sub_comm] at b1 b2
          have c1 : 1 / 1000000 < |Vec.dot N (Spec.unit (σ.r n))| := by linarith
          have c2 : 0 < |Vec.dot N (o - σ.P n)| := by have := abs_pos.2 h'; linarith
          have d1 : Vec.dot N (Spec.unit (σ.r n)) ≠ 0 := by
            intro h0; rw [h0, abs_zero] at c1; norm_num at c1
          rw [hl, if_neg (not_lt.2 c1.le), if_neg (div_ne_zero (abs_pos.1 c2) d1)]
        intro σ τ h1 h2 _ _
        simp only
        rw [main σ h1, main τ h2, one_mul]
        have a1 := abs_nonneg (Vec.dot N (Spec.unit (σ.r n)) - Vec.dot N (Spec.unit (τ.r n)))
        have a2 := abs_nonneg (Vec.dot N (o - σ.P n) - Vec.dot N (o - τ.P n))
        linarith

/-- Small additional forces have small effects on all nodes. -/
theorem tame_all (I : ValidInput D) {σ0 : Sol D} (S : Steady σ0) :
    ∀ n ∈ D.nodes.keys, TameV D (fun σ => σ.P n) ∧ TameV D (fun σ => σ.r n) := by
  have w := I.wf
  have V := I.trails
  have hκ : ∀ n ∈ D.nodes.keys, TameV D fun σ => σ.κ n := fun n hn =>
    ⟨1, 1, zero_le_one, one_pos, fun σ τ _ _ b _ hd => by rw [one_mul]; exact hd n hn⟩
  have hout : ∀ n ∈ D.nodes.keys, TameV D (fun σ => σ.P n) → TameV D (fun σ => σ.T n) →
      (∀ m ∈ dirNbrs D n, TameV D fun σ => σ.P m) → TameV D fun σ => σ.r n := by
    intro n hn hP hT hd
    have e : (fun σ : Sol D => σ.r n) =
        fun σ => σ.T n - loadOf D n - devSum D σ.P n (dirNbrs D n) - σ.κ n := by
      funext σ; exact σ.driven.out n hn
    rw [e]
    refine ((hT.sub (TameV.const _)).sub ?_).sub (hκ n hn)
    unfold devSum
    refine TameV.list_sum (dirNbrs D n) (g := fun m σ => devTerm D σ.P n m) fun m hm => ?_
    simp only [devTerm_real]
    exact TameV.const_smul _ (((hd m hm).sub hP).unit S.none (sub_ne_zero.2 (S.direct n hn m hm)))
  have hPT : ∀ (k : Nat) (n : Int), n ∈ D.nodes.keys → seqOf D n = some (k : Int) →
      TameV D (fun σ => σ.P n) ∧ TameV D (fun σ => σ.T n) := by
    intro k
    induction k with
    | zero =>
      intro n hn hk
      have hx : ∀ a, trailNext D a ≠ some n := by
        intro a ha
        obtain ⟨q, hq, _, e2⟩ := Follows.seq V ((trailNext_iff w V).1 ha)
        rw [hk] at e2
        have := Option.some.inj e2
        simp only [Nat.cast_zero] at this
        omega
      have e1 : (fun σ : Sol D => σ.P n) = fun _ => posOf D n := by
        funext σ; exact (σ.driven.start n hn hx).1
      have e2 : (fun σ : Sol D => σ.T n) = fun _ => 0 := by
        funext σ; exact (σ.driven.start n hn hx).2
      rw [e1, e2]
      exact ⟨TameV.const _, TameV.const _⟩
    | succ k ih =>
      intro n hn hk
      by_cases hex : ∃ a, trailNext D a = some n
      · obtain ⟨a, ha⟩ := hex
        have hf : Follows D a n := (trailNext_iff w V).1 ha
        have hak := (Follows.mem V hf).1
        obtain ⟨q, hq, e1, e2⟩ := Follows.seq V hf
        rw [hk] at e2
        have hqk := Option.some.inj e2
        have hsa : seqOf D a = some (k : Int) := by rw [e1]; congr 1; push_cast at hqk; omega
        obtain ⟨pa, ta⟩ := ih a hak hsa
        have ra := hout a hak pa ta fun m hm => by
          obtain ⟨h1, h2⟩ := List.mem_filter.1 hm
          simp only [decide_eq_true_eq] at h2
          exact (ih m (mem_keys_of_nbr w h1).1 (by rw [← h2.2]; exact hsa)).1
        have eP : (fun σ : Sol D => σ.P n) = fun σ => σ.P a +
            effectiveLength (edgeData D a n) (σ.P a) (σ.r a) • Spec.unit (σ.r a) := by
          funext σ
          rw [← normalize_eq_unit]
          exact (σ.driven.next a hak n ha).1
        have eT : (fun σ : Sol D => σ.T n) = fun σ => σ.r a := by
          funext σ; exact (σ.driven.next a hak n ha).2
        rw [eP, eT]
        exact ⟨pa.add (TameV.smul (tame_length S ha pa ra) (ra.unit S.none (S.trail a n ha)) S.none),
          ra⟩
      · have hx : ∀ a, trailNext D a ≠ some n := fun a ha => hex ⟨a, ha⟩
        have e1 : (fun σ : Sol D => σ.P n) = fun _ => posOf D n := by
          funext σ; exact (σ.driven.start n hn hx).1
        have e2 : (fun σ : Sol D => σ.T n) = fun _ => 0 := by
          funext σ; exact (σ.driven.start n hn hx).2
        rw [e1, e2]
        exact ⟨TameV.const _, TameV.const _⟩
  have hall : ∀ n ∈ D.nodes.keys, TameV D (fun σ => σ.P n) ∧ TameV D (fun σ => σ.T n) := by
    intro n hn
    obtain ⟨k, hk, h0⟩ := allSequenced_of_valid V n hn
    obtain ⟨k', rfl⟩ := Int.eq_ofNat_of_zero_le h0
    exact hPT k' n hn hk
  exact fun n hn => ⟨(hall n hn).1, hout n hn (hall n hn).1 (hall n hn).2 fun m hm =>
    (hall m (mem_keys_of_nbr w (List.mem_filter.1 hm).1).1).1⟩

/-- There is only one solution with given additional forces. -/
theorem Sol.unique (I : ValidInput D) (σ τ : Sol D) (hκ : ∀ n ∈ D.nodes.keys, σ.κ n = τ.κ n) :
    ∀ n ∈ D.nodes.keys, σ.P n = τ.P n ∧ σ.r n = τ.r n := by
  have w := I.wf
  have V := I.trails
  have hout : ∀ n ∈ D.nodes.keys, σ.P n = τ.P n → σ.T n = τ.T n →
      (∀ m ∈ dirNbrs D n, σ.P m = τ.P m) → σ.r n = τ.r n := by
    intro n hn hP hT hd
    rw [σ.driven.out n hn, τ.driven.out n hn, hT, hκ n hn, devSum_congr hP hd]
  have hstart : ∀ n ∈ D.nodes.keys, (∀ a, trailNext D a ≠ some n) → σ.P n = τ.P n ∧ σ.T n = τ.T n := by
    intro n hn hx
    obtain ⟨a1, a2⟩ := σ.driven.start n hn hx
    obtain ⟨b1, b2⟩ := τ.driven.start n hn hx
    exact ⟨a1.trans b1.symm, a2.trans b2.symm⟩
  have hPT : ∀ (k : Nat) (n : Int), n ∈ D.nodes.keys → seqOf D n = some (k : Int) →
      σ.P n = τ.P n ∧ σ.T n = τ.T n := by
    intro k
    induction k with
    | zero =>
      intro n hn hk
      refine hstart n hn fun a ha => ?_
      obtain ⟨q, hq, _, e2⟩ := Follows.seq V ((trailNext_iff w V).1 ha)
      rw [hk] at e2
      have := Option.some.inj e2
      simp only [Nat.cast_zero] at this
      omega
    | succ k ih =>
      intro n hn hk
      by_cases hex : ∃ a, trailNext D a = some n
      · obtain ⟨a, ha⟩ := hex
        have hf : Follows D a n := (trailNext_iff w V).1 ha
        have hak := (Follows.mem V hf).1
        obtain ⟨q, hq, e1, e2⟩ := Follows.seq V hf
        rw [hk] at e2
        have hqk := Option.some.inj e2
        have hsa : seqOf D a = some (k : Int) := by rw [e1]; congr 1; push_cast at hqk; omega
        obtain ⟨pa, ta⟩ := ih a hak hsa
        have ra := hout a hak pa ta fun m hm => by
          obtain ⟨h1, h2⟩ := List.mem_filter.1 hm
          simp only [decide_eq_true_eq] at h2
          exact (ih m (mem_keys_of_nbr w h1).1 (by rw [← h2.2]; exact hsa)).1
        obtain ⟨a1, a2⟩ := σ.driven.next a hak n ha
        obtain ⟨b1, b2⟩ := τ.driven.next a hak n ha
        rw [a1, a2, b1, b2, pa, ra]
        exact ⟨rfl, rfl⟩
      · exact hstart n hn fun a ha => hex ⟨a, ha⟩
  have hall : ∀ n ∈ D.nodes.keys, σ.P n = τ.P n ∧ σ.T n = τ.T n := by
    intro n hn
    obtain ⟨k, hk, h0⟩ := allSequenced_of_valid V n hn
    obtain ⟨k', rfl⟩ := Int.eq_ofNat_of_zero_le h0
    exact hPT k' n hn hk
  exact fun n hn => ⟨(hall n hn).1, hout n hn (hall n hn).1 (hall n hn).2 fun m hm =>
    (hall m (mem_keys_of_nbr w (List.mem_filter.1 hm).1).1).1⟩

/-- Sum of the distances of the nodes. -/
noncomputable def gap (D : Diagram ℝ) (P P' : Int → Vec ℝ) : ℝ :=
  (D.nodes.keys.map fun n => Vec.length (P n - P' n)).sum

theorem sum_le_sum_list {α : Type} (l : List α) {f g : α → ℝ} (h : ∀ a ∈ l, f a ≤ g a) :
    (l.map f).sum ≤ (l.map g).sum := List.sum_le_sum h

theorem gap_nonneg (P P' : Int → Vec ℝ) : 0 ≤ gap D P P' :=
  List.sum_nonneg (by
    intro x hx
    obtain ⟨n, _, rfl⟩ := List.mem_map.1 hx
    exact Vec.length_nonneg _)

theorem le_gap {n : Int} (hn : n ∈ D.nodes.keys) (P P' : Int → Vec ℝ) :
    Vec.length (P n - P' n) ≤ gap D P P' :=
  List.single_le_sum (by
    intro x hx
    obtain ⟨n, _, rfl⟩ := List.mem_map.1 hx
    exact Vec.length_nonneg _) _ (List.mem_map.2 ⟨n, hn, rfl⟩)

theorem gap_comm (P P' : Int → Vec ℝ) : gap D P P' = gap D P' P := by
  unfold gap
  congr 1
  exact List.map_congr_left fun n _ => Vec.length_sub_comm _ _

theorem gap_triangle (P P' P'' : Int → Vec ℝ) : gap D P P'' ≤ gap D P P' + gap D P' P'' := by
  unfold gap
  rw [← List.sum_map_add]
  refine List.sum_le_sum fun n _ => ?_
  have : P n - P'' n = (P n - P' n) + (P' n - P'' n) := by abel
  rw [this]
  exact Vec.length_add_le _ _

theorem gap_self (P : Int → Vec ℝ) : gap D P P = 0 := by
  unfold gap
  apply List.sum_eq_zero
  intro x hx
  obtain ⟨n, _, rfl⟩ := List.mem_map.1 hx
  rw [sub_self, Vec.length_zero]

theorem eq_of_gap {P P' : Int → Vec ℝ} (h : gap D P P' ≤ 0) {n : Int} (hn : n ∈ D.nodes.keys) :
    P n = P' n :=
  sub_eq_zero.1 (Vec.length_eq_zero.1 (le_antisymm ((le_gap hn P P').trans h) (Vec.length_nonneg _)))

/-- A positive lower bound of finitely many positive numbers. -/
theorem exists_lower {α : Type} (l : List α) (f : α → ℝ) (h : ∀ a ∈ l, 0 < f a) :
    ∃ s, 0 < s ∧ ∀ a ∈ l, s ≤ f a := by
  induction l with
  | nil => exact ⟨1, one_pos, by simp⟩
  | cons a l ih =>
    obtain ⟨s, hs, hl⟩ := ih fun b hb => h b (by simp [hb])
    refine ⟨min s (f a), lt_min hs (h a (by simp)), fun b hb => ?_⟩
    rcases List.mem_cons.1 hb with rfl | hb
    · exact min_le_right _ _
    · exact (min_le_left _ _).trans (hl b hb)

/-- Number of ends of indirect edges. -/
noncomputable def indCount (D : Diagram ℝ) : ℝ := (D.nodes.keys.map fun n => ((indNbrs D n).length : ℝ)).sum

theorem indCount_nonneg : 0 ≤ indCount D :=
  List.sum_nonneg (by
    intro x hx
    obtain ⟨n, _, rfl⟩ := List.mem_map.1 hx
    positivity)

theorem le_indCount {n : Int} (hn : n ∈ D.nodes.keys) : ((indNbrs D n).length : ℝ) ≤ indCount D :=
  List.single_le_sum (by
    intro x hx
    obtain ⟨n, _, rfl⟩ := List.mem_map.1 hx
    positivity) _ (List.mem_map.2 ⟨n, hn, rfl⟩)

/-- The forces of the indirect edges at node `n`, seen at the positions `Q n`. -/
def Sees (D : Diagram ℝ) (φ : Int → Int → ℝ) (Q : Int → Int → Vec ℝ) (κ : Int → Vec ℝ) : Prop :=
  ∀ n ∈ D.nodes.keys, κ n =
    ((indNbrs D n).map fun m => φ n m • Spec.unit (Q n m - Q n n)).sum

theorem length_sum_le {α : Type} (l : List α) (f : α → Vec ℝ) {c : ℝ}
    (h : ∀ a ∈ l, Vec.length (f a) ≤ c) : Vec.length (l.map f).sum ≤ l.length * c := by
  induction l with
  | nil => simp
  | cons a l ih =>
    simp only [List.map_cons, List.sum_cons, List.length_cons]
    refine (Vec.length_add_le _ _).trans ?_
    have h1 := h a (by simp)
    have h2 := ih fun b hb => h b (by simp [hb])
    push_cast
    linarith

/-- Forces of indirect edges up to `t` give additional forces up to `indCount D * t`. -/
theorem Sees.bound {φ : Int → Int → ℝ} {Q : Int → Int → Vec ℝ} {κ : Int → Vec ℝ} (h : Sees D φ Q κ)
    {t : ℝ} (ht : 0 ≤ t) (hφ : ∀ n ∈ D.nodes.keys, ∀ m ∈ indNbrs D n, |φ n m| ≤ t) :
    ∀ n ∈ D.nodes.keys, Vec.length (κ n) ≤ indCount D * t := by
  intro n hn
  rw [h n hn]
  refine (length_sum_le (indNbrs D n) _ (c := t) fun m hm => ?_).trans
    (mul_le_mul_of_nonneg_right (le_indCount hn) ht)
  rw [Vec.length_smul]
  have h1 := hφ n hn m hm
  have h2 := length_unit_le (Q n m - Q n n)
  have h3 := abs_nonneg (φ n m)
  have h4 := Vec.length_nonneg (Spec.unit (Q n m - Q n n))
  nlinarith

/-- What small forces of the indirect edges do. -/
structure Contracts (σ0 : Sol D) (C δ ρ : ℝ) : Prop where
  pos : 0 < δ
  rad : 0 < ρ
  nonneg : 0 ≤ C
  close : ∀ (σ : Sol D) (t : ℝ), 0 ≤ t → t ≤ δ → (∀ n ∈ D.nodes.keys, Vec.length (σ.κ n) ≤ indCount D * t) →
    gap D σ.P σ0.P + gap D σ.r σ0.r ≤ C * t
  near : ∀ σ : Sol D, (∀ n ∈ D.nodes.keys, Vec.length (σ.κ n) ≤ indCount D * δ) →
    (∀ n ∈ D.nodes.keys, Vec.length (σ.P n - σ0.P n) ≤ ρ) ∧
    (∀ n m, trailNext D n = some m → σ.r n ≠ 0)
  quarter : ∀ φ : Int → Int → ℝ, (∀ n ∈ D.nodes.keys, ∀ m ∈ indNbrs D n, |φ n m| ≤ δ) →
    ∀ (σ τ : Sol D) (Q Q' : Int → Int → Vec ℝ), Sees D φ Q σ.κ → Sees D φ Q' τ.κ →
    (∀ n ∈ D.nodes.keys, ∀ m ∈ D.nodes.keys, Vec.length (Q' n m - σ0.P m) ≤ ρ) → ∀ b, 0 ≤ b →
    (∀ n ∈ D.nodes.keys, ∀ m ∈ D.nodes.keys, Vec.length (Q n m - Q' n m) ≤ b) →
    gap D σ.P τ.P + gap D σ.r τ.r ≤ b / 4

theorem contracts (I : ValidInput D) {σ0 : Sol D} (S : Steady σ0)
    (hi : ∀ n ∈ D.nodes.keys, ∀ m ∈ indNbrs D n, σ0.P m ≠ σ0.P n) :
    ∃ C δ ρ, Contracts σ0 C δ ρ := by
  have w := I.wf
  have V := I.trails
  have T : Tame D fun σ τ => gap D σ.P τ.P + gap D σ.r τ.r :=
    (Tame.list_sum D.nodes.keys fun n hn => (tame_all I S n hn).1).add
      (Tame.list_sum D.nodes.keys fun n hn => (tame_all I S n hn).2)
  obtain ⟨C, ε, hC, hε, H⟩ := T
  obtain ⟨s, hs, hsep⟩ := exists_lower (D.nodes.keys.flatMap fun n => (indNbrs D n).map fun m => (n, m))
    (fun p => Vec.length (σ0.P p.2 - σ0.P p.1)) (by
      rintro ⟨n, m⟩ hp
      obtain ⟨n', hn', hp⟩ := List.mem_flatMap.1 hp
      obtain ⟨m', hm', hp⟩ := List.mem_map.1 hp
      obtain ⟨rfl, rfl⟩ := Prod.mk.inj hp
      exact Vec.length_pos (sub_ne_zero.2 (hi n' hn' m' hm')))
  have hsep' : ∀ n ∈ D.nodes.keys, ∀ m ∈ indNbrs D n, s ≤ Vec.length (σ0.P m - σ0.P n) :=
    fun n hn m hm => hsep (n, m) (List.mem_flatMap.2 ⟨n, hn, List.mem_map.2 ⟨m, hm, rfl⟩⟩)
  obtain ⟨t, ht, hrr⟩ := exists_lower (D.nodes.keys.filter fun n => (trailNext D n).isSome)
    (fun n => Vec.length (σ0.r n)) (by
      intro n hn
      obtain ⟨_, h2⟩ := List.mem_filter.1 hn
      obtain ⟨m, hm⟩ := Option.isSome_iff_exists.1 h2
      exact Vec.length_pos (S.trail n m hm))
  have hM := indCount_nonneg (D := D)
  set M := indCount D with hMdef
  set u := min s t with hu
  have hu0 : 0 < u := lt_min hs ht
  set δ := min ε (u / 32) / ((C + 1) * (M + 1)) with hδ
  have hmin : 0 < min ε (u / 32) := lt_min hε (by linarith)
  have hprod : 0 < (C + 1) * (M + 1) := by positivity
  have hδ0 : 0 < δ := div_pos hmin hprod
  have hδe : (C + 1) * (M + 1) * δ = min ε (u / 32) := by rw [hδ]; field_simp
  have hMδ : M * δ ≤ ε := by
    have h1 : M * δ ≤ (C + 1) * (M + 1) * δ := by
      refine mul_le_mul_of_nonneg_right ?_ hδ0.le
      nlinarith
    exact (h1.trans hδe.le).trans (min_le_left _ _)
  have hCM : C * (M * δ) ≤ u / 32 := by
    have h1 : C * (M * δ) ≤ (C + 1) * (M + 1) * δ := by
      rw [← mul_assoc]
      refine mul_le_mul_of_nonneg_right ?_ hδ0.le
      nlinarith
    exact (h1.trans hδe.le).trans (min_le_right _ _)
  have zero : ∀ n ∈ D.nodes.keys, Vec.length (σ0.κ n) ≤ ε := by
    intro n hn; rw [S.none n hn, Vec.length_zero]; exact hε.le
  have close : ∀ (σ : Sol D) (t : ℝ), 0 ≤ t → t ≤ δ →
      (∀ n ∈ D.nodes.keys, Vec.length (σ.κ n) ≤ M * t) →
      gap D σ.P σ0.P + gap D σ.r σ0.r ≤ C * (M * t) := by
    intro σ t ht0 htδ hσ
    refine H σ σ0 (fun n hn => (hσ n hn).trans ?_) zero (M * t) (by positivity) fun n hn => ?_
    · exact (mul_le_mul_of_nonneg_left htδ hM).trans hMδ
    · rw [S.none n hn, sub_zero]; exact hσ n hn
  have hus : u ≤ s := min_le_left _ _
  have hut : u ≤ t := min_le_right _ _
  refine ⟨C * M, δ, u / 4, hδ0, by linarith, by positivity, ?_, ?_, ?_⟩
  · intro σ t ht0 htδ hσ
    rw [mul_assoc]
    exact close σ t ht0 htδ hσ
  · intro σ hσ
    have h1 := (close σ δ hδ0.le le_rfl hσ).trans hCM
    have g1 := gap_nonneg (D := D) σ.P σ0.P
    have g2 := gap_nonneg (D := D) σ.r σ0.r
    refine ⟨fun n hn => ?_, fun n m hm => ?_⟩
    · have := le_gap hn σ.P σ0.P
      linarith
    · have hn := (Follows.mem V ((trailNext_iff w V).1 hm)).1
      have h2 := le_gap hn σ.r σ0.r
      have h3 := hrr n (List.mem_filter.2 ⟨hn, by rw [hm]; rfl⟩)
      intro h0
      rw [h0, zero_sub, Vec.length_neg] at h2
      linarith
  · intro φ hφ σ τ Q Q' hQ hQ' near b hb hd
    have hκ : ∀ n ∈ D.nodes.keys, Vec.length (σ.κ n - τ.κ n) ≤ M * (δ * (8 * b / u)) := by
      intro n hn
      have e : σ.κ n - τ.κ n = ((indNbrs D n).map fun m =>
          φ n m • (Spec.unit (Q n m - Q n n) - Spec.unit (Q' n m - Q' n n))).sum := by
        rw [hQ n hn, hQ' n hn]
        generalize indNbrs D n = l
        induction l with
        | nil => simp
        | cons a l ih =>
          simp only [List.map_cons, List.sum_cons, smul_sub]
          simp only [smul_sub] at ih
          rw [← ih]; abel
      rw [e]
      refine (length_sum_le (indNbrs D n) _ (c := δ * (8 * b / u)) fun m hm => ?_).trans
        (mul_le_mul_of_nonneg_right (le_indCount hn) (by positivity))
      have hmk := (mem_keys_of_nbr w (List.mem_filter.1 hm).1).1
      rw [Vec.length_smul]
      refine mul_le_mul (hφ n hn m hm) ?_ (Vec.length_nonneg _) hδ0.le
      have hsp := hsep' n hn m hm
      have lo : u / 2 ≤ Vec.length (Q' n m - Q' n n) := by
        have e1 : σ0.P m - σ0.P n = (Q' n m - Q' n n) - ((Q' n m - σ0.P m) - (Q' n n - σ0.P n)) := by
          abel
        have e2 : Vec.length (σ0.P m - σ0.P n) ≤ Vec.length (Q' n m - Q' n n) +
            (Vec.length (Q' n m - σ0.P m) + Vec.length (Q' n n - σ0.P n)) := by
          rw [e1]
          exact (Vec.length_sub_le _ _).trans (add_le_add le_rfl (Vec.length_sub_le _ _))
        have := near n hn m hmk
        have := near n hn n hn
        linarith
      have hne : Q' n m - Q' n n ≠ 0 := by
        intro h; rw [h, Vec.length_zero] at lo; linarith
      refine (length_unit_sub_le _ hne).trans ?_
      have up : Vec.length (Q n m - Q n n - (Q' n m - Q' n n)) ≤ 2 * b := by
        have e1 : Q n m - Q n n - (Q' n m - Q' n n) = (Q n m - Q' n m) - (Q n n - Q' n n) := by abel
        rw [e1]
        refine (Vec.length_sub_le _ _).trans ?_
        have := hd n hn m hmk
        have := hd n hn n hn
        linarith
      rw [div_le_div_iff₀ (Vec.length_pos hne) hu0]
      have := mul_le_mul_of_nonneg_left lo (by linarith : 0 ≤ 8 * b)
      nlinarith
    have hbig : ∀ (ρ : Sol D) (Q : Int → Int → Vec ℝ), Sees D φ Q ρ.κ →
        ∀ n ∈ D.nodes.keys, Vec.length (ρ.κ n) ≤ ε := fun ρ Q hs n hn =>
      (hs.bound hδ0.le hφ n hn).trans hMδ
    refine (H σ τ (hbig σ Q hQ) (hbig τ Q' hQ') _ (by positivity) hκ).trans ?_
    have : C * (M * (δ * (8 * b / u))) = C * (M * δ) * (8 * b / u) := by ring
    rw [this]
    refine (mul_le_mul_of_nonneg_right hCM (by positivity)).trans (le_of_eq ?_)
    field_simp
    ring
end
end CEM
