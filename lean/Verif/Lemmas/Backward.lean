import Verif.Spec.Backward
import Verif.Lemmas.RoundedNodal
import Verif.Lemmas.RoundedReturn
import Verif.Lemmas.Uniqueness
import Verif.Lemmas.Constraints
import Verif.Lemmas.Locality
import Verif.Spec.Staged

/-!
# The problem that a rounded form solves exactly
-/

set_option linter.unusedSectionVars false
set_option linter.unusedSimpArgs false

namespace CEM
open Vec Spec Diagram

variable {A : Arith ℝ} {u : ℝ}

/-! ## Planes -/

/-- A rounded scalar product. -/
theorem vdot_error (H : Precise A u) (hu : u ≤ 1 / 100) (a b : Vec ℝ) :
    |A.vdot a b - dot a b| ≤ 31 / 10 * u * (length a * length b) := by
  have h0 := H.nonneg
  set X := a.x * b.x
  set Y := a.y * b.y
  set Z := a.z * b.z
  have hx : |A.mul a.x b.x - X| ≤ u * |X| := H.mul a.x b.x
  have hy : |A.mul a.y b.y - Y| ≤ u * |Y| := H.mul a.y b.y
  have hz : |A.mul a.z b.z - Z| ≤ u * |Z| := H.mul a.z b.z
  set x := A.mul a.x b.x
  set y := A.mul a.y b.y
  set z := A.mul a.z b.z
  have hs : |A.add x y - (x + y)| ≤ u * |x + y| := H.add x y
  set s := A.add x y
  have ht : |A.add s z - (s + z)| ≤ u * |s + z| := H.add s z
  set M := |X| + |Y| + |Z| with hM
  have pX := abs_nonneg X
  have pY := abs_nonneg Y
  have pZ := abs_nonneg Z
  have ax : |x| ≤ (1 + u) * |X| := by
    have := abs_add_le (x - X) X
    rw [sub_add_cancel] at this
    linarith
  have ay : |y| ≤ (1 + u) * |Y| := by
    have := abs_add_le (y - Y) Y
    rw [sub_add_cancel] at this
    linarith
  have az : |z| ≤ (1 + u) * |Z| := by
    have := abs_add_le (z - Z) Z
    rw [sub_add_cancel] at this
    linarith
  have axy : |x + y| ≤ (1 + u) * (|X| + |Y|) := (abs_add_le x y).trans (by linarith)
  have as' : |s| ≤ (1 + u) * ((1 + u) * (|X| + |Y|)) := by
    have h1 := abs_add_le (s - (x + y)) (x + y)
    rw [sub_add_cancel] at h1
    have h2 := mul_le_mul_of_nonneg_left axy (by linarith : 0 ≤ 1 + u)
    linarith
  have asz : |s + z| ≤ (1 + u) * ((1 + u) * (|X| + |Y|)) + (1 + u) * |Z| :=
    (abs_add_le s z).trans (by linarith)
  have h1 : |A.add s z - (X + Y + Z)| ≤ u * |s + z| + u * |x + y| + (u * |X| + u * |Y| + u * |Z|) := by
    have e : A.add s z - (X + Y + Z) =
        (A.add s z - (s + z)) + (s - (x + y)) + ((x - X) + (y - Y) + (z - Z)) := by ring
    rw [e]
    refine (abs_add_le _ _).trans (add_le_add ((abs_add_le _ _).trans (add_le_add ht hs)) ?_)
    exact (abs_add_le _ _).trans (add_le_add ((abs_add_le _ _).trans (add_le_add hx hy)) hz)
  have h2 : u * |s + z| + u * |x + y| + (u * |X| + u * |Y| + u * |Z|) ≤ 31 / 10 * u * M := by
    have i1 := mul_le_mul_of_nonneg_left asz h0
    have i2 := mul_le_mul_of_nonneg_left axy h0
    have i3 : u * ((1 + u) * ((1 + u) * (|X| + |Y|)) + (1 + u) * |Z|) + u * ((1 + u) * (|X| + |Y|)) +
        (u * |X| + u * |Y| + u * |Z|) ≤ 31 / 10 * u * M := by
      have j1 : (1 + u) * ((1 + u) * (|X| + |Y|)) ≤ 10201 / 10000 * (|X| + |Y|) := by
        nlinarith [mul_nonneg h0 (add_nonneg pX pY), mul_nonneg (mul_nonneg h0 h0) (add_nonneg pX pY)]
      have j2 : (1 + u) * |Z| ≤ 101 / 100 * |Z| := by nlinarith
      have j3 : (1 + u) * (|X| + |Y|) ≤ 101 / 100 * (|X| + |Y|) := by nlinarith
      have : u * ((1 + u) * ((1 + u) * (|X| + |Y|)) + (1 + u) * |Z| + (1 + u) * (|X| + |Y|) +
          (|X| + |Y| + |Z|)) ≤ u * (31 / 10 * M) := mul_le_mul_of_nonneg_left (by rw [hM]; linarith) h0
      linarith
    linarith
  have h3 : M ≤ length a * length b := by
    have := abs_dot_le (⟨|a.x|, |a.y|, |a.z|⟩ : Vec ℝ) ⟨|b.x|, |b.y|, |b.z|⟩
    have la : length (⟨|a.x|, |a.y|, |a.z|⟩ : Vec ℝ) = length a := by
      simp [Vec.length_def, dot]
    have lb : length (⟨|b.x|, |b.y|, |b.z|⟩ : Vec ℝ) = length b := by
      simp [Vec.length_def, dot]
    rw [la, lb] at this
    refine le_trans (le_of_eq ?_) ((le_abs_self _).trans this)
    simp [hM, X, Y, Z, dot, abs_mul]
  have h4 : 31 / 10 * u * M ≤ 31 / 10 * u * (length a * length b) :=
    mul_le_mul_of_nonneg_left h3 (by linarith)
  have e2 : A.vdot a b - dot a b = A.add s z - (X + Y + Z) := rfl
  rw [e2]
  linarith

/-- The rounded scalar product with a rounded unit vector. -/
theorem vdot_unit_error (H : Precise A u) (hu : u ≤ 1 / 100) (N r : Vec ℝ) :
    |A.vdot N (A.vnormalize r) - dot N (unit r)| ≤ 10 * u * length N := by
  have h0 := H.nonneg
  have hN := length_nonneg N
  have h1 := vdot_error H hu N (A.vnormalize r)
  have h2 := vnormalize_le H hu r
  have h3 := (abs_dot_le N (A.vnormalize r - unit r)).trans
    (mul_le_mul_of_nonneg_left (vnormalize_error H hu r) hN)
  have e : dot N (A.vnormalize r - unit r) = dot N (A.vnormalize r) - dot N (unit r) := by
    simp only [dot, sub_x, sub_y, sub_z]; ring
  rw [e] at h3
  have h4 := abs_add_le (A.vdot N (A.vnormalize r) - dot N (A.vnormalize r))
    (dot N (A.vnormalize r) - dot N (unit r))
  rw [sub_add_sub_cancel] at h4
  have h5 : 31 / 10 * u * (length N * length (A.vnormalize r)) ≤ 31 / 10 * u * (length N * (106 / 100)) := by
    refine mul_le_mul_of_nonneg_left (mul_le_mul_of_nonneg_left ?_ hN) (by linarith)
    linarith
  nlinarith [mul_nonneg h0 hN]

/-- The rounded distance to a plane. -/
theorem vdot_sub_error (H : Precise A u) (hu : u ≤ 1 / 100) (N o p : Vec ℝ) :
    |A.vdot N (A.vsub o p) - dot N (o - p)| ≤ 42 / 10 * u * (length N * length (o - p)) := by
  have h0 := H.nonneg
  have hN := length_nonneg N
  have hd := length_nonneg (o - p)
  have h1 := vdot_error H hu N (A.vsub o p)
  have h2 := vsub_error H o p
  have h3 := (abs_dot_le N (A.vsub o p - (o - p))).trans (mul_le_mul_of_nonneg_left h2 hN)
  have e : dot N (A.vsub o p - (o - p)) = dot N (A.vsub o p) - dot N (o - p) := by
    simp only [dot, sub_x, sub_y, sub_z]; ring
  rw [e] at h3
  have h4 := abs_add_le (A.vdot N (A.vsub o p) - dot N (A.vsub o p)) (dot N (A.vsub o p) - dot N (o - p))
  rw [sub_add_sub_cancel] at h4
  have h6 : length (A.vsub o p) ≤ 101 / 100 * length (o - p) := by
    have := length_add_le (A.vsub o p - (o - p)) (o - p)
    rw [sub_add_cancel] at this
    nlinarith
  have h5 : 31 / 10 * u * (length N * length (A.vsub o p)) ≤
      31 / 10 * u * (length N * (101 / 100 * length (o - p))) :=
    mul_le_mul_of_nonneg_left (mul_le_mul_of_nonneg_left h6 hN) (by linarith)
  nlinarith [mul_nonneg h0 (mul_nonneg hN hd)]

/-- A node placed by a plane is close to the plane. -/
theorem plane_error (H : Precise A u) (hu : u ≤ 1 / 100) (o N p r : Vec ℝ) {l : ℝ} (hr : r ≠ 0)
    (h : flPlaneLength A p r (o, N) = some l) :
    |dot N (A.vadd p (A.vscale l (A.vnormalize r)) - o)| ≤
      30 * u * length N * (length o + length p + length (A.vadd p (A.vscale l (A.vnormalize r)))) := by
  have h0 := H.nonneg
  have hN := length_nonneg N
  have hpl := place_error H hu p r l hr
  set b := A.vadd p (A.vscale l (A.vnormalize r)) with hb
  unfold flPlaneLength at h
  simp only at h
  split_ifs at h with hc
  have hl := (Option.some.inj h).symm
  set c := A.vdot N (A.vnormalize r) with hcdef
  set m := A.vdot N (A.vsub o p) with hm
  have hc0 : c ≠ 0 := by
    intro h
    rw [h] at hc
    simp [planeTol] at hc
  have e1 : |c - dot N (unit r)| ≤ 10 * u * length N := vdot_unit_error H hu N r
  have e2 : |m - dot N (o - p)| ≤ 42 / 10 * u * (length N * length (o - p)) := vdot_sub_error H hu N o p
  have e3 : |l * c - m| ≤ u * |m| := by
    have := H.div m c hc0
    rw [← hl] at this
    have e : l * c - m = (l - m / c) * c := by field_simp
    rw [e, abs_mul]
    calc |l - m / c| * |c| ≤ u * |m / c| * |c| := mul_le_mul_of_nonneg_right this (abs_nonneg c)
      _ = u * |m| := by rw [abs_div]; field_simp
  have hop : length (o - p) ≤ length o + length p := length_sub_le o p
  have hlo := length_nonneg o
  have hlp := length_nonneg p
  have hlb := length_nonneg b
  have hd := length_nonneg (o - p)
  have e4 : |m| ≤ 105 / 100 * (length N * length (o - p)) := by
    have h1 := abs_add_le (m - dot N (o - p)) (dot N (o - p))
    rw [sub_add_cancel] at h1
    have h2 := abs_dot_le N (o - p)
    nlinarith [mul_nonneg hN hd]
  have e5 : |l| ≤ 111 / 100 * (length p + length b) := by
    have h1 : length (l • unit r) = |l| := by rw [length_smul, length_unit hr, mul_one]
    have h2 := length_sub_le (b - p) (b - p - l • unit r)
    rw [sub_sub_cancel, h1] at h2
    have h3 := length_sub_le b p
    nlinarith
  have e6 : |dot N (b - p - l • unit r)| ≤ length N * (11 * u * (length p + length b)) :=
    (abs_dot_le _ _).trans (mul_le_mul_of_nonneg_left hpl hN)
  have e : dot N (b - o) = dot N (b - p - l • unit r) + (l * c - m) + (m - dot N (o - p)) -
      l * (c - dot N (unit r)) := by
    simp only [dot, sub_x, sub_y, sub_z, smul_x, smul_y, smul_z]; ring
  have e7 : |l * (c - dot N (unit r))| ≤ 111 / 100 * (length p + length b) * (10 * u * length N) := by
    rw [abs_mul]
    exact mul_le_mul e5 e1 (abs_nonneg _) (by linarith)
  rw [e]
  have t1 := abs_sub (dot N (b - p - l • unit r) + (l * c - m) + (m - dot N (o - p)))
    (l * (c - dot N (unit r)))
  have t2 := abs_add_le (dot N (b - p - l • unit r) + (l * c - m)) (m - dot N (o - p))
  have t3 := abs_add_le (dot N (b - p - l • unit r)) (l * c - m)
  have k0 := mul_nonneg h0 hN
  have k1 : u * |m| ≤ 105 / 100 * (u * length N) * (length o + length p) := by
    have := mul_le_mul_of_nonneg_left (e4.trans (mul_le_mul_of_nonneg_left
      (mul_le_mul_of_nonneg_left hop hN) (by norm_num))) h0
    linarith
  have k2 : 42 / 10 * u * (length N * length (o - p)) ≤ 42 / 10 * (u * length N) * (length o + length p) := by
    have := mul_le_mul_of_nonneg_left hop k0
    linarith
  have k3 := mul_nonneg k0 hlo
  have k4 := mul_nonneg k0 hlp
  have k5 := mul_nonneg k0 hlb
  linarith

/-- If a plane does not place the node, the edge is almost parallel to it or almost starts on
it. -/
theorem plane_unused (H : Precise A u) (hu : u ≤ 1 / 100) (o N p r : Vec ℝ) (hr : r ≠ 0) (l : ℝ)
    (h : flPlaneLength A p r (o, N) = none ∨ flPlaneLength A p r (o, N) = some 0) :
    AlmostUnused u o N p (A.vadd p (A.vscale l (A.vnormalize r))) := by
  have h0 := H.nonneg
  have hN := length_nonneg N
  have hs := unit_slack_sign (place_error H hu p r l hr)
  set b := A.vadd p (A.vscale l (A.vnormalize r)) with hb
  set σ : ℝ := if l < 0 then (-1 : ℝ) else 1 with hσ
  have hσa : |σ| = 1 := by rw [hσ]; split_ifs <;> norm_num
  by_cases hc : |A.vdot N (A.vnormalize r)| < planeTol
  · left
    have e1 := vdot_unit_error H hu N r
    have e2 : |dot N (unit r)| ≤ 1 / 1000000 + 10 * u * length N := by
      have := abs_sub_abs_le_abs_sub (dot N (unit r)) (A.vdot N (A.vnormalize r))
      rw [abs_sub_comm] at this
      unfold planeTol at hc
      linarith
    have e3 := (abs_dot_le N (unit (b - p) - σ • unit r)).trans (mul_le_mul_of_nonneg_left hs hN)
    have e : dot N (unit (b - p)) = dot N (unit (b - p) - σ • unit r) + σ * dot N (unit r) := by
      simp only [dot, sub_x, sub_y, sub_z, smul_x, smul_y, smul_z]; ring
    rw [e]
    refine (abs_add_le _ _).trans ?_
    rw [abs_mul, hσa, one_mul]
    linarith
  · right
    have hz : A.div (A.vdot N (A.vsub o p)) (A.vdot N (A.vnormalize r)) = 0 := by
      unfold flPlaneLength at h
      simpa [hc] using h
    have hc0 : A.vdot N (A.vnormalize r) ≠ 0 := by
      intro h
      rw [h] at hc
      simp [planeTol] at hc
    have h1 := H.div (A.vdot N (A.vsub o p)) _ hc0
    rw [hz, zero_sub, abs_neg] at h1
    have h2 : A.vdot N (A.vsub o p) = 0 := by
      have h3 : |A.vdot N (A.vsub o p) / A.vdot N (A.vnormalize r)| = 0 := by
        have := abs_nonneg (A.vdot N (A.vsub o p) / A.vdot N (A.vnormalize r))
        nlinarith
      rw [abs_eq_zero, div_eq_zero_iff] at h3
      exact h3.resolve_right hc0
    have h3 := vdot_sub_error H hu N o p
    rw [h2, zero_sub, abs_neg] at h3
    have e : dot N (p - o) = -dot N (o - p) := by simp only [dot, sub_x, sub_y, sub_z]; ring
    rw [e, abs_neg, length_sub_comm p o]
    have := mul_nonneg h0 (mul_nonneg hN (length_nonneg (o - p)))
    linarith

/-- The distance of the ends of an edge is close to the length it was given. -/
theorem length_error (H : Precise A u) (hu : u ≤ 1 / 100) (p r : Vec ℝ) (l : ℝ) (hr : r ≠ 0) :
    abs (Vec.dist p (A.vadd p (A.vscale l (A.vnormalize r))) - |l|) ≤
      11 * u * (length p + length (A.vadd p (A.vscale l (A.vnormalize r)))) := by
  have h := place_error H hu p r l hr
  set b := A.vadd p (A.vscale l (A.vnormalize r))
  have h1 : length (l • unit r) = |l| := by rw [length_smul, length_unit hr, mul_one]
  have h2 := length_sub_le (b - p) (b - p - l • unit r)
  rw [sub_sub_cancel, h1] at h2
  have h3 := length_add_le (b - p - l • unit r) (l • unit r)
  rw [sub_add_cancel, h1] at h3
  rw [Vec.dist, length_sub_comm, abs_le]
  constructor <;> linarith

/-! ## Changing loads and trail edges -/

/-- The diagram with less load at every node. -/
noncomputable def reload (D : Diagram ℝ) (q : Int → Vec ℝ) : Diagram ℝ :=
  { D with nodes := D.nodes.map fun p => (p.1, { p.2 with load := p.2.load - q p.1 }) }

/-- The diagram with other data of edges. -/
def reedge (D : Diagram ℝ) (f : Int × Int → EdgeData ℝ → EdgeData ℝ) : Diagram ℝ :=
  { D with edges := D.edges.map fun p => (p.1, f p.1 p.2) }

theorem reload_get? (D : Diagram ℝ) (q : Int → Vec ℝ) (n : Int) :
    (reload D q).nodes.get? n = (D.nodes.get? n).map fun d => { d with load := d.load - q n } :=
  get?_map_key D.nodes (fun n (d : NodeData ℝ) => ({ d with load := d.load - q n } : NodeData ℝ)) n

theorem reload_keys (D : Diagram ℝ) (q : Int → Vec ℝ) : (reload D q).nodes.keys = D.nodes.keys :=
  keys_map_key D.nodes (fun n (d : NodeData ℝ) => ({ d with load := d.load - q n } : NodeData ℝ))

theorem reedge_get? (D : Diagram ℝ) (f : Int × Int → EdgeData ℝ → EdgeData ℝ) (e : Int × Int) :
    (reedge D f).edges.get? e = (D.edges.get? e).map (f e) :=
  get?_map_key D.edges f e

theorem reedge_keys (D : Diagram ℝ) (f : Int × Int → EdgeData ℝ → EdgeData ℝ) :
    (reedge D f).edges.keys = D.edges.keys :=
  keys_map_key D.edges f

theorem reload_pos (D : Diagram ℝ) (q : Int → Vec ℝ) (n : Int) :
    posOf (reload D q) n = posOf D n ∧ reactionAt (reload D q) n = reactionAt D n := by
  unfold posOf reactionAt
  rw [reload_get?]
  cases D.nodes.get? n <;> exact ⟨rfl, rfl⟩

theorem reload_load (D : Diagram ℝ) (q : Int → Vec ℝ) {n : Int} (hn : n ∈ D.nodes.keys) :
    loadAt (reload D q) n = loadAt D n - q n := by
  obtain ⟨d, hd⟩ := (Dict.exists_get?_iff _ _).2 hn
  unfold loadAt
  rw [reload_get?, hd]
  rfl

theorem reload_imbalance (F : Diagram ℝ) (q : Int → Vec ℝ) {n : Int} (hn : n ∈ F.nodes.keys) :
    imbalance (reload F q) n = imbalance F n - q n := by
  unfold imbalance
  have hp : pull (reload F q) n = pull F n := by
    funext p
    simp only [pull, (reload_pos F q _).1]
  rw [reload_load F q hn, (reload_pos F q n).2, hp]
  show _ + (F.edges.map _).sum = _
  abel

/-- Two diagrams with the same graph, trails and types. -/
structure SameShape (D E : Diagram ℝ) : Prop where
  nodeKeys : E.nodes.keys = D.nodes.keys
  edgeKeys : E.edges.keys = D.edges.keys
  node : ∀ n d d', D.nodes.get? n = some d → E.nodes.get? n = some d' →
    d'.reaction = d.reaction ∧ d'.k = d.k ∧ d'.type = d.type
  edge : ∀ e d d', D.edges.get? e = some d → E.edges.get? e = some d' → d'.type = d.type
  rest : E.maxNode = D.maxNode ∧ E.gkeyNode = D.gkeyNode ∧ E.trails = D.trails

section shape
variable {D E : Diagram ℝ} (h : SameShape D E)
include h

theorem SameShape.typeOf (n : Int) : typeOf E n = typeOf D n ∧ seqOf E n = seqOf D n := by
  unfold Spec.typeOf seqOf
  by_cases hm : n ∈ D.nodes.keys
  · obtain ⟨d, hd⟩ := (Dict.exists_get?_iff _ _).2 hm
    obtain ⟨d1, h1⟩ := (Dict.exists_get?_iff E.nodes n).2 (by rw [h.nodeKeys]; exact hm)
    simp [hd, h1, (h.node n d d1 hd h1).2.2, (h.node n d d1 hd h1).2.1]
  · rw [(Dict.get?_eq_none_iff _ _).2 hm,
      (Dict.get?_eq_none_iff _ _).2 (by rw [h.nodeKeys]; exact hm)]
    exact ⟨rfl, rfl⟩

theorem SameShape.edgeType (e : Int × Int) (t : EdgeType) :
    (∃ d, E.edges.get? e = some d ∧ d.type = t) ↔ ∃ d, D.edges.get? e = some d ∧ d.type = t := by
  constructor
  · rintro ⟨d1, h1, ht⟩
    obtain ⟨d, hd⟩ := (Dict.exists_get?_iff D.edges e).2
      (by rw [← h.edgeKeys]; exact Dict.mem_keys_of_get? h1)
    exact ⟨d, hd, by rw [← h.edge e d d1 hd h1, ht]⟩
  · rintro ⟨d, hd, ht⟩
    obtain ⟨d1, h1⟩ := (Dict.exists_get?_iff E.edges e).2
      (by rw [h.edgeKeys]; exact Dict.mem_keys_of_get? hd)
    exact ⟨d1, h1, by rw [h.edge e d d1 hd h1, ht]⟩

theorem SameShape.trailAdj : TrailAdj E = TrailAdj D := by
  funext a b
  unfold TrailAdj IsTrail
  rw [h.edgeType, h.edgeType]

theorem SameShape.valid (I : ValidInput D) : ValidInput E := by
  obtain ⟨r1, r2, r3⟩ := h.rest
  refine ⟨⟨?_, ?_, ?_, ?_, ?_, ?_, ?_, ?_⟩, ⟨?_, ?_⟩, ⟨?_, ?_, ?_, ?_, ?_, ?_, ?_⟩, ?_, ?_, ?_⟩
  · rw [h.nodeKeys]; exact I.wf.nodesNodup
  · rw [h.edgeKeys]; exact I.wf.edgesNodup
  · rw [r2]; exact I.wf.gkeysNodup
  · rw [h.nodeKeys, r1]; exact I.wf.le_max
  · rw [r1]; exact I.wf.max_ge
  · rw [h.nodeKeys, r2]; exact I.wf.lookup_mem
  · rw [h.nodeKeys, h.edgeKeys]; exact I.wf.edge_left
  · rw [h.nodeKeys, h.edgeKeys]; exact I.wf.edge_right
  · rw [h.edgeKeys]; exact I.simple.noLoop
  · rw [h.edgeKeys]; exact I.simple.noAnti
  · rw [r3]; exact I.trails.head
  · intro key tr hm; rw [r3] at hm; rw [(h.typeOf _).1]; exact I.trails.origin key tr hm
  · intro key tr hm; rw [r3] at hm; rw [h.trailAdj]; exact I.trails.chain key tr hm
  · rw [r3, h.nodeKeys]; exact I.trails.partition
  · rw [h.trailAdj, r3]; exact I.trails.complete
  · intro key tr hm n hn; rw [r3] at hm; rw [(h.typeOf _).1]; exact I.trails.support key tr hm n hn
  · intro key tr hm
    rw [r3] at hm
    obtain ⟨s, hs⟩ := I.trails.seq key tr hm
    exact ⟨s, fun i hi => by rw [(h.typeOf _).2]; exact hs i hi⟩
  · rw [r3]; exact I.nonempty
  · intro n d1 h1
    obtain ⟨d, hd⟩ := (Dict.exists_get?_iff D.nodes n).2
      (by rw [← h.nodeKeys]; exact Dict.mem_keys_of_get? h1)
    rw [(h.node n d d1 hd h1).1]
    exact I.reaction n d hd
  · intro e d1 h1
    obtain ⟨d, hd⟩ := (Dict.exists_get?_iff D.edges e).2
      (by rw [← h.edgeKeys]; exact Dict.mem_keys_of_get? h1)
    rw [h.edge e d d1 hd h1]
    exact I.typed e d hd

theorem SameShape.acyclic (hA : Acyclic D) : Acyclic E := by
  have key : ∀ b x, Needs E b x → Needs D b x := by
    rintro b x ⟨a, ⟨k, tr, ht, hc⟩, hx⟩
    refine ⟨a, ⟨k, tr, by rw [← h.rest.2.2]; exact ht, hc⟩, hx.imp id ?_⟩
    rintro ⟨d, hd | hd, ht⟩
    · obtain ⟨d', hd', ht'⟩ := (h.edgeType _ _).1 ⟨d, hd, ht⟩
      exact ⟨d', Or.inl hd', ht'⟩
    · obtain ⟨d', hd', ht'⟩ := (h.edgeType _ _).1 ⟨d, hd, ht⟩
      exact ⟨d', Or.inr hd', ht'⟩
  intro n hn
  exact hA n (Relation.TransGen.mono key n n hn)

theorem SameShape.direct (hd : DirectOnly D) : DirectOnly E := by
  intro a b d1 h1 ht
  obtain ⟨d, hd', ht'⟩ := (h.edgeType (a, b) .deviation).1 ⟨d1, h1, ht⟩
  rw [(h.typeOf _).2, (h.typeOf _).2]
  exact hd a b d hd' ht'

end shape

/-- What form finding leaves of the data of a diagram. -/
structure KeepsData (D F : Diagram ℝ) : Prop where
  nodeKeys : F.nodes.keys = D.nodes.keys
  edgeKeys : F.edges.keys = D.edges.keys
  node : ∀ n d, D.nodes.get? n = some d → ∃ d', F.nodes.get? n = some d' ∧ d'.load = d.load ∧
    ((∃ tr, (n, tr) ∈ D.trails) → d'.pos = d.pos) ∧ (d.type ≠ .support → d'.reaction = 0)
  edge : ∀ e d, D.edges.get? e = some d → ∃ d', F.edges.get? e = some d' ∧ d'.type = d.type ∧
    (d.type = .deviation → d'.force = d.force)

/-- The edge between consecutive nodes of a trail is a trail edge. -/
theorem consecutive_type {D : Diagram ℝ} (I : ValidInput D) {key : Int} {tr : List Int} {a b : Int}
    {e : Int × Int} {d : EdgeData ℝ} (htr : (key, tr) ∈ D.trails) (hc : Consecutive tr a b)
    (he : e = (a, b) ∨ e = (b, a)) (h0 : D.edges.get? e = some d) : d.type = .trail := by
  have hadj : TrailAdj D a b := (isChain_iff_consecutive tr).1 (I.trails.chain key tr htr) a b hc
  rcases hadj with ⟨d3, h3, t3⟩ | ⟨d3, h3, t3⟩ <;> rcases he with rfl | rfl
  · rw [h0] at h3; rw [Option.some.inj h3]; exact t3
  · exact absurd (Dict.mem_keys_of_get? h0) (I.simple.noAnti _ _ (Dict.mem_keys_of_get? h3))
  · exact absurd (Dict.mem_keys_of_get? h0) (I.simple.noAnti _ _ (Dict.mem_keys_of_get? h3))
  · rw [h0] at h3; rw [Option.some.inj h3]; exact t3

/-- A form whose trail edges carry forces is the equilibrium of a diagram with other loads and data of trail
edges that fit. -/
theorem backward {D F : Diagram ℝ} (I : ValidInput D) (K : KeepsData D F)
    (P : ∀ e d, F.edges.get? e = some d → d.type = .trail → d.force ≠ 0)
    (f : Int × Int → EdgeData ℝ → EdgeData ℝ) (hty : ∀ e d, (f e d).type = d.type)
    (hfo : ∀ e d, (f e d).force = d.force)
    (hp : ∀ key tr a b e d d', (key, tr) ∈ D.trails → Consecutive tr a b →
      (e = (a, b) ∨ e = (b, a)) → D.edges.get? e = some d → F.edges.get? e = some d' →
      AsPrescribed (f e d) d'.force (posOf F a) (posOf F b)) :
    SameShape D (reedge (reload D (imbalance F)) f) ∧
    EquilibriumOf (reedge (reload D (imbalance F)) f) (reload F (imbalance F)) := by
  have hn : ∀ n, (reedge (reload D (imbalance F)) f).nodes.get? n =
      (D.nodes.get? n).map fun d => { d with load := d.load - imbalance F n } :=
    fun n => reload_get? D _ n
  have hk : (reedge (reload D (imbalance F)) f).nodes.keys = D.nodes.keys := reload_keys D _
  have hek : (reedge (reload D (imbalance F)) f).edges.keys = D.edges.keys := reedge_keys D _
  have hee : ∀ e, (reedge (reload D (imbalance F)) f).edges.get? e = (D.edges.get? e).map (f e) :=
    fun e => reedge_get? D f e
  have hshape : SameShape D (reedge (reload D (imbalance F)) f) := by
    refine ⟨hk, hek, ?_, ?_, rfl, rfl, rfl⟩
    · intro n d d' hd hd'
      rw [hn, hd] at hd'
      obtain rfl := Option.some.inj hd'
      exact ⟨rfl, rfl, rfl⟩
    · intro e d d' hd hd'
      rw [hee, hd] at hd'
      obtain rfl := Option.some.inj hd'
      exact hty e d
  refine ⟨hshape, ?_, ?_, ?_, ?_, ?_, ?_, ?_, ?_⟩
  · rw [hk, reload_keys, K.nodeKeys]
  · rw [hek, ← K.edgeKeys]
    exact List.Perm.refl _
  · intro n
    unfold loadAt
    rw [reload_get?, hn]
    cases hd : D.nodes.get? n with
    | none =>
      have : F.nodes.get? n = none := by
        rw [Dict.get?_eq_none_iff, K.nodeKeys]; exact (Dict.get?_eq_none_iff _ _).1 hd
      rw [this]
    | some d =>
      obtain ⟨d', hd', e1, _⟩ := K.node n d hd
      rw [hd']; simp [e1]
  · intro n tr htr
    have htr' : (n, tr) ∈ D.trails := htr
    obtain ⟨rest, rfl⟩ := I.trails.head n tr htr'
    have hm := I.trails.mem_keys htr' List.mem_cons_self
    obtain ⟨d, hdn⟩ := (Dict.exists_get?_iff _ _).2 hm
    obtain ⟨d', hd', _, e4, _⟩ := K.node n d hdn
    rw [(reload_pos F _ n).1]
    unfold posOf
    rw [hn, hdn, hd']
    simp [e4 ⟨_, htr'⟩]
  · intro n hm hs
    rw [hk] at hm
    obtain ⟨d, hdn⟩ := (Dict.exists_get?_iff _ _).2 hm
    obtain ⟨d', hd', _, _, e5⟩ := K.node n d hdn
    rw [(reload_pos F _ n).2]
    unfold reactionAt
    rw [hd']
    have : d.type ≠ .support := by
      rintro ht
      exact hs (by rw [(hshape.typeOf n).1]; unfold typeOf; rw [hdn, Option.map_some, ht])
    simp [e5 this]
  · intro n hm
    rw [hk, ← K.nodeKeys] at hm
    rw [reload_imbalance F _ hm, sub_self]
  · intro e d d' h0 h1 ht
    rw [hee] at h0
    obtain ⟨d0, hd0, rfl⟩ := Option.map_eq_some_iff.1 h0
    rw [hty] at ht
    obtain ⟨d2, h2, _, e3⟩ := K.edge e d0 hd0
    have h1' : F.edges.get? e = some d' := h1
    rw [h1'] at h2
    rw [Option.some.inj h2, hfo]
    exact e3 ht
  · intro key tr a b e d d' htr hc he h0 h1
    rw [hee] at h0
    obtain ⟨d0, hd0, rfl⟩ := Option.map_eq_some_iff.1 h0
    have h1' : F.edges.get? e = some d' := h1
    have ht := consecutive_type I (key := key) htr hc he hd0
    obtain ⟨d2, h2, e1, _⟩ := K.edge e d0 hd0
    rw [h1'] at h2
    obtain rfl := Option.some.inj h2
    rw [(reload_pos F _ a).1, (reload_pos F _ b).1]
    exact ⟨P e d' h1' (e1.trans ht), hp key tr a b e d0 d' htr hc he hd0 h1'⟩

/-! ## Rounded forms -/

theorem fl_keepsData {D : Diagram ℝ} (I : ValidInput D) {ind : Bool} {p s : EqState ℝ}
    {r : Int → Vec ℝ} {Q : Int → Int → Vec ℝ} (S : FlFinalSpec A D none ind p s r Q) :
    KeepsData D (flFormOf A D s) := by
  have w := I.wf
  have V := I.trails
  refine ⟨formNodes_keys _ _, fl_formEdges_keys _ _, ?_, ?_⟩
  · intro n d hd
    have hn := Dict.mem_keys_of_get? hd
    have hget := fl_formOf_get? w S n
    rw [hd] at hget
    refine ⟨_, hget, rfl, ?_, ?_⟩
    · rintro ⟨tr, htr⟩
      have hstart := (S.start n ?_).1
      · rw [hstart]
        unfold EqState.pos initState
        rw [get?_map_val D.nodes (fun d => d.pos), hd]; rfl
      · intro a _ ha
        exact head_not_next w V htr a (nxtK_trail ha)
    · intro ht
      have hnx : nxtK D none n ≠ none := by
        rw [nxtK_none w V]
        intro hx
        obtain ⟨m, hm⟩ := trailNext_isSome w V hn (by unfold typeOf; rw [hd]; simp [ht])
        rw [hx] at hm
        simp at hm
      simp only [S.react n]
      rw [if_neg (fun hc => hnx hc.2)]
      exact I.reaction n d hd
  · intro e d hd
    have hget := fl_formOf_edge S e
    rw [hd] at hget
    refine ⟨_, hget, (fl_signedLength_force _ _ _).2.1, ?_⟩
    intro ht
    rw [(fl_signedLength_force _ _ _).1]
    obtain ⟨a, b⟩ := e
    obtain ⟨k1, _⟩ := edgeKey_of_mem I.simple (Dict.mem_keys_of_get? hd)
    have e1 : edgeData D a b = d := by unfold edgeData; rw [k1, hd]; rfl
    have := fl_formForce_dev w V I.simple S (n := a) (m := b) (by rw [e1]; exact ht)
    unfold formForce at this
    rwa [e1, k1] at this

/-- A trail edge of a rounded form. -/
theorem fl_trail_form {D : Diagram ℝ} (I : ValidInput D) {ind : Bool} {p s : EqState ℝ}
    {r : Int → Vec ℝ} {Q : Int → Int → Vec ℝ} (S : FlFinalSpec A D none ind p s r Q)
    {key : Int} {tr : List Int} (htr : (key, tr) ∈ D.trails) {a b : Int} (hc : Consecutive tr a b)
    {e : Int × Int} (he : e = (a, b) ∨ e = (b, a)) {d0 d : EdgeData ℝ}
    (h0 : D.edges.get? e = some d0) (h : (flFormOf A D s).edges.get? e = some d) :
    posOf (flFormOf A D s) b = A.vadd (posOf (flFormOf A D s) a) (A.vscale
      (flEffectiveLength A d0 (posOf (flFormOf A D s) a) (r a)) (A.vnormalize (r a))) ∧
    d.force = copysign (A.vlength (r a)) (flEffectiveLength A d0 (posOf (flFormOf A D s) a) (r a)) := by
  have w := I.wf
  have V := I.trails
  have hkey : edgeKey D a b = e := by
    have hm := Dict.mem_keys_of_get? h0
    rcases he with rfl | rfl
    · exact (edgeKey_of_mem I.simple hm).1
    · exact (edgeKey_of_mem I.simple hm).2
  have hed : edgeData D a b = d0 := by unfold edgeData; rw [hkey, h0]; rfl
  have hnx : nxtK D none a = some b := by
    rw [nxtK_none w V]; exact (trailNext_iff w V).2 ⟨key, tr, htr, hc⟩
  obtain ⟨h1, _, h3, _⟩ := S.next a (V.mem_keys htr hc.mem_left) b hnx
  rw [hed] at h1 h3
  rw [hkey] at h3
  rw [fl_formOf_edge S, h0] at h
  have hd := (Option.some.inj h).symm
  rw [fl_posOf_form w S, fl_posOf_form w S]
  refine ⟨h1, ?_⟩
  rw [hd, (fl_signedLength_force _ _ _).1, h3]; rfl

/-- The ends of a trail edge in the order of the trail. -/
noncomputable def trailEnds (D : Diagram ℝ) (e : Int × Int) : Int × Int :=
  if trailNext D e.1 = some e.2 then e else (e.2, e.1)

theorem trailEnds_eq {D : Diagram ℝ} (I : ValidInput D) {key : Int} {tr : List Int}
    (htr : (key, tr) ∈ D.trails) {a b : Int} (hc : Consecutive tr a b)
    {e : Int × Int} (he : e = (a, b) ∨ e = (b, a)) : trailEnds D e = (a, b) := by
  have hab : trailNext D a = some b := (trailNext_iff I.wf I.trails).2 ⟨key, tr, htr, hc⟩
  rcases he with rfl | rfl
  · unfold trailEnds; rw [if_pos hab]
  · unfold trailEnds
    rw [if_neg]
    intro hba
    have h1 := Follows.seq I.trails ((trailNext_iff I.wf I.trails).1 hab)
    have h2 := Follows.seq I.trails ((trailNext_iff I.wf I.trails).1 hba)
    obtain ⟨k, _, e1, e2⟩ := h1
    obtain ⟨k', _, e3, e4⟩ := h2
    rw [e2] at e3
    rw [e1] at e4
    have := Option.some.inj e3
    have := Option.some.inj e4
    omega

/-- Data of a trail edge with which it is as in the form `F`. -/
noncomputable def fitEdge (u : ℝ) (D F : Diagram ℝ) (e : Int × Int) (d : EdgeData ℝ) : EdgeData ℝ :=
  if d.type = .trail then
    let a := posOf F (trailEnds D e).1
    let b := posOf F (trailEnds D e).2
    { d with
      length := copysign (Vec.dist a b) (((F.edges.get? e).map (·.force)).getD 0)
      plane := match d.plane with
        | none => none
        | some (o, N) => if |dot N (b - o)| ≤ 30 * u * length N * (length o + length a + length b)
            then some (b, N) else none }
  else d

theorem fitEdge_type (u : ℝ) (D F : Diagram ℝ) (e : Int × Int) (d : EdgeData ℝ) :
    (fitEdge u D F e d).type = d.type ∧ (fitEdge u D F e d).force = d.force := by
  unfold fitEdge
  split_ifs <;> exact ⟨rfl, rfl⟩

theorem byLength_copysign {a b : Vec ℝ} {f : ℝ} (hf : f ≠ 0) (hab : a ≠ b) :
    ByLength (copysign (Vec.dist a b) f) f a b := by
  have hd : 0 < Vec.dist a b := length_pos (sub_ne_zero.2 hab)
  unfold ByLength copysign
  split_ifs with h
  · exact ⟨by rw [abs_neg, abs_abs, abs_of_pos hd], mul_pos_of_neg_of_neg h (by simpa using hd.ne')⟩
  · exact ⟨by rw [abs_abs, abs_of_pos hd], mul_pos (lt_of_le_of_ne (not_lt.1 h) (Ne.symm hf))
      (by simpa using hd.ne')⟩

theorem fitEdge_prescribed {u : ℝ} {D F : Diagram ℝ} (I : ValidInput D) {key : Int} {tr : List Int}
    (htr : (key, tr) ∈ D.trails) {a b : Int} (hc : Consecutive tr a b)
    {e : Int × Int} (he : e = (a, b) ∨ e = (b, a)) {d d' : EdgeData ℝ} (h0 : D.edges.get? e = some d)
    (h1 : F.edges.get? e = some d') (hf : d'.force ≠ 0) (hab : posOf F a ≠ posOf F b) :
    AsPrescribed (fitEdge u D F e d) d'.force (posOf F a) (posOf F b) := by
  have ht := consecutive_type I htr hc he h0
  have hB := byLength_copysign hf hab
  unfold fitEdge AsPrescribed
  rw [if_pos ht]
  simp only [trailEnds_eq I htr hc he, h1, Option.map_some, Option.getD_some]
  cases hp : d.plane with
  | none => exact hB
  | some q =>
    obtain ⟨o, N⟩ := q
    dsimp only
    split_ifs
    · refine ⟨fun _ => ?_, fun _ => hB⟩
      simp [dot]
    · exact hB

/-- The data fitted to a rounded form are close. -/
theorem fitEdge_near (H : Precise A u) (hu : u ≤ 1 / 100) {D : Diagram ℝ} (I : ValidInput D)
    {ind : Bool} {p s : EqState ℝ}
    {r : Int → Vec ℝ} {Q : Int → Int → Vec ℝ} (S : FlFinalSpec A D none ind p s r Q)
    {key : Int} {tr : List Int} (htr : (key, tr) ∈ D.trails) {a b : Int} (hc : Consecutive tr a b)
    {e : Int × Int} (he : e = (a, b) ∨ e = (b, a)) {d d' : EdgeData ℝ}
    (h0 : D.edges.get? e = some d) (h1 : (flFormOf A D s).edges.get? e = some d')
    (hf : d'.force ≠ 0) :
    NearEdge u d (fitEdge u D (flFormOf A D s) e d) (posOf (flFormOf A D s) a)
      (posOf (flFormOf A D s) b) := by
  have ht := consecutive_type I htr hc he h0
  obtain ⟨e1, e2⟩ := fl_trail_form I S htr hc he h0 h1
  refine ⟨(fitEdge_type _ _ _ _ _).1, (fitEdge_type _ _ _ _ _).2, ?_⟩
  have hr : r a ≠ 0 := by
    intro h
    rw [h, vlength_zero H hu] at e2
    exact hf (by rw [e2]; simp [copysign])
  have hlen : ∀ l, flEffectiveLength A d (posOf (flFormOf A D s) a) (r a) = l → l = d.length →
      |(fitEdge u D (flFormOf A D s) e d).length - d.length| ≤
        11 * u * (length (posOf (flFormOf A D s) a) + length (posOf (flFormOf A D s) b)) := by
    rintro l hl rfl
    rw [hl] at e1 e2
    have h2 := length_error H hu (posOf (flFormOf A D s) a) (r a) d.length hr
    rw [← e1] at h2
    refine le_trans (le_of_eq ?_) h2
    unfold fitEdge
    rw [if_pos ht]
    simp only [trailEnds_eq I htr hc he, h1, Option.map_some, Option.getD_some]
    have hd0 : 0 ≤ Vec.dist (posOf (flFormOf A D s) a) (posOf (flFormOf A D s) b) := length_nonneg _
    have hv := vlength_nonneg H hu (r a)
    unfold copysign at e2 ⊢
    rw [abs_of_nonneg hd0]
    rw [abs_of_nonneg hv] at e2
    by_cases hneg : d.length < 0
    · rw [if_pos hneg] at e2
      have : d'.force < 0 := lt_of_le_of_ne (by rw [e2]; linarith) hf
      rw [if_pos this, abs_of_neg hneg, ← abs_neg]
      congr 1
      ring
    · rw [if_neg hneg] at e2
      have : ¬ d'.force < 0 := by rw [e2]; exact not_lt.2 hv
      rw [if_neg this, abs_of_nonneg (not_lt.1 hneg)]
  cases hp : d.plane with
  | none =>
    left
    refine ⟨?_, hlen _ rfl (by unfold flEffectiveLength; rw [hp]), by simp⟩
    unfold fitEdge
    rw [if_pos ht]
    simp only [hp]
  | some q =>
    obtain ⟨o, N⟩ := q
    by_cases hcl : |dot N (posOf (flFormOf A D s) b - o)| ≤ 30 * u * length N *
        (length o + length (posOf (flFormOf A D s) a) + length (posOf (flFormOf A D s) b))
    · right
      refine ⟨o, posOf (flFormOf A D s) b, N, rfl, ?_, hcl⟩
      unfold fitEdge
      rw [if_pos ht]
      simp only [trailEnds_eq I htr hc he, hp]
      rw [if_pos hcl]
    · left
      have hcase : flPlaneLength A (posOf (flFormOf A D s) a) (r a) (o, N) = none ∨
          flPlaneLength A (posOf (flFormOf A D s) a) (r a) (o, N) = some 0 := by
        by_contra hcon
        push Not at hcon
        obtain ⟨l, hl⟩ := Option.ne_none_iff_exists'.1 hcon.1
        have hl0 : l ≠ 0 := fun h => hcon.2 (by rw [hl, h])
        have heff : flEffectiveLength A d (posOf (flFormOf A D s) a) (r a) = l := by
          unfold flEffectiveLength
          rw [hp]
          simp only [hl]
          rw [if_neg hl0]
        rw [heff] at e1
        have := plane_error H hu o N (posOf (flFormOf A D s) a) (r a) hr hl
        rw [← e1] at this
        exact hcl this
      have heff : flEffectiveLength A d (posOf (flFormOf A D s) a) (r a) = d.length := by
        unfold flEffectiveLength
        rw [hp]
        rcases hcase with h | h
        · simp only [h]
        · simp only [h, if_true]
      refine ⟨?_, hlen _ heff rfl, ?_⟩
      · unfold fitEdge
        rw [if_pos ht]
        simp only [trailEnds_eq I htr hc he, hp]
        rw [if_neg hcl]
      · intro o' N' h
        obtain ⟨rfl, rfl⟩ := Prod.mk.inj (Option.some.inj h)
        have := plane_unused H hu o N (posOf (flFormOf A D s) a) (r a) hr
          (flEffectiveLength A d (posOf (flFormOf A D s) a) (r a)) hcase
        rw [← e1] at this
        exact this

end CEM
