import Verif.Lemmas.Nodal
import Verif.Spec.Limit

/-!
# Limits of vectors
-/

namespace CEM
open Diagram Spec Filter Topology

namespace Approach

theorem const (v : Vec ℝ) : Approaches (fun _ => v) v := by
  unfold Approaches Vec.dist
  simp only [sub_self, Vec.length_zero]
  exact tendsto_const_nhds

/-- A sequence is squeezed to its limit. -/
theorem squeeze {u : ℕ → Vec ℝ} {v : Vec ℝ} {b : ℕ → ℝ} (hb : Tendsto b atTop (𝓝 0))
    (h : ∀ᶠ j in atTop, Vec.length (u j - v) ≤ b j) : Approaches u v :=
  squeeze_zero' (Eventually.of_forall fun _ => Vec.length_nonneg _) h hb

theorem add {u u' : ℕ → Vec ℝ} {v v' : Vec ℝ} (h : Approaches u v) (h' : Approaches u' v') :
    Approaches (fun j => u j + u' j) (v + v') := by
  refine squeeze (b := fun j => Vec.dist (u j) v + Vec.dist (u' j) v') (by simpa using Tendsto.add h h')
    (Eventually.of_forall fun j => ?_)
  have : u j + u' j - (v + v') = (u j - v) + (u' j - v') := by abel
  rw [this]
  exact Vec.length_add_le _ _

theorem sub {u u' : ℕ → Vec ℝ} {v v' : Vec ℝ} (h : Approaches u v) (h' : Approaches u' v') :
    Approaches (fun j => u j - u' j) (v - v') := by
  refine squeeze (b := fun j => Vec.dist (u j) v + Vec.dist (u' j) v') (by simpa using Tendsto.add h h')
    (Eventually.of_forall fun j => ?_)
  have : u j - u' j - (v - v') = (u j - v) - (u' j - v') := by abel
  rw [this]
  exact Vec.length_sub_le _ _

theorem length {u : ℕ → Vec ℝ} {v : Vec ℝ} (h : Approaches u v) :
    Tendsto (fun j => Vec.length (u j)) atTop (𝓝 (Vec.length v)) := by
  rw [tendsto_iff_dist_tendsto_zero]
  refine squeeze_zero (fun _ => _root_.dist_nonneg) (fun j => ?_) h
  rw [Real.dist_eq]
  exact Vec.abs_length_sub_le _ _

theorem smul {c : ℕ → ℝ} {c' : ℝ} {u : ℕ → Vec ℝ} {v : Vec ℝ} (hc : Tendsto c atTop (𝓝 c'))
    (h : Approaches u v) : Approaches (fun j => c j • u j) (c' • v) := by
  have h1 : Tendsto (fun j => |c j| * Vec.dist (u j) v + |c j - c'| * Vec.length v) atTop (𝓝 0) := by
    have a1 : Tendsto (fun j => |c j| * Vec.dist (u j) v) atTop (𝓝 (|c'| * 0)) := hc.abs.mul h
    have a2 : Tendsto (fun j => |c j - c'| * Vec.length v) atTop (𝓝 (|c' - c'| * Vec.length v)) :=
      ((hc.sub_const c').abs).mul_const _
    simpa using a1.add a2
  refine squeeze h1 (Eventually.of_forall fun j => ?_)
  have : c j • u j - c' • v = c j • (u j - v) + (c j - c') • v := by
    ext <;> simp <;> ring
  rw [this]
  refine (Vec.length_add_le _ _).trans ?_
  rw [Vec.length_smul, Vec.length_smul]
  rfl

theorem unit {u : ℕ → Vec ℝ} {v : Vec ℝ} (h : Approaches u v) (hv : v ≠ 0) :
    Approaches (fun j => Spec.unit (u j)) (Spec.unit v) := by
  refine squeeze (b := fun j => 2 * Vec.dist (u j) v / Vec.length v) ?_
    (Eventually.of_forall fun j => length_unit_sub_le _ hv)
  have := (Tendsto.const_mul 2 h).div_const (Vec.length v)
  simpa using this

theorem list_sum {α : Type} (l : List α) {u : ℕ → α → Vec ℝ} {v : α → Vec ℝ}
    (h : ∀ a ∈ l, Approaches (fun j => u j a) (v a)) :
    Approaches (fun j => (l.map (u j)).sum) (l.map v).sum := by
  induction l with
  | nil => exact const 0
  | cons a l ih =>
    simp only [List.map_cons, List.sum_cons]
    exact add (h a (by simp)) (ih fun b hb => h b (by simp [hb]))

theorem unique {u : ℕ → Vec ℝ} {v v' : Vec ℝ} (h : Approaches u v) (h' : Approaches u v') : v = v' := by
  have h2 := sub h h'
  have h3 := length h2
  simp only [sub_self, Vec.length_zero] at h3
  have h4 : Vec.length (v - v') = 0 := tendsto_nhds_unique h3 tendsto_const_nhds
  exact sub_eq_zero.1 (Vec.length_eq_zero.1 h4)

end Approach

/-- The edge `e` pulls at node `n`, from the force and positions. -/
noncomputable def pullAt (F : Diagram ℝ) (n : Int) (e : Int × Int) : Vec ℝ :=
  (if e.1 = n then forceAt F e • unit (posOf F e.2 - posOf F e.1) else 0) +
  (if e.2 = n then forceAt F e • unit (posOf F e.1 - posOf F e.2) else 0)

theorem sum_pull_keys {F : Diagram ℝ} (h : F.edges.keys.Nodup) (n : Int) :
    (F.edges.map (pull F n)).sum = (F.edges.keys.map (pullAt F n)).sum := by
  unfold Dict.keys
  rw [List.map_map]
  congr 1
  apply List.map_congr_left
  rintro ⟨e, d⟩ hm
  have := Dict.get?_of_mem h hm
  simp only [pull, pullAt, Function.comp, forceAt, this, Option.map_some, Option.getD_some]

end CEM
