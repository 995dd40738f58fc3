import Verif.Lemmas.VecReal
import Verif.Spec.WellFormed
import Verif.Lemmas.Dict

/-!
# Internal forces cancel in pairs
-/

namespace CEM
open Vec

theorem list_sum_map_add {α M : Type} [AddCommMonoid M] (l : List α) (f g : α → M) :
    (l.map fun a => f a + g a).sum = (l.map f).sum + (l.map g).sum := by
  induction l with
  | nil => simp
  | cons a l ih => simp only [List.map_cons, List.sum_cons, ih]; abel

theorem list_sum_comm {α β M : Type} [AddCommMonoid M] (l : List α) (k : List β) (f : α → β → M) :
    (l.map fun a => (k.map (f a)).sum).sum = (k.map fun b => (l.map fun a => f a b).sum).sum := by
  induction l with
  | nil => simp
  | cons a l ih =>
    simp only [List.map_cons, List.sum_cons, ih]
    rw [← list_sum_map_add]

theorem list_sum_ite {M : Type} [AddCommMonoid M] {l : List Int} (hn : l.Nodup) {a : Int}
    (ha : a ∈ l) (g : Int → M) : (l.map fun n => if a = n then g n else 0).sum = g a := by
  induction l with
  | nil => simp at ha
  | cons x l ih =>
    rw [List.nodup_cons] at hn
    simp only [List.map_cons, List.sum_cons]
    by_cases h : a = x
    · subst h
      rw [if_pos rfl]
      have : (l.map fun n => if a = n then g n else 0).sum = 0 := by
        apply List.sum_eq_zero
        intro y hy
        obtain ⟨n, hm, rfl⟩ := List.mem_map.1 hy
        rw [if_neg]
        rintro rfl; exact hn.1 hm
      rw [this, add_zero]
    · rw [if_neg h, zero_add]
      exact ih hn.2 (by simpa [h] using ha)

theorem map_list_sum {M N : Type} [AddCommMonoid M] [AddCommMonoid N] (f : M → N) (h0 : f 0 = 0)
    (ha : ∀ a b, f (a + b) = f a + f b) (l : List M) : f l.sum = (l.map f).sum := by
  induction l with
  | nil => simpa using h0
  | cons a l ih => simp [ha, ih]

namespace Spec

/-- The sum of `f n` of the imbalances; the edges contribute their two end forces. -/
theorem sum_imbalance (F : Diagram ℝ) (w : F.WF) (f : Int → Vec ℝ → Vec ℝ) (h0 : ∀ n, f n 0 = 0)
    (ha : ∀ n a b, f n (a + b) = f n a + f n b) :
    (F.nodes.keys.map fun n => f n (imbalance F n)).sum =
      (F.nodes.keys.map fun n => f n (loadAt F n + reactionAt F n)).sum +
      (F.edges.map fun p => f p.1.1 (p.2.force • unit (posOf F p.1.2 - posOf F p.1.1)) +
        f p.1.2 (p.2.force • unit (posOf F p.1.1 - posOf F p.1.2))).sum := by
  unfold imbalance
  simp only [ha]
  rw [list_sum_map_add]
  congr 1
  have h1 : ∀ n, f n (F.edges.map (pull F n)).sum = (F.edges.map fun p => f n (pull F n p)).sum := by
    intro n
    rw [map_list_sum (f n) (h0 n) (ha n), List.map_map]
    rfl
  simp only [h1]
  rw [list_sum_comm]
  congr 1
  apply List.map_congr_left
  intro p hp
  have hk : p.1 ∈ F.edges.keys := List.mem_map.2 ⟨p, hp, rfl⟩
  simp only [pull, ha]
  rw [list_sum_map_add]
  congr 1
  · rw [← list_sum_ite w.nodesNodup (w.edge_left _ hk)
      fun n => f n (p.2.force • unit (posOf F p.1.2 - posOf F p.1.1))]
    congr 1
    apply List.map_congr_left
    intro n _
    split_ifs <;> simp [h0]
  · rw [← list_sum_ite w.nodesNodup (w.edge_right _ hk)
      fun n => f n (p.2.force • unit (posOf F p.1.1 - posOf F p.1.2))]
    congr 1
    apply List.map_congr_left
    intro n _
    split_ifs <;> simp [h0]

theorem sum_imbalance_eq_total (F : Diagram ℝ) (w : F.WF) :
    (F.nodes.keys.map (imbalance F)).sum = totalForce F := by
  have h := sum_imbalance F w (fun _ v => v) (fun _ => rfl) (fun _ _ _ => rfl)
  rw [h, totalForce]
  have : (F.edges.map fun p => p.2.force • unit (posOf F p.1.2 - posOf F p.1.1) +
      p.2.force • unit (posOf F p.1.1 - posOf F p.1.2)).sum = 0 := by
    apply List.sum_eq_zero
    intro x hx
    obtain ⟨p, _, rfl⟩ := List.mem_map.1 hx
    rw [← smul_add, ← neg_sub (posOf F p.1.1), unit_neg, neg_add_cancel, smul_zero]
  rw [this, add_zero]

theorem cross_zero (a : Vec ℝ) : cross a 0 = 0 := by ext <;> simp [cross]
theorem cross_add (a b c : Vec ℝ) : cross a (b + c) = cross a b + cross a c := by
  ext <;> simp [cross] <;> ring

theorem cross_edge (a b c : Vec ℝ) (f : ℝ) :
    cross (a - c) (f • unit (b - a)) + cross (b - c) (f • unit (a - b)) = 0 := by
  rw [← neg_sub b a, unit_neg]
  unfold unit
  ext <;> simp [cross] <;> ring

theorem sum_moment_eq_total (F : Diagram ℝ) (w : F.WF) (c : Vec ℝ) :
    (F.nodes.keys.map fun n => cross (posOf F n - c) (imbalance F n)).sum = totalMoment F c := by
  have h := sum_imbalance F w (fun n v => cross (posOf F n - c) v) (fun _ => cross_zero _)
    (fun _ _ _ => cross_add _ _ _)
  rw [h, totalMoment]
  have : (F.edges.map fun p =>
      cross (posOf F p.1.1 - c) (p.2.force • unit (posOf F p.1.2 - posOf F p.1.1)) +
      cross (posOf F p.1.2 - c) (p.2.force • unit (posOf F p.1.1 - posOf F p.1.2))).sum = 0 := by
    apply List.sum_eq_zero
    intro x hx
    obtain ⟨p, _, rfl⟩ := List.mem_map.1 hx
    exact cross_edge _ _ _ _
  rw [this, add_zero]

end Spec
end CEM
