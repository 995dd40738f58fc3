import Verif.Spec.Smooth
import Verif.Spec.Trails
import Verif.Lemmas.EqLoop

/-!
# Runs of form finding that stay away from kinks
-/

namespace CEM
namespace Spec
open Diagram

/-- The form with the numbers that form finding has after `j` sweeps. -/
def AfterSweeps (D : Diagram ℝ) (j : Nat) (F : Diagram ℝ) : Prop :=
  ∃ T N s, D.trailsSequences = .ok T ∧ D.numberOfSequences = .ok N ∧
    sweepsN D T none N j = .ok s ∧ F = formUpdate (formFromTopology D) s

/-- The first `m` sweeps, with the forms `F 1` to `F m`, stay away from kinks.  After each of them the
trail edges carry forces, no deviation edge that was considered has shrunk to a point, and planes
clearly are or are not used.  A node that is placed before the other end of its deviation edge does
not meet the place where this end was one sweep before. -/
structure Kinkless (D : Diagram ℝ) (m : Nat) (F : Nat → Diagram ℝ) : Prop where
  sweeps : ∀ j, 1 ≤ j → j ≤ m → AfterSweeps D j (F j)
  carry : ∀ j, 1 ≤ j → j ≤ m → TrailsCarry (F j)
  apart : ∀ j, 1 ≤ j → j ≤ m → ∀ a b d, EdgeBetween D a b d → d.type = .deviation →
    (j = 1 → seqOf D a = seqOf D b) → posOf (F j) a ≠ posOf (F j) b
  before : ∀ j, 1 ≤ j → j + 1 ≤ m → ∀ a b d p q, EdgeBetween D a b d → d.type = .deviation →
    seqOf D a = some p → seqOf D b = some q → p < q → posOf (F (j + 1)) a ≠ posOf (F j) b
  planes : ∀ j, 1 ≤ j → j ≤ m → ∀ a b d o N, Follows D a b → EdgeBetween D a b d → d.plane = some (o, N) →
    |Vec.dot N (unit (posOf (F j) b - posOf (F j) a))| < 1 / 1000000 ∨
    (1 / 1000000 < |Vec.dot N (unit (posOf (F j) b - posOf (F j) a))| ∧ Vec.dot N (posOf (F j) a - o) ≠ 0)

/-- How far the nodes of one form are from those of another. -/
noncomputable def moved (D F G : Diagram ℝ) : ℝ :=
  Real.sqrt ((D.nodes.keys.map fun n => Vec.dist (posOf F n) (posOf G n) ^ 2).sum)

/-- Form finding clearly stops after `m` sweeps: one sweep is all there is, or the nodes move by less
than the threshold in sweep `m`, and by more in the ones before, where the first does not count. -/
def StopsAt (D : Diagram ℝ) (tmax : Nat) (eta : ℝ) (m : Nat) (F : Nat → Diagram ℝ) : Prop :=
  tmax = 1 ∧ m = 1 ∨ 2 ≤ m ∧ m ≤ tmax ∧ moved D (F (m - 1)) (F m) < eta ∧
    ∀ j, 2 ≤ j → j < m → eta < moved D (F (j - 1)) (F j)

end Spec
end CEM
