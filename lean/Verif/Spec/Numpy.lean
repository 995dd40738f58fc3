import Verif.Model.EquilibriumNumpy
import Verif.Spec.Statics

/-!
# Runs of the numpy solver
-/

namespace CEM
namespace Spec
open Diagram

variable {R : Type} [Field R] [LinearOrder R] [PySqrt R]

/-- The state of the numpy solver after `m` sweeps. -/
def numpySweeps (D : Diagram R) (tab : NTables R) (T : Dict Int (Dict Int Int)) (N : Int) :
    Nat → Except PyErr (NState R)
  | 0 => .ok (npInit D)
  | m + 1 =>
    match numpySweeps D tab T N m with
    | .error e => .error e
    | .ok s => npSweep D tab T (m > 0) N s

/-- No position and no reaction force is NaN. -/
def NoNaN (s : NState R) : Prop :=
  (∀ n, s.xyz.get? n ≠ some none) ∧ (∀ n, s.reactions.get? n ≠ some none)

/-- `s'` has the numbers of `s`, and no NaN. -/
structure SameNumbers (s : EqState R) (s' : NState R) : Prop where
  xyz : ∀ n, s'.xyz.get? n = (s.xyz.get? n).map some
  forces : ∀ e, s'.trailForces.get? e = (s.trailForces.get? e).map some
  directions : ∀ e, s'.trailDirs.get? e = (s.trailDirs.get? e).map some
  reactions : ∀ n, s'.reactions.get? n = (s.reactions.get? n).map some

/-- No division by zero in the form: the ends of a deviation edge are apart, and a trail
edge that ends on a plane carries a force. -/
structure Nondegenerate (F : Diagram ℝ) : Prop where
  deviation : ∀ a b d, F.edges.get? (a, b) = some d → d.type = .deviation → posOf F a ≠ posOf F b
  plane : ∀ e d, F.edges.get? e = some d → d.type = .trail → d.plane ≠ none → d.force ≠ 0

/-- Some node has a position or a reaction force all of whose coordinates are NaN. -/
def HasNaN (G : Diagram (Num ℝ)) : Prop :=
  ∃ n d, G.nodes.get? n = some d ∧ (d.pos = ⟨none, none, none⟩ ∨ d.reaction = ⟨none, none, none⟩)

end Spec
end CEM
