import Verif.Spec.Small
import Verif.Spec.Limit
import Mathlib.Analysis.Calculus.ContDiff.Defs

/-!
# Problems and forms that depend smoothly on parameters
-/

namespace CEM
namespace Spec

variable {V : Type} [NormedAddCommGroup V] [NormedSpace ℝ V]

/-- A vector whose coordinates are `k` times continuously differentiable at `t0`. -/
structure SmoothAt (k : WithTop ℕ∞) (f : V → Vec ℝ) (t0 : V) : Prop where
  x : ContDiffAt ℝ k (fun t => (f t).x) t0
  y : ContDiffAt ℝ k (fun t => (f t).y) t0
  z : ContDiffAt ℝ k (fun t => (f t).z) t0

/-- The length of an edge as it is stored. -/
noncomputable def lengthAt (D : Diagram ℝ) (e : Int × Int) : ℝ := ((D.edges.get? e).map (·.length)).getD 0

/-- Problems `D t` that differ in numbers only, and whose numbers that matter depend smoothly on `t`:
the positions of the first nodes of the trails, the loads, the lengths of the trail edges, and the
forces of the deviation edges. -/
structure SmoothFamily (k : WithTop ℕ∞) (D : V → Diagram ℝ) (t0 : V) : Prop where
  same : ∀ t, SameExcept (fun _ => True) (D t0) (D t)
  origins : ∀ n tr, (n, tr) ∈ (D t0).trails → SmoothAt k (fun t => posOf (D t) n) t0
  loads : ∀ n ∈ (D t0).nodes.keys, SmoothAt k (fun t => loadAt (D t) n) t0
  lengths : ∀ e d, (D t0).edges.get? e = some d → d.type = .trail →
    ContDiffAt ℝ k (fun t => lengthAt (D t) e) t0
  forces : ∀ e d, (D t0).edges.get? e = some d → d.type = .deviation →
    ContDiffAt ℝ k (fun t => forceAt (D t) e) t0

/-- Forms `F t` that depend smoothly on `t`: positions and reactions of the nodes and forces of the
edges of `D` do, and the signed lengths of the edges that carry forces do. -/
structure SmoothForm (k : WithTop ℕ∞) (D : Diagram ℝ) (F : V → Diagram ℝ) (t0 : V) : Prop where
  positions : ∀ n ∈ D.nodes.keys, SmoothAt k (fun t => posOf (F t) n) t0
  reactions : ∀ n ∈ D.nodes.keys, SmoothAt k (fun t => reactionAt (F t) n) t0
  forces : ∀ e ∈ D.edges.keys, ContDiffAt ℝ k (fun t => forceAt (F t) e) t0
  lengths : ∀ e ∈ D.edges.keys, forceAt (F t0) e ≠ 0 → ContDiffAt ℝ k (fun t => lengthAt (F t) e) t0

/-- All trail edges of a form carry forces. -/
def TrailsCarry (F : Diagram ℝ) : Prop :=
  ∀ e d, F.edges.get? e = some d → d.type = .trail → d.force ≠ 0

end Spec
end CEM
