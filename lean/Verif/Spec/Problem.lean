import Verif.Spec.ValidInput
import Verif.Spec.Statics

/-!
# Data that determine a form
-/

namespace CEM
namespace Spec

/-- No deviation edge joins nodes of different sequences. -/
def DirectOnly {R : Type} (D : Diagram R) : Prop :=
  ∀ a b d, D.edges.get? (a, b) = some d → d.type = .deviation → seqOf D a = seqOf D b

/-- Every trail edge has a prescribed length other than zero. -/
def NonzeroTrails (D : Diagram ℝ) : Prop :=
  ∀ e d, D.edges.get? e = some d → d.type = .trail → d.length ≠ 0

/-- The two diagrams describe the same form finding problem: same nodes with the same
loads, types and sequences, same positions of the first nodes of
the trails, same trails (in any order),
and same edges (in any order) with the same prescribed lengths and planes of the trail
edges and the same forces of the deviation edges. -/
structure SameProblem {R : Type} [Field R] (D E : Diagram R) : Prop where
  nodes : ∀ n, (D.nodes.get? n).map (fun d => (d.load, d.type, d.k)) =
    (E.nodes.get? n).map (fun d => (d.load, d.type, d.k))
  origins : ∀ n tr, (n, tr) ∈ D.trails → posOf D n = posOf E n
  trails : ∀ p, p ∈ D.trails ↔ p ∈ E.trails
  edges : ∀ e, e ∈ D.edges.keys ↔ e ∈ E.edges.keys
  types : ∀ e d d', D.edges.get? e = some d → E.edges.get? e = some d' → d.type = d'.type
  trailData : ∀ e d d', D.edges.get? e = some d → E.edges.get? e = some d' → d.type = .trail →
    d.length = d'.length ∧ d.plane = d'.plane
  deviationData : ∀ e d d', D.edges.get? e = some d → E.edges.get? e = some d' →
    d.type = .deviation → d.force = d'.force

/-- The convergence threshold relative to the length of an edge: at most 2, and
2 for an edge of length zero. -/
noncomputable def slack (eta d : ℝ) : ℝ := if d = 0 then 2 else min 2 (2 * eta / d)

/-- Sum over the indirect deviation edges at node `n` of |force| times the slack. -/
noncomputable def nodalBound (F : Diagram ℝ) (eta : ℝ) (n : Int) : ℝ :=
  (F.edges.map fun p =>
    if (p.1.1 = n ∨ p.1.2 = n) ∧ p.2.type = .deviation ∧ seqOf F p.1.1 ≠ seqOf F p.1.2 then
      |p.2.force| * slack eta (Vec.length (posOf F p.1.2 - posOf F p.1.1))
    else 0).sum

end Spec
end CEM
