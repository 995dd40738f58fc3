import Verif.Spec.Locality
import Verif.Spec.Uniqueness
import Verif.Spec.Optimizer

/-!
# Problems that differ in the forces of indirect deviation edges
-/

namespace CEM
namespace Spec

/-- `e` is a deviation edge between nodes of different sequences. -/
def Indirect (D : Diagram ℝ) (e : Int × Int) : Prop :=
  ∃ d, D.edges.get? e = some d ∧ d.type = .deviation ∧ seqOf D e.1 ≠ seqOf D e.2

/-- The force of an indirect deviation edge. -/
def IndirectForce (D : Diagram ℝ) : Slot → Prop
  | .edge e .force => Indirect D e
  | _ => False

/-- `E` is the problem `D` with other forces of the indirect deviation edges, none of which is
larger than `t`. -/
structure WithIndirect (D E : Diagram ℝ) (t : ℝ) : Prop where
  same : SameExcept (IndirectForce D) D E
  bound : ∀ e d, Indirect D e → E.edges.get? e = some d → |d.force| ≤ t

/-- No deviation edge has shrunk to a point in the form `G`, and every plane clearly is or is not
used: where the edge is not clearly parallel to the plane, it is clearly not parallel to it and does
not start on it. -/
structure Distinct (D G : Diagram ℝ) : Prop where
  apart : ∀ e d, D.edges.get? e = some d → d.type = .deviation → posOf G e.1 ≠ posOf G e.2
  planes : ∀ a b d o N, Follows D a b → EdgeBetween D a b d → d.plane = some (o, N) →
    |Vec.dot N (unit (posOf G b - posOf G a))| < 1 / 1000000 ∨
    (1 / 1000000 < |Vec.dot N (unit (posOf G b - posOf G a))| ∧ Vec.dot N (posOf G a - o) ≠ 0)

/-- Two forms have the same positions, reactions and forces. -/
def SameForm (D G G' : Diagram ℝ) : Prop :=
  (∀ n ∈ D.nodes.keys, posOf G n = posOf G' n ∧ reactionAt G n = reactionAt G' n) ∧
  (∀ e d d', G.edges.get? e = some d → G'.edges.get? e = some d' → d.force = d'.force)

end Spec
end CEM
