import Verif.Spec.Locality
import Mathlib.Logic.Relation

/-!
# Which positions a position needs

Nothing here refers to the way in which a form is found.
-/

namespace CEM
namespace Spec

variable {R : Type}

/-- The position of `b` needs that of `x`: `x` is the node before `b` in its trail, or joined to that
node by a deviation edge. -/
def Needs (D : Diagram R) (b x : Int) : Prop :=
  ∃ a, Follows D a b ∧ (x = a ∨ ∃ d, EdgeBetween D a x d ∧ d.type = .deviation)

/-- No position needs itself, directly or through others. -/
def Acyclic (D : Diagram R) : Prop := ∀ n, ¬ Relation.TransGen (Needs D) n n

/-- Stages of the nodes: what is needed to place a node has no later stage, and an earlier one if it
is reached through an indirect deviation edge to a later sequence; indirect edges are not used in
stage 0. -/
structure Staged (D : Diagram R) (stage : Int → Nat) : Prop where
  before : ∀ a b, Follows D a b → stage a ≤ stage b
  direct : ∀ a b m d, Follows D a b → EdgeBetween D a m d → d.type = .deviation →
    seqOf D a = seqOf D m → stage m ≤ stage b
  earlier : ∀ a b m d i j, Follows D a b → EdgeBetween D a m d → d.type = .deviation →
    seqOf D a = some i → seqOf D m = some j → j < i → 1 ≤ stage b ∧ stage m ≤ stage b
  later : ∀ a b m d i j, Follows D a b → EdgeBetween D a m d → d.type = .deviation →
    seqOf D a = some i → seqOf D m = some j → i < j → stage m < stage b

end Spec
end CEM
