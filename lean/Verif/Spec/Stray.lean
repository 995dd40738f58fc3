import Verif.Spec.Trails
import Verif.Spec.Statics

/-!
# What form finding may change (specification)
-/

namespace CEM
namespace Spec

variable {R : Type}

/-- Node `n` is on a stored trail, with sequence `k`. -/
def OnTrailAt (D : Diagram R) (tr : List Int) (n k : Int) : Prop :=
  (∃ key, (key, tr) ∈ D.trails) ∧ n ∈ tr ∧ seqOf D n = some k

/-- Node `n` may be moved: it is on a stored trail, not in the first sequence. -/
def Movable (D : Diagram R) (n : Int) : Prop := ∃ tr k, OnTrailAt D tr n k ∧ 1 ≤ k

/-- Node `n` may get a reaction: it is on a stored trail and is a support or in the last
sequence that form finding visits. -/
def Reacting (D : Diagram R) (kmax : Option Int) (n : Int) : Prop :=
  ∃ tr k, OnTrailAt D tr n k ∧
    ((∃ d, D.nodes.get? n = some d ∧ d.type = .support) ∨ kmax = some k)

/-- The edge may get a new force: its ends are consecutive on one stored trail. -/
def Stretched (D : Diagram R) (e : Int × Int) : Prop :=
  ∃ tr k, (OnTrailAt D tr e.1 k ∧ OnTrailAt D tr e.2 (k + 1)) ∨
    (OnTrailAt D tr e.2 k ∧ OnTrailAt D tr e.1 (k + 1))

end Spec
end CEM
