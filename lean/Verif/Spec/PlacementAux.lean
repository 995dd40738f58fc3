import Verif.Spec.Placement
import Verif.Spec.Walks

/-!
# Specification of node placement with auxiliary trails

`Spec/Placement.lean` summarises a history without auxiliary trails.  A call of
`build_trails(auxiliary_trails=True)` places one further node for every node on no walk,
in some order.
-/

namespace CEM
namespace Spec

variable {R : Type} [Field R] [DecidableEq R] [PySqrt R]

/-- One new node for each listed node, at the given offset from where that was placed
last. -/
def Log.placeNext (offset : Vec R) : Log R → List Int → Log R
  | l, [] => l
  | l, n :: U => placeNext offset (((l.lastOf n).getD 0 + offset, l.maxKey + 1) :: l) U

/-- `l` lists the placements made by a history on a new diagram. -/
inductive Placed (gkey : Vec R → String) : List (Op R) → Log R → Prop
  | new : Placed gkey [] []
  | op {ops : List (Op R)} {l : Log R} {op : Op R} : Placed gkey ops l → op.noAux →
      Placed gkey (ops ++ [op]) (l.step gkey op)
  | aux {ops : List (Op R)} {l : Log R} {order : List Int → List Int} {ws : List (List Int)}
      {U : List Int} : Placed gkey ops l → Walks (after gkey ops) ws → U.Nodup →
      (∀ n, n ∈ U ↔ n ∈ (after gkey ops).nodes.keys ∧ ∀ tr ∈ ws, n ∉ tr) →
      Placed gkey (ops ++ [.buildTrailsAux order])
        (l.placeNext ((after gkey ops).auxLength • (after gkey ops).auxVector.normalize) U)

end Spec
end CEM
