import Verif.Model.Solve

/-!
# The norm of the gradient

Models `src/compas_cem/optimization/optimizer.py` 47 and 268-269.  `solve` assigns `gradient_norm` whenever it assigns
`gradient`, and nothing else does, so that the attribute is a function of the other one.
-/

namespace CEM
variable {R : Type} [Field R] [PySqrt R]

/-- `np.dot(g, g)` -/
def npSquares : List (Num R) → Num R
  | [] => some 0
  | a :: l => lift2 (fun x s => x * x + s) a (npSquares l)

/-- `np.linalg.norm(g)` of a one-dimensional array. -/
def npNorm (g : List (Num R)) : Num R := (npSquares g).map PySqrt.sqrt

/-- optimizer.py 47 and 268-269: the attribute `gradient_norm`. -/
def Attrs.gradientNorm (a : Attrs R) : Option (Num R) := a.gradient.map npNorm

end CEM
