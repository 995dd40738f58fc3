import Verif.Spec.Trails

/-!
# Specification of the trail search

Which walks `build_trails` makes through a diagram, for every diagram: also with
branching or closed trails, edges from a node to itself and pairs of opposite edges.
Everything here speaks only about the stored attributes.
-/

namespace CEM
namespace Spec

variable {R : Type}

/-- The walk may go from `n` to `x`: the edge `(n, x)` is a trail edge, or there is no
such edge and `(x, n)` is a trail edge. -/
def Joined (D : Diagram R) (n x : Int) : Prop :=
  IsTrail D n x ∨ (n, x) ∉ D.edges.keys ∧ IsTrail D x n

/-- The first edge between `n` and `y` was stored before any edge between `n` and
`x`. -/
def Earlier (D : Diagram R) (n y x : Int) : Prop :=
  ∃ l e r, D.edges.keys = l ++ e :: r ∧ (e = (n, y) ∨ e = (y, n)) ∧ (n, x) ∉ l ∧ (x, n) ∉ l

/-- From `n` the walk goes to `x`: among the nodes it may go to and has not visited,
the one that became a neighbour of `n` last. -/
structure NextNode (D : Diagram R) (visited : List Int) (n x : Int) : Prop where
  joined : Joined D n x
  fresh : x ∉ visited
  last : ∀ y, Joined D n y → y ∉ visited → y ≠ x → Earlier D n y x

/-- A walk at `n`, which has visited `visited` (most recent first), ends as the
trail. -/
inductive WalkFrom (D : Diagram R) : List Int → Int → List Int → Prop
  | stop {visited : List Int} {n : Int} : (∀ x, ¬ NextNode D visited n x) →
      WalkFrom D visited n (n :: visited)
  | loop {visited : List Int} {n : Int} : NextNode D visited n n →
      WalkFrom D visited n (n :: n :: visited)
  | move {visited : List Int} {n x : Int} {tr : List Int} : NextNode D visited n x → x ≠ n →
      WalkFrom D (n :: visited) x tr → WalkFrom D visited n tr

/-- The walks made while going through a list of nodes, when the nodes `firsts` have
become origins already: one for each support which is not an origin by then. -/
inductive Search (D : Diagram R) : List Int → List Int → List (List Int) → Prop
  | done {firsts : List Int} : Search D [] firsts []
  | walk {n o : Int} {l firsts tr : List Int} {ws : List (List Int)} :
      typeOf D n = some .support → n ∉ firsts → WalkFrom D [] n (o :: tr) →
      Search D l (o :: firsts) ws → Search D (n :: l) firsts ((o :: tr) :: ws)
  | skip {n : Int} {l firsts : List Int} {ws : List (List Int)} :
      typeOf D n ≠ some .support ∨ n ∈ firsts →
      Search D l firsts ws → Search D (n :: l) firsts ws

/-- The walks of `build_trails` on `D`, in the order in which they are made. -/
def Walks (D : Diagram R) (ws : List (List Int)) : Prop := Search D D.nodes.keys [] ws

/-- Among the walks `tr` is the last one that satisfies `p`. -/
def LastWith (ws : List (List Int)) (p : List Int → Prop) (tr : List Int) : Prop :=
  ∃ pre post, ws = pre ++ tr :: post ∧ p tr ∧ ∀ t ∈ post, ¬ p t

/-- The last position of `n` in a list is `i`. -/
def LastPosition (l : List Int) (n : Int) (i : Nat) : Prop :=
  ∃ pre post, l = pre ++ n :: post ∧ pre.length = i ∧ n ∉ post

end Spec
end CEM
