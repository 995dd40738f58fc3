import Verif.Model.EquilibriumNumpy
import Verif.Model.Topology

/-!
# Optimization constraints

Models `src/compas_cem/optimization/constraints/*.py` (without `mesh.py`, which the package
does not import) on the state that the numpy solver returns, and the closest point functions
of `compas.geometry` (external).  Numbers and vectors may be NaN as in the numpy solver; a
quotient with denominator zero of numpy floats counts as NaN, too.
-/

namespace CEM

variable {R : Type} [Field R] [LinearOrder R] [PySqrt R]

/-- `compas.geometry.distance_point_point_sqrd` -/
def distSq (a b : Vec R) : R := Vec.dot (b - a) (b - a)

/-- `compas.geometry.vector_component(u, v)` -/
def vectorComponent (u v : Vec R) : Vec R :=
  if Vec.dot v v = 0 then 0 else (Vec.dot u v / Vec.dot v v) • v

/-- `compas.geometry.closest_point_on_line(point, (a, b))` -/
def closestOnLine (p a b : Vec R) : Vec R := a + vectorComponent (p - a) (b - a)

/-- `compas.geometry.closest_point_on_plane(point, (base, normal))`; NaN for the zero normal. -/
def closestOnPlane (p base normal : Vec R) : NVec R :=
  let n := Vec.normalize normal
  if Vec.dot n n = 0 then none
  else some (p - ((Vec.dot n p - Vec.dot n base) / Vec.dot n n) • n)

/-- `compas.geometry.closest_point_on_segment(point, (a, b))` -/
def closestOnSegment (p a b : Vec R) : Vec R :=
  let c := closestOnLine p a b
  let d := distSq a b
  let d1 := distSq a c
  let d2 := distSq b c
  if d1 > d ∨ d2 > d then (if d1 < d2 then a else b) else c

/-- `argmin` of the distances to a list of points: the first closest one. -/
def firstClosest (p : Vec R) : Vec R → List (Vec R) → Vec R
  | best, [] => best
  | best, q :: qs => firstClosest p (if Vec.dist p q < Vec.dist p best then q else best) qs

/-- polyline.py 33-49: `argmin` of an empty list is a `ValueError`. -/
def closestOnPolyline (p : Vec R) (pts : List (Vec R)) : Except PyErr (Vec R) :=
  match (pts.zip pts.tail).map fun s => closestOnSegment p s.1 s.2 with
  | [] => .error .valueError
  | q :: qs => .ok (firstClosest p q qs)

/-- The constraints, with key, target and weight. -/
inductive Constraint (R : Type) where
  /-- point.py -/
  | point (node : Int) (target : Vec R) (weight : R)
  /-- plane.py: base and normal -/
  | plane (node : Int) (target : Vec R × Vec R) (weight : R)
  /-- line.py: two points -/
  | line (node : Int) (target : Vec R × Vec R) (weight : R)
  /-- polyline.py -/
  | polyline (node : Int) (target : List (Vec R)) (weight : R)
  /-- force.py 9-19 -/
  | trailForce (edge : Int × Int) (target : R) (weight : R)
  /-- force.py 22-32 -/
  | reaction (node : Int) (target : Vec R) (weight : R)
  /-- length.py -/
  | length (edge : Int × Int) (target : R) (weight : R)
  /-- direction.py -/
  | direction (edge : Int × Int) (target : Vec R) (weight : R)
  deriving DecidableEq, Repr

/-- constraint.py 113-140: the penalty of a vector constraint. -/
def vectorPenalty (ref target : NVec R) (weight : R) : Num R :=
  (lift2 distSq ref target).map (· * weight)

/-- constraint.py 147-171: the penalty of a float constraint. -/
def floatPenalty (ref : Num R) (target weight : R) : Num R :=
  ref.map fun a => (a - target) * (a - target) * weight

/-- direction.py 31-36 and 38-51: the unit vector of an edge; NaN if it has length zero. -/
def edgeDirection (xyz : Dict Int (NVec R)) (e : Int × Int) : Except PyErr (NVec R) :=
  match xyz.getE e.2 with
  | .error err => .error err
  | .ok pv =>
    match xyz.getE e.1 with
    | .error err => .error err
    | .ok pu =>
      .ok ((lift2 (· - ·) pv pu).bind fun v =>
        if PySqrt.sqrt (Vec.dot v v) = 0 then none else some ((1 / PySqrt.sqrt (Vec.dot v v)) • v))

/-- direction.py 24-29 and 53-60: comparison with NaN is false. -/
def alignedTarget (target : Vec R) (ref : NVec R) : Vec R :=
  let t := Vec.normalize target
  match ref with
  | some r => if Vec.dot t r < 0 then (-1 : R) • t else t
  | none => t

/-- length.py 16-30 -/
def edgeLengthRef (xyz : Dict Int (NVec R)) (e : Int × Int) : Except PyErr (Num R) :=
  match xyz.getE e.1 with
  | .error err => .error err
  | .ok a =>
    match xyz.getE e.2 with
    | .error err => .error err
    | .ok b => .ok (lift2 Vec.dist a b)

/-- `constraint.penalty(eq_state)` -/
def Constraint.penalty (s : NState R) : Constraint R → Except PyErr (Num R)
  | .point n t w =>
    match s.xyz.getE n with
    | .error err => .error err
    | .ok r => .ok (vectorPenalty r (some t) w)
  | .plane n t w =>
    match s.xyz.getE n with
    | .error err => .error err
    | .ok r => .ok (vectorPenalty r (r.bind fun p => closestOnPlane p t.1 t.2) w)
  | .line n t w =>
    match s.xyz.getE n with
    | .error err => .error err
    | .ok r => .ok (vectorPenalty r (r.map fun p => closestOnLine p t.1 t.2) w)
  | .polyline n t w =>
    match s.xyz.getE n with
    | .error err => .error err
    | .ok none => if t.length < 2 then .error .valueError else .ok none
    | .ok (some p) =>
      match closestOnPolyline p t with
      | .error err => .error err
      | .ok q => .ok (vectorPenalty (some p) (some q) w)
  | .trailForce e t w =>
    match s.trailForces.getE e with
    | .error err => .error err
    | .ok r => .ok (floatPenalty r t w)
  | .reaction n t w =>
    match s.reactions.getE n with
    | .error err => .error err
    | .ok r => .ok (vectorPenalty r (some t) w)
  | .length e t w =>
    match edgeLengthRef s.xyz e with
    | .error err => .error err
    | .ok r => .ok (floatPenalty r t w)
  | .direction e t w =>
    match edgeDirection s.xyz e with
    | .error err => .error err
    | .ok r => .ok (vectorPenalty r (some (alignedTarget t r)) w)

/-- constraint.py 44-49 -/
def Constraint.weight : Constraint R → R
  | .point _ _ w | .plane _ _ w | .line _ _ w | .polyline _ _ w | .trailForce _ _ w
  | .reaction _ _ w | .length _ _ w | .direction _ _ w => w

/-- optimizer.py 339-346, over `constraints.values()` -/
def calculatePenalty (s : NState R) : List (Constraint R) → Num R → Except PyErr (Num R)
  | [], acc => .ok acc
  | c :: cs, acc =>
    match c.penalty s with
    | .error err => .error err
    | .ok p => calculatePenalty s cs (lift2 (· + ·) acc p)

end CEM
