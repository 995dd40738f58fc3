import Verif.Model.Solve

/-!
# Automatic differentiation of the objective

Models `agrad(x_func)` of `src/compas_cem/optimization/optimizer.py` 204-206, the derivative of
`_optimize_form` that the default `grad="AD"` uses.  Autograd is not part of the repository.  It runs
`_optimize_form` on numbers and arrays that record how they were computed, and applies the rules of
differentiation to each recorded operation; branches are taken by the values alone.  Here every
number carries its value and its derivative in the direction of one entry of `x` (`Traced`), and the
operations of `src/compas_cem/equilibrium/force_numpy.py` and
`src/compas_cem/optimization/constraints/*.py` compute both; one run for each entry of `x` gives the
gradient.  Autograd finds all entries in one pass backwards, which applies the same rules.

`none` is a number or an array that is NaN or has the derivative NaN.  The derivative of
`np.linalg.norm` at the zero vector is NaN; here also for a vector that does not depend on the
entry.  Nothing is ever compared with a number whose derivative alone is NaN, so branches are those
of `Model/EquilibriumNumpy.lean` (`C80_values`).  `eq_state["trail_directions"]`, which no constraint reads, is
left out.
-/

set_option linter.unusedSectionVars false

namespace CEM
open Diagram

/-- A number or array with its derivative. -/
@[ext] structure Traced (α : Type) where
  val : α
  tan : α
  deriving DecidableEq, Repr

/-- A traced number that may be NaN. -/
abbrev TNum (R : Type) := Option (Traced R)
/-- A traced array of three numbers that may be NaN. -/
abbrev TVec (R : Type) := Option (Traced (Vec R))

namespace Traced
variable {R : Type} [Field R] [LinearOrder R] [PySqrt R]

/-- A number or array that does not depend on the entry. -/
def const {α : Type} [Zero α] (a : α) : Traced α := ⟨a, 0⟩

/-- `a + b` -/
def add {α : Type} [Add α] (a b : Traced α) : Traced α := ⟨a.val + b.val, a.tan + b.tan⟩

/-- `a - b` -/
def sub {α : Type} [Sub α] (a b : Traced α) : Traced α := ⟨a.val - b.val, a.tan - b.tan⟩

/-- `-1.0 * a` -/
def neg {α : Type} [Neg α] (a : Traced α) : Traced α := ⟨-a.val, -a.tan⟩

/-- `a * b` -/
def mul (a b : Traced R) : Traced R := ⟨a.val * b.val, a.tan * b.val + a.val * b.tan⟩

/-- `a / b` -/
def div (a b : Traced R) : Traced R :=
  ⟨a.val / b.val, (a.tan * b.val - a.val * b.tan) / (b.val * b.val)⟩

/-- `a ** 0.5` -/
def sqrt (a : Traced R) : Traced R := ⟨PySqrt.sqrt a.val, a.tan / (2 * PySqrt.sqrt a.val)⟩

/-- A number times an array. -/
def scale (f : Traced R) (v : Traced (Vec R)) : Traced (Vec R) :=
  ⟨f.val • v.val, f.tan • v.val + f.val • v.tan⟩

/-- An array divided by a number. -/
def quot (v : Traced (Vec R)) (n : Traced R) : Traced (Vec R) :=
  ⟨⟨v.val.x / n.val, v.val.y / n.val, v.val.z / n.val⟩,
    ⟨(v.tan.x * n.val - v.val.x * n.tan) / (n.val * n.val),
      (v.tan.y * n.val - v.val.y * n.tan) / (n.val * n.val),
      (v.tan.z * n.val - v.val.z * n.tan) / (n.val * n.val)⟩⟩

/-- `np.dot` -/
def dot (a b : Traced (Vec R)) : Traced R :=
  ⟨Vec.dot a.val b.val, Vec.dot a.tan b.val + Vec.dot a.val b.tan⟩

/-- `np.linalg.norm` -/
def norm (v : Traced (Vec R)) : TNum R :=
  if Vec.length v.val = 0 then none
  else some ⟨Vec.length v.val, Vec.dot v.val v.tan / Vec.length v.val⟩

end Traced

variable {R : Type} [Field R] [LinearOrder R] [PySqrt R]

/-- force_numpy.py 419-430 -/
def adNormalize (v : TVec R) : TVec R := v.bind fun v => (v.norm).map v.quot

/-- The dictionaries of force_numpy.py 56 and 80-85 that the loop modifies. -/
structure AState (R : Type) where
  xyz : Dict Int (TVec R)
  residual : Dict Int (TVec R)
  trailForces : Dict (Int × Int) (TNum R)
  reactions : Dict Int (TVec R)

/-- force_numpy.py 384-416 with `normalize=True`. -/
def adIncoming (node : Int) (xyz : Dict Int (TVec R)) (e : Int × Int) : Except PyErr (TVec R) :=
  let other := if e.1 ≠ node then e.1 else e.2
  match xyz.getE other with
  | .error err => .error err
  | .ok a =>
    match xyz.getE node with
    | .error err => .error err
    | .ok b => .ok (adNormalize (lift2 Traced.sub a b))

/-- The derivative of the force of an edge, stored in the diagram of derivatives. -/
def tanForce (T : Diagram R) (e : Int × Int) : R := ((T.edges.get? e).map (·.force)).getD 0

/-- The derivative of the length of an edge. -/
def tanLength (T : Diagram R) (e : Int × Int) : R := ((T.edges.get? e).map (·.length)).getD 0

/-- The derivative of the load of a node. -/
def tanLoad (T : Diagram R) (n : Int) : Vec R := ((T.nodes.get? n).map (·.load)).getD 0

/-- The derivative of the position of a node. -/
def tanPos (T : Diagram R) (n : Int) : Vec R := ((T.nodes.get? n).map (·.pos)).getD 0

/-- force_numpy.py 266-298 -/
def adResultant (T : Diagram R) (node : Int) (xyz : Dict Int (TVec R)) (forces : Dict (Int × Int) R) :
    List (Int × Int) → TVec R → Except PyErr (TVec R)
  | [], acc => .ok acc
  | e :: l, acc =>
    match forces.getE e with
    | .error err => .error err
    | .ok f =>
      match adIncoming node xyz e with
      | .error err => .error err
      | .ok v => adResultant T node xyz forces l
          (lift2 Traced.add acc (v.map (Traced.scale ⟨f, tanForce T e⟩)))

/-- force_numpy.py 244-263 and 344-364 -/
def adNodeEquilibrium (t q rd ri : TVec R) : TVec R :=
  (lift2 Traced.add (lift2 Traced.add (lift2 Traced.add (t.map Traced.neg) q) rd) ri).map Traced.neg

/-- force_numpy.py 433-464.  The outer `none` is Python's `None`. -/
def adPlaneLength (p v : TVec R) (plane : Vec R × Vec R) : Option (TNum R) :=
  match adNormalize v with
  | none => some none
  | some u =>
    let c := Traced.dot (.const plane.2) u
    if |c.val| < planeTol then none
    else some (p.map fun p => (Traced.dot (.const plane.2) (Traced.sub (.const plane.1) p)).div c)

/-- force_numpy.py 138-151 -/
def adEffectiveLength (length : Traced R) (plane : Option (Vec R × Vec R)) (pos rvec : TVec R) : TNum R :=
  match plane with
  | none => some length
  | some plane =>
    match adPlaneLength pos rvec plane with
    | none => some length
    | some none => none
    | some (some l) => if l.val = 0 then some length else some l

/-- force_numpy.py 156-160 -/
def adDirection (rvec : TVec R) : TVec R :=
  match adNormalize rvec with
  | none => rvec
  | some u => some u

/-- force_numpy.py 153-154 and 169-172 -/
def adTrailForce (rvec : TVec R) (length : TNum R) : TNum R :=
  match rvec.bind Traced.norm, length with
  | some f, some l => if f.val * l.val < 0 then some f.neg else some f
  | f, _ => f

/-- force_numpy.py 117-120 -/
def adIndirect (T : Diagram R) (tab : NTables R) (indirect : Bool) (node : Int) (xyz : Dict Int (TVec R)) :
    Except PyErr (TVec R) :=
  if indirect then
    match tab.indirect.getE node with
    | .error err => .error err
    | .ok edges => adResultant T node xyz tab.forces edges (some (.const 0))
  else .ok (some (.const 0))

/-- force_numpy.py 97-178.  `T` contains the derivatives of the numbers of `D`. -/
def adStep (D T : Diagram R) (tab : NTables R) (tseq : Dict Int (Dict Int Int)) (indirect : Bool)
    (k : Int) (s : AState R) (key : Int) : Except PyErr (AState R) :=
  match tseq.getE key with
  | .error err => .error err
  | .ok seqs =>
    match seqs.get? k with
    | none => .ok s
    | some node =>
      match s.xyz.getE node with
      | .error err => .error err
      | .ok pos =>
        match s.residual.getE node with
        | .error err => .error err
        | .ok rin =>
          match tab.loads.getE node with
          | .error err => .error err
          | .ok q =>
            match tab.direct.getE node with
            | .error err => .error err
            | .ok dirEdges =>
              match adResultant T node s.xyz tab.forces dirEdges (some (.const 0)) with
              | .error err => .error err
              | .ok rd =>
                match adIndirect T tab indirect node s.xyz with
                | .error err => .error err
                | .ok ri =>
                  let rvec := adNodeEquilibrium rin (some ⟨q, tanLoad T node⟩) rd ri
                  match D.isNodeSupport node with
                  | .error err => .error err
                  | .ok sup =>
                    if sup then .ok { s with reactions := s.reactions.set node rvec }
                    else
                      match seqs.getE (k + 1) with
                      | .error err => .error err
                      | .ok next =>
                        let edge := if (node, next) ∈ tab.edgeKeys then (node, next)
                          else (next, node)
                        match tab.lengths.getE edge with
                        | .error err => .error err
                        | .ok length0 =>
                          let length := adEffectiveLength ⟨length0, tanLength T edge⟩
                            (tab.planes.get? edge) pos rvec
                          .ok { s with
                            xyz := s.xyz.set next
                              (lift2 Traced.add pos (lift2 Traced.scale length (adDirection rvec)))
                            trailForces := s.trailForces.set edge (adTrailForce rvec length)
                            residual := s.residual.set next rvec }

/-- force_numpy.py 92-182 -/
def adSweep (D T : Diagram R) (tab : NTables R) (tseq : Dict Int (Dict Int Int))
    (indirect : Bool) (n : Int) (s : AState R) : Except PyErr (AState R) :=
  forE (fun s k => forE (adStep D T tab tseq indirect k) D.trails.keys s) (pyRange n) s

/-- The values of traced arrays. -/
def valuesOf (d : Dict Int (TVec R)) : Dict Int (NVec R) := d.map fun p => (p.1, p.2.map Traced.val)

/-- force_numpy.py 87-196.  Only values are compared. -/
def adLoop (D T : Diagram R) (tab : NTables R) (tseq : Dict Int (Dict Int Int)) (eta : R)
    (n : Int) : Nat → Nat → AState R → Option (NLoopInfo R) →
      Except PyErr (AState R × Option (NLoopInfo R))
  | 0, _, s, info => .ok (s, info)
  | fuel + 1, t, s, _ =>
    match adSweep D T tab tseq (t > 0) n s with
    | .error err => .error err
    | .ok s' =>
      if t = 0 then adLoop D T tab tseq eta n fuel (t + 1) s' (some ⟨0, none⟩)
      else
        let distance := npDistance (valuesOf s.xyz) (valuesOf s'.xyz)
        if distance.lt eta then .ok (s', some ⟨t, some distance⟩)
        else adLoop D T tab tseq eta n fuel (t + 1) s' (some ⟨t, some distance⟩)

/-- force_numpy.py 56 and 80-85 -/
def adInit (D T : Diagram R) : AState R where
  xyz := D.nodes.map fun p => (p.1, some ⟨p.2.pos, tanPos T p.1⟩)
  residual := D.nodes.map fun p => (p.1, some (.const p.2.reaction))
  trailForces := []
  reactions := []

/-- force_numpy.py 198-206, with `verbose=False`. -/
def adFinish (eta : R) (r : AState R × Option (NLoopInfo R)) : Except PyErr (AState R) :=
  match r.2 with
  | none => .error .unboundLocal
  | some ⟨t, dist⟩ =>
    if t > 0 then
      match dist with
      | none => .error .unboundLocal
      | some d => if d.gt eta then .error .valueError else .ok r.1
    else .ok r.1

/-- force_numpy.py 45-215 -/
def adEquilibriumState (D T : Diagram R) (tmax : Nat) (eta : R) : Except PyErr (AState R) :=
  if D.numberOfTrails = 0 then .error .assertionError
  else
    match D.trailsSequences with
    | .error err => .error err
    | .ok tseq =>
      match npTables D with
      | .error err => .error err
      | .ok tab =>
        if tmax = 0 then .error .unboundLocal
        else
          match D.numberOfSequences with
          | .error err => .error err
          | .ok n =>
            match adLoop D T tab tseq eta n tmax 0 (adInit D T) none with
            | .error err => .error err
            | .ok r => adFinish eta r

/-! ## Constraints -/

/-- `compas.geometry.distance_point_point_sqrd` -/
def adDistSq (a b : Traced (Vec R)) : Traced R := Traced.dot (b.sub a) (b.sub a)

/-- `compas.geometry.closest_point_on_line(point, (a, b))` -/
def adClosestOnLine (p : Traced (Vec R)) (a b : Vec R) : Traced (Vec R) :=
  Traced.add (.const a)
    (if Vec.dot (b - a) (b - a) = 0 then .const 0
    else Traced.scale ((Traced.dot (p.sub (.const a)) (.const (b - a))).div (.const (Vec.dot (b - a) (b - a))))
      (.const (b - a)))

/-- `compas.geometry.closest_point_on_plane(point, (base, normal))` -/
def adClosestOnPlane (p : Traced (Vec R)) (base normal : Vec R) : TVec R :=
  let n := Vec.normalize normal
  if Vec.dot n n = 0 then none
  else some (p.sub (Traced.scale (((Traced.dot (.const n) p).sub (.const (Vec.dot n base))).div
    (.const (Vec.dot n n))) (.const n)))

/-- `compas.geometry.closest_point_on_segment(point, (a, b))` -/
def adClosestOnSegment (p : Traced (Vec R)) (a b : Vec R) : Traced (Vec R) :=
  let c := adClosestOnLine p a b
  let d := distSq a b
  let d1 := distSq a c.val
  let d2 := distSq b c.val
  if d1 > d ∨ d2 > d then (if d1 < d2 then .const a else .const b) else c

/-- `argmin` of the distances to a list of points. -/
def adFirstClosest (p : Vec R) : Traced (Vec R) → List (Traced (Vec R)) → Traced (Vec R)
  | best, [] => best
  | best, q :: qs => adFirstClosest p (if Vec.dist p q.val < Vec.dist p best.val then q else best) qs

/-- polyline.py 33-49 -/
def adClosestOnPolyline (p : Traced (Vec R)) (pts : List (Vec R)) : Except PyErr (Traced (Vec R)) :=
  match (pts.zip pts.tail).map fun s => adClosestOnSegment p s.1 s.2 with
  | [] => .error .valueError
  | q :: qs => .ok (adFirstClosest p.val q qs)

/-- constraint.py 113-140 -/
def adVectorPenalty (ref target : TVec R) (weight : R) : TNum R :=
  (lift2 adDistSq ref target).map fun a => a.mul (.const weight)

/-- constraint.py 147-171 -/
def adFloatPenalty (ref : TNum R) (target weight : R) : TNum R :=
  ref.map fun a => ((a.sub (.const target)).mul (a.sub (.const target))).mul (.const weight)

/-- direction.py 31-36 and 38-51 -/
def adEdgeDirection (xyz : Dict Int (TVec R)) (e : Int × Int) : Except PyErr (TVec R) :=
  match xyz.getE e.2 with
  | .error err => .error err
  | .ok pv =>
    match xyz.getE e.1 with
    | .error err => .error err
    | .ok pu =>
      .ok ((lift2 Traced.sub pv pu).bind fun v =>
        if PySqrt.sqrt (Vec.dot v.val v.val) = 0 then none
        else some (Traced.scale ((Traced.const 1).div (Traced.dot v v).sqrt) v))

/-- length.py 16-30: `np.linalg.norm`, as `math.sqrt` raises `TypeError` for traced numbers. -/
def adEdgeLengthRef (xyz : Dict Int (TVec R)) (e : Int × Int) : Except PyErr (TNum R) :=
  match xyz.getE e.1 with
  | .error err => .error err
  | .ok a =>
    match xyz.getE e.2 with
    | .error err => .error err
    | .ok b => .ok ((lift2 Traced.sub a b).bind Traced.norm)

/-- `constraint.penalty(eq_state)` -/
def Constraint.adPenalty (s : AState R) : Constraint R → Except PyErr (TNum R)
  | .point n t w =>
    match s.xyz.getE n with
    | .error err => .error err
    | .ok r => .ok (adVectorPenalty r (some (.const t)) w)
  | .plane n t w =>
    match s.xyz.getE n with
    | .error err => .error err
    | .ok r => .ok (adVectorPenalty r (r.bind fun p => adClosestOnPlane p t.1 t.2) w)
  | .line n t w =>
    match s.xyz.getE n with
    | .error err => .error err
    | .ok r => .ok (adVectorPenalty r (r.map fun p => adClosestOnLine p t.1 t.2) w)
  | .polyline n t w =>
    match s.xyz.getE n with
    | .error err => .error err
    | .ok none => if t.length < 2 then .error .valueError else .ok none
    | .ok (some p) =>
      match adClosestOnPolyline p t with
      | .error err => .error err
      | .ok q => .ok (adVectorPenalty (some p) (some q) w)
  | .trailForce e t w =>
    match s.trailForces.getE e with
    | .error err => .error err
    | .ok r => .ok (adFloatPenalty r t w)
  | .reaction n t w =>
    match s.reactions.getE n with
    | .error err => .error err
    | .ok r => .ok (adVectorPenalty r (some (.const t)) w)
  | .length e t w =>
    match adEdgeLengthRef s.xyz e with
    | .error err => .error err
    | .ok r => .ok (adFloatPenalty r t w)
  | .direction e t w =>
    match adEdgeDirection s.xyz e with
    | .error err => .error err
    | .ok r => .ok (adVectorPenalty r (some (.const (alignedTarget t (r.map Traced.val)))) w)

/-- optimizer.py 339-346 -/
def adCalculatePenalty (s : AState R) : List (Constraint R) → TNum R → Except PyErr (TNum R)
  | [], acc => .ok acc
  | c :: cs, acc =>
    match c.adPenalty s with
    | .error err => .error err
    | .ok p => adCalculatePenalty s cs (lift2 Traced.add acc p)

/-! ## The gradient -/

/-- The diagram with all numbers zero: the derivatives of numbers that are not written. -/
def Diagram.still (D : Diagram R) : Diagram R :=
  { D with nodes := D.nodes.map fun p => (p.1, { p.2 with pos := 0, load := 0, reaction := 0 })
           edges := D.edges.map fun p => (p.1, { p.2 with length := 0, force := 0 }) }

/-- The derivatives of the entries of a vector of length `n` with respect to its entry `i`. -/
def unitList (n i : Nat) : List R := (List.range n).map fun j => if j = i then 1 else 0

/-- The derivative of optimizer.py 352-359 with respect to entry `i`, on a diagram `D` into which the
vector of length `n` has been written. -/
def Optimizer.adEntry (o : Optimizer R) (tmax : Nat) (eta : R) (D : Diagram R) (n i : Nat) :
    Except PyErr (Num R) :=
  match adEquilibriumState D (o.updateParameters D.still (unitList n i)).1 tmax eta with
  | .error err => .error err
  | .ok s =>
    match adCalculatePenalty s o.constraints.vals (some (.const 0)) with
    | .error err => .error err
    | .ok v => .ok (v.map Traced.tan)

/-- `[f(a) for a in l]` with a function that may raise. -/
def listE {α β : Type} (f : α → Except PyErr β) : List α → Except PyErr (List β)
  | [] => .ok []
  | a :: l =>
    match f a with
    | .error err => .error err
    | .ok b =>
      match listE f l with
      | .error err => .error err
      | .ok bs => .ok (b :: bs)

/-- optimizer.py 204-206: `agrad(x_func)(x)`, on the copy `C` of the diagram.  Evaluating `x_func` on
traced numbers raises what it raises on numbers (`C80_raises`). -/
def Optimizer.autograd (o : Optimizer R) (tmax : Nat) (eta : R) : GradFunc R := fun C x =>
  match o.optimizeForm tmax eta C x with
  | (D, .error err) => (D, .error err)
  | (D, .ok _) => (D, listE (o.adEntry tmax eta D x.length) (List.range x.length))

end CEM
