import Verif.Model.Queries
import Verif.Model.Solve

/-!
# Grasshopper components

Models the `RunScript` methods of `src/compas_cem/ghpython/components/*/code.py` that build,
change, search, solve and read diagrams.  An input that is not connected is `none`.
Objects of Rhino are taken to be converted to points already; a component's outputs for
display (`rs.AddPoint`) are their coordinates.  A diagram object is always true in Python.
-/

namespace CEM
namespace Component
open Diagram
variable {R : Type}

/-- Truth of a list input in Python: connected and nonempty, whatever the items are. -/
def given {α : Type} : Option (List α) → Bool
  | some (_ :: _) => true
  | _ => false

/-- `if xs: for x in xs: if x: f(x)`: the loop over the items that are not `None`; an
exception ends the component. -/
def eachGiven {α β : Type} (f : Diagram R → α → Diagram R × Except PyErr β) (D : Diagram R) :
    List (Option α) → Except PyErr (Diagram R)
  | [] => .ok D
  | none :: l => eachGiven f D l
  | some a :: l =>
    match f D a with
    | (_, .error err) => .error err
    | (D', .ok _) => eachGiven f D' l

/-! ## Making the parts of a diagram -/

/-- CompasCem_EdgeTrail/code.py 13-20 -/
def trailEdge (line : Option (Vec R × Vec R)) (length : Option R)
    (plane : Option (Vec R × Vec R)) : Option (EdgeElem R) :=
  match line, length with
  | some (p, q), some l => some (.trail (.point p) (.point q) l plane)
  | _, _ => none

/-- CompasCem_EdgeDeviation/code.py 12-16 -/
def deviationEdge (line : Option (Vec R × Vec R)) (force : Option R) : Option (EdgeElem R) :=
  match line, force with
  | some (p, q), some f => some (.deviation (.point p) (.point q) f)
  | _, _ => none

/-- CompasCem_NodeLoad/code.py 13-20 -/
def nodeLoad (point vector : Option (Vec R)) : Option (NodeRef R × Vec R) :=
  match point, vector with
  | some p, some q => some (.point p, q)
  | _, _ => none

/-- CompasCem_NodeSupport/code.py 11-16 -/
def nodeSupport (point : Option (Vec R)) : Option (NodeRef R) :=
  match point with
  | some p => some (.point p)
  | none => none

/-! ## Assembling a diagram -/

section
variable [Field R] [DecidableEq R] [PySqrt R] (gkey : Vec R → String)

/-- The inputs of the component that assembles a topology diagram. -/
structure Parts (R : Type) where
  trailEdges : Option (List (Option (EdgeElem R)))
  deviationEdges : Option (List (Option (EdgeElem R)))
  loads : Option (List (Option (NodeRef R × Vec R)))
  supports : Option (List (Option (NodeRef R)))
  aux : Bool

/-- `topology.build_trails(add_auxiliary_trails)`; `order` is the iteration order of a set,
see `buildTrailsAux`. -/
def build (order : List Int → List Int) (aux : Bool) (D : Diagram R) :
    Diagram R × Except PyErr Unit :=
  if aux then D.buildTrailsAux gkey order else D.buildTrails

/-- CompasCem_TopologyDiagram/code.py 13-33: everything before the trails are built. -/
def assembleParts (P : Parts R) : Except PyErr (Diagram R) :=
  match eachGiven (fun D e => D.addEdge gkey e) Diagram.empty (P.trailEdges.getD []) with
  | .error err => .error err
  | .ok D =>
    match eachGiven (fun D e => D.addEdge gkey e) D (P.deviationEdges.getD []) with
    | .error err => .error err
    | .ok D =>
      match eachGiven (fun D l => D.addLoad gkey l.1 l.2) D (P.loads.getD []) with
      | .error err => .error err
      | .ok D => eachGiven (fun D s => D.addSupport gkey s) D (P.supports.getD [])

/-- CompasCem_TopologyDiagram/code.py 10-41 -/
def assemble (order : List Int → List Int) (P : Parts R) : Except PyErr (Diagram R) :=
  match assembleParts gkey P with
  | .error err => .error err
  | .ok D =>
    if (given P.trailEdges && given P.supports) || (given P.deviationEdges && P.aux) then
      match build gkey order P.aux D with
      | (_, .error err) => .error err
      | (D', .ok _) => .ok D'
    else .ok D

/-- CompasCem_SearchNodeKey/code.py 15-18 -/
def searchNode (D : Diagram R) (p : Vec R) : Except PyErr Int := D.gkeyNode.getE (gkey p)

/-- CompasCem_SearchEdgeKey/code.py 15-23 -/
def searchEdge (D : Diagram R) (p q : Vec R) : Except PyErr (List (Int × Int)) :=
  match D.gkeyNode.getE (gkey p) with
  | .error err => .error err
  | .ok u =>
    match D.gkeyNode.getE (gkey q) with
    | .error err => .error err
    | .ok v => .ok [(u, v)]

end

/-! ## Changing a diagram -/

/-- `zip(keys, iterable_like(keys, values, values[-1]))`: the values are cut, or continued with
the last one.  COMPAS' `iterable_like` is external. -/
def zipLike {α : Type} : List Int → α → List α → List (Int × α)
  | [], _, _ => []
  | k :: ks, a, [] => (k, a) :: zipLike ks a []
  | k :: ks, a, b :: l => (k, b) :: zipLike ks a l

/-- The loop CompasCem_TrailsShift/code.py 17-18. -/
def shiftAll (D : Diagram R) : List (Int × Int) → Except PyErr (Diagram R)
  | [] => .ok D
  | (key, s) :: l =>
    match D.shiftTrail key s with
    | (_, .error err) => .error err
    | (D', .ok _) => shiftAll D' l

/-- CompasCem_TrailsShift/code.py 10-20: `none` if an input is missing.  The copy is an equal
diagram. -/
def trailsShift (D : Diagram R) (keys sequences : List Int) : Except PyErr (Option (Diagram R)) :=
  match sequences.getLast? with
  | none => .ok none
  | some last =>
    if keys = [] then .ok none
    else
      match shiftAll D (zipLike keys last sequences) with
      | .error err => .error err
      | .ok D' => .ok (some D')

/-- `node_attributes(key, "xyz", point)` of COMPAS: only the attributes are set. -/
def setXyz (D : Diagram R) (n : Int) (p : Vec R) : Except PyErr (Diagram R) :=
  match D.nodes.get? n with
  | none => .error .keyError
  | some d => .ok { D with nodes := D.nodes.set n { d with pos := p } }

/-- The loop CompasCem_OriginNodesMove/code.py 18-20. -/
def moveAll (D : Diagram R) : List (Int × Vec R) → Except PyErr (Diagram R)
  | [] => .ok D
  | (n, p) :: l =>
    match setXyz D n p with
    | .error err => .error err
    | .ok D' => moveAll D' l

/-- CompasCem_OriginNodesMove/code.py 11-22: `none` if an input is missing. -/
def originNodesMove (D : Diagram R) (keys : List Int) (points : List (Vec R)) :
    Except PyErr (Option (Diagram R)) :=
  match points.getLast? with
  | none => .ok none
  | some last =>
    if keys = [] then .ok none
    else
      match moveAll D (zipLike keys last points) with
      | .error err => .error err
      | .ok D' => .ok (some D')

/-! ## Reading results -/

/-- CompasCem_ResultsEdges/code.py 12-16: `edge_keys or list(form.edges())`. -/
def resultsEdges (F : Diagram R) (keys : List (Int × Int)) : Except PyErr (List R × List R) :=
  let keys := if keys = [] then F.edgeList else keys
  match mapE F.edgeLength2 keys with
  | .error err => .error err
  | .ok lengths =>
    match mapE F.edgeForce keys with
    | .error err => .error err
    | .ok forces => .ok (lengths, forces)

/-- CompasCem_ResultsSupportNodes/code.py 14-17: `support_node_keys or list(form.support_nodes())`. -/
def resultsSupports (F : Diagram R) (keys : List Int) : Except PyErr (List (Vec R)) :=
  mapE F.reactionForce (if keys = [] then F.supportNodes else keys)

/-! ## Optimization parameters

A bound that is not connected is `None`.  A pair is true in Python, and so is a node key, which is
compared with `None` only. -/

/-- CompasCem_ParameterTrailEdge/code.py 10-14 -/
def parameterTrailEdge (key : Option (Int × Int)) (low up : Option R) : Option (Param R) :=
  match key with
  | none => none
  | some e => some (trailEdgeParameter e low up)

/-- CompasCem_ParameterDeviationEdge/code.py 10-14 -/
def parameterDeviationEdge (key : Option (Int × Int)) (low up : Option R) : Option (Param R) :=
  match key with
  | none => none
  | some e => some (deviationEdgeParameter e low up)

/-- CompasCem_ParameterNodeOriginX/code.py 10-14 -/
def parameterNodeOriginX (key : Option Int) (low up : Option R) : Option (Param R) :=
  match key with
  | none => none
  | some n => some (originNodeXParameter n low up)

/-- CompasCem_ParameterNodeOriginY/code.py 10-14 -/
def parameterNodeOriginY (key : Option Int) (low up : Option R) : Option (Param R) :=
  match key with
  | none => none
  | some n => some (originNodeYParameter n low up)

/-- CompasCem_ParameterNodeOriginZ/code.py 10-14 -/
def parameterNodeOriginZ (key : Option Int) (low up : Option R) : Option (Param R) :=
  match key with
  | none => none
  | some n => some (originNodeZParameter n low up)

/-- CompasCem_ParameterNodeLoadX/code.py 10-14 -/
def parameterNodeLoadX (key : Option Int) (low up : Option R) : Option (Param R) :=
  match key with
  | none => none
  | some n => some (nodeLoadXParameter n low up)

/-- CompasCem_ParameterNodeLoadY/code.py 10-14 -/
def parameterNodeLoadY (key : Option Int) (low up : Option R) : Option (Param R) :=
  match key with
  | none => none
  | some n => some (nodeLoadYParameter n low up)

/-- CompasCem_ParameterNodeLoadZ/code.py 10-14 -/
def parameterNodeLoadZ (key : Option Int) (low up : Option R) : Option (Param R) :=
  match key with
  | none => none
  | some n => some (nodeLoadZParameter n low up)

/-! ## Form finding -/

/-- `value or default` for a number: `None` and zero are replaced. -/
def orElse {α : Type} [Zero α] [DecidableEq α] (value : Option α) (default : α) : α :=
  match value with
  | none => default
  | some a => if a = 0 then default else a

section
variable [Field R] [LinearOrder R] [PySqrt R]

/-- CompasCem_FormFinding/code.py 10-17, with a diagram connected.  `verbose` is left at its
default. -/
def formFinding (D : Diagram R) (kmax : Option Int) (tmax : Option Nat) (eta : Option R) :
    Except PyErr (Diagram R) :=
  staticEquilibrium D kmax (orElse tmax 100) (orElse eta (1 / 1000000)) false

/-- The inputs of CompasCem_ConstrainedFormFinding/code.py 11. -/
structure Settings (R : Type) where
  algorithm : Option String
  iters : Option Int
  eps : Option R
  kappa : Option R
  tmax : Option Nat
  eta : Option R

/-- CompasCem_ConstrainedFormFinding/code.py 11-54, with a diagram connected; `none` if it is
switched off or an input is empty.  The remote call of `solve_proxy` is a call of the function. -/
def constrainedFormFinding (nlopt : Problem R → Run R) (ad : GradFunc R) (tol step : R)
    (switch : Bool) (D : Diagram R) (constraints : Option (List (Option (Constraint R))))
    (parameters : Option (List (Option (Param R)))) (s : Settings R) : Option (Solved R) :=
  if switch && given constraints && given parameters then
    some (Optimizer.solveProxy ((constraints.getD []).filterMap id) ((parameters.getD []).filterMap id)
      nlopt ad tol step
      (match s.algorithm with
        | none => "SLSQP"
        | some a => if a = "" then "SLSQP" else a)
      (orElse s.iters 100) (orElse s.eps (1 / 1000000)) (orElse s.kappa (1 / 100000000))
      (orElse s.tmax 100) (orElse s.eta (1 / 1000000)) D)
  else none

end
end Component
end CEM
