import Verif.Model.Queries

/-!
# Drawing

Models what the artists and viewer objects compute from a diagram before they hand it to
a drawing library: `src/compas_cem/plotters/formartist.py`, `plotters/topologyartist.py`,
`viewers/diagramobject.py`, `viewers/formobject.py`, `viewers/topologyobject.py` and
`ghpython/artists.py`.  Colours are represented by their names in `compas_cem.COLORS`.
Text labels are in `Model/Labels`; cylinders, crosses at loaded nodes and the drawing
libraries are not modelled.
-/

namespace CEM
namespace Drawing
open Diagram
variable {R : Type}

/-! ## Edge widths -/

/-- What may be given as edge width: a dictionary, one number, a pair of numbers, or
something that is none of these. -/
inductive WidthSpec (R : Type) where
  | dict (d : Dict (Int × Int) R)
  | number (w : R)
  | range (low high : R)
  | other

section
variable [Field R] [LinearOrder R]

/-- `min` of a list: `ValueError` if it is empty. -/
def pyMin : List R → Except PyErr R
  | [] => .error .valueError
  | a :: l => .ok (l.foldl (fun m x => if x < m then x else m) a)

/-- `max` of a list: `ValueError` if it is empty. -/
def pyMax : List R → Except PyErr R
  | [] => .error .valueError
  | a :: l => .ok (l.foldl (fun m x => if x > m then x else m) a)

/-- `fabs(edge_force(edge))` (formartist.py 96, 101, diagramobject.py 309, 313). -/
def forceSize (D : Diagram R) (e : Int × Int) : Except PyErr R :=
  match D.edgeForce e with
  | .error err => .error err
  | .ok f => .ok |f|

/-- formartist.py 102-106, diagramobject.py 314-318.  Forces are Python floats, so the
division by zero raises and is caught. -/
def width (low high fmin fmax f : R) : R :=
  let ratio := if fmax - fmin = 0 then 1 else (f - fmin) / (fmax - fmin)
  (1 - ratio) * low + ratio * high

/-- The loop formartist.py 100-107, diagramobject.py 312-319. -/
def widthLoop (D : Diagram R) (low high fmin fmax : R) :
    List (Int × Int) → Dict (Int × Int) R → Except PyErr (Dict (Int × Int) R)
  | [], acc => .ok acc
  | e :: l, acc =>
    match forceSize D e with
    | .error err => .error err
    | .ok f => widthLoop D low high fmin fmax l (acc.set e (width low high fmin fmax f))

/-- formartist.py 94-109, diagramobject.py 307-321 -/
def rangeWidths (D : Diagram R) (edges : List (Int × Int)) (low high : R) :
    Except PyErr (Dict (Int × Int) R) :=
  match mapE (forceSize D) edges with
  | .error err => .error err
  | .ok forces =>
    match pyMin forces with
    | .error err => .error err
    | .ok fmin =>
      match pyMax forces with
      | .error err => .error err
      | .ok fmax => widthLoop D low high fmin fmax edges []

/-- `{edge: width for edge in self.edges}` -/
def constantWidths (edges : List (Int × Int)) (w : R) : Dict (Int × Int) R :=
  edges.foldl (fun acc e => acc.set e w) []

/-- formartist.py 87-109.  `NetworkArtist.edge_width` stores a dictionary or, for a number,
the constant dictionary; if what it stored is empty the setter goes on to unpack the
argument. -/
def plotterWidths (D : Diagram R) (edges : List (Int × Int)) :
    WidthSpec R → Except PyErr (Dict (Int × Int) R)
  | .dict [] => .error .valueError
  | .dict (p :: d) => .ok (p :: d)
  | .number w =>
    match constantWidths edges w with
    | [] => .error .typeError
    | p :: d => .ok (p :: d)
  | .range low high => rangeWidths D edges low high
  | .other => .error .typeError

/-- diagramobject.py 300-321: anything else is ignored. -/
def viewerWidths (D : Diagram R) (edges : List (Int × Int)) (old : Option (Dict (Int × Int) R)) :
    WidthSpec R → Except PyErr (Option (Dict (Int × Int) R))
  | .dict d => .ok (some d)
  | .number w => .ok (some (constantWidths edges w))
  | .range low high =>
    match rangeWidths D edges low high with
    | .error err => .error err
    | .ok d => .ok (some d)
  | .other => .ok old

end

/-! ## Arrows for loads and reactions -/

/-- An arrow is drawn from its start to its end. -/
structure Arrow (R : Type) where
  start : Vec R
  stop : Vec R
  deriving DecidableEq, Repr

section
variable [Field R] [LinearOrder R] [PySqrt R]

/-- One pass of the loops formartist.py 198-223 and artists.py 161-186. -/
def forceArrow (f pos : Vec R) (scale gap tol : R) (shift : Bool) : Option (Arrow R) :=
  let scaled := scale • f
  if Vec.length f < tol then none
  else
    let gapArrow := if shift then (gap + Vec.length scaled) * (-1) else gap
    let gapVector := gapArrow • Vec.normalize f
    some ⟨pos + gapVector, pos + scaled + gapVector⟩

/-- One pass of the loop diagramobject.py 584-611: there is no gap, and the arrow is moved
only when it is shifted. -/
def viewerArrow (f pos : Vec R) (scale tol : R) (shift : Bool) : Option (Arrow R) :=
  let scaled := scale • f
  if Vec.length f < tol then none
  else if shift then
    let gapVector := (Vec.length scaled * (-1)) • Vec.normalize f
    some ⟨pos + gapVector, pos + scaled + gapVector⟩
  else some ⟨pos, pos + scaled⟩

/-- formartist.py 179-223, artists.py 136-188.  `vec` picks the load or the reaction. -/
def drawForces (D : Diagram R) (vec : NodeData R → Vec R) (scale tol : R) (gap : Int → R)
    (shift : Dict Int Bool) : List Int → Except PyErr (List (Int × Arrow R))
  | [] => .ok []
  | n :: l =>
    match D.nodes.get? n with
    | none => .error .keyError
    | some d =>
      if Vec.length (vec d) < tol then drawForces D vec scale tol gap shift l
      else
        match shift.getE n with
        | .error err => .error err
        | .ok s =>
          match drawForces D vec scale tol gap shift l with
          | .error err => .error err
          | .ok arrows =>
            .ok (((forceArrow (vec d) d.pos scale (gap n) tol s).map (n, ·)).toList ++ arrows)

/-- `max(forces, key=lambda f: fabs(f))`: the first of the forces of largest size. -/
def largestForce : List R → Except PyErr R
  | [] => .error .valueError
  | a :: l => .ok (l.foldl (fun m x => if |x| > |m| then x else m) a)

/-- formartist.py 164-168, diagramobject.py 486-490, artists.py 296-300 -/
def reactionShift (D : Diagram R) (n : Int) : Except PyErr Bool :=
  match mapE D.edgeForce (D.connectedEdges n) with
  | .error err => .error err
  | .ok forces =>
    match largestForce forces with
    | .error err => .error err
    | .ok f => .ok (f < 0)

/-- formartist.py 161-170, artists.py 294-301 -/
def reactionShifts (D : Diagram R) : List Int → Dict Int Bool → Except PyErr (Dict Int Bool)
  | [], acc => .ok acc
  | n :: l, acc =>
    match reactionShift D n with
    | .error err => .error err
    | .ok s => reactionShifts D l (acc.set n s)

/-- `{key: False for key in nodes}` -/
def noShifts (nodes : List Int) : Dict Int Bool := nodes.foldl (fun acc n => acc.set n false) []

/-- formartist.py 142-151; artists.py 130-134 after the choice of the nodes. -/
def drawLoads (D : Diagram R) (scale tol : R) (gap : Int → R) (nodes : List Int) :
    Except PyErr (List (Int × Arrow R)) :=
  drawForces D (·.load) scale tol gap (noShifts nodes) nodes

/-- formartist.py 153-177: the shifts are computed for all nodes of the form. -/
def plotterReactions (D : Diagram R) (scale tol : R) (gap : Int → R) (nodes : List Int) :
    Except PyErr (List (Int × Arrow R)) :=
  match reactionShifts D D.nodes.keys [] with
  | .error err => .error err
  | .ok shift => drawForces D (·.reaction) scale tol gap shift nodes

/-- artists.py 288-303 after the choice of the nodes. -/
def ghReactions (D : Diagram R) (scale tol : R) (gap : Int → R) (nodes : List Int) :
    Except PyErr (List (Int × Arrow R)) :=
  match reactionShifts D nodes [] with
  | .error err => .error err
  | .ok shift => drawForces D (·.reaction) scale tol gap shift nodes

end

/-! ## Colours -/

/-- The names of colours in `compas_cem.COLORS`. -/
inductive Shade where
  | compression | tension | edge | auxiliary | trail | deviation | indirect
  | support | origin | node
  deriving DecidableEq, Repr

section
variable [Field R] [LinearOrder R]

/-- formartist.py 132-136 -/
def plotterFormShade (f : R) : Shade :=
  if f = 0 then .edge else if copysign 1 f = -1 then .compression else .tension

/-- formobject.py 47-52 -/
def viewerFormShade (f : R) : Shade := if f ≥ 0 then .tension else .compression

/-- formartist.py 125-140 -/
def plotterFormColors (D : Diagram R) : List (Int × Int) → Dict (Int × Int) Shade →
    Except PyErr (Dict (Int × Int) Shade)
  | [], acc => .ok acc
  | e :: l, acc =>
    match D.edgeForce e with
    | .error err => .error err
    | .ok f => plotterFormColors D l (acc.set e (plotterFormShade f))

/-- formobject.py 39-56 -/
def viewerFormColors (D : Diagram R) : List (Int × Int) → Dict (Int × Int) Shade →
    Except PyErr (Dict (Int × Int) Shade)
  | [], acc => .ok acc
  | e :: l, acc =>
    match D.edgeForce e with
    | .error err => .error err
    | .ok f => viewerFormColors D l (acc.set e (viewerFormShade f))

/-- The attribute of an edge the topology plotter reads. -/
inductive Attr where
  | length | force
  deriving DecidableEq, Repr

/-- `edge_attribute(edge, attr_name)` -/
def Attr.read (d : EdgeData R) : Attr → R
  | .length => d.length
  | .force => d.force

/-- topologyartist.py 107-122, `edge_colors == "state"`.  `name` is the local variable
`attr_name`, which keeps its value from the edge before. -/
def stateColors (D : Diagram R) : Option Attr → List (Int × Int) → Dict (Int × Int) Shade →
    Except PyErr (Dict (Int × Int) Shade)
  | _, [], acc => .ok acc
  | name, e :: l, acc =>
    if D.isAuxiliaryTrailEdge e then stateColors D name l (acc.set e .auxiliary)
    else
      match D.edges.get? e with
      | none => .error .keyError
      | some d =>
        let name := if d.type = .trail then some Attr.length
          else if d.type = .deviation then some Attr.force else name
        match name with
        | none => .error .unboundLocal
        | some a =>
          stateColors D (some a) l
            (acc.set e (if copysign 1 (a.read d) = -1 then .compression else .tension))

end

/-- topologyartist.py 127-139 and topologyobject.py 48-63 (with `color` for `attr_name`):
the value of the local variable after the tests. -/
def typeShade (D : Diagram R) (old : Option Shade) (e : Int × Int) : Except PyErr (Option Shade) :=
  if D.isAuxiliaryTrailEdge e then .ok (some .auxiliary)
  else
    match D.isTrailEdge e with
    | .error err => .error err
    | .ok true => .ok (some .trail)
    | .ok false =>
      if D.hasTrails then
        match D.isDirectDeviationEdge e with
        | .error err => .error err
        | .ok true => .ok (some .deviation)
        | .ok false =>
          match D.isIndirectDeviationEdge e with
          | .error err => .error err
          | .ok true => .ok (some .indirect)
          | .ok false => .ok old
      else
        match D.isDeviationEdge e with
        | .error err => .error err
        | .ok true => .ok (some .deviation)
        | .ok false => .ok old

/-- topologyartist.py 124-141, topologyobject.py 41-68 -/
def typeColors (D : Diagram R) : Option Shade → List (Int × Int) → Dict (Int × Int) Shade →
    Except PyErr (Dict (Int × Int) Shade)
  | _, [], acc => .ok acc
  | old, e :: l, acc =>
    match typeShade D old e with
    | .error err => .error err
    | .ok none => .error .unboundLocal
    | .ok (some c) => typeColors D (some c) l (acc.set e c)

/-- `edges[kind].append(edge)` on a `defaultdict(list)`. -/
def appendTo (groups : Dict Shade (List (Int × Int))) (kind : Shade) (e : Int × Int) :
    Dict Shade (List (Int × Int)) :=
  groups.set kind ((groups.get? kind).getD [] ++ [e])

/-- topologyobject.py 88-114; an edge of no type joins no group. -/
def groupsByType (D : Diagram R) : List (Int × Int) → Dict Shade (List (Int × Int)) →
    Except PyErr (Dict Shade (List (Int × Int)))
  | [], acc => .ok acc
  | e :: l, acc =>
    match typeShade D none e with
    | .error err => .error err
    | .ok none => groupsByType D l acc
    | .ok (some c) => groupsByType D l (appendTo acc c e)

/-- formobject.py 74-89 -/
def groupsByForce [Field R] [LinearOrder R] (D : Diagram R) :
    List (Int × Int) → Dict Shade (List (Int × Int)) → Except PyErr (Dict Shade (List (Int × Int)))
  | [], acc => .ok acc
  | e :: l, acc =>
    match D.edgeForce e with
    | .error err => .error err
    | .ok f => groupsByForce D l (appendTo acc (viewerFormShade f) e)

/-- diagramobject.py 415-425: the edges of a group are drawn in the colour of its first
edge. -/
def drawGroups (colors : Dict (Int × Int) Shade) :
    Dict Shade (List (Int × Int)) → Except PyErr (List ((Int × Int) × Shade))
  | [] => .ok []
  | (_, []) :: groups => drawGroups colors groups
  | (_, e :: es) :: groups =>
    match colors.getE e with
    | .error err => .error err
    | .ok c =>
      match drawGroups colors groups with
      | .error err => .error err
      | .ok rest => .ok ((e :: es).map (·, c) ++ rest)

/-- topologyartist.py 86-95 with `node_colors == "type"`, topologyobject.py 75-83. -/
def topologyNodeShade : NodeType → Shade
  | .support => .support
  | .origin => .origin
  | .free => .node

/-- formartist.py 111-121 -/
def formNodeShade (D : Diagram R) (n : Int) : Except PyErr Shade :=
  match D.isNodeSupport n with
  | .error err => .error err
  | .ok true => .ok .support
  | .ok false => .ok .node

/-! ## Selections in Grasshopper -/

/-- artists.py 224-230: without keys all objects of the kind, otherwise the keys of the
kind. -/
def collectionKeys {K : Type} (all : List K) (isKind : K → Except PyErr Bool) :
    Option (List K) → Except PyErr (List K)
  | none => .ok all
  | some keys => filterE isKind keys

/-- `keys or list(all)` (artists.py 79, 99, 130, 289) -/
def orAll {K : Type} (all : List K) : Option (List K) → List K
  | none => all
  | some [] => all
  | some (k :: l) => k :: l

/-- artists.py 65-84 -/
def ghNodes (D : Diagram R) (nodes : Option (List Int)) : Except PyErr (List (Vec R)) :=
  mapE D.nodeXyz (orAll D.nodes.keys nodes)

/-- `edge_coordinates(u, v)` -/
def edgeCoordinates (D : Diagram R) (e : Int × Int) : Except PyErr (Vec R × Vec R) :=
  match D.nodeXyz e.1 with
  | .error err => .error err
  | .ok a =>
    match D.nodeXyz e.2 with
    | .error err => .error err
    | .ok b => .ok (a, b)

/-- artists.py 86-105 -/
def ghEdges (D : Diagram R) (edges : Option (List (Int × Int))) :
    Except PyErr (List (Vec R × Vec R)) :=
  mapE (edgeCoordinates D) (orAll D.edgeList edges)

/-- artists.py 190-205 -/
def ghNodesSupport (D : Diagram R) (nodes : Option (List Int)) : Except PyErr (List (Vec R)) :=
  match collectionKeys D.supportNodes D.isNodeSupport nodes with
  | .error err => .error err
  | .ok keys => ghNodes D (some keys)

/-- Draw the keys unless there are none (artists.py 344-345, 362-363, 379-380). -/
def unlessEmpty {K A : Type} (draw : Option (List K) → Except PyErr (List A)) :
    Except PyErr (List K) → Except PyErr (Option (List A))
  | .error err => .error err
  | .ok [] => .ok none
  | .ok (k :: l) =>
    match draw (some (k :: l)) with
    | .error err => .error err
    | .ok r => .ok (some r)

/-- artists.py 326-345 -/
def ghNodesOrigin (D : Diagram R) (nodes : Option (List Int)) :
    Except PyErr (Option (List (Vec R))) :=
  unlessEmpty (ghNodes D) (collectionKeys D.originNodes D.isNodeOrigin nodes)

/-- artists.py 347-363 -/
def ghEdgesDeviation (D : Diagram R) (edges : Option (List (Int × Int))) :
    Except PyErr (Option (List (Vec R × Vec R))) :=
  unlessEmpty (ghEdges D) (collectionKeys D.deviationEdges D.isDeviationEdge edges)

/-- artists.py 365-380 -/
def ghEdgesTrail (D : Diagram R) (edges : Option (List (Int × Int))) :
    Except PyErr (Option (List (Vec R × Vec R))) :=
  unlessEmpty (ghEdges D) (collectionKeys D.trailEdges D.isTrailEdge edges)

/-- artists.py 382-396 -/
def ghTrails (D : Diagram R) : Except PyErr (List (List (Vec R))) :=
  mapE (mapE D.nodeXyz) D.trails.vals

/-! ## Settings of a viewer object -/

/-- What is read and written by the properties diagramobject.py 238-385. -/
structure Settings (R : Type) where
  nodeSize : Option R
  loadScale : Option R
  loadTol : Option R
  showNodes : Option Bool
  showEdges : Option Bool
  showPoints : Option Bool
  showLines : Option Bool
  deriving DecidableEq, Repr

/-- diagramobject.py 371-375: writes `_show_edges`. -/
def Settings.setShowNodes (s : Settings R) (b : Bool) : Settings R :=
  { s with showEdges := some b, showPoints := some b }

/-- diagramobject.py 381-385 -/
def Settings.setShowEdges (s : Settings R) (b : Bool) : Settings R :=
  { s with showEdges := some b, showLines := some b }

/-- diagramobject.py 324-327, and likewise 238-242, 334-338, 345-349, 356-360: an unset or
zero number is replaced by the default. -/
def fallback [Zero R] [DecidableEq R] (default : R) : Option R → R
  | none => default
  | some r => if r = 0 then default else r

end Drawing
end CEM
