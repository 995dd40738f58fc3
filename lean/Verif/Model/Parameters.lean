import Verif.Model.Diagram
import Mathlib.Order.WithBot

/-!
# Optimization parameters

Models `src/compas_cem/optimization/parameters/*.py` and `node_attribute`,
`edge_attribute` of `compas.datastructures.Graph` as far as they use them.  A parameter is
made by one of the eight classes, so its attribute name and the kind of its key belong
together.
-/

namespace CEM

/-- Node attributes that parameters can name (origin.py 19, 32, 45, load.py 19, 32, 45). -/
inductive NodeAttr where
  | x | y | z | qx | qy | qz
  deriving DecidableEq, Repr

/-- Edge attributes that parameters can name (trail.py 18, deviation.py 18). -/
inductive EdgeAttr where
  | length | force
  deriving DecidableEq, Repr

/-- The key of a parameter together with its attribute name. -/
inductive Slot where
  | node (key : Int) (name : NodeAttr)
  | edge (key : Int × Int) (name : EdgeAttr)
  deriving DecidableEq, Repr

variable {R : Type}

/-- The value of a numeric node attribute. -/
def NodeAttr.get (d : NodeData R) : NodeAttr → R
  | .x => d.pos.x
  | .y => d.pos.y
  | .z => d.pos.z
  | .qx => d.load.x
  | .qy => d.load.y
  | .qz => d.load.z

/-- The node with one numeric attribute replaced. -/
def NodeAttr.set (d : NodeData R) (v : R) : NodeAttr → NodeData R
  | .x => { d with pos := { d.pos with x := v } }
  | .y => { d with pos := { d.pos with y := v } }
  | .z => { d with pos := { d.pos with z := v } }
  | .qx => { d with load := { d.load with x := v } }
  | .qy => { d with load := { d.load with y := v } }
  | .qz => { d with load := { d.load with z := v } }

/-- The value of a numeric edge attribute. -/
def EdgeAttr.get (d : EdgeData R) : EdgeAttr → R
  | .length => d.length
  | .force => d.force

/-- The edge with one numeric attribute replaced. -/
def EdgeAttr.set (d : EdgeData R) (v : R) : EdgeAttr → EdgeData R
  | .length => { d with length := v }
  | .force => { d with force := v }

namespace Diagram

/-- `node_attribute(key=, name=)`, `edge_attribute(key=, name=)`: `KeyError` if there is no
such node, or no edge stored in this direction. -/
def getAttribute (D : Diagram R) : Slot → Except PyErr R
  | .node n a =>
    match D.nodes.get? n with
    | some d => .ok (a.get d)
    | none => .error .keyError
  | .edge e a =>
    match D.edges.get? e with
    | some d => .ok (a.get d)
    | none => .error .keyError

/-- `node_attribute(key=, name=, value=)`, `edge_attribute(key=, name=, value=)`. -/
def setAttribute (D : Diagram R) (v : R) : Slot → Except PyErr (Diagram R)
  | .node n a =>
    if D.nodes.has n then .ok { D with nodes := D.nodes.modify n fun d => a.set d v }
    else .error .keyError
  | .edge e a =>
    if D.edges.has e then .ok { D with edges := D.edges.modify e fun d => a.set d v }
    else .error .keyError

end Diagram

/-- parameter.py 17-22: a parameter. -/
structure Param (R : Type) where
  slot : Slot
  low : Option R
  up : Option R
  deriving DecidableEq, Repr

/-- trail.py 16-18 -/
def trailEdgeParameter (key : Int × Int) (low up : Option R) : Param R := ⟨.edge key .length, low, up⟩
/-- deviation.py 16-18 -/
def deviationEdgeParameter (key : Int × Int) (low up : Option R) : Param R :=
  ⟨.edge key .force, low, up⟩
/-- origin.py 17-19 -/
def originNodeXParameter (key : Int) (low up : Option R) : Param R := ⟨.node key .x, low, up⟩
/-- origin.py 30-32 -/
def originNodeYParameter (key : Int) (low up : Option R) : Param R := ⟨.node key .y, low, up⟩
/-- origin.py 43-45 -/
def originNodeZParameter (key : Int) (low up : Option R) : Param R := ⟨.node key .z, low, up⟩
/-- load.py 17-19 -/
def nodeLoadXParameter (key : Int) (low up : Option R) : Param R := ⟨.node key .qx, low, up⟩
/-- load.py 30-32 -/
def nodeLoadYParameter (key : Int) (low up : Option R) : Param R := ⟨.node key .qy, low, up⟩
/-- load.py 43-45 -/
def nodeLoadZParameter (key : Int) (low up : Option R) : Param R := ⟨.node key .qz, low, up⟩

namespace Param

/-- node.py 18-23, edge.py 20-25 -/
def startValue (p : Param R) (D : Diagram R) : Except PyErr R := D.getAttribute p.slot

variable [Field R] [LinearOrder R]

/-- parameter.py 36-48: with `None` the start value is not read. -/
def boundLow (p : Param R) (D : Diagram R) : Except PyErr (WithBot R) :=
  match p.low with
  | some b =>
    match p.startValue D with
    | .error err => .error err
    | .ok v => .ok ((v - |b| : R) : WithBot R)
  | none => .ok ⊥

/-- parameter.py 50-62 -/
def boundUp (p : Param R) (D : Diagram R) : Except PyErr (WithTop R) :=
  match p.up with
  | some b =>
    match p.startValue D with
    | .error err => .error err
    | .ok v => .ok ((v + |b| : R) : WithTop R)
  | none => .ok ⊤

end Param
end CEM
