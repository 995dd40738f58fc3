import Verif.Model.Py
import Verif.Model.Vec

/-!
# Diagrams: nodes, edges, supports, loads

Models `src/compas_cem/diagrams/diagram.py`, `diagrams/mixins/node_mixins.py`,
`diagrams/mixins/edge_mixins.py`, `elements/*.py`, and `add_support`/`add_load`
of `diagrams/topology/topology.py`, on top of `compas.datastructures.Graph`
(external, see DESIGN.md).
-/

namespace CEM

/-- Node attribute `"type"`: `None`, `"support"` or `"_origin"`
(diagram.py 34, topology.py 111, 372). -/
inductive NodeType where
  | free | support | origin
  deriving DecidableEq, Repr

/-- Edge attribute `"type"`: `None`, `"trail"` or `"deviation"` (diagram.py 36). -/
inductive EdgeType where
  | untyped | trail | deviation
  deriving DecidableEq, Repr

/-- Node attributes with the defaults of diagram.py 24-34. -/
structure NodeData (R : Type) where
  /-- x, y, z -/
  pos : Vec R
  /-- qx, qy, qz -/
  load : Vec R
  /-- rx, ry, rz -/
  reaction : Vec R
  /-- `_k` -/
  k : Option Int
  type : NodeType
  deriving DecidableEq, Repr

/-- Edge attributes with the defaults of diagram.py 36-38 (`plane` has no
default, reading it when absent gives `None`). -/
structure EdgeData (R : Type) where
  type : EdgeType
  length : R
  force : R
  /-- base point and normal -/
  plane : Option (Vec R × Vec R)
  deriving DecidableEq, Repr

/-- A diagram.  `trails`, `auxTrails`, `auxLength`, `auxVector` are the four
attributes of topology.py 41-44 (a form diagram drops them, form.py 39-42). -/
structure Diagram (R : Type) where
  nodes : Dict Int (NodeData R)
  edges : Dict (Int × Int) (EdgeData R)
  maxNode : Int
  gkeyNode : Dict String Int
  trails : Dict Int (List Int)
  auxTrails : Dict Int (Int × Int)
  auxLength : R
  auxVector : Vec R
  deriving DecidableEq, Repr

/-- How a node is designated: by key or by coordinates (node_mixins.py 36-42). -/
inductive NodeRef (R : Type) where
  | key (n : Int)
  | point (p : Vec R)
  deriving DecidableEq, Repr

/-- Edge elements: elements/trail.py 18-20 and elements/deviation.py 11-13. -/
inductive EdgeElem (R : Type) where
  | trail (u v : NodeRef R) (length : R) (plane : Option (Vec R × Vec R))
  | deviation (u v : NodeRef R) (force : R)
  deriving DecidableEq, Repr

namespace EdgeElem
variable {R : Type}
/-- elements/edge.py 15-24 -/
def u : EdgeElem R → NodeRef R
  | trail u _ _ _ => u
  | deviation u _ _ => u
/-- elements/edge.py 15-24 -/
def v : EdgeElem R → NodeRef R
  | trail _ v _ _ => v
  | deviation _ v _ => v
end EdgeElem

namespace Diagram
variable {R : Type}

section
variable [Field R]

/-- `TopologyDiagram()` (topology.py 38-44, diagram.py 21-41). -/
def empty : Diagram R where
  nodes := []
  edges := []
  maxNode := -1
  gkeyNode := []
  trails := []
  auxTrails := []
  auxLength := -1
  auxVector := ⟨1, 1, 1⟩

/-- Attributes of a node that was just created at `p` (diagram.py 24-34). -/
def freshNode (p : Vec R) : NodeData R := ⟨p, 0, 0, none, .free⟩

/-- Attributes of an edge before any attribute is set (diagram.py 36-38). -/
def freshEdge : EdgeData R := ⟨.untyped, 0, 0, none⟩

variable (gkey : Vec R → String)

/-- Key selection of COMPAS' `Graph.add_node`: `None` means `_max_node + 1`. -/
def newKey (D : Diagram R) : Option Int → Int
  | some k => k
  | none => D.maxNode + 1

/-- Attributes after `Graph.add_node(key, x=, y=, z=)`: a new node gets the
defaults, an existing one keeps everything except its coordinates. -/
def placedNode (D : Diagram R) (n : Int) (p : Vec R) : NodeData R :=
  match D.nodes.get? n with
  | some d => { d with pos := p }
  | none => freshNode p

/-- `Graph.add_node(key, x=, y=, z=)` of COMPAS followed by the geometric key
update: node_mixins.py 16-26. Returns the key. -/
def addNode (D : Diagram R) (key : Option Int) (p : Vec R) : Diagram R × Int :=
  ({ D with nodes := D.nodes.set (D.newKey key) (D.placedNode (D.newKey key) p),
            maxNode := max D.maxNode (D.newKey key),
            gkeyNode := D.gkeyNode.set (gkey p) (D.newKey key) }, D.newKey key)

/-- node_mixins.py 36-42: an integer is returned as is. -/
def nodeKey (D : Diagram R) : NodeRef R → Option Int
  | .key n => some n
  | .point p => D.gkeyNode.get? (gkey p)

/-- node_mixins.py 28-34 -/
def nodeExists (D : Diagram R) (r : NodeRef R) : Bool := (D.nodeKey gkey r).isSome

/-- node_mixins.py 44-51 -/
def updateNodeXyz (D : Diagram R) (n : Int) (p : Vec R) : Diagram R :=
  let D := if D.gkeyNode.has (gkey p) then { D with gkeyNode := D.gkeyNode.erase (gkey p) } else D
  (D.addNode gkey (some n) p).1

/-- node_mixins.py 53-59, setter form `node_xyz(key, xyz)`. -/
def setNodeXyz (D : Diagram R) (n : Int) (p : Vec R) : Diagram R := D.updateNodeXyz gkey n p

/-- node_mixins.py 53-59, getter form `node_xyz(key)`. -/
def nodeXyz (D : Diagram R) (n : Int) : Except PyErr (Vec R) :=
  match D.nodes.getE n with
  | .ok d => .ok d.pos
  | .error e => .error e

/-- One round of the loop edge_mixins.py 30-42: find or create an end node. -/
def endKey (D : Diagram R) (r : NodeRef R) : Diagram R × Int :=
  match D.nodeKey gkey r with
  | some n => (D, n)
  | none =>
    match r with
    | .point p => D.addNode gkey none p
    | .key n => (D, n)   -- unreachable: `nodeKey` of an integer is never `None`

/-- `dict.update` of the edge attributes (elements/trail.py 19, elements/deviation.py 12). -/
def EdgeData.update (d : EdgeData R) : EdgeElem R → EdgeData R
  | .trail _ _ length plane => { d with length := length, type := .trail, plane := plane }
  | .deviation _ _ force => { d with force := force, type := .deviation }

/-- edge_mixins.py 14-46.  COMPAS' `Graph.add_edge` calls `self.add_node(u)` for a
missing end, which resolves to `NodeMixins.add_node` and raises `AttributeError`
because an integer has no `.key`. -/
def addEdge (D : Diagram R) (e : EdgeElem R) : Diagram R × Except PyErr (Int × Int) :=
  let (D, u) := D.endKey gkey e.u
  let (D, v) := D.endKey gkey e.v
  if D.nodes.has u && D.nodes.has v then
    let d := (D.edges.get? (u, v)).getD freshEdge
    ({ D with edges := D.edges.set (u, v) (EdgeData.update d e) }, .ok (u, v))
  else
    (D, .error .attributeError)

/-- topology.py 90-111.  `node_attribute` raises `KeyError` for a missing node. -/
def addSupport (D : Diagram R) (r : NodeRef R) : Diagram R × Except PyErr Unit :=
  match D.nodeKey gkey r with
  | none => (D, .error .valueError)
  | some n =>
    match D.nodes.get? n with
    | none => (D, .error .keyError)
    | some d => ({ D with nodes := D.nodes.set n { d with type := .support } }, .ok ())

/-- topology.py 113-129 -/
def addLoad (D : Diagram R) (r : NodeRef R) (q : Vec R) : Diagram R × Except PyErr Unit :=
  match D.nodeKey gkey r with
  | none => (D, .error .valueError)
  | some n =>
    match D.nodes.get? n with
    | none => (D, .error .keyError)
    | some d => ({ D with nodes := D.nodes.set n { d with load := q } }, .ok ())

end
end Diagram
end CEM
