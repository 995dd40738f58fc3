import Verif.Model.Topology

/-!
# Queries and counters

Models the read-only methods of `src/compas_cem/diagrams/diagram.py` and
`src/compas_cem/diagrams/topology/topology.py` that the other files do not need.
Generators are modelled by the list of what they yield.
-/

namespace CEM
namespace Diagram
variable {R : Type}

/-! ## Attributes -/

/-- diagram.py 190-204 -/
def nodeLoad (D : Diagram R) (n : Int) : Except PyErr (Vec R) :=
  match D.nodes.get? n with
  | some d => .ok d.load
  | none => .error .keyError

/-- diagram.py 206-220 -/
def reactionForce (D : Diagram R) (n : Int) : Except PyErr (Vec R) :=
  match D.nodes.get? n with
  | some d => .ok d.reaction
  | none => .error .keyError

/-- diagram.py 226-240 -/
def edgeForce (D : Diagram R) (e : Int × Int) : Except PyErr R :=
  match D.edges.get? e with
  | some d => .ok d.force
  | none => .error .keyError

/-- diagram.py 242-256 -/
def edgeLength2 (D : Diagram R) (e : Int × Int) : Except PyErr R :=
  match D.edges.get? e with
  | some d => .ok d.length
  | none => .error .keyError

/-! ## Node and edge filters -/

section
variable [Field R] [LinearOrder R] [PySqrt R]

/-- diagram.py 148-164 -/
def isNodeLoaded (D : Diagram R) (minForce : R) (n : Int) : Except PyErr Bool :=
  match D.nodeLoad n with
  | .error err => .error err
  | .ok q => .ok (Vec.length q > minForce)

/-- diagram.py 83-100 -/
def loadedNodes (D : Diagram R) (minForce : R) : Except PyErr (List Int) :=
  filterE (D.isNodeLoaded minForce) D.nodes.keys

/-- The default `min_force=1e-6` (diagram.py 83, 148). -/
def defaultMinForce : R := 1 / 1000000

/-- diagram.py 117-126 -/
def numberOfLoadedNodes (D : Diagram R) : Except PyErr Nat :=
  match D.loadedNodes defaultMinForce with
  | .error err => .error err
  | .ok l => .ok l.length

end

/-- diagram.py 170-184: both ends are tested before `any` looks at the answers. -/
def isEdgeSupported (D : Diagram R) (e : Int × Int) : Except PyErr Bool :=
  match D.isNodeSupport e.1 with
  | .error err => .error err
  | .ok a =>
    match D.isNodeSupport e.2 with
    | .error err => .error err
    | .ok b => .ok (a || b)

/-- topology.py 439-454 with 517-538 -/
def connectedDeviationEdges (D : Diagram R) (n : Int) : Except PyErr (List (Int × Int)) :=
  filterE D.isDeviationEdge (D.connectedEdges n)

/-- topology.py 456-471 with 517-538 -/
def connectedTrailEdges (D : Diagram R) (n : Int) : Except PyErr (List (Int × Int)) :=
  filterE D.isTrailEdge (D.connectedEdges n)

/-- topology.py 626-646 -/
def auxiliaryTrailEdges (D : Diagram R) : List (Int × Int) :=
  D.edgeList.filter D.isAuxiliaryTrailEdge

/-! ## Counters -/

/-- `Graph.number_of_nodes` -/
def numberOfNodes (D : Diagram R) : Nat := D.nodes.keys.length

/-- `Graph.number_of_edges`: `len(list(self.edges()))` -/
def numberOfEdges (D : Diagram R) : Nat := D.edgeList.length

/-- diagram.py 106-115 -/
def numberOfSupportNodes (D : Diagram R) : Nat := D.supportNodes.length

/-- topology.py 146-155 -/
def numberOfAuxiliaryTrails (D : Diagram R) : Nat := D.auxTrails.vals.length

/-- topology.py 157-166 -/
def numberOfTrailEdges (D : Diagram R) : Nat := D.trailEdges.length

/-- topology.py 168-177 -/
def numberOfDeviationEdges (D : Diagram R) : Nat := D.deviationEdges.length

/-- topology.py 179-188 -/
def numberOfDirectDeviationEdges (D : Diagram R) : Except PyErr Nat :=
  match D.directDeviationEdges with
  | .error err => .error err
  | .ok l => .ok l.length

/-- topology.py 190-199 -/
def numberOfIndirectDeviationEdges (D : Diagram R) : Except PyErr Nat :=
  match D.indirectDeviationEdges with
  | .error err => .error err
  | .ok l => .ok l.length

/-- The numbers shown by `TopologyDiagram.__repr__` (topology.py 953-966), in order. -/
def reprNumbers [Field R] [LinearOrder R] [PySqrt R] (D : Diagram R) : Except PyErr (List Nat) :=
  match D.numberOfLoadedNodes with
  | .error err => .error err
  | .ok loaded =>
    .ok [D.numberOfEdges, D.numberOfTrailEdges, D.numberOfDeviationEdges, D.numberOfNodes,
      D.numberOfSupportNodes, loaded, D.numberOfTrails, D.numberOfAuxiliaryTrails]

end Diagram
end CEM
