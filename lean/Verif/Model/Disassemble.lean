import Verif.Model.Queries

/-!
# Grasshopper components that take diagrams apart

Models `src/compas_cem/ghpython/components/CompasCem_DisassembleTopology/code.py` and
`CompasCem_DisassembleForm/code.py`, with a diagram connected.
-/

namespace CEM
namespace Component
open Diagram
variable {R : Type}

/-- The outputs of CompasCem_DisassembleTopology/code.py 24. -/
structure TopologyParts where
  nodes : List Int
  origins : List Int
  supports : List Int
  edges : List (Int × Int)
  trailEdges : List (Int × Int)
  deviationEdges : List (Int × Int)
  sequences : List (List Int)
  trails : List (List Int)
  auxiliary : List (Int × Int)
  deriving DecidableEq, Repr

/-- CompasCem_DisassembleTopology/code.py 8-24: the sequences are listed first. -/
def disassembleTopology (D : Diagram R) : Except PyErr TopologyParts :=
  match D.sequences with
  | .error err => .error err
  | .ok seqs => .ok
    { nodes := D.nodes.keys
      origins := D.originNodes
      supports := D.supportNodes
      edges := D.edgeList
      trailEdges := D.trailEdges
      deviationEdges := D.deviationEdges
      sequences := seqs
      trails := D.trails.vals
      auxiliary := D.auxTrails.vals }

/-- CompasCem_DisassembleForm/code.py 8-16: nodes, support nodes and edges. -/
def disassembleForm (F : Diagram R) : List Int × List Int × List (Int × Int) :=
  (F.nodes.keys, F.supportNodes, F.edgeList)

end Component
end CEM
