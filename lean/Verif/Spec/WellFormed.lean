import Verif.Model.Diagram

/-!
# Well-formed diagrams

What is true of the stored data of every diagram that is reachable through the API
(theorem `CEM.Diagram.WF.after`): the containers are dictionaries, edges join
existing nodes, and the key counter is ahead of all keys.
-/

namespace CEM
namespace Diagram
variable {R : Type}

/-- Structural invariant of every diagram reachable through the API. -/
structure WF (D : Diagram R) : Prop where
  nodesNodup : D.nodes.keys.Nodup
  edgesNodup : D.edges.keys.Nodup
  gkeysNodup : D.gkeyNode.keys.Nodup
  le_max : ∀ n ∈ D.nodes.keys, n ≤ D.maxNode
  max_ge : -1 ≤ D.maxNode
  lookup_mem : ∀ g n, D.gkeyNode.get? g = some n → n ∈ D.nodes.keys
  edge_left : ∀ e ∈ D.edges.keys, e.1 ∈ D.nodes.keys
  edge_right : ∀ e ∈ D.edges.keys, e.2 ∈ D.nodes.keys

end Diagram
end CEM
