import Verif.Model.Components
import Verif.Model.Drawing

/-!
# The drawing components of Grasshopper

Models `CompasCem_ArtistForm/code.py` and `CompasCem_ArtistTopology/code.py` with a diagram
connected.  An output is what the artist hands to the drawing functions of Rhino; arrows are kept
with their node.  Outputs are returned together: if one cannot be drawn the component raises.
-/

namespace CEM
namespace Component
open Drawing
variable {R : Type}

/-- `keys or None` -/
def orNone {K : Type} : Option (List K) → Option (List K)
  | none => none
  | some [] => none
  | some (k :: l) => some (k :: l)

/-- The outputs of CompasCem_ArtistForm/code.py 28. -/
structure DrawnForm (R : Type) where
  nodes : List (Vec R)
  supports : List (Vec R)
  edges : List (Vec R × Vec R)
  loads : List (Int × Arrow R)
  reactions : List (Int × Arrow R)
  deriving DecidableEq

/-- The outputs of CompasCem_ArtistTopology/code.py 33. -/
structure DrawnTopology (R : Type) where
  nodes : List (Vec R)
  origins : Option (List (Vec R))
  supports : List (Vec R)
  edges : List (Vec R × Vec R)
  trailEdges : Option (List (Vec R × Vec R))
  deviationEdges : Option (List (Vec R × Vec R))
  trails : List (List (Vec R))
  loads : List (Int × Arrow R)
  deriving DecidableEq

variable [Field R] [LinearOrder R] [PySqrt R]

/-- CompasCem_ArtistForm/code.py 10-28 -/
def artistForm (F : Diagram R) (nodeKeys : Option (List Int)) (edgeKeys : Option (List (Int × Int)))
    (forceMin forceScale : Option R) : Except PyErr (DrawnForm R) :=
  let nodeKeys := orNone nodeKeys
  let edgeKeys := orNone edgeKeys
  let forceMin := orElse forceMin (1 / 1000)
  let forceScale := orElse forceScale 1
  match ghNodes F nodeKeys with
  | .error err => .error err
  | .ok nodes =>
    match ghEdges F edgeKeys with
    | .error err => .error err
    | .ok edges =>
      match ghNodesSupport F nodeKeys with
      | .error err => .error err
      | .ok supports =>
        match drawLoads F forceScale forceMin (fun _ => 0) (orAll F.nodes.keys nodeKeys) with
        | .error err => .error err
        | .ok loads =>
          match ghReactions F forceScale forceMin (fun _ => 0) (orAll F.nodes.keys nodeKeys) with
          | .error err => .error err
          | .ok reactions => .ok ⟨nodes, supports, edges, loads, reactions⟩

/-- CompasCem_ArtistTopology/code.py 10-33 -/
def artistTopology (D : Diagram R) (nodeKeys : Option (List Int))
    (edgeKeys : Option (List (Int × Int))) (forceMin forceScale : Option R) :
    Except PyErr (DrawnTopology R) :=
  let nodeKeys := orNone nodeKeys
  let edgeKeys := orNone edgeKeys
  let forceMin := orElse forceMin (1 / 1000)
  let forceScale := orElse forceScale 1
  match ghNodes D nodeKeys with
  | .error err => .error err
  | .ok nodes =>
    match ghNodesOrigin D nodeKeys with
    | .error err => .error err
    | .ok origins =>
      match ghNodesSupport D nodeKeys with
      | .error err => .error err
      | .ok supports =>
        match ghEdges D edgeKeys with
        | .error err => .error err
        | .ok edges =>
          match ghEdgesTrail D edgeKeys with
          | .error err => .error err
          | .ok trailEdges =>
            match ghEdgesDeviation D edgeKeys with
            | .error err => .error err
            | .ok deviationEdges =>
              match ghTrails D with
              | .error err => .error err
              | .ok trails =>
                match drawLoads D forceScale forceMin (fun _ => 0)
                    (orAll D.nodes.keys nodeKeys) with
                | .error err => .error err
                | .ok loads =>
                  .ok ⟨nodes, origins, supports, edges, trailEdges, deviationEdges, trails, loads⟩

end Component
end CEM
