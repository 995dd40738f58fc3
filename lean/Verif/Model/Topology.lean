import Verif.Model.Diagram

/-!
# Topology diagrams: predicates, sequences, trails

Models `src/compas_cem/diagrams/topology/topology.py`.
-/

namespace CEM
namespace Diagram
variable {R : Type}

/-! ## Graph queries of COMPAS -/

/-- Insertion of a key into a dictionary used as an ordered set
(`adjacency[u][v] = None`). -/
def insertNew (l : List Int) (v : Int) : List Int := if v ∈ l then l else l ++ [v]

/-- One edge's contribution to `adjacency[n]`. -/
def adjStep (n : Int) (l : List Int) (e : Int × Int) : List Int :=
  let l := if e.1 = n then insertNew l e.2 else l
  if e.2 = n then insertNew l e.1 else l

/-- `Graph.neighbors(n)` = `list(adjacency[n])`: neighbours in order of the
insertion of the first edge joining them to `n`. -/
def neighbors (D : Diagram R) (n : Int) : List Int := D.edges.keys.foldl (adjStep n) []

/-- `Graph.connected_edges(n)`: `(n, nbr)` if stored, else `(nbr, n)`. -/
def connectedEdges (D : Diagram R) (n : Int) : List (Int × Int) :=
  (D.neighbors n).map fun nbr => if D.edges.has (n, nbr) then (n, nbr) else (nbr, n)

/-- `Graph.edges()`: grouped by first node in node order. -/
def edgeList (D : Diagram R) : List (Int × Int) :=
  D.nodes.keys.flatMap fun u => D.edges.keys.filter fun e => e.1 = u

/-! ## Filters with exceptions -/

/-- A list comprehension with a filter that may raise. -/
def filterE {α : Type} (p : α → Except PyErr Bool) : List α → Except PyErr (List α)
  | [] => .ok []
  | a :: l =>
    match p a with
    | .error e => .error e
    | .ok b =>
      match filterE p l with
      | .error e => .error e
      | .ok l' => .ok (if b then a :: l' else l')

/-! ## Node filters and edge predicates -/

/-- topology.py 669-684 (also diagram.py 132-146). -/
def isNodeSupport (D : Diagram R) (n : Int) : Except PyErr Bool :=
  match D.nodes.get? n with
  | some d => .ok (d.type = .support)
  | none => .error .keyError

/-- topology.py 652-667 -/
def isNodeOrigin (D : Diagram R) (n : Int) : Except PyErr Bool :=
  match D.nodes.get? n with
  | some d => .ok (d.type = .origin)
  | none => .error .keyError

/-- diagram.py 72-81: `nodes_where({"type": "support"})`. -/
def supportNodes (D : Diagram R) : List Int :=
  D.nodes.keys.filter fun n => (D.nodes.get? n).map (·.type) = some .support

/-- topology.py 424-433: `nodes_where({"type": "_origin"})`. -/
def originNodes (D : Diagram R) : List Int :=
  D.nodes.keys.filter fun n => (D.nodes.get? n).map (·.type) = some .origin

/-- topology.py 690-706 -/
def isTrailEdge (D : Diagram R) (e : Int × Int) : Except PyErr Bool :=
  match D.edges.get? e with
  | some d => .ok (d.type = .trail)
  | none => .error .keyError

/-- topology.py 708-724 -/
def isDeviationEdge (D : Diagram R) (e : Int × Int) : Except PyErr Bool :=
  match D.edges.get? e with
  | some d => .ok (d.type = .deviation)
  | none => .error .keyError

/-- topology.py 544-561 -/
def trailEdges (D : Diagram R) : List (Int × Int) :=
  D.edgeList.filter fun e => ((D.edges.get? e).map (·.type)) = some .trail

/-- topology.py 563-580 -/
def deviationEdges (D : Diagram R) : List (Int × Int) :=
  D.edgeList.filter fun e => ((D.edges.get? e).map (·.type)) = some .deviation

/-- topology.py 821-839 -/
def nodeSequence (D : Diagram R) (n : Int) : Except PyErr Int :=
  match D.nodes.get? n with
  | none => .error .keyError
  | some d =>
    match d.k with
    | none => .error .valueError
    | some k => .ok k

/-- topology.py 841-856 -/
def edgeSequence (D : Diagram R) (e : Int × Int) : Except PyErr (Int × Int) :=
  match D.nodeSequence e.1 with
  | .error err => .error err
  | .ok a =>
    match D.nodeSequence e.2 with
    | .error err => .error err
    | .ok b => .ok (a, b)

/-- topology.py 789-815 -/
def isDeviationEdgePredicate (D : Diagram R) (e : Int × Int)
    (predicate : Int × Int → Except PyErr Bool) : Except PyErr Bool :=
  match D.isDeviationEdge e with
  | .error err => .error err
  | .ok false => .ok false
  | .ok true => predicate e

/-- topology.py 745-765 -/
def isDirectDeviationEdge (D : Diagram R) (e : Int × Int) : Except PyErr Bool :=
  D.isDeviationEdgePredicate e fun e =>
    match D.edgeSequence e with
    | .error err => .error err
    | .ok (a, b) => .ok (a = b)

/-- topology.py 767-787 -/
def isIndirectDeviationEdge (D : Diagram R) (e : Int × Int) : Except PyErr Bool :=
  D.isDeviationEdgePredicate e fun e =>
    match D.edgeSequence e with
    | .error err => .error err
    | .ok (a, b) => .ok (a ≠ b)

/-- topology.py 582-602 -/
def directDeviationEdges (D : Diagram R) : Except PyErr (List (Int × Int)) :=
  filterE D.isDirectDeviationEdge D.edgeList

/-- topology.py 604-624 -/
def indirectDeviationEdges (D : Diagram R) : Except PyErr (List (Int × Int)) :=
  filterE D.isIndirectDeviationEdge D.edgeList

/-- topology.py 473-493 with 517-538 -/
def connectedDirectDeviationEdges (D : Diagram R) (n : Int) : Except PyErr (List (Int × Int)) :=
  filterE D.isDirectDeviationEdge (D.connectedEdges n)

/-- topology.py 495-515 with 517-538 -/
def connectedIndirectDeviationEdges (D : Diagram R) (n : Int) : Except PyErr (List (Int × Int)) :=
  filterE D.isIndirectDeviationEdge (D.connectedEdges n)

/-- topology.py 726-743 -/
def isAuxiliaryTrailEdge (D : Diagram R) (e : Int × Int) : Bool := e ∈ D.auxTrails.vals

/-! ## Sequences -/

/-- All sequences, `TypeError` if some node has none. -/
def allSequences : Dict Int (NodeData R) → Except PyErr (List Int)
  | [] => .ok []
  | (_, d) :: l =>
    match d.k with
    | none => .error .typeError
    | some k =>
      match allSequences l with
      | .error e => .error e
      | .ok ks => .ok (k :: ks)

/-- topology.py 897-906: `max` of an empty list is a `ValueError`, comparing with
`None` a `TypeError`.  (Simplification: on a diagram with exactly one node and no
sequence the code returns `None`.) -/
def sequenceLast (D : Diagram R) : Except PyErr Int :=
  match allSequences D.nodes with
  | .error e => .error e
  | .ok [] => .error .valueError
  | .ok (k :: ks) => .ok (ks.foldl max k)

/-- topology.py 884-895 -/
def numberOfSequences (D : Diagram R) : Except PyErr Int :=
  match D.sequenceLast with
  | .error e => .error e
  | .ok k => .ok (k + 1)

/-- `range(n)` for a Python integer. -/
def pyRange (n : Int) : List Int := (List.range n.toNat).map Int.ofNat

/-- One tuple of topology.py 873-880. -/
def sequenceAt (D : Diagram R) (k : Int) : Except PyErr (List Int) :=
  filterE (fun n => match D.nodeSequence n with
    | .error e => .error e
    | .ok k' => .ok (k' = k)) D.nodes.keys

/-- `[f(a) for a in l]` with a function that may raise. -/
def mapE {α β : Type} (f : α → Except PyErr β) : List α → Except PyErr (List β)
  | [] => .ok []
  | a :: l =>
    match f a with
    | .error e => .error e
    | .ok b =>
      match mapE f l with
      | .error e => .error e
      | .ok l' => .ok (b :: l')

/-- topology.py 858-882 (`keys=False`), the generator exhausted into a list. -/
def sequences (D : Diagram R) : Except PyErr (List (List Int)) :=
  match D.numberOfSequences with
  | .error e => .error e
  | .ok n => mapE D.sequenceAt (pyRange n)

/-- The loop of topology.py 926-930. -/
def trailSequencesLoop (D : Diagram R) : List Int → Dict Int Int → Except PyErr (Dict Int Int)
  | [], acc => .ok acc
  | n :: l, acc =>
    match D.nodeSequence n with
    | .error e => .error e
    | .ok k => trailSequencesLoop D l (acc.set k n)

/-- topology.py 912-930 -/
def trailSequences (D : Diagram R) (key : Int) : Except PyErr (Dict Int Int) :=
  match D.trails.get? key with
  | none => .error .keyError
  | some tr => D.trailSequencesLoop tr []

/-- The loop of topology.py 944-949 over the keys of the trails. -/
def trailsSequencesLoop (D : Diagram R) :
    List Int → Dict Int (Dict Int Int) → Except PyErr (Dict Int (Dict Int Int))
  | [], acc => .ok acc
  | key :: l, acc =>
    match D.trailSequences key with
    | .error e => .error e
    | .ok s => trailsSequencesLoop D l (acc.set key s)

/-- topology.py 932-949 -/
def trailsSequences (D : Diagram R) : Except PyErr (Dict Int (Dict Int Int)) :=
  D.trailsSequencesLoop D.trails.keys []

/-! ## Trails -/

/-- topology.py 135-144 -/
def numberOfTrails (D : Diagram R) : Nat := D.trails.vals.length

/-- topology.py 273-283 -/
def hasTrails (D : Diagram R) : Bool := D.numberOfTrails > 0

/-- `node_attribute(n, "_k", k)` for a node known to exist. -/
def setK (D : Diagram R) (n : Int) (k : Int) : Diagram R :=
  { D with nodes := D.nodes.modify n fun d => { d with k := some k } }

/-- `for idx, node in enumerate(trail): node_attribute(node, "_k", start + idx)`
(topology.py 305-308 and 378-379). -/
def assignSequences (D : Diagram R) : List Int → Int → Diagram R
  | [], _ => D
  | n :: l, k => assignSequences (D.setK n k) l (k + 1)

/-- topology.py 285-308 -/
def shiftTrail (D : Diagram R) (key : Int) (sequence : Int) : Diagram R × Except PyErr Unit :=
  match D.isNodeOrigin key with
  | .error e => (D, .error e)
  | .ok false => (D, .error .assertionError)
  | .ok true =>
    if !D.hasTrails then (D, .error .valueError)
    else
      match D.trails.get? key with
      | none => (D, .error .keyError)
      | some tr => (D.assignSequences tr sequence, .ok ())

/-- The trail test topology.py 352-355: `(node, neighbor)` first, on `KeyError`
the reverse.  (Both missing is impossible for adjacent nodes.) -/
def isTrailPair (D : Diagram R) (n nb : Int) : Bool :=
  match D.edges.get? (n, nb) with
  | some d => d.type = .trail
  | none =>
    match D.edges.get? (nb, n) with
    | some d => d.type = .trail
    | none => false

/-- topology.py 343-363: the next node of the walk.  `neighbors.pop()` takes from
the end of the list; visited nodes and nodes not joined by a trail edge are
skipped. -/
def nextInWalk (D : Diagram R) (visited : List Int) (n : Int) : Option Int :=
  (D.neighbors n).reverse.find? fun nb => nb ∉ visited && D.isTrailPair n nb

/-- topology.py 341-369: the walk from a support.  `acc` is the trail so far, in
reverse (so that the result is already the reversed trail of line 374); the set
`visited` always has the same elements.  When the next node equals the current
one (self-loop) the loop ends after appending the node a second time.
`none`: out of fuel. -/
def walk (D : Diagram R) : Nat → List Int → Int → Option (List Int)
  | 0, _, _ => none
  | fuel + 1, acc, n =>
    match D.nextInWalk acc n with
    | none => some (n :: acc)
    | some nb => if nb = n then some (n :: n :: acc) else walk D fuel (n :: acc) nb

/-- Loop state of topology.py 335-382. -/
structure BuildState (R : Type) where
  D : Diagram R
  trails : Dict Int (List Int)
  /-- `nodes_in_trails` (a set; order irrelevant) -/
  inTrails : List Int

/-- `node_attribute(n, "type", "_origin")` for a node known to exist. -/
def setOrigin (D : Diagram R) (n : Int) : Diagram R :=
  { D with nodes := D.nodes.modify n fun d => { d with type := .origin } }

/-- One round of topology.py 335-382 for a support node. -/
def buildStep (fuel : Nat) (s : BuildState R) (support : Int) : Option (BuildState R) :=
  match s.D.walk fuel [] support with
  | none => none
  | some [] => none            -- unreachable: a walk contains its start
  | some (origin :: rest) =>
    some { D := (s.D.setOrigin origin).assignSequences (origin :: rest) 0
           trails := s.trails.set origin (origin :: rest)
           inTrails := (origin :: rest) ++ s.inTrails }

/-- topology.py 335-382.  The generator `support_nodes()` reads the type of each
node when it is reached. -/
def buildLoop (fuel : Nat) : List Int → BuildState R → Option (BuildState R)
  | [], s => some s
  | n :: l, s =>
    match s.D.nodes.get? n with
    | some d =>
      if d.type = .support then
        match buildStep fuel s n with
        | none => none
        | some s' => buildLoop fuel l s'
      else buildLoop fuel l s
    | none => buildLoop fuel l s

/-- Fuel that always suffices (theorem `C08_build_trails_terminates`). -/
def walkFuel (D : Diagram R) : Nat := D.nodes.length + 1

/-- `set(self.nodes()) - nodes_in_trails` (topology.py 386), in node order. -/
def unassigned (s : BuildState R) : List Int := s.D.nodes.keys.filter (· ∉ s.inTrails)

/-- The trail search, topology.py 330-382, on a whole diagram. -/
def searchTrails (D : Diagram R) : Option (BuildState R) :=
  buildLoop D.walkFuel D.nodes.keys ⟨D, [], []⟩

/-- topology.py 310-418 with `auxiliary_trails=False`. -/
def buildTrails (D : Diagram R) : Diagram R × Except PyErr Unit :=
  match D.searchTrails with
  | none => (D, .error .outOfFuel)
  | some s =>
    if s.D.trailEdges.length = 0 then (s.D, .error .assertionError)
    else if s.D.supportNodes.length = 0 then (s.D, .error .assertionError)
    else if (unassigned s).length ≠ 0 then (s.D, .error .assertionError)
    else ({ s.D with trails := s.trails }, .ok ())

section
variable [Field R] [DecidableEq R] [PySqrt R] (gkey : Vec R → String)

/-- One round of topology.py 394-401. -/
def addAuxTrail (D : Diagram R) (n : Int) : Diagram R × Except PyErr (Int × Int) :=
  match D.nodes.get? n with
  | none => (D, .error .keyError)
  | some d =>
    let auxVector := D.auxLength • Vec.normalize D.auxVector
    let (D1, aux) := D.addNode gkey none (d.pos + auxVector)
    match D1.addSupport gkey (.key aux) with
    | (D2, .error e) => (D2, .error e)
    | (D2, .ok ()) => D2.addEdge gkey (.trail (.key n) (.key aux) D.auxLength none)

/-- The loop topology.py 394-401. -/
def addAuxTrails (D : Diagram R) (aux : Dict Int (Int × Int)) :
    List Int → Diagram R × Except PyErr (Dict Int (Int × Int))
  | [] => (D, .ok aux)
  | n :: l =>
    match D.addAuxTrail gkey n with
    | (D', .error e) => (D', .error e)
    | (D', .ok e) => addAuxTrails D' (aux.set n e) l

/-- topology.py 310-418 with `auxiliary_trails=True`.  `order` is the iteration
order of the Python set `unassigned`. -/
def buildTrailsAux (D : Diagram R) (order : List Int → List Int) :
    Diagram R × Except PyErr Unit :=
  match D.searchTrails with
  | none => (D, .error .outOfFuel)
  | some s =>
    match addAuxTrails gkey s.D [] (order (unassigned s)) with
    | (D', .error e) => (D', .error e)
    | (D', .ok aux) => buildTrails { D' with auxTrails := aux }

end
end Diagram
end CEM
