import Verif.Model.Diagram

/-!
# Topology diagrams from meshes

Models `src/compas_cem/diagrams/topology/mesh_mixins.py`.  The mesh is external: what the code
reads from it are the vertices with their coordinates and, after `collect_polyedges()`, the
polyedges.  `supports = set(supports)` is iterated in an arbitrary order.
-/

namespace CEM

/-- What `from_dualquadmesh` reads from a mesh. -/
structure QuadMesh (R : Type) where
  vertices : List (Int × Vec R)
  polyedges : List (List Int)

/-- `compas.utilities.pairwise` -/
def pairwise (l : List Int) : List (Int × Int) := l.zip l.tail

/-- mesh_mixins.py 62-91: the deviation and trail edges of one polyedge. -/
def splitPolyedge (supports : List Int) (p : List Int) :
    Except PyErr (List (Int × Int) × List (Int × Int)) :=
  match p.head?, p.getLast? with
  | some start, some last =>
    if start = last then .ok (pairwise p, [])
    else if start ∉ supports ∧ last ∉ supports then .ok (pairwise p, [])
    else if start ∈ supports ∧ last ∈ supports then
      match p[1]? with
      | none => .error .indexError
      | some second =>
        if second ∈ supports then .ok ([], [])
        else
          let n := p.length / 2 - 1
          match (p.drop n).take 2 with
          | [u, v] => .ok ([(u, v)], pairwise (p.take (n + 1)) ++ pairwise (p.drop (n + 1)))
          | _ => .error .typeError   -- unreachable: `DeviationEdge(*edge)` needs two nodes
    else .ok ([], pairwise p)
  | _, _ => .error .indexError

/-- mesh_mixins.py 57-91: all deviation and trail edges, in order. -/
def splitPolyedges (supports : List Int) :
    List (List Int) → Except PyErr (List (Int × Int) × List (Int × Int))
  | [] => .ok ([], [])
  | p :: ps => do
    let a ← splitPolyedge supports p
    let b ← splitPolyedges supports ps
    .ok (a.1 ++ b.1, a.2 ++ b.2)

namespace Diagram
variable {R : Type} [Field R] (gkey : Vec R → String)

/-- mesh_mixins.py 95-96 -/
def addVertices (D : Diagram R) (vs : List (Int × Vec R)) : Diagram R :=
  vs.foldl (fun D v => (D.addNode gkey (some v.1) v.2).1) D

/-- mesh_mixins.py 98-99 -/
def addSupports (D : Diagram R) : List Int → Except PyErr (Diagram R)
  | [] => .ok D
  | n :: ns =>
    match D.addSupport gkey (.key n) with
    | (D', .ok _) => addSupports D' ns
    | (_, .error e) => .error e

/-- mesh_mixins.py 101-103 -/
def addDeviations (force : R) (D : Diagram R) : List (Int × Int) → Except PyErr (Diagram R)
  | [] => .ok D
  | e :: es =>
    match D.addEdge gkey (.deviation (.key e.1) (.key e.2) force) with
    | (D', .ok _) => addDeviations force D' es
    | (_, .error err) => .error err

variable [DecidableEq R] [PySqrt R]

/-- mesh_mixins.py 107-112: the signed length of a trail edge; a given length of zero counts as
none. -/
def meshLength (D : Diagram R) (trailLength : Option R) (trailState : R) (e : Int × Int) :
    Except PyErr R :=
  match trailLength with
  | some l => if l ≠ 0 then .ok (l * trailState) else measured
  | none => measured
where
  /-- The distance of the end nodes in the diagram. -/
  measured : Except PyErr R := do
    let a ← D.nodeXyz e.1
    let b ← D.nodeXyz e.2
    .ok (Vec.dist a b * trailState)

/-- mesh_mixins.py 105-114 -/
def addTrailEdges (trailLength : Option R) (trailState : R) (D : Diagram R) :
    List (Int × Int) → Except PyErr (Diagram R)
  | [] => .ok D
  | e :: es =>
    match D.meshLength trailLength trailState e with
    | .error err => .error err
    | .ok l =>
      match D.addEdge gkey (.trail (.key e.1) (.key e.2) l none) with
      | (D', .ok _) => addTrailEdges trailLength trailState D' es
      | (_, .error err) => .error err

/-- mesh_mixins.py 20-116 -/
def fromDualQuadMesh (order : List Int → List Int) (mesh : QuadMesh R) (supports : List Int)
    (trailLength : Option R) (trailState deviationForce deviationState : R) :
    Except PyErr (Diagram R) := do
  let s ← splitPolyedges supports mesh.polyedges
  let D := Diagram.empty.addVertices gkey mesh.vertices
  let D ← D.addSupports gkey (order supports.dedup)
  let D ← D.addDeviations gkey (deviationState * deviationForce) s.1
  D.addTrailEdges gkey trailLength trailState s.2

end Diagram
end CEM
