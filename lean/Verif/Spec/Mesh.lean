import Verif.Model.Mesh

/-!
# Specification vocabulary for diagrams from meshes
-/

namespace CEM.Spec

/-- The edges along a polyedge. -/
def hops : List Int → List (Int × Int)
  | u :: v :: l => (u, v) :: hops (v :: l)
  | _ => []

/-- A polyedge between two supports whose second vertex is a support, too. -/
def AlongSupports (supports : List Int) (p : List Int) : Prop :=
  ∃ s t l, p = s :: t :: l ∧ s ∈ supports ∧ t ∈ supports ∧
    (∃ e, p.getLast? = some e ∧ e ∈ supports ∧ s ≠ e)

/-- A mesh with distinct vertices and polyedges along its vertices, and supports among them. -/
structure MeshInput {R : Type} (mesh : QuadMesh R) (supports : List Int) : Prop where
  nodup : (mesh.vertices.map Prod.fst).Nodup
  nonempty : ∀ p ∈ mesh.polyedges, p ≠ []
  onVertices : ∀ p ∈ mesh.polyedges, ∀ v ∈ p, v ∈ mesh.vertices.map Prod.fst
  supported : ∀ s ∈ supports, s ∈ mesh.vertices.map Prod.fst

end CEM.Spec
