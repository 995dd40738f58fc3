import Verif.Spec.Limit

/-!
# How far a form can reach and how much it can carry

Numbers that are known before form finding.
-/

namespace CEM
namespace Spec

/-- Sum of the absolute values of the forces of the deviation edges at node `n`. -/
def deviationsAt (D : Diagram ℝ) (n : Int) : ℝ :=
  (D.edges.map fun p =>
    if (p.1.1 = n ∨ p.1.2 = n) ∧ p.2.type = .deviation then |p.2.force| else 0).sum

/-- Load and deviation forces at node `n`. -/
noncomputable def pushAt (D : Diagram ℝ) (n : Int) : ℝ := Vec.length (loadAt D n) + deviationsAt D n

/-- Loads and deviation forces at some nodes. -/
noncomputable def pushes (D : Diagram ℝ) (l : List Int) : ℝ := (l.map (pushAt D)).sum

/-- The prescribed length of the edge between two nodes, without its sign. -/
def lengthBetween (D : Diagram ℝ) (a b : Int) : ℝ :=
  match D.edges.get? (a, b) with
  | some d => |d.length|
  | none =>
    match D.edges.get? (b, a) with
    | some d => |d.length|
    | none => 0

/-- The prescribed lengths along a walk. -/
def walked (D : Diagram ℝ) : List Int → ℝ
  | a :: b :: l => lengthBetween D a b + walked D (b :: l)
  | _ => 0

/-- No trail edge has a plane. -/
def NoPlanes (D : Diagram ℝ) : Prop :=
  ∀ e d, D.edges.get? e = some d → d.type = .trail → d.plane = none

end Spec
end CEM
