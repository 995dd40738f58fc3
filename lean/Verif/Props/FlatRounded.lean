import Verif.Lemmas.FlatRounded
import Verif.Props.Flat
import Verif.Props.RoundedNumpy

/-!
# Flat structures stay flat in rounded arithmetic (C89)
-/

set_option linter.unusedSectionVars false
set_option linter.unusedSimpArgs false

namespace CEM
namespace Props
open Diagram Spec

/-- **C89, rounded plain solver.**  Every operation may have a relative error.  If all nodes have
the same coordinate `t`, and no load or reaction stored before has a component along it, then all
nodes of the form have exactly this coordinate and no reaction has the component.  Adding zero to
`t` must give `t`, as it does for a number of the arithmetic. -/
theorem C89_rounded (c : Coordinate) {A : Arith ℝ} {u : ℝ} (hA : Precise A u) {t : ℝ}
    (ht : A.add t 0 = t) {D : Diagram ℝ} (w : WF D)
    (hD : ∀ n d, D.nodes.get? n = some d → c.of d.pos = t ∧ c.of d.reaction = 0)
    (hL : ∀ n d, D.nodes.get? n = some d → c.of d.load = 0) {kmax : Option Int} {tmax : Nat}
    {eta : ℝ} {verbose : Bool} {F : Diagram ℝ}
    (h : flStaticEquilibrium A D kmax tmax eta verbose = .ok F) :
    ∀ n d, F.nodes.get? n = some d → c.of d.pos = t ∧ c.of d.reaction = 0 :=
  Flatness.Rounded.plain (Flatness.kept_coordinate c hA ht) hL w.nodesNodup hD h

/-- **C89, rounded numpy solver.** -/
theorem C89_rounded_numpy (c : Coordinate) {A : Arith ℝ} {u : ℝ} (hA : Precise A u) {t : ℝ}
    (ht : A.add t 0 = t) {D : Diagram ℝ} (w : WF D)
    (hD : ∀ n d, D.nodes.get? n = some d → c.of d.pos = t ∧ c.of d.reaction = 0)
    (hL : ∀ n d, D.nodes.get? n = some d → c.of d.load = 0) {total : List ℝ → ℝ} {tmax : Nat}
    {eta : ℝ} {verbose : Bool} {F : Diagram (Num ℝ)}
    (h : flStaticEquilibriumNumpy A total D tmax eta verbose = .ok F) :
    ∀ n d, F.nodes.get? n = some d →
      (∀ p, d.pos = NVec.coords (some p) → c.of p = t) ∧
      ∀ r, d.reaction = NVec.coords (some r) → c.of r = 0 :=
  Flatness.Rounded.numpy (Flatness.kept_coordinate c hA ht) hL w.nodesNodup hD h

/-- **C89, the plane through the origin of the coordinates** is kept by every arithmetic with
relative errors. -/
theorem C89_rounded_zero (c : Coordinate) {A : Arith ℝ} {u : ℝ} (hA : Precise A u) {D : Diagram ℝ}
    (w : WF D) (hD : ∀ n d, D.nodes.get? n = some d → c.of d.pos = 0 ∧ c.of d.reaction = 0)
    (hL : ∀ n d, D.nodes.get? n = some d → c.of d.load = 0) {kmax : Option Int} {tmax : Nat}
    {eta : ℝ} {verbose : Bool} {F : Diagram ℝ}
    (h : flStaticEquilibrium A D kmax tmax eta verbose = .ok F) :
    ∀ n d, F.nodes.get? n = some d → c.of d.pos = 0 ∧ c.of d.reaction = 0 :=
  C89_rounded c hA (by simpa using hA.add 0 0) w hD hL h

/-! ## Examples -/

namespace FlatEx

/-- 3 is a double. -/
theorem three_binary : (binaryArith 53).add 3 0 = 3 := by
  have hlog : Int.log 2 |(3 : ℝ)| = 1 := by
    rw [abs_of_pos (by norm_num)]
    have : ((3 : ℕ) : ℝ) = 3 := by norm_num
    rw [← this, Int.log_natCast]
    decide +kernel
  show binaryRound 53 (3 + 0) = 3
  rw [add_zero]
  unfold binaryRound
  rw [hlog]
  have e : (3 : ℝ) / (2 : ℝ) ^ ((1 : ℤ) + 1 - (53 : ℕ)) = ((3 * 2 ^ 51 : ℤ) : ℝ) := by
    norm_num
  rw [e, round_intCast]
  norm_num

theorem gathered_plane (n : Int) (d : NodeData ℝ) (h : (gathered ⟨0, 3, 0⟩ flat).nodes.get? n = some d) :
    Coordinate.y.of d.pos = 3 ∧ Coordinate.y.of d.reaction = 0 := by
  obtain ⟨h1, h2⟩ := flat_gathered.1 n d h
  simp only [Vec.sub_y] at h1
  exact ⟨by show d.pos.y = 3; linarith, h2⟩

/-- The same structure in the plane `y = 0`. -/
def groundOps : List (Op ℚ) :=
  open TrailEx EqEx in
  [.addNode none ⟨0, 0, 0⟩, .addNode none ⟨1, 0, 2⟩, .addNode none ⟨2, 0, 1⟩,
    .addNode none ⟨3, 0, 0⟩, .addNode none ⟨4, 0, 0⟩, trail 0 1, trail 2 1, sup 2, trail 3 4, sup 3,
    dev 0 4] ++ [load 0 ⟨0, 0, -1⟩, load 1 ⟨1, 0, -2⟩, load 4 ⟨1, 0, 1⟩]

local instance groundSqrt : PySqrt ℚ := ⟨id⟩

def groundQ : Diagram ℚ := after TrailEx.key (groundOps ++ [.buildTrails])

noncomputable def ground : Diagram ℝ := groundQ.real

theorem valid_ground : ValidInput ground := validInput_real
  (validInput_of_history TrailEx.key groundOps (RegularCheck.regular (WF.after _ _) (by decide +kernel))
    (by decide +kernel))

theorem direct_ground : DirectOnly ground := map_directOnly (DirectCheck.direct (by decide +kernel))

theorem ground_plane (n : Int) (d : NodeData ℝ) (h : ground.nodes.get? n = some d) :
    Coordinate.y.of d.pos = 0 ∧ Coordinate.y.of d.load = 0 := by
  have h : (groundQ.map fun q : ℚ => (q : ℝ)).nodes.get? n = some d := h
  rw [map_nodes_get?] at h
  obtain ⟨e, he, rfl⟩ := Option.map_eq_some_iff.1 h
  have : ∀ p ∈ groundQ.nodes, p.2.pos.y = 0 ∧ p.2.load.y = 0 := by decide +kernel
  have e0 := this _ (Dict.mem_of_get? he)
  simp only at e0
  simp [Coordinate.of, NodeData.map, Vec.map, e0]

end FlatEx

open FlatEx in
/-- Double precision keeps the plane `y = 3`. -/
example : ∃ F, flStaticEquilibrium (binaryArith 53) (gathered ⟨0, 3, 0⟩ flat) none 100 0 false = .ok F ∧
    ∀ n d, F.nodes.get? n = some d → d.pos.y = 3 ∧ d.reaction.y = 0 := by
  obtain ⟨F, hF⟩ := C72_returns_direct (C72_binary 53) double_small valid_gathered direct_gathered
    (show 1 ≤ 100 by norm_num) (le_refl (0 : ℝ))
  exact ⟨F, hF, C89_rounded .y (C72_binary 53) three_binary valid_gathered.wf gathered_plane
    flat_gathered.2 hF⟩

open FlatEx in
example : ∃ F, flStaticEquilibriumNumpy (binaryArith 53) List.sum (gathered ⟨0, 3, 0⟩ flat) 1 0 false = .ok F ∧
    ∀ n d, F.nodes.get? n = some d → ∀ p, d.pos = NVec.coords (some p) → p.y = 3 := by
  rcases C77_returns (binaryArith 53) List.sum valid_gathered (le_refl 1) 0 with ⟨F, hF⟩ | ⟨h, _⟩
  · exact ⟨F, hF, fun n d h => (C89_rounded_numpy .y (C72_binary 53) three_binary valid_gathered.wf
      gathered_plane flat_gathered.2 hF n d h).1⟩
  · omega

open FlatEx in
/-- With two digits. -/
example : ∃ F, flStaticEquilibrium (binaryArith 2) ground none 1 0 false = .ok F ∧
    ∀ n d, F.nodes.get? n = some d → d.pos.y = 0 ∧ d.reaction.y = 0 := by
  rcases C72_returns (binaryArith 2) valid_ground (le_refl 1) 0 with ⟨F, hF⟩ | ⟨h, _⟩
  · exact ⟨F, hF, C89_rounded_zero .y (C72_binary 2) valid_ground.wf
      (fun n d h => ⟨(ground_plane n d h).1, by rw [valid_ground.reaction n d h]; rfl⟩)
      (fun n d h => (ground_plane n d h).2) hF⟩
  · omega

end Props
end CEM
