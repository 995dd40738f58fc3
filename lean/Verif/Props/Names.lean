import Verif.Lemmas.NamesAutodiff
import Verif.Lemmas.NamesTrails
import Verif.Props.Equilibrium
import Verif.Props.Solve

/-!
# Property C85: names of nodes do not matter
-/

set_option linter.unusedSectionVars false
set_option linter.unusedSimpArgs false

namespace CEM
namespace Props
open Diagram Spec

local instance nameSqrt : PySqrt ℚ := ⟨id⟩

/-! ## Examples -/

section
variable {R S : Type} {f : Int → Int} {g : Int × Int → Int × Int}

/-- What can be evaluated to see that two diagrams are the same up to names. -/
def NamesCheck [DecidableEq R] (f : Int → Int) (g : Int × Int → Int × Int) (D E : Diagram R) : Prop :=
  (∀ a ∈ D.nodes.keys, ∀ b ∈ D.nodes.keys, f a = f b → a = b) ∧
  (∀ p ∈ D.nodes, E.nodes.get? (f p.1) = some p.2) ∧
  (∀ m ∈ E.nodes.keys, ∃ n ∈ D.nodes.keys, f n = m) ∧
  (∀ e ∈ D.edges.keys, g e = (f e.1, f e.2) ∨ g e = (f e.2, f e.1)) ∧
  (∀ p ∈ D.edges, E.edges.get? (g p.1) = some p.2) ∧
  (∀ e' ∈ E.edges.keys, ∃ e ∈ D.edges.keys, g e = e') ∧
  E.trails = D.trails.map fun p => (f p.1, p.2.map f)

instance [DecidableEq R] (f : Int → Int) (g : Int × Int → Int × Int) (D E : Diagram R) :
    Decidable (NamesCheck f g D E) := by unfold NamesCheck; infer_instance

theorem NamesCheck.same [DecidableEq R] {D E : Diagram R} (h : NamesCheck f g D E) :
    SameUpToNames f g D E :=
  ⟨h.1, fun _ _ hd => h.2.1 _ (Dict.mem_of_get? hd), h.2.2.1, h.2.2.2.1,
    fun _ _ hd => h.2.2.2.2.1 _ (Dict.mem_of_get? hd), h.2.2.2.2.2.1, h.2.2.2.2.2.2⟩

theorem map_names {D E : Diagram R} (c : R → S) (h : SameUpToNames f g D E) :
    SameUpToNames f g (D.map c) (E.map c) where
  inj := by rw [map_nodes_keys]; exact h.inj
  node n d hd := by
    rw [map_nodes_get?] at hd ⊢
    obtain ⟨d0, h0, rfl⟩ := Option.map_eq_some_iff.1 hd
    rw [h.node n d0 h0]
    rfl
  nodes := by rw [map_nodes_keys, map_nodes_keys]; exact h.nodes
  ends := by rw [map_edges_keys]; exact h.ends
  edge e d hd := by
    rw [map_edges_get?] at hd ⊢
    obtain ⟨d0, h0, rfl⟩ := Option.map_eq_some_iff.1 hd
    rw [h.edge e d0 h0]
    rfl
  edges := by rw [map_edges_keys, map_edges_keys]; exact h.edges
  trails := h.trails

end

namespace NameEx
open TrailEx EqEx

/-- The other names of the nodes of `EqEx.indirect`. -/
def names (n : Int) : Int :=
  if n = 0 then 7 else if n = 1 then 3 else if n = 2 then 5 else if n = 3 then 12 else if n = 4 then 9 else n

/-- The edges `(0, 1)` and `(0, 4)` are stored the other way round. -/
def ends (e : Int × Int) : Int × Int :=
  if e = (0, 1) ∨ e = (0, 4) then (names e.2, names e.1) else (names e.1, names e.2)

/-- The calls that make `EqEx.indirect`, in another order, with other names, and with two edges given the
other way round. -/
def otherOps : List (Op ℚ) :=
  [.addNode (some 5) ⟨2, 0, 0⟩, .addNode (some 7) ⟨0, 0, 0⟩, .addNode (some 12) ⟨3, 0, 0⟩,
    .addNode (some 9) ⟨4, 0, 0⟩, .addNode (some 3) ⟨1, 0, 0⟩, sup 5, dev 9 7, trail 12 9, trail 5 3,
    dev 3 9, trail 3 7, sup 12, load 9 ⟨1, 1, 1⟩, load 3 ⟨0, 1, -2⟩, load 7 ⟨0, 0, -1⟩]

def otherQ : Diagram ℚ := after key (otherOps ++ [.buildTrails])
noncomputable def other : Diagram ℝ := otherQ.real

/-- Names, order and orientation do differ. -/
example : otherQ.nodes.keys = [5, 7, 12, 9, 3] ∧ indirectQ.nodes.keys = [0, 1, 2, 3, 4] ∧
    otherQ.edges.keys = [(9, 7), (12, 9), (5, 3), (3, 9), (3, 7)] ∧
    otherQ.trails = [(7, [7, 3, 5]), (9, [9, 12])] := by decide +kernel

theorem wf_other : WF other := map_wf (WF.after _ _)

theorem same : SameUpToNames names ends indirect other :=
  map_names _ (NamesCheck.same (by decide +kernel))

/-- Parameters and constraints of every kind of place. -/
noncomputable def opt : Optimizer ℝ :=
  Optimizer.ofLists
    [.point 1 ⟨1, 0, 0⟩ 2, .length (0, 1) 3 1, .trailForce (3, 4) 1 1, .reaction 2 ⟨0, 0, 1⟩ 1,
      .direction (2, 1) ⟨0, 0, 1⟩ 1]
    [originNodeXParameter 0 none none, deviationEdgeParameter (0, 4) (some 1) none]

theorem refers : RefersTo opt indirect := by
  constructor
  · intro q hq
    have : q ∈ [((0 : Int), originNodeXParameter (0 : Int) none none),
        (1, deviationEdgeParameter (0, 4) (some (1 : ℝ)) none)] := hq
    simp only [List.mem_cons, List.not_mem_nil, or_false] at this
    rcases this with rfl | rfl
    · show (0 : Int) ∈ indirect.nodes.keys
      rw [indirect, Diagram.real, map_nodes_keys]; decide +kernel
    · show ((0, 4) : Int × Int) ∈ indirect.edges.keys
      rw [indirect, Diagram.real, map_edges_keys]; decide +kernel
  · intro q hq
    have : q.2 ∈ [Constraint.point (1 : Int) (⟨1, 0, 0⟩ : Vec ℝ) 2, .length (0, 1) 3 1, .trailForce (3, 4) 1 1,
        .reaction 2 ⟨0, 0, 1⟩ 1, .direction (2, 1) ⟨0, 0, 1⟩ 1] := List.mem_map_of_mem (f := Prod.snd) hq
    simp only [List.mem_cons, List.not_mem_nil, or_false] at this
    rcases this with h | h | h | h | h <;> rw [h] <;> simp only [ConstrainsIn] <;>
      rw [indirect, Diagram.real] <;> (first | rw [map_nodes_keys] | rw [map_edges_keys]) <;> decide +kernel

theorem keeps : ∀ q ∈ opt.constraints, KeepsDirection names ends q.2 := by
  intro q hq
  have : q.2 ∈ [Constraint.point (1 : Int) (⟨1, 0, 0⟩ : Vec ℝ) 2, .length (0, 1) 3 1, .trailForce (3, 4) 1 1,
      .reaction 2 ⟨0, 0, 1⟩ 1, .direction (2, 1) ⟨0, 0, 1⟩ 1] := List.mem_map_of_mem (f := Prod.snd) hq
  simp only [List.mem_cons, List.not_mem_nil, or_false] at this
  rcases this with h | h | h | h | h <;> rw [h] <;> trivial

end NameEx

/-! ## Trails -/

/-- **C85.**  `build_trails` on a diagram with other names, in which the supports are stored in the same order:
the same outcome, and trails, types and sequences that are the same up to names.  Everything else may be
stored in another order. -/
theorem C85_trails {R : Type} {f : Int → Int} {g : Int × Int → Int × Int} {D E : Diagram R} (w : WF D)
    (r : Regular D) (w' : WF E) (h : SameUpToNames f g D E) (hs : E.supportNodes = D.supportNodes.map f) :
    E.buildTrails.2 = D.buildTrails.2 ∧ SameUpToNames f g D.buildTrails.1 E.buildTrails.1 :=
  Names.build_names w r w' h hs

example : SameUpToNames NameEx.names NameEx.ends (after TrailEx.key EqEx.indirectOps).buildTrails.1
    (after TrailEx.key NameEx.otherOps).buildTrails.1 :=
  (C85_trails (WF.after _ _) (RegularCheck.regular (WF.after _ _) (by decide +kernel)) (WF.after _ _)
    (NamesCheck.same (by decide +kernel)) (by decide +kernel)).2

/-- Supports in another order give the same trails in another order. -/
example :
    let D := after TrailEx.key (TrailEx.nodes 4 ++ [TrailEx.trail 0 1, TrailEx.trail 3 2, TrailEx.sup 1, TrailEx.sup 2])
    let E := after TrailEx.key ([.addNode (some 2) ⟨2, 0, 0⟩, .addNode (some 3) ⟨3, 0, 0⟩,
      .addNode (some 0) ⟨0, 0, 0⟩, .addNode (some 1) ⟨1, 0, 0⟩,
      TrailEx.trail 0 1, TrailEx.trail 3 2, TrailEx.sup 1, TrailEx.sup 2])
    NamesCheck id id D E ∧ D.buildTrails.1.trails = [(0, [0, 1]), (3, [3, 2])] ∧
      E.buildTrails.1.trails = [(3, [3, 2]), (0, [0, 1])] := by decide +kernel

/-! ## Form finding -/

section
variable {R : Type} [Field R] [LinearOrder R] [PySqrt R]
variable {f : Int → Int} {g : Int × Int → Int × Int} {D E : Diagram R}

/-- **C85.**  Form finding on a diagram in which nodes have other names, nodes and edges are stored in
another order and edges in another orientation: the same exception, or a form that is the same with the
same other names. -/
theorem C85_form (I : ValidInput D) (w : WF E) (h : SameUpToNames f g D E) (kmax : Option Int) (tmax : Nat)
    (eta : R) (verbose : Bool) :
    SameOutcome (SameUpToNames f g) (staticEquilibrium D kmax tmax eta verbose)
      (staticEquilibrium E kmax tmax eta verbose) :=
  Names.static_names I w h kmax tmax eta verbose

/-- **C85.**  The same for the numpy implementation. -/
theorem C85_numpy (I : ValidInput D) (w : WF E) (h : SameUpToNames f g D E) (tmax : Nat) (eta : R)
    (verbose : Bool) :
    SameOutcome (SameUpToNames f g) (staticEquilibriumNumpy D tmax eta verbose)
      (staticEquilibriumNumpy E tmax eta verbose) :=
  Names.numpy_names I w h tmax eta verbose

end

example (kmax : Option Int) (tmax : Nat) (eta : ℝ) (verbose : Bool) :
    SameOutcome (SameUpToNames NameEx.names NameEx.ends)
      (staticEquilibrium EqEx.indirect kmax tmax eta verbose)
      (staticEquilibrium NameEx.other kmax tmax eta verbose) :=
  C85_form EqEx.valid_indirect NameEx.wf_other NameEx.same kmax tmax eta verbose

example (tmax : Nat) (eta : ℝ) (verbose : Bool) :
    SameOutcome (SameUpToNames NameEx.names NameEx.ends)
      (staticEquilibriumNumpy EqEx.indirect tmax eta verbose)
      (staticEquilibriumNumpy NameEx.other tmax eta verbose) :=
  C85_numpy EqEx.valid_indirect NameEx.wf_other NameEx.same tmax eta verbose

/-! ## Optimization -/

section
variable {f : Int → Int} {g : Int × Int → Int × Int} {D E : Diagram ℝ} {o : Optimizer ℝ}

/-- **C85.**  The objective has the same value at every point, or raises the same exception, and leaves
diagrams that are the same up to names.  The edge of a direction constraint may be reversed. -/
theorem C85_objective (I : ValidInput D) (w : WF E) (h : SameUpToNames f g D E) (hr : RefersTo o D)
    (tmax : Nat) (eta : ℝ) (x : List ℝ) :
    ((renameOptimizer f g o).optimizeForm tmax eta E x).2 = (o.optimizeForm tmax eta D x).2 ∧
    SameUpToNames f g (o.optimizeForm tmax eta D x).1
      ((renameOptimizer f g o).optimizeForm tmax eta E x).1 := by
  obtain ⟨h1, h2⟩ := Names.objective_names ⟨h, I, w, hr⟩ tmax eta x
  exact ⟨h2, h1.names⟩

/-- **C85.**  The automatic gradient is the same at every point if the edges of direction constraints keep
their orientation. -/
theorem C85_autograd (I : ValidInput D) (w : WF E) (h : SameUpToNames f g D E) (hr : RefersTo o D)
    (ho : ∀ q ∈ o.constraints, KeepsDirection f g q.2) (tmax : Nat) (eta : ℝ) (x : List ℝ) :
    ((renameOptimizer f g o).autograd tmax eta E x).2 = (o.autograd tmax eta D x).2 :=
  (Names.autograd_names ho tmax eta D E ⟨h, I, w, hr⟩ x).2

/-- **C85.**  `solve` with finite differences: for every numerical solver the same problem, the same points,
the same reported numbers, and a form that is the same up to names. -/
theorem C85_solve_fd (I : ValidInput D) (w : WF E) (h : SameUpToNames f g D E) (hr : RefersTo o D)
    (old : Attrs ℝ) (nlopt : Problem ℝ → Run ℝ) (ad ad' : GradFunc ℝ) (tol : ℝ) (a : SolveArgs ℝ)
    (ha : a.grad ≠ "AD") :
    SameSolved f g (o.solve old nlopt ad tol a D)
      ((renameOptimizer f g o).solve old nlopt ad' tol a E) :=
  Names.solve_names (fun h => absurd h ha) ⟨h, I, w, hr⟩ nlopt old tol

/-- **C85.**  `solve` with any gradient method, automatic differentiation included. -/
theorem C85_solve (I : ValidInput D) (w : WF E) (h : SameUpToNames f g D E) (hr : RefersTo o D)
    (ho : ∀ q ∈ o.constraints, KeepsDirection f g q.2)
    (old : Attrs ℝ) (nlopt : Problem ℝ → Run ℝ) (tol : ℝ) (a : SolveArgs ℝ) :
    SameSolved f g (o.solve old nlopt (o.autograd a.tmax a.eta) tol a D)
      ((renameOptimizer f g o).solve old nlopt ((renameOptimizer f g o).autograd a.tmax a.eta) tol a E) :=
  Names.solve_names (fun _ => Names.autograd_names ho a.tmax a.eta) ⟨h, I, w, hr⟩ nlopt old tol

end

example (tmax : Nat) (eta : ℝ) (x : List ℝ) :
    ((renameOptimizer NameEx.names NameEx.ends NameEx.opt).optimizeForm tmax eta NameEx.other x).2 =
      (NameEx.opt.optimizeForm tmax eta EqEx.indirect x).2 :=
  (C85_objective EqEx.valid_indirect NameEx.wf_other NameEx.same NameEx.refers tmax eta x).1

example (tmax : Nat) (eta : ℝ) (x : List ℝ) :
    ((renameOptimizer NameEx.names NameEx.ends NameEx.opt).autograd tmax eta NameEx.other x).2 =
      (NameEx.opt.autograd tmax eta EqEx.indirect x).2 :=
  C85_autograd EqEx.valid_indirect NameEx.wf_other NameEx.same NameEx.refers NameEx.keeps tmax eta x

example (old : Attrs ℝ) (nlopt : Problem ℝ → Run ℝ) (tol : ℝ) (a : SolveArgs ℝ) :
    SameSolved NameEx.names NameEx.ends
      (NameEx.opt.solve old nlopt (NameEx.opt.autograd a.tmax a.eta) tol a EqEx.indirect)
      ((renameOptimizer NameEx.names NameEx.ends NameEx.opt).solve old nlopt
        ((renameOptimizer NameEx.names NameEx.ends NameEx.opt).autograd a.tmax a.eta) tol a NameEx.other) :=
  C85_solve EqEx.valid_indirect NameEx.wf_other NameEx.same NameEx.refers NameEx.keeps old nlopt tol a

/-- `KeepsDirection` is needed in `C85_autograd`: while the penalty of a direction constraint is the same for
both orientations of the edge, its automatic derivative is not where the edge is perpendicular to the target.
Here the end of the edge moves towards the target. -/
theorem C85_reversed_derivative :
    let s : AState ℝ := ⟨[(0, some (.const ⟨0, 0, 0⟩)), (1, some ⟨⟨1, 0, 0⟩, ⟨0, 1, 0⟩⟩)], [], [], []⟩
    Constraint.adPenalty s (.direction (0, 1) ⟨0, 1, 0⟩ 1) = .ok (some ⟨2, -2⟩) ∧
    Constraint.adPenalty s (.direction (1, 0) ⟨0, 1, 0⟩ 1) = .ok (some ⟨2, 2⟩) := by
  have h1 : (PySqrt.sqrt (1 : ℝ) : ℝ) = 1 := Real.sqrt_one
  constructor
  · simp [Constraint.adPenalty, adEdgeDirection, Dict.getE, Dict.get?, lift2, Traced.sub, Traced.const,
      Traced.scale, Traced.div, Traced.dot, Traced.sqrt, Traced.mul, adVectorPenalty, adDistSq, alignedTarget,
      Vec.normalize, Vec.length, Vec.dot, h1]
    norm_num
  · simp [Constraint.adPenalty, adEdgeDirection, Dict.getE, Dict.get?, lift2, Traced.sub, Traced.const,
      Traced.scale, Traced.div, Traced.dot, Traced.sqrt, Traced.mul, adVectorPenalty, adDistSq, alignedTarget,
      Vec.normalize, Vec.length, Vec.dot, h1]
    norm_num

/-- The renamed optimizer speaks about the other names. -/
example : (renameOptimizer NameEx.names NameEx.ends NameEx.opt).constraints.vals =
    [.point 3 ⟨1, 0, 0⟩ 2, .length (3, 7) 3 1, .trailForce (12, 9) 1 1, .reaction 5 ⟨0, 0, 1⟩ 1,
      .direction (5, 3) ⟨0, 0, 1⟩ 1] := rfl

end Props
end CEM
