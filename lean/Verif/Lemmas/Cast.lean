import Verif.Lemmas.History
import Verif.Lemmas.Returned
import Mathlib.Data.Rat.Cast.Order

/-!
# Rational example diagrams as real ones

The theorems on equilibrium speak about reals.  Their example diagrams are built over
the rationals, where the combinatorial part can be evaluated, and mapped to the reals.
-/

set_option linter.unusedSectionVars false

namespace CEM
open Diagram Spec

def Vec.map {R S : Type} (f : R → S) (v : Vec R) : Vec S := ⟨f v.x, f v.y, f v.z⟩

def NodeData.map {R S : Type} (f : R → S) (d : NodeData R) : NodeData S :=
  ⟨d.pos.map f, d.load.map f, d.reaction.map f, d.k, d.type⟩

def EdgeData.map {R S : Type} (f : R → S) (d : EdgeData R) : EdgeData S :=
  ⟨d.type, f d.length, f d.force, d.plane.map fun p => (p.1.map f, p.2.map f)⟩

def Diagram.map {R S : Type} (f : R → S) (D : Diagram R) : Diagram S where
  nodes := List.map (fun p => (p.1, p.2.map f)) D.nodes
  edges := List.map (fun p => (p.1, p.2.map f)) D.edges
  maxNode := D.maxNode
  gkeyNode := D.gkeyNode
  trails := D.trails
  auxTrails := D.auxTrails
  auxLength := f D.auxLength
  auxVector := D.auxVector.map f

section
variable {R S : Type} {f : R → S} {D : Diagram R}

theorem map_nodes_keys : (D.map f).nodes.keys = D.nodes.keys := keys_map_val _ (NodeData.map f)
theorem map_edges_keys : (D.map f).edges.keys = D.edges.keys := keys_map_val _ (EdgeData.map f)

theorem map_trails : (D.map f).trails = D.trails := rfl

theorem map_nodes_get? (n : Int) :
    (D.map f).nodes.get? n = (D.nodes.get? n).map (NodeData.map f) := get?_map_val _ _ _
theorem map_edges_get? (e : Int × Int) :
    (D.map f).edges.get? e = (D.edges.get? e).map (EdgeData.map f) := get?_map_val _ _ _

theorem map_wf (w : WF D) : WF (D.map f) := by
  obtain ⟨h1, h2, h3, h4, h5, h6, h7, h8⟩ := w
  constructor
  · rwa [map_nodes_keys]
  · rwa [map_edges_keys]
  · exact h3
  · rwa [map_nodes_keys]
  · exact h5
  · rwa [map_nodes_keys]
  · rwa [map_nodes_keys, map_edges_keys]
  · rwa [map_nodes_keys, map_edges_keys]

theorem map_typeOf (n : Int) : typeOf (D.map f) n = typeOf D n := by
  unfold typeOf
  rw [map_nodes_get?]
  cases D.nodes.get? n <;> rfl

theorem map_seqOf (n : Int) : seqOf (D.map f) n = seqOf D n := by
  unfold seqOf
  rw [map_nodes_get?]
  cases D.nodes.get? n <;> rfl

theorem map_trailAdj (a b : Int) : TrailAdj (D.map f) a b ↔ TrailAdj D a b := by
  have : ∀ a b, IsTrail (D.map f) a b ↔ IsTrail D a b := by
    intro a b
    unfold IsTrail
    rw [map_edges_get?]
    cases h : D.edges.get? (a, b) with
    | none => simp
    | some d => simp [EdgeData.map]
  unfold TrailAdj
  rw [this, this]

theorem map_validTrails (V : ValidTrails D) : ValidTrails (D.map f) := by
  have hadj : TrailAdj (D.map f) = TrailAdj D := by
    funext a b; exact propext (map_trailAdj a b)
  refine ⟨V.head, ?_, ?_, ?_, ?_, ?_, ?_⟩
  · intro key tr h; rw [map_typeOf]; exact V.origin key tr h
  · rw [hadj]; exact V.chain
  · rw [map_nodes_keys]; exact V.partition
  · rw [hadj]; exact V.complete
  · intro key tr h n hn; rw [map_typeOf]; exact V.support key tr h n hn
  · intro key tr h
    obtain ⟨s, hs⟩ := V.seq key tr h
    exact ⟨s, fun i hi => by rw [map_seqOf]; exact hs i hi⟩

theorem map_validInput [Field R] [Field S] (h0 : f 0 = 0) (I : ValidInput D) :
    ValidInput (D.map f) := by
  refine ⟨map_wf I.wf, ⟨?_, ?_⟩, map_validTrails I.trails, I.nonempty, ?_, ?_⟩
  · rw [map_edges_keys]; exact I.simple.noLoop
  · rw [map_edges_keys]; exact I.simple.noAnti
  · intro n d hd
    rw [map_nodes_get?] at hd
    obtain ⟨d0, hd0, rfl⟩ := Option.map_eq_some_iff.1 hd
    change d0.reaction.map f = 0
    rw [I.reaction n d0 hd0]
    ext <;> simp [Vec.map, h0]
  · intro e d hd
    rw [map_edges_get?] at hd
    obtain ⟨d0, hd0, rfl⟩ := Option.map_eq_some_iff.1 hd
    exact I.typed e d0 hd0

theorem map_directOnly (h : DirectOnly D) : DirectOnly (D.map f) := by
  intro a b d hd ht
  rw [map_edges_get?] at hd
  obtain ⟨d0, hd0, rfl⟩ := Option.map_eq_some_iff.1 hd
  rw [map_seqOf, map_seqOf]
  exact h a b d0 hd0 ht

end

/-- Finite check for `DirectOnly`. -/
def DirectCheck {R : Type} (D : Diagram R) : Prop :=
  ∀ p ∈ D.edges, p.2.type = .deviation → seqOf D p.1.1 = seqOf D p.1.2

instance {R : Type} (D : Diagram R) : Decidable (DirectCheck D) := by
  unfold DirectCheck; infer_instance

theorem DirectCheck.direct {R : Type} {D : Diagram R} (h : DirectCheck D) : DirectOnly D :=
  fun _ _ _ hd ht => h _ (Dict.mem_of_get? hd) ht

/-- Finite check for `NonzeroTrails`. -/
def NonzeroCheck (D : Diagram ℚ) : Prop :=
  ∀ p ∈ D.edges, p.2.type = .trail → p.2.length ≠ 0

instance (D : Diagram ℚ) : Decidable (NonzeroCheck D) := by unfold NonzeroCheck; infer_instance

/-- The real diagram with the same data as a rational one. -/
noncomputable def Diagram.real (D : Diagram ℚ) : Diagram ℝ := D.map (fun q : ℚ => (q : ℝ))

theorem NonzeroCheck.nonzero {D : Diagram ℚ} (h : NonzeroCheck D) : NonzeroTrails D.real := by
  intro e d hd ht
  unfold Diagram.real at hd
  rw [map_edges_get?] at hd
  obtain ⟨d0, hd0, rfl⟩ := Option.map_eq_some_iff.1 hd
  have := h _ (Dict.mem_of_get? hd0) ht
  change ((d0.length : ℚ) : ℝ) ≠ 0
  exact_mod_cast this

theorem validInput_real {D : Diagram ℚ} (I : ValidInput D) : ValidInput D.real :=
  map_validInput (by simp) I

/-- With a large enough threshold form finding returns. -/
theorem exists_returned {D : Diagram ℝ} (I : ValidInput D) (tmax : Nat) (h : 2 ≤ tmax) :
    ∃ eta F, staticEquilibrium D none tmax eta false = .ok F := by
  obtain ⟨T, N, hT, hN, hg, hlt⟩ := goodSeqs_of_valid I.wf I.trails I.nonempty
  let L := sched D T N
  refine ⟨residualDistance (iter D none L 1).xyz (iter D none L 2).xyz + 1, ?_⟩
  have hnum : D.numberOfTrails ≠ 0 := by
    unfold numberOfTrails
    simpa [Dict.vals] using I.nonempty
  unfold staticEquilibrium equilibriumState
  rw [if_neg hnum, hT, hN]
  simp only [Option.any_none, Bool.false_eq_true, if_false]
  have e0 := sweep_eq I.wf I.trails hg none (decide ((0 : Nat) ≠ 0)) N (goodState_init D)
  have e1 := sweep_eq I.wf I.trails hg none (decide ((1 : Nat) ≠ 0)) N
    (goodState_iter I.wf I.trails none L 1)
  obtain ⟨t, rfl⟩ : ∃ t, tmax = t + 2 := ⟨tmax - 2, by omega⟩
  rw [eqLoop, e0]
  simp only [if_true]
  rw [eqLoop]
  have e1' : sweep D T none (decide ((0 + 1 : Nat) ≠ 0)) N
      (List.foldl (proc D (nxtK D none) (decide ((0 : Nat) ≠ 0))) (initState D) (sched D T N)) =
      .ok (iter D none L 2) := e1
  rw [e1']
  simp only [zero_add, one_ne_zero, if_false]
  have hlt' : residualDistance (List.foldl (proc D (nxtK D none) (decide ((0 : Nat) ≠ 0)))
      (initState D) (sched D T N)).xyz (iter D none L 2).xyz <
      residualDistance (iter D none L 1).xyz (iter D none L 2).xyz + 1 :=
    lt_add_one (residualDistance (iter D none L 1).xyz (iter D none L 2).xyz)
  rw [if_pos hlt']
  simp only [eqFinish]
  rw [if_pos (by norm_num), if_neg (not_lt.2 hlt'.le)]
  exact ⟨_, rfl⟩

end CEM
