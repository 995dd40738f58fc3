import Verif.Props.Coordinates
import Verif.Lemmas.CoordinatesGradient
import Verif.Props.Autodiff

/-!
# Property C84: automatic differentiation in other coordinates and units

The gradient that `grad="AD"` computes has the same entries in a moved or turned problem, and the
converted ones in another unit of length.  In another unit of force it has the converted ones as
long as no resulting force of a trail vanishes.
-/

set_option linter.unusedSectionVars false
set_option linter.unusedSimpArgs false

namespace CEM
namespace Props
open Diagram Spec

section
variable {R : Type} [Field R] [LinearOrder R] [IsStrictOrderedRing R] [PySqrt R]

theorem orthogonal_id : Orthogonal (id : Vec R → Vec R) := ⟨fun _ _ => rfl, fun _ _ => rfl, fun _ _ => rfl⟩

theorem shiftBy_similar (v : Vec R) : (shiftBy v).Similar id 1 1 v where
  orth := orthogonal_id
  len := .one
  frc := .one
  p a := by simp [shiftBy]
  r a := by simp [shiftBy]
  u a := rfl
  f a := by simp [shiftBy]
  l a := by simp [shiftBy]
  q a := rfl

theorem turnBy_similar {A : Vec R → Vec R} (h : Orthogonal A) : (turnBy A).Similar A 1 1 0 where
  orth := h
  len := .one
  frc := .one
  p a := by simp [turnBy]
  r a := by simp [turnBy]
  u a := rfl
  f a := by simp [turnBy]
  l a := by simp [turnBy]
  q a := rfl

theorem slotFactor_one (s : Slot) (w : R) : w = 1 / slotFactor 1 1 s * w := by
  unfold slotFactor
  split_ifs <;> simp

/-- **C84, automatic differentiation, motions.**  The gradient that the code computes by automatic
differentiation does not change when the problem is moved, nor, if the parameters belong to edges,
when it is turned; the same exceptions are raised. -/
theorem C84_autograd_motions {o : Optimizer R} {h : List (RegOp (Param R))} (hh : HasHistory o h) (tmax : Nat)
    (eta : R) (D : Diagram R) (x : List R) :
    (∀ v, (reconstrain (moveConstraint v) o).autograd tmax eta (translate v D)
        (along (shiftSlot v) (slotsOf o.parameters) x) =
      (translate v (o.autograd tmax eta D x).1, (o.autograd tmax eta D x).2)) ∧
    ∀ A, Orthogonal A → (∀ q ∈ o.parameters, ∃ e a, q.2.slot = .edge e a) →
      (reconstrain (turnConstraint A) o).autograd tmax eta (turn A D) x =
        (turn A (o.autograd tmax eta D x).1, (o.autograd tmax eta D x).2) := by
  refine ⟨fun v => ?_, fun A hA he => ?_⟩
  · have hc : (shiftBy v).constraint (1 * 1) (1 * 1) = moveConstraint v := by
      funext con; rw [one_mul]; exact move_constraint v con
    have K : (shiftBy v).Keeps (1 * 1) (1 * 1) := by rw [one_mul]; exact shiftBy_keeps v
    have H := shift_rewrites hh v
    rw [← hc] at H ⊢
    have := H.autograd (shiftBy_similar v) K (fun _ _ => Or.inl rfl) slotFactor_one tmax eta D x (Or.inl rfl)
    rw [rewrite_same, along_same_num] at this
    refine this.trans ?_
    congr 1
    cases (o.autograd tmax eta D x).2 <;> rfl
  · have hc : (turnBy A).constraint (1 * 1) (1 * 1) = turnConstraint A := by
      funext con; rw [one_mul]; exact turn_constraint A con
    have K : (turnBy A).Keeps (1 * 1) (1 * 1) := by rw [one_mul]; exact turnBy_keeps hA
    have H := turn_rewrites hh he hA
    rw [← hc] at H ⊢
    have := H.autograd (turnBy_similar hA) K (fun q hq => Or.inr (he q hq)) slotFactor_one tmax eta D x (Or.inl rfl)
    rw [rewrite_same, along_same_num, along_same] at this
    refine this.trans ?_
    congr 1
    cases (o.autograd tmax eta D x).2 <;> rfl

/-- **C84, `solve` with automatic differentiation, translation.** -/
theorem C84_ad_translation {o : Optimizer R} {h : List (RegOp (Param R))} (hh : HasHistory o h)
    {D : Diagram R} (w : WF D) (v : Vec R) {nlopt nlopt' : Problem R → Run R} {a : SolveArgs R}
    (hn : ∀ P, SameChoices (along (shiftSlot v) (slotsOf o.parameters)) id (nlopt P)
      (nlopt' (rewriteProblem (shiftSlot v) (slotsOf o.parameters) P))) (old : Attrs R) (tol : R) :
    (reconstrain (moveConstraint v) o).solve
        (rewriteAttrs (along (shiftSlot v) (slotsOf o.parameters)) id old) nlopt'
        ((reconstrain (moveConstraint v) o).autograd a.tmax a.eta) tol a (translate v D) =
      rewriteSolved (translate v) (along (shiftSlot v) (slotsOf o.parameters)) id
        (o.solve old nlopt (o.autograd a.tmax a.eta) tol a D) :=
  C84_solve_translation hh w v hn (fun _ C x => (C84_autograd_motions hh a.tmax a.eta C x).1 v)
    (fun _ => autograd_length o a.tmax a.eta) old tol

/-- **C84, `solve` with automatic differentiation, rotation and reflection.**  Whatever the
numerical solver does, it does the same. -/
theorem C84_ad_rotation {o : Optimizer R} {h : List (RegOp (Param R))} (hh : HasHistory o h)
    (he : ∀ q ∈ o.parameters, ∃ e a, q.2.slot = .edge e a) {D : Diagram R} (w : WF D)
    {A : Vec R → Vec R} (hA : Orthogonal A) (nlopt : Problem R → Run R) {a : SolveArgs R} (old : Attrs R) (tol : R) :
    (reconstrain (turnConstraint A) o).solve old nlopt ((reconstrain (turnConstraint A) o).autograd a.tmax a.eta) tol a
        (turn A D) =
      { o.solve old nlopt (o.autograd a.tmax a.eta) tol a D with
        topology := turn A (o.solve old nlopt (o.autograd a.tmax a.eta) tol a D).topology
        form := (o.solve old nlopt (o.autograd a.tmax a.eta) tol a D).form.map (turn A) } :=
  C84_solve_rotation hh he w hA nlopt (fun _ C x => (C84_autograd_motions hh a.tmax a.eta C x).2 A hA he)
    (fun _ => autograd_length o a.tmax a.eta) old tol

end

theorem real_scaling {c : ℝ} (hc : 0 < c) : Scaling c := ⟨hc, sqrt_scale hc⟩

theorem enlargeBy_similar {c : ℝ} (hc : 0 < c) : (enlargeBy c).Similar id c 1 0 where
  orth := orthogonal_id
  len := real_scaling hc
  frc := .one
  p a := by simp [enlargeBy]
  r a := by simp [enlargeBy]
  u a := rfl
  f a := by simp [enlargeBy]
  l a := by simp [enlargeBy]
  q a := rfl

theorem forcesBy_similar {c : ℝ} (hc : 0 < c) : (forcesBy c).Similar id 1 c 0 where
  orth := orthogonal_id
  len := .one
  frc := real_scaling hc
  p a := by simp [forcesBy]
  r a := by simp [forcesBy]
  u a := rfl
  f a := by simp [forcesBy]
  l a := by simp [forcesBy]
  q a := by simp [forcesBy]

/-- **C84, automatic differentiation, unit of length.** -/
theorem C84_autograd_lengths {o : Optimizer ℝ} {h : List (RegOp (Param ℝ))} (hh : HasHistory o h) (tmax : Nat)
    (eta : ℝ) (D : Diagram ℝ) (x : List ℝ) {c : ℝ} (hc : 0 < c) :
    (rewriteOptimizer (lengthSlot c) (lengthConstraint c) o).autograd tmax (c * eta) (enlarge c D)
        (along (lengthSlot c) (slotsOf o.parameters) x) =
      (enlarge c (o.autograd tmax eta D x).1, (o.autograd tmax eta D x).2.map
        (along (fun s => Option.map (lengthRate c s)) (slotsOf o.parameters))) := by
  have hcon : (enlargeBy c).constraint (c * c) (1 * 1) = lengthConstraint c := by
    funext con; rw [one_mul]; exact length_constraint c con
  have K : (enlargeBy c).Keeps (c * c) (1 * 1) := by rw [one_mul]; exact enlargeBy_keeps hc
  have H := length_rewrites hh hc
  rw [← hcon] at H ⊢
  exact H.autograd (enlargeBy_similar hc) K (fun _ _ => Or.inl rfl)
    (fun s w => by unfold lengthRate slotFactor; split_ifs <;> simp [div_eq_inv_mul]) tmax eta D x (Or.inl rfl)

/-- **C84, `solve` with automatic differentiation, unit of length.** -/
theorem C84_ad_lengths {o : Optimizer ℝ} {h : List (RegOp (Param ℝ))} (hh : HasHistory o h)
    {D : Diagram ℝ} (w : WF D) {c : ℝ} (hc : 0 < c) {nlopt nlopt' : Problem ℝ → Run ℝ} {a : SolveArgs ℝ}
    (ha : a.grad = "AD")
    (hn : ∀ P, SameChoices (along (lengthSlot c) (slotsOf o.parameters))
      (along (fun s => Option.map (lengthRate c s)) (slotsOf o.parameters)) (nlopt P)
      (nlopt' (rewriteProblem (lengthSlot c) (slotsOf o.parameters) P))) (old : Attrs ℝ) (tol : ℝ) :
    (rewriteOptimizer (lengthSlot c) (lengthConstraint c) o).solve
        (rewriteAttrs (along (lengthSlot c) (slotsOf o.parameters))
          (along (fun s => Option.map (lengthRate c s)) (slotsOf o.parameters)) old) nlopt'
        ((rewriteOptimizer (lengthSlot c) (lengthConstraint c) o).autograd a.tmax (c * a.eta)) (c * tol)
        { a with eta := c * a.eta } (enlarge c D) =
      rewriteSolved (enlarge c) (along (lengthSlot c) (slotsOf o.parameters))
        (along (fun s => Option.map (lengthRate c s)) (slotsOf o.parameters))
        (o.solve old nlopt (o.autograd a.tmax a.eta) tol a D) :=
  C84_solve_lengths hh w hc hn (fun _ C x => C84_autograd_lengths hh a.tmax a.eta C x hc)
    (fun _ => autograd_length o a.tmax a.eta) (fun h => absurd ha h) old tol

/-- **C84, automatic differentiation, unit of force.**  The derivatives with respect to forces are
converted, as long as every trail edge carries a force in all sweeps (`C84_slack_gradient`). -/
theorem C84_autograd_forces {o : Optimizer ℝ} {h : List (RegOp (Param ℝ))} (hh : HasHistory o h) (tmax : Nat)
    (eta : ℝ) (D : Diagram ℝ) (x : List ℝ) {c : ℝ} (hc : 0 < c)
    (hz : Taut (o.updateParameters D x).1 tmax) :
    (rewriteOptimizer (forceSlot c) (forceConstraint c) o).autograd tmax eta (scaleForces c D)
        (along (forceSlot c) (slotsOf o.parameters) x) =
      (scaleForces c (o.autograd tmax eta D x).1, (o.autograd tmax eta D x).2.map
        (along (fun s => Option.map (forceRate c s)) (slotsOf o.parameters))) := by
  have hcon : (forcesBy c).constraint (1 * 1) (c * c) = forceConstraint c := by
    funext con; rw [one_mul]; exact force_constraint c con
  have K : (forcesBy c).Keeps (1 * 1) (c * c) := by rw [one_mul]; exact forcesBy_keeps hc
  have H := force_rewrites hh hc
  rw [← forcesBy_diagram]
  rw [← hcon] at H ⊢
  exact H.autograd (forcesBy_similar hc) K (fun _ _ => Or.inl rfl)
    (fun s w => by unfold forceRate slotFactor; split_ifs <;> simp [div_eq_inv_mul]) tmax eta D x
    (Or.inr fun _ _ => hz.neverSlack _)

/-- **C84, `solve` with automatic differentiation, unit of force.** -/
theorem C84_ad_forces {o : Optimizer ℝ} {h : List (RegOp (Param ℝ))} (hh : HasHistory o h)
    {D : Diagram ℝ} (w : WF D) {c : ℝ} (hc : 0 < c) {nlopt nlopt' : Problem ℝ → Run ℝ} {a : SolveArgs ℝ}
    (ha : a.grad = "AD")
    (hz : ∀ C, SameExcept (fun s => ∃ q ∈ o.parameters, q.2.slot = s) D C → Taut C a.tmax)
    (hn : ∀ P, SameChoices (along (forceSlot c) (slotsOf o.parameters))
      (along (fun s => Option.map (forceRate c s)) (slotsOf o.parameters)) (nlopt P)
      (nlopt' (rewriteProblem (forceSlot c) (slotsOf o.parameters) P))) (old : Attrs ℝ) (tol : ℝ) :
    (rewriteOptimizer (forceSlot c) (forceConstraint c) o).solve
        (rewriteAttrs (along (forceSlot c) (slotsOf o.parameters))
          (along (fun s => Option.map (forceRate c s)) (slotsOf o.parameters)) old) nlopt'
        ((rewriteOptimizer (forceSlot c) (forceConstraint c) o).autograd a.tmax a.eta) tol a (scaleForces c D) =
      rewriteSolved (scaleForces c) (along (forceSlot c) (slotsOf o.parameters))
        (along (fun s => Option.map (forceRate c s)) (slotsOf o.parameters))
        (o.solve old nlopt (o.autograd a.tmax a.eta) tol a D) := by
  have H := force_rewrites hh hc
  have hkeep : ∀ C x, (o.gradFunc (o.autograd a.tmax a.eta) a C x).1 = (o.optimizeForm a.tmax a.eta C x).1 := by
    intro C x
    rw [← (C80_raises o a.tmax a.eta C x).1]
    unfold Optimizer.gradFunc
    simp only [if_pos ha]
    rcases o.autograd a.tmax a.eta C x with ⟨_, (_ | _)⟩ <;> rfl
  have hgr : ∀ C x, SameExcept (fun s => ∃ q ∈ o.parameters, q.2.slot = s) D C →
      (rewriteOptimizer (forceSlot c) (forceConstraint c) o).gradFunc
        ((rewriteOptimizer (forceSlot c) (forceConstraint c) o).autograd a.tmax a.eta)
        { a with eta := (forcesBy c).l a.eta } ((forcesBy c).diagram C) (along (forceSlot c) (slotsOf o.parameters) x) =
      ((forcesBy c).diagram (o.gradFunc (o.autograd a.tmax a.eta) a C x).1,
        (o.gradFunc (o.autograd a.tmax a.eta) a C x).2.map
          (along (fun s => Option.map (forceRate c s)) (slotsOf o.parameters))) := by
    intro C x hs
    refine H.gradientAt (fun _ => ?_) (fun _ => autograd_length o a.tmax a.eta C x) (fun h => absurd ha h)
    rw [forcesBy_diagram]
    exact C84_autograd_forces hh a.tmax a.eta C x hc (hz _ (hs.trans (Optimizer.writeParameters_same x _ C)))
  have := H.solveOn (forcesBy_good hc) w (SameExcept.refl _ D)
    (fun C x hs => by rw [hkeep]; exact hs.trans (Optimizer.optimizeForm_same o a.tmax a.eta C x)) hgr hn old tol
  rw [forcesBy_diagram] at this
  exact this

local instance slackSqrt : PySqrt ℚ := ⟨id⟩

namespace SlackEx
open TrailEx EqEx

def ops : List (Op ℚ) := [.addNode (some 0) ⟨0, 0, 0⟩, .addNode (some 1) ⟨5, 0, 0⟩,
  .addEdge (.trail (.key 0) (.key 1) 3 none), sup 1]

def slackQ : Diagram ℚ := after key (ops ++ [.buildTrails])

/-- One trail, with a load at its origin. -/
noncomputable def rope (q p : ℝ) : Diagram ℝ where
  nodes := [(0, ⟨⟨0, 0, 0⟩, ⟨q, p, 0⟩, ⟨0, 0, 0⟩, some 0, .origin⟩), (1, ⟨⟨5, 0, 0⟩, ⟨0, 0, 0⟩, ⟨0, 0, 0⟩, some 1, .support⟩)]
  edges := [((0, 1), ⟨.trail, 3, 0, none⟩)]
  maxNode := 1
  gkeyNode := slackQ.gkeyNode
  trails := [(0, [0, 1])]
  auxTrails := []
  auxLength := -1
  auxVector := ⟨1, 1, 1⟩

def slackLit : Diagram ℚ where
  nodes := [(0, ⟨⟨0, 0, 0⟩, ⟨0, 0, 0⟩, ⟨0, 0, 0⟩, some 0, .origin⟩), (1, ⟨⟨5, 0, 0⟩, ⟨0, 0, 0⟩, ⟨0, 0, 0⟩, some 1, .support⟩)]
  edges := [((0, 1), ⟨.trail, 3, 0, none⟩)]
  maxNode := 1
  gkeyNode := slackQ.gkeyNode
  trails := [(0, [0, 1])]
  auxTrails := []
  auxLength := -1
  auxVector := ⟨1, 1, 1⟩

theorem slackQ_eq : slackQ = slackLit := by decide +kernel

theorem valid_rope : ValidInput (rope 0 0) := by
  have h : ValidInput slackQ :=
    validInput_of_history key ops (RegularCheck.regular (WF.after _ _) (by decide +kernel)) (by decide +kernel)
  have := validInput_real h
  rw [slackQ_eq] at this
  have e : slackLit.real = rope 0 0 := by
    simp [slackLit, rope, Diagram.real, Diagram.map, NodeData.map, EdgeData.map, Vec.map]
  rwa [e] at this

theorem rope_wf (q p : ℝ) : WF (rope q p) :=
  ⟨valid_rope.wf.nodesNodup, valid_rope.wf.edgesNodup, valid_rope.wf.gkeysNodup, valid_rope.wf.le_max,
    valid_rope.wf.max_ge, valid_rope.wf.lookup_mem, valid_rope.wf.edge_left, valid_rope.wf.edge_right⟩

theorem rope_seqs (q p : ℝ) : (rope q p).trailsSequences = .ok [(0, [(0, 0), (1, 1)])] := rfl
theorem rope_number (q p : ℝ) : (rope q p).numberOfSequences = .ok 2 := rfl

noncomputable def tab (q p : ℝ) : NTables ℝ :=
  { forces := [((0, 1), 0)], lengths := [((0, 1), 3)], loads := [(0, ⟨q, p, 0⟩), (1, ⟨0, 0, 0⟩)]
    direct := [(0, []), (1, [])], indirect := [(0, []), (1, [])], edgeKeys := [(0, 1)], planes := [] }

def seqs : Dict Int (Dict Int Int) := [(0, [(0, 0), (1, 1)])]

theorem rope_tables (q p : ℝ) : npTables (rope q p) = .ok (tab q p) := rfl

/-- The load of the origin node as parameter, and a goal for the support. -/
noncomputable def loadOpt : Optimizer ℝ :=
  Optimizer.ofLists [.point 1 ⟨1, 0, 0⟩ 1] [nodeLoadXParameter 0 none none]

theorem loadOpt_history : HasHistory loadOpt [.add (nodeLoadXParameter 0 none none)] := rfl
theorem loadOpt_parameters : loadOpt.parameters = [(0, nodeLoadXParameter 0 none none)] := rfl
theorem loadOpt_constraints : loadOpt.constraints.vals = [.point 1 ⟨1, 0, 0⟩ 1] := rfl

theorem rope_written (a q p : ℝ) : loadOpt.updateParameters (rope a p) [q] = (rope q p, .ok ()) := rfl

noncomputable def rate : Diagram ℝ := (loadOpt.updateParameters (rope 0 0).still [1]).1

theorem rope_still (q p : ℝ) : (loadOpt.updateParameters (rope q p).still (unitList 1 0)).1 = rate := rfl

/-- What the trail carries. -/
noncomputable def pull (q p : ℝ) : TVec ℝ :=
  adNodeEquilibrium (some (.const ⟨0, 0, 0⟩)) (some ⟨⟨q, p, 0⟩, ⟨1, 0, 0⟩⟩) (some (.const 0)) (some (.const 0))

theorem pull_eq (q p : ℝ) : pull q p = some ⟨⟨-q, -p, 0⟩, ⟨-1, 0, 0⟩⟩ := by
  simp only [pull, adNodeEquilibrium, lift2, Option.map_some, Traced.neg, Traced.add, Traced.const]
  congr 2 <;> ext <;> simp

/-- Where it ends. -/
noncomputable def tip (q p : ℝ) : TVec ℝ :=
  lift2 Traced.add (some ⟨⟨0, 0, 0⟩, 0⟩) (lift2 Traced.scale (some ⟨3, 0⟩) (adDirection (pull q p)))

noncomputable def state (x r : TVec ℝ) (tf : Dict (Int × Int) (TNum ℝ)) (re : Dict Int (TVec ℝ)) : AState ℝ :=
  ⟨[(0, some ⟨⟨0, 0, 0⟩, 0⟩), (1, x)], [(0, some (.const ⟨0, 0, 0⟩)), (1, r)], tf, re⟩

theorem init_eq (q p : ℝ) : ∃ x r, adInit (rope q p) rate = state x r [] [] := ⟨_, _, rfl⟩

theorem step_zero (q p : ℝ) (ind : Bool) (x r : TVec ℝ) (tf re) :
    adStep (rope q p) rate (tab q p) seqs ind 0 (state x r tf re) 0 =
      .ok (state (tip q p) (pull q p) (tf.set (0, 1) (adTrailForce (pull q p) (some ⟨3, 0⟩))) re) := by
  cases ind <;> rfl

theorem step_one (q p : ℝ) (ind : Bool) (x r : TVec ℝ) (tf re) : ∃ re',
    adStep (rope q p) rate (tab q p) seqs ind 1 (state x r tf re) 0 = .ok (state x r tf re') := by
  cases ind <;> exact ⟨_, rfl⟩

theorem steps_eq (q p : ℝ) : stepsOf (rope q p) 2 = [(0, 0), (1, 0)] := rfl

theorem sweep_eq (q p : ℝ) (ind : Bool) (x r : TVec ℝ) (tf re) : ∃ re',
    adSweep (rope q p) rate (tab q p) seqs ind 2 (state x r tf re) =
      .ok (state (tip q p) (pull q p) (tf.set (0, 1) (adTrailForce (pull q p) (some ⟨3, 0⟩))) re') := by
  obtain ⟨re', h⟩ := step_one q p ind (tip q p) (pull q p) (tf.set (0, 1) (adTrailForce (pull q p) (some ⟨3, 0⟩))) re
  refine ⟨re', ?_⟩
  rw [adSweep_steps, steps_eq]
  simp only [forE, step_zero, h]

theorem tip_some (q p : ℝ) : ∃ t, tip q p = some t := by
  unfold tip adDirection
  rw [pull_eq]
  cases adNormalize (some (⟨⟨-q, -p, 0⟩, ⟨-1, 0, 0⟩⟩ : Traced (Vec ℝ))) <;> exact ⟨_, rfl⟩

theorem distance_eq (q p : ℝ) (r r' : TVec ℝ) (tf tf' re re') :
    npDistance (valuesOf (state (tip q p) r tf re).xyz) (valuesOf (state (tip q p) r' tf' re').xyz) = some 0 := by
  obtain ⟨t, ht⟩ := tip_some q p
  rw [ht]
  simp [npDistance, valuesOf, state, Dict.get?, lift2, Vec.dot]
  exact Real.sqrt_zero

theorem computed (q p : ℝ) {tmax : Nat} (ht : 2 ≤ tmax) {eta : ℝ} (he : 0 < eta) :
    ∃ r tf re, adEquilibriumState (rope q p) rate tmax eta = .ok (state (tip q p) r tf re) := by
  obtain ⟨n, rfl⟩ := Nat.exists_eq_add_of_le' ht
  obtain ⟨x, r, hi⟩ := init_eq q p
  obtain ⟨re1, h1⟩ := sweep_eq q p false x r [] []
  obtain ⟨re2, h2⟩ := sweep_eq q p true (tip q p) (pull q p)
    (Dict.set [] (0, 1) (adTrailForce (pull q p) (some ⟨3, 0⟩))) re1
  refine ⟨pull q p, Dict.set (Dict.set [] (0, 1) (adTrailForce (pull q p) (some ⟨3, 0⟩))) (0, 1)
    (adTrailForce (pull q p) (some ⟨3, 0⟩)), re2, ?_⟩
  have hl : adLoop (rope q p) rate (tab q p) seqs eta 2 (n + 2) 0 (state x r [] []) none =
      .ok (state (tip q p) (pull q p) (Dict.set (Dict.set [] (0, 1) (adTrailForce (pull q p) (some ⟨3, 0⟩))) (0, 1)
        (adTrailForce (pull q p) (some ⟨3, 0⟩))) re2, some ⟨1, some (some 0)⟩) := by
    simp only [adLoop, gt_iff_lt, lt_self_iff_false, decide_false, h1, if_true, zero_add, zero_lt_one, decide_true, h2,
      one_ne_zero, if_false, distance_eq, Num.lt, he]
  unfold adEquilibriumState
  rw [if_neg (show ¬(rope q p).numberOfTrails = 0 from (by decide : ¬1 = 0)), rope_seqs, rope_number, rope_tables, hi]
  simp only
  rw [if_neg (by omega : ¬n + 2 = 0)]
  rw [show adLoop (rope q p) rate (tab q p) [(0, [(0, 0), (1, 1)])] eta 2 (n + 2) 0 (state x r [] []) none = _ from hl]
  simp [adFinish, Num.gt, he.le]

theorem rope_gradient (q p : ℝ) {tmax : Nat} (ht : 2 ≤ tmax) {eta : ℝ} (he : 0 < eta) (t : Traced (Vec ℝ))
    (h : tip q p = some t) (a : ℝ) : loadOpt.autograd tmax eta (rope a p) [q] =
      (rope q p, .ok [some (-2 * Vec.dot (⟨1, 0, 0⟩ - t.val) t.tan)]) := by
  obtain ⟨r, tf, re, hc⟩ := computed q p ht he
  have hp : adCalculatePenalty (state (tip q p) r tf re) loadOpt.constraints.vals (some (.const 0)) =
      .ok (some ⟨Vec.dot (⟨1, 0, 0⟩ - t.val) (⟨1, 0, 0⟩ - t.val), -2 * Vec.dot (⟨1, 0, 0⟩ - t.val) t.tan⟩) := by
    rw [loadOpt_constraints, h]
    simp [adCalculatePenalty, Constraint.adPenalty, state, Dict.getE, Dict.get?, adVectorPenalty, lift2, adDistSq,
      Traced.dot, Traced.sub, Traced.const, Traced.mul, Traced.add, Vec.dot]
    ring
  have hw : ∃ v, loadOpt.optimizeForm tmax eta (rope a p) [q] = (rope q p, .ok v) := by
    have hb := adEquilibriumState_both (rope q p) rate tmax eta
    unfold Optimizer.optimizeForm
    rw [rope_written]
    simp only
    cases hn : npEquilibriumState (rope q p) tmax eta false with
    | error e => rw [hn, hc] at hb; exact hb.elim
    | ok s =>
      rw [hn, hc] at hb
      have hb := adCalculatePenalty_both hb loadOpt.constraints.vals (x := some (.const 0)) (y := some 0)
        (by rintro f hf; cases hf; rfl)
      rw [hp] at hb
      simp only
      cases hq : calculatePenalty s loadOpt.constraints.vals (some 0) with
      | error e => rw [hq] at hb; exact hb.elim
      | ok v => exact ⟨v, rfl⟩
  obtain ⟨v, hv⟩ := hw
  unfold Optimizer.autograd
  rw [hv]
  have hen : loadOpt.adEntry tmax eta (rope q p) 1 0 = .ok (some (-2 * Vec.dot (⟨1, 0, 0⟩ - t.val) t.tan)) := by
    unfold Optimizer.adEntry
    rw [rope_still, hc]
    simp only [hp, Option.map_some]
  simp only [List.length_singleton, List.range_one, listE, hen]

theorem tip_slack : tip 0 0 = some ⟨0, ⟨-3, 0, 0⟩⟩ := by
  unfold tip adDirection
  rw [pull_eq]
  have h : adNormalize (some (⟨⟨-0, -0, 0⟩, ⟨-1, 0, 0⟩⟩ : Traced (Vec ℝ))) = none := by
    have : Vec.length (⟨-0, -0, 0⟩ : Vec ℝ) = 0 := Vec.length_eq_zero.2 (by ext <;> simp)
    simp only [adNormalize, Option.bind_some, Traced.norm, this, if_true, Option.map_none]
  rw [h]
  simp only [lift2, Traced.scale, Traced.add]
  congr 2 <;> ext <;> simp

theorem loadOpt_units (c : ℝ) : rewriteOptimizer (forceSlot c) (forceConstraint c) loadOpt = loadOpt := rfl

theorem loadOpt_slots {α : Type} (g : Slot → α → α) (a : α) :
    along g (slotsOf loadOpt.parameters) [a] = [g (.node 0 .qx) a] := rfl

theorem rope_scaled (c q p : ℝ) : scaleForces c (rope q p) = rope (c * q) (c * p) := by
  simp [scaleForces, rope]
  constructor <;> ext <;> simp

end SlackEx

open SlackEx in
/-- **C84, no force in a trail.**  Where the resulting force of a trail vanishes, the code replaces
the direction by the resulting force itself, and automatic differentiation returns a number with the wrong
unit: in any other unit of force the code computes the same derivative with respect to a load, 6 in
the example, instead of the converted one. -/
theorem C84_slack_gradient : ∃ (o : Optimizer ℝ) (h : List (RegOp (Param ℝ))) (D : Diagram ℝ),
    HasHistory o h ∧ ValidInput D ∧ ∀ tmax, 2 ≤ tmax → ∀ eta : ℝ, 0 < eta →
      (o.autograd tmax eta D [0]).2 = .ok [some 6] ∧
      ∀ c : ℝ, 0 < c → c ≠ 1 →
        ((rewriteOptimizer (forceSlot c) (forceConstraint c) o).autograd tmax eta (scaleForces c D)
          (along (forceSlot c) (slotsOf o.parameters) [0])).2 = .ok [some 6] ∧
        (o.autograd tmax eta D [0]).2.map (along (fun s => Option.map (forceRate c s)) (slotsOf o.parameters)) =
          .ok [some (6 / c)] ∧ 6 / c ≠ 6 := by
  refine ⟨loadOpt, _, rope 0 0, loadOpt_history, valid_rope, fun tmax ht eta he => ?_⟩
  have hg : loadOpt.autograd tmax eta (rope 0 0) [0] = (rope 0 0, .ok [some 6]) := by
    rw [rope_gradient 0 0 ht he _ tip_slack]
    norm_num [Vec.dot]
  refine ⟨by rw [hg], fun c hc h1 => ⟨?_, ?_, ?_⟩⟩
  · rw [loadOpt_units, loadOpt_slots, rope_scaled, mul_zero]
    simp only [forceSlot, IsForce, if_true, mul_zero]
    rw [hg]
  · rw [hg]
    simp only [Except.map, loadOpt_slots, Option.map_some, forceRate, IsForce, if_true]
  · intro h
    rw [div_eq_iff hc.ne'] at h
    exact h1 (by linarith)

namespace SlackEx

noncomputable def npPull (q p : ℝ) : NVec ℝ := npNodeEquilibrium (some ⟨0, 0, 0⟩) (some ⟨q, p, 0⟩) (some 0) (some 0)

theorem npPull_eq (q p : ℝ) : npPull q p = some ⟨-q, -p, 0⟩ := by
  simp only [npPull, npNodeEquilibrium, lift2, Option.map_some]
  congr 1
  ext <;> simp

noncomputable def npState (x r : NVec ℝ) (tf : Dict (Int × Int) (Num ℝ)) (di : Dict (Int × Int) (NVec ℝ))
    (re : Dict Int (NVec ℝ)) : NState ℝ :=
  ⟨[(0, some ⟨0, 0, 0⟩), (1, x)], [(0, some ⟨0, 0, 0⟩), (1, r)], tf, di, re⟩

theorem np_zero (q p : ℝ) (ind : Bool) (x r : NVec ℝ) (tf di re) : ∃ x' di',
    npStep (rope q p) (tab q p) seqs ind 0 (npState x r tf di re) 0 =
      .ok (npState x' (npPull q p) (tf.set (0, 1) (npTrailForce (npPull q p) (some 3))) di' re) := by
  cases ind <;> exact ⟨_, _, rfl⟩

theorem np_one (q p : ℝ) (ind : Bool) (x r : NVec ℝ) (tf di re) : ∃ re',
    npStep (rope q p) (tab q p) seqs ind 1 (npState x r tf di re) 0 = .ok (npState x r tf di re') := by
  cases ind <;> exact ⟨_, rfl⟩

/-- A trail with a load across carries a force. -/
theorem taut {q p : ℝ} (hp : p ≠ 0) (tmax : Nat) : Taut (rope q p) tmax := by
  have hf : ∃ f, f ≠ 0 ∧ npTrailForce (npPull q p) (some 3) = some f := by
    rw [npPull_eq]
    have h0 : Vec.length (⟨-q, -p, 0⟩ : Vec ℝ) ≠ 0 := fun h => hp (by
      have := congrArg Vec.y (Vec.length_eq_zero.1 h)
      simpa using this)
    simp only [npTrailForce, Option.map_some]
    split_ifs
    · exact ⟨_, by simpa using h0, rfl⟩
    · exact ⟨_, h0, rfl⟩
  obtain ⟨f, hf0, hf⟩ := hf
  intro tseq tb n h1 h2 h3 t _ s hs pre hpre s' hs' e
  cases h1
  cases h2
  cases h3
  have good : ∀ tf : Dict (Int × Int) (Num ℝ), tf = [] ∨ tf = [((0, 1), some f)] →
      tf.get? e ≠ some none ∧ tf.get? e ≠ some (some 0) := by
    rintro tf (rfl | rfl)
    · simp [Dict.get?]
    · simp only [Dict.get?]
      split_ifs <;> simp [hf0]
  have set_good : ∀ tf : Dict (Int × Int) (Num ℝ), tf = [] ∨ tf = [((0, 1), some f)] →
      tf.set (0, 1) (some f) = [((0, 1), some f)] := by
    rintro tf (rfl | rfl) <;> rfl
  have run : ∀ ind x r tf di re, tf = [] ∨ tf = [((0, 1), some f)] → ∃ x' r' di' re',
      npStep (rope q p) (tab q p) seqs ind 0 (npState x r tf di re) 0 =
        .ok (npState x' r' [((0, 1), some f)] di' re) ∧
      npStep (rope q p) (tab q p) seqs ind 1 (npState x' r' [((0, 1), some f)] di' re) 0 =
        .ok (npState x' r' [((0, 1), some f)] di' re') := by
    intro ind x r tf di re htf
    obtain ⟨x', di', h⟩ := np_zero q p ind x r tf di re
    rw [hf, set_good tf htf] at h
    obtain ⟨re', h'⟩ := np_one q p ind x' (npPull q p) [((0, 1), some f)] di' re
    exact ⟨x', _, di', re', h, h'⟩
  have inv : ∀ t s, npSweeps (rope q p) (tab q p) seqs 2 t = .ok s →
      ∃ x r tf di re, s = npState x r tf di re ∧ (tf = [] ∨ tf = [((0, 1), some f)]) := by
    intro t
    induction t with
    | zero =>
      intro s h
      cases h
      exact ⟨some ⟨5, 0, 0⟩, some ⟨0, 0, 0⟩, [], [], [], rfl, Or.inl rfl⟩
    | succ t ih =>
      intro s h
      unfold npSweeps at h
      cases hq : npSweeps (rope q p) (tab q p) seqs 2 t with
      | error err => rw [hq] at h; cases h
      | ok s0 =>
        rw [hq] at h
        simp only at h
        obtain ⟨x, r, tf, di, re, rfl, htf⟩ := ih s0 hq
        obtain ⟨x', r', di', re', k0, k1⟩ := run (t > 0) x r tf di re htf
        have e1 : npSweep (rope q p) (tab q p) seqs (t > 0) 2 (npState x r tf di re) =
            .ok (npState x' r' [((0, 1), some f)] di' re') := by
          unfold npSweep
          rw [show pyRange 2 = [0, 1] from rfl, show (rope q p).trails.keys = [0] from rfl]
          simp only [forE, k0, k1]
        rw [e1] at h
        cases h
        exact ⟨_, _, _, _, _, rfl, Or.inr rfl⟩
  obtain ⟨x, r, tf, di, re, rfl, htf⟩ := inv t s hs
  obtain ⟨x', r', di', re', k0, k1⟩ := run (t > 0) x r tf di re htf
  have hcases : pre = [] ∨ pre = [(0, 0)] ∨ pre = [(0, 0), (1, 0)] := by
    have : pre <+: [((0 : Int), (0 : Int)), (1, 0)] := hpre
    rcases pre with _ | ⟨a, _ | ⟨b, l⟩⟩
    · exact Or.inl rfl
    · simp [List.cons_prefix_cons] at this; exact Or.inr (Or.inl (by rw [this]))
    · simp [List.cons_prefix_cons] at this; exact Or.inr (Or.inr (by simp [this]))
  have hs' : forE (fun s q' => npStep (rope q p) (tab q p) seqs (t > 0) q'.1 s q'.2) pre (npState x r tf di re) =
    .ok s' := hs'
  rcases hcases with rfl | rfl | rfl
  · cases hs'
    exact good tf htf
  · simp only [forE, k0] at hs'
    cases hs'
    exact good _ (Or.inr rfl)
  · simp only [forE, k0, k1] at hs'
    cases hs'
    exact good _ (Or.inr rfl)

/-- All diagrams that differ from the trail in the parameter only. -/
theorem taut_all {q p : ℝ} (hp : p ≠ 0) {C : Diagram ℝ}
    (h : SameExcept (fun s => ∃ q ∈ loadOpt.parameters, q.2.slot = s) (rope q p) C) (tmax : Nat) : Taut C tmax := by
  have hS : ∀ s, (∃ q ∈ loadOpt.parameters, q.2.slot = s) ↔ s = .node 0 .qx := by
    intro s
    rw [loadOpt_parameters]
    simp [nodeLoadXParameter, eq_comm]
  suffices ∃ q', C = rope q' p by
    obtain ⟨q', rfl⟩ := this
    exact taut hp tmax
  obtain ⟨nodes, edges, mx, gk, tr, au, al, av⟩ := C
  obtain ⟨r1, r2, r3, r4, r5, r6⟩ := h.rest
  have hk : nodes.keys = [0, 1] := h.nodeKeys
  have hke : edges.keys = [(0, 1)] := h.edgeKeys
  obtain ⟨n0, d0, n1, d1, rfl⟩ : ∃ n0 d0 n1 d1, nodes = [(n0, d0), (n1, d1)] := by
    match nodes, hk with
    | [(n0, d0), (n1, d1)], _ => exact ⟨n0, d0, n1, d1, rfl⟩
  obtain ⟨e0, b0, rfl⟩ : ∃ e0 b0, edges = [(e0, b0)] := by
    match edges, hke with
    | [(e0, b0)], _ => exact ⟨e0, b0, rfl⟩
  simp only [Dict.keys, List.map_cons, List.map_nil, List.cons.injEq, and_true] at hk hke
  obtain ⟨rfl, rfl⟩ := hk
  subst hke
  have k0 := h.node 0 ⟨⟨0, 0, 0⟩, ⟨q, p, 0⟩, ⟨0, 0, 0⟩, some 0, .origin⟩ d0 rfl rfl
  have k1 := h.node 1 ⟨⟨5, 0, 0⟩, ⟨0, 0, 0⟩, ⟨0, 0, 0⟩, some 1, .support⟩ d1 rfl rfl
  have k2 := h.edge (0, 1) ⟨.trail, 3, 0, none⟩ b0 rfl rfl
  simp only [hS, Slot.node.injEq, reduceCtorEq, and_false, not_false_eq_true, true_imp_iff, and_true, one_ne_zero,
    not_true_eq_false, false_imp_iff, true_and] at k0 k1 k2
  obtain ⟨⟨a1, a2, a3⟩, ⟨a4, a5, a6⟩, a7, a8, a9⟩ := d0
  obtain ⟨⟨c1, c2, c3⟩, ⟨c4, c5, c6⟩, c7, c8, c9⟩ := d1
  obtain ⟨b1, b2, b3, b4⟩ := b0
  refine ⟨a4, ?_⟩
  simp only at k0 k1 k2 r1 r2 r3 r4 r5 r6
  obtain ⟨rfl, rfl, rfl, rfl, rfl, rfl, rfl, rfl⟩ := k0
  obtain ⟨rfl, rfl, rfl, rfl, rfl, rfl, rfl, rfl, rfl⟩ := k1
  obtain ⟨rfl, rfl, rfl, rfl⟩ := k2
  subst r1 r2 r3 r4 r5 r6
  rfl

theorem tip_taut : tip 3 4 = some ⟨⟨-9 / 5, -12 / 5, 0⟩, ⟨-48 / 125, 36 / 125, 0⟩⟩ := by
  have hl : Vec.length (⟨-3, -4, 0⟩ : Vec ℝ) = 5 := by
    unfold Vec.length
    rw [show Vec.dot (⟨-3, -4, 0⟩ : Vec ℝ) ⟨-3, -4, 0⟩ = 5 * 5 by norm_num [Vec.dot]]
    exact Real.sqrt_mul_self (by norm_num)
  unfold tip adDirection
  rw [pull_eq]
  simp only [adNormalize, Option.bind_some, Traced.norm, hl, OfNat.ofNat_ne_zero, if_false, Option.map_some, Traced.quot,
    lift2, Traced.scale, Traced.add]
  congr 2 <;> ext <;> norm_num [Vec.dot]

end SlackEx

section
open SlackEx SolveEx EqEx MeetsEx

/-- A gradient in another unit of force. -/
example : (loadOpt.autograd 100 1 (rope 3 4) [3]).2 = .ok [some (96 / 125)] ∧
    (loadOpt.autograd 100 1 (rope 6 8) [6]).2 = .ok [some (48 / 125)] := by
  have h : loadOpt.autograd 100 1 (rope 3 4) [3] = (rope 3 4, .ok [some (96 / 125)]) := by
    rw [rope_gradient 3 4 (by norm_num) one_pos _ tip_taut]
    norm_num [Vec.dot]
  refine ⟨by rw [h], ?_⟩
  have := C84_autograd_forces loadOpt_history 100 1 (rope 3 4) [3] (c := 2) (by norm_num)
    (taut (q := 3) (p := 4) (by norm_num) 100)
  rw [loadOpt_units, loadOpt_slots, rope_scaled, h] at this
  simp only [forceSlot, IsForce, if_true] at this
  norm_num at this
  rw [this]
  simp only [Except.map, loadOpt_slots, Option.map_some, forceRate, IsForce, if_true]
  norm_num

/-- The same gradient in another place and in another unit of length. -/
example (v : Vec ℝ) : ((reconstrain (moveConstraint v) loadOpt).autograd 100 1 (translate v (rope 3 4)) [3]).2 =
      .ok [some (96 / 125)] ∧
    ((rewriteOptimizer (lengthSlot 7) (lengthConstraint 7) loadOpt).autograd 100 7 (enlarge 7 (rope 3 4)) [3]).2 =
      .ok [some (96 / 125)] := by
  have h : loadOpt.autograd 100 1 (rope 3 4) [3] = (rope 3 4, .ok [some (96 / 125)]) := by
    rw [rope_gradient 3 4 (by norm_num) one_pos _ tip_taut]
    norm_num [Vec.dot]
  constructor
  · have := (C84_autograd_motions loadOpt_history 100 1 (rope 3 4) [3]).1 v
    rw [h, loadOpt_slots] at this
    rw [show shiftSlot v (.node 0 .qx) 3 = 3 from rfl] at this
    rw [this]
  · have := C84_autograd_lengths loadOpt_history 100 1 (rope 3 4) [3] (c := 7) (by norm_num)
    rw [h, loadOpt_slots, mul_one] at this
    simp only [lengthSlot, IsForce, if_true] at this
    rw [this]
    simp only [Except.map, loadOpt_slots, Option.map_some, lengthRate, IsForce, if_true]

/-- With automatic differentiation, whatever NLopt does, a quarter turn changes nothing but the diagram and the
form. -/
example (nlopt : Problem ℝ → Run ℝ) :
    ((reconstrain (turnConstraint quarter) edgeOpt).solve noAttrs nlopt
      ((reconstrain (turnConstraint quarter) edgeOpt).autograd 100 1) 1 args (turn quarter direct)).points =
      (edgeOpt.solve noAttrs nlopt (edgeOpt.autograd 100 1) 1 args direct).points :=
  congrArg (·.points) (C84_ad_rotation edgeOpt_history edgeOpt_edges valid_direct.wf quarter_orthogonal nlopt
    (a := args) noAttrs 1)

/-- Moved by `(10, 20, 30)`, a run that stops at 2 stops at 12, with the same value and gradient. -/
example : ((reconstrain (moveConstraint ⟨10, 20, 30⟩) opt).solve noAttrs (fun _ => stopAt (2 + 10))
      ((reconstrain (moveConstraint ⟨10, 20, 30⟩) opt).autograd 100 1) 1 args (translate ⟨10, 20, 30⟩ direct)).attrs.gradient =
    (opt.solve noAttrs (fun _ => stopAt 2) (opt.autograd 100 1) 1 args direct).attrs.gradient := by
  have hs : along (shiftSlot ⟨10, 20, 30⟩) (slotsOf opt.parameters) [(2 : ℝ)] = [2 + 10] := opt_slots 2 _
  have := C84_ad_translation opt_history valid_direct.wf ⟨10, 20, 30⟩ (nlopt := fun _ => stopAt 2)
    (nlopt' := fun _ => stopAt (2 + 10)) (a := args)
    (fun _ => by
      unfold stopAt
      rw [← hs]
      exact .eval _ _ _ _ fun v dv => .done _ _ _ _) noAttrs 1
  refine (congrArg (·.attrs.gradient) this).trans ?_
  simp only [rewriteSolved, rewriteAttrs, Option.map_id, id]
  rfl

/-- In another unit of force, a run that stops at a load of 3 stops at a load of 6. -/
example : ((rewriteOptimizer (forceSlot 2) (forceConstraint 2) loadOpt).solve noAttrs (fun _ => stopAt (2 * 3))
      ((rewriteOptimizer (forceSlot 2) (forceConstraint 2) loadOpt).autograd 100 1) 1 args (scaleForces 2 (rope 0 4))).topology =
    scaleForces 2 (loadOpt.solve noAttrs (fun _ => stopAt 3) (loadOpt.autograd 100 1) 1 args (rope 0 4)).topology := by
  have hs : along (forceSlot 2) (slotsOf loadOpt.parameters) [(3 : ℝ)] = [2 * 3] := by
    rw [loadOpt_slots]; simp [forceSlot, IsForce]
  exact congrArg (·.topology) (C84_ad_forces loadOpt_history (rope_wf 0 4) (c := 2) (by norm_num)
    (nlopt := fun _ => stopAt 3) (nlopt' := fun _ => stopAt (2 * 3)) (a := args) rfl
    (fun C hC => taut_all (q := 0) (p := 4) (by norm_num) hC _)
    (fun _ => by
      unfold stopAt
      rw [← hs]
      exact .eval _ _ _ _ fun v dv => .done _ _ _ _) noAttrs 1)

/-- In another unit of length, it stops at 6. -/
example : ((rewriteOptimizer (lengthSlot 3) (lengthConstraint 3) opt).solve noAttrs (fun _ => stopAt (3 * 2))
      ((rewriteOptimizer (lengthSlot 3) (lengthConstraint 3) opt).autograd 100 (3 * 1)) (3 * 1)
      { args with eta := 3 * args.eta } (enlarge 3 direct)).topology =
    enlarge 3 (opt.solve noAttrs (fun _ => stopAt 2) (opt.autograd 100 1) 1 args direct).topology := by
  have hs : along (lengthSlot 3) (slotsOf opt.parameters) [(2 : ℝ)] = [3 * 2] := by
    rw [opt_slots]; simp [lengthSlot, IsForce]
  exact congrArg (·.topology) (C84_ad_lengths opt_history valid_direct.wf (c := 3) (by norm_num)
    (nlopt := fun _ => stopAt 2) (nlopt' := fun _ => stopAt (3 * 2)) (a := args) rfl
    (fun _ => by
      unfold stopAt
      rw [← hs]
      exact .eval _ _ _ _ fun v dv => .done _ _ _ _) noAttrs 1)

end

end Props
end CEM
