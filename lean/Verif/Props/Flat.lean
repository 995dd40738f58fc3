import Verif.Lemmas.Flat
import Verif.Props.Idle
import Verif.Props.Solve

/-!
# Flat structures stay flat (C89)
-/

set_option linter.unusedSectionVars false
set_option linter.unusedSimpArgs false

namespace CEM
namespace Props
open Diagram Spec Optimizer

variable {R : Type} [Field R] [LinearOrder R] [PySqrt R]

/-- **C89, plain solver.**  If all nodes lie in a plane (or in a line) and all loads and the
reactions stored before point along it, so do the nodes and reactions of the form, whatever the
number of sweeps, the sequence to stop at and the constraint planes of the edges. -/
theorem C89_flat {V : Vec R → Prop} (hV : Directions V) {o : Vec R} {D : Diagram R} (w : WF D)
    (hD : Flat V o D) (hL : FlatLoads V D) {kmax : Option Int} {tmax : Nat} {eta : R}
    {verbose : Bool} {F : Diagram R} (h : staticEquilibrium D kmax tmax eta verbose = .ok F) :
    Flat V o F := Flatness.plain hV hL w.nodesNodup hD h

/-- **C89, numpy solver.** -/
theorem C89_flat_numpy {V : Vec R → Prop} (hV : Directions V) {o : Vec R} {D : Diagram R} (w : WF D)
    (hD : Flat V o D) (hL : FlatLoads V D) {tmax : Nat} {eta : R} {verbose : Bool}
    {F : Diagram (Num R)} (h : staticEquilibriumNumpy D tmax eta verbose = .ok F) :
    FlatNum V o F := Flatness.numpy hV hL w.nodesNodup hD h

/-- The other nodes are moved to the point. -/
def gathered (o : Vec R) (D : Diagram R) : Diagram R :=
  { D with nodes := D.nodes.map fun p =>
      (p.1, if p.1 ∈ D.trails.keys then p.2 else { p.2 with pos := o }) }

theorem gathered_get (o : Vec R) (D : Diagram R) (n : Int) : (gathered o D).nodes.get? n =
    (D.nodes.get? n).map fun d => if n ∈ D.trails.keys then d else { d with pos := o } :=
  get?_map_key D.nodes (fun n (d : NodeData R) =>
    if n ∈ D.trails.keys then d else { d with pos := o }) n

theorem gathered_keys (o : Vec R) (D : Diagram R) : (gathered o D).nodes.keys = D.nodes.keys :=
  keys_map_key D.nodes fun n (d : NodeData R) => if n ∈ D.trails.keys then d else { d with pos := o }

theorem gathered_same (o : Vec R) (D : Diagram R) : SameExcept (Idle D) D (gathered o D) where
  nodeKeys := gathered_keys o D
  edgeKeys := rfl
  node n d d' h h' := by
    rw [gathered_get, h] at h'
    have h' := (Option.some.inj h').symm
    subst h'
    by_cases hn : n ∈ D.trails.keys
    · simp [hn]
    · simp [hn, Idle]
  edge e d d' h h' := by
    have : d' = d := Option.some.inj (h'.symm.trans h)
    subst this
    exact ⟨rfl, rfl, fun _ => rfl, fun _ => rfl⟩
  rest := ⟨rfl, rfl, rfl, rfl, rfl, rfl⟩

theorem gathered_flat {V : Vec R → Prop} (hV : Directions V) {o : Vec R} {D : Diagram R}
    (I : ValidInput D) (hD : FlatOrigins V o D) : Flat V o (gathered o D) := by
  intro n d h
  rw [gathered_get] at h
  obtain ⟨e, he, rfl⟩ := Option.map_eq_some_iff.1 h
  by_cases hn : n ∈ D.trails.keys
  · simp only [hn, if_true]
    exact ⟨hD n e he hn, by rw [I.reaction n e he]; exact hV.zero⟩
  · simp only [hn, if_false]
    have : o - o = 0 := by ext <;> simp
    exact ⟨by rw [this]; exact hV.zero, by rw [I.reaction n e he]; exact hV.zero⟩

theorem gathered_loads {V : Vec R → Prop} {o : Vec R} {D : Diagram R} (hL : FlatLoads V D) :
    FlatLoads V (gathered o D) := by
  intro n d h
  rw [gathered_get] at h
  obtain ⟨e, he, rfl⟩ := Option.map_eq_some_iff.1 h
  by_cases hn : n ∈ D.trails.keys
  · simp only [hn, if_true]; exact hL n e he
  · simp only [hn, if_false]; exact hL n e he

/-- **C89, only the first nodes matter.**  If the first nodes of the trails lie in a plane (or in a
line) and all loads point along it, the whole form lies there, wherever the other nodes were
drawn, with either solver. -/
theorem C89_origins {V : Vec R → Prop} (hV : Directions V) {o : Vec R} {D : Diagram R}
    (I : ValidInput D) (hD : FlatOrigins V o D) (hL : FlatLoads V D) {tmax : Nat} {eta : R}
    {verbose : Bool} :
    (∀ F, staticEquilibrium D none tmax eta verbose = .ok F → Flat V o F) ∧
    ∀ F, staticEquilibriumNumpy D tmax eta verbose = .ok F → FlatNum V o F := by
  obtain ⟨e1, e2⟩ := C67_form (gathered_same o D) I tmax eta verbose
  have hw : (gathered o D).nodes.keys.Nodup := by rw [gathered_keys]; exact I.wf.nodesNodup
  refine ⟨fun F h => ?_, fun F h => ?_⟩
  · rw [← e1] at h
    exact Flatness.plain hV (gathered_loads hL) hw (gathered_flat hV I hD) h
  · rw [← e2] at h
    exact Flatness.numpy hV (gathered_loads hL) hw (gathered_flat hV I hD) h

/-- Planes of a constant coordinate. -/
theorem directions_coordinate (c : Coordinate) : Directions fun v : Vec R => c.of v = 0 := by
  cases c <;> exact ⟨rfl, fun a b ha hb => by simp [Coordinate.of] at *; simp [ha, hb],
    fun t a ha => by simp [Coordinate.of] at *; simp [ha]⟩

theorem coordinate_sub (c : Coordinate) (a b : Vec R) : c.of (a - b) = c.of a - c.of b := by
  cases c <;> rfl

/-- **C89, optimization.**  Let the first nodes of the trails share a coordinate, and let no load
have a component along it.  If no parameter is that coordinate of one of these nodes or that
component of a load, the constrained form shares the coordinate too, and its reactions have no
such component, whatever NLopt does. -/
theorem C89_optimized (c : Coordinate) {t : R} {o : Optimizer R} {h : List (RegOp (Param R))}
    (hh : HasHistory o h) {D : Diagram R} (I : ValidInput D)
    (hD : ∀ n d, D.nodes.get? n = some d → n ∈ D.trails.keys → c.of d.pos = t)
    (hL : ∀ n d, D.nodes.get? n = some d → c.of d.load = 0)
    (hp : ∀ k p n, Registered h k p → p.slot ≠ .node n c.load ∧
      (n ∈ D.trails.keys → p.slot ≠ .node n c.position))
    (old : Attrs R) (nlopt : Problem R → Run R) (ad : GradFunc R) (tol : R) (a : SolveArgs R)
    {F : Diagram R} (hF : (o.solve old nlopt ad tol a D).form = .ok F) :
    ∀ n d, F.nodes.get? n = some d → c.of d.pos = t ∧ c.of d.reaction = 0 := by
  have S := C49_frame hh old nlopt ad tol a D
  obtain ⟨I', hF'⟩ := C49_ready hh old nlopt ad tol a I
  generalize (o.solve old nlopt ad tol a D).topology = E at S I' hF'
  have hget : ∀ n d', E.nodes.get? n = some d' → ∃ d, D.nodes.get? n = some d := by
    intro n d' h'
    have : n ∈ D.nodes.keys := by
      rw [← S.nodeKeys]; exact Dict.mem_keys_iff.2 ⟨d', Dict.mem_of_get? h'⟩
    cases hd : D.nodes.get? n with
    | none => exact absurd this ((Dict.get?_eq_none_iff _ _).1 hd)
    | some d => exact ⟨d, rfl⟩
  have hfree : ∀ n, ¬ (∃ k p, Registered h k p ∧ p.slot = Slot.node n c.load) :=
    fun n ⟨k, p, r, e⟩ => (hp k p n r).1 e
  have hfree' : ∀ n ∈ D.trails.keys, ¬ (∃ k p, Registered h k p ∧ p.slot = Slot.node n c.position) :=
    fun n hn ⟨k, p, r, e⟩ => (hp k p n r).2 hn e
  have key := (C89_origins (V := fun v => c.of v = 0) (o := ⟨t, t, t⟩) (directions_coordinate c) I'
    (fun n d' h' hn => ?_) (fun n d' h' => ?_) (tmax := 100) (eta := tol) (verbose := false)).1 F (hF' F hF)
  · intro n d hd
    obtain ⟨h1, h2⟩ := key n d hd
    refine ⟨?_, h2⟩
    rw [coordinate_sub] at h1
    have : c.of (⟨t, t, t⟩ : Vec R) = t := by cases c <;> rfl
    rw [this] at h1
    exact sub_eq_zero.1 h1
  · obtain ⟨d, hd⟩ := hget n d' h'
    rw [S.rest.2.2.1] at hn
    have hf := hfree' n hn
    obtain ⟨_, _, _, g4, g5, g6, _⟩ := S.node n d d' hd h'
    have e := hD n d hd hn
    show c.of (d'.pos - ⟨t, t, t⟩) = 0
    rw [coordinate_sub]
    cases c <;> simp only [Coordinate.of, Coordinate.position] at *
    · rw [g4 hf, e, sub_self]
    · rw [g5 hf, e, sub_self]
    · rw [g6 hf, e, sub_self]
  · obtain ⟨d, hd⟩ := hget n d' h'
    have hf := hfree n
    obtain ⟨_, _, _, _, _, _, g7, g8, g9⟩ := S.node n d d' hd h'
    have e := hL n d hd
    show c.of d'.load = 0
    cases c <;> simp only [Coordinate.of, Coordinate.load] at *
    · rw [g7 hf, e]
    · rw [g8 hf, e]
    · rw [g9 hf, e]

/-! ## Examples -/

namespace FlatEx
open TrailEx EqEx

local instance flatSqrt : PySqrt ℚ := ⟨id⟩

/-- Trails `0-1-2` and `4-3`, joined by a direct deviation edge.  The first nodes lie in the plane
`y = 3` and the loads point along it; node 1 is drawn elsewhere. -/
def flatOps : List (Op ℚ) :=
  [.addNode none ⟨0, 3, 0⟩, .addNode none ⟨1, 7, 2⟩, .addNode none ⟨2, 3, 1⟩,
    .addNode none ⟨3, 3, 0⟩, .addNode none ⟨4, 3, 0⟩, trail 0 1, trail 2 1, sup 2, trail 3 4, sup 3,
    dev 0 4] ++ [load 0 ⟨0, 0, -1⟩, load 1 ⟨1, 0, -2⟩, load 4 ⟨1, 0, 1⟩]

def flatQ : Diagram ℚ := after key (flatOps ++ [.buildTrails])

noncomputable def flat : Diagram ℝ := flatQ.real

theorem valid_flat : ValidInput flat := validInput_real
  (validInput_of_history key flatOps (RegularCheck.regular (WF.after _ _) (by decide +kernel))
    (by decide +kernel))

theorem direct_flat : DirectOnly flat := map_directOnly (DirectCheck.direct (by decide +kernel))

theorem flat_get {n : Int} {d : NodeData ℝ} (h : flat.nodes.get? n = some d) :
    ∃ e, (n, e) ∈ flatQ.nodes ∧ d = e.map fun q : ℚ => (q : ℝ) := by
  have h : (flatQ.map fun q : ℚ => (q : ℝ)).nodes.get? n = some d := h
  rw [map_nodes_get?] at h
  obtain ⟨e, he, rfl⟩ := Option.map_eq_some_iff.1 h
  exact ⟨e, Dict.mem_of_get? he, rfl⟩

theorem flat_origins : ∀ n d, flat.nodes.get? n = some d → n ∈ flat.trails.keys → d.pos.y = 3 := by
  intro n d h hn
  obtain ⟨e, he, rfl⟩ := flat_get h
  have hn : n ∈ flatQ.trails.keys := hn
  have : ∀ p ∈ flatQ.nodes, p.1 ∈ flatQ.trails.keys → p.2.pos.y = 3 := by decide +kernel
  have e3 : e.pos.y = 3 := this _ he hn
  simp [NodeData.map, Vec.map, e3]

theorem flat_loads : ∀ n d, flat.nodes.get? n = some d → d.load.y = 0 := by
  intro n d h
  obtain ⟨e, he, rfl⟩ := flat_get h
  have : ∀ p ∈ flatQ.nodes, p.2.load.y = 0 := by decide +kernel
  have e0 : e.load.y = 0 := this _ he
  simp [NodeData.map, Vec.map, e0]

end FlatEx

open FlatEx in
/-- Node 1 is drawn at `y = 7`; the form lies in the plane `y = 3`. -/
example : ∃ F, staticEquilibrium flat none 100 0 false = .ok F ∧
    (∃ d, flat.nodes.get? 1 = some d ∧ d.pos.y = 7) ∧
    ∀ n d, F.nodes.get? n = some d → d.pos.y = 3 ∧ d.reaction.y = 0 := by
  obtain ⟨F, hF⟩ := C20_returns_without_indirect valid_flat direct_flat (show 1 ≤ 100 by norm_num)
    (le_refl (0 : ℝ))
  have key := (C89_origins (directions_coordinate (R := ℝ) .y) (o := ⟨0, 3, 0⟩) valid_flat
    (fun n d h hn => by simp [Coordinate.of, flat_origins n d h hn])
    (fun n d h => by simp [Coordinate.of, flat_loads n d h]) (tmax := 100) (eta := 0)
    (verbose := false)).1 F hF
  refine ⟨F, hF, ?_, fun n d h => ?_⟩
  · have hq : ∃ d, flatQ.nodes.get? 1 = some d ∧ d.pos.y = 7 :=
      ⟨(flatQ.nodes.get? 1).get (by decide +kernel), by simp, by decide +kernel⟩
    obtain ⟨d, hd, hp⟩ := hq
    refine ⟨d.map fun q : ℚ => (q : ℝ), ?_, by simp [NodeData.map, Vec.map, hp]⟩
    show (flatQ.map _).nodes.get? 1 = _
    rw [map_nodes_get?, hd]
    rfl
  · obtain ⟨h1, h2⟩ := key n d h
    simp only [Coordinate.of, Vec.sub_y] at h1 h2
    exact ⟨by linarith, h2⟩

namespace FlatEx

/-- The same with all nodes in the plane, for the theorems about whole diagrams. -/
theorem flat_gathered : Flat (fun v : Vec ℝ => v.y = 0) ⟨0, 3, 0⟩ (gathered ⟨0, 3, 0⟩ flat) ∧
    FlatLoads (fun v : Vec ℝ => v.y = 0) (gathered ⟨0, 3, 0⟩ flat) :=
  ⟨gathered_flat (directions_coordinate .y) valid_flat
    (fun n d h hn => by simp [Coordinate.of, flat_origins n d h hn]),
    gathered_loads (fun n d h => flat_loads n d h)⟩

theorem valid_gathered : ValidInput (gathered ⟨0, 3, 0⟩ flat) :=
  validInput_same (gathered_same _ _) valid_flat

theorem direct_gathered : DirectOnly (gathered ⟨0, 3, 0⟩ flat) :=
  directOnly_same (gathered_same _ _) direct_flat

end FlatEx

open FlatEx in
example : (∃ F, staticEquilibrium (gathered ⟨0, 3, 0⟩ flat) none 100 0 false = .ok F ∧
      Flat (fun v : Vec ℝ => v.y = 0) ⟨0, 3, 0⟩ F) ∧
    ∃ F, staticEquilibriumNumpy (gathered ⟨0, 3, 0⟩ flat) 100 0 false = .ok F ∧
      FlatNum (fun v : Vec ℝ => v.y = 0) ⟨0, 3, 0⟩ F := by
  obtain ⟨F, hF⟩ := C20_returns_without_indirect valid_gathered direct_gathered
    (show 1 ≤ 100 by norm_num) (le_refl (0 : ℝ))
  obtain ⟨G, hG, _⟩ := C33_direct valid_gathered direct_gathered hF
  exact ⟨⟨F, hF, C89_flat (directions_coordinate .y) valid_gathered.wf flat_gathered.1
    flat_gathered.2 hF⟩, G, hG, C89_flat_numpy (directions_coordinate .y) valid_gathered.wf
    flat_gathered.1 flat_gathered.2 hG⟩

namespace FlatEx
open SolveEx

theorem flat_trail : (0, [0, 1, 2]) ∈ flat.trails := by
  show (0, [0, 1, 2]) ∈ flatQ.trails
  decide +kernel

theorem flat_node : ∃ d, flat.nodes.get? 0 = some d := by
  obtain ⟨d, hd⟩ : ∃ d, flatQ.nodes.get? 0 = some d :=
    ⟨(flatQ.nodes.get? 0).get (by decide +kernel), by simp⟩
  refine ⟨d.map fun q : ℚ => (q : ℝ), ?_⟩
  show (flatQ.map _).nodes.get? 0 = _
  rw [map_nodes_get?, hd]
  rfl

/-- NLopt tries the value 5 for the X coordinate of node 0 and then raises `RuntimeError`. -/
noncomputable def tries : Run ℝ := .eval [5] false fun _ _ => .raised .runtimeError

theorem tried : ∃ F, (opt.solve noAttrs (fun _ => tries) gradient 1 args flat).form = .ok F ∧
    (opt.solve noAttrs (fun _ => tries) gradient 1 args flat).points = [[5]] := by
  obtain ⟨d0, hd0⟩ := flat_node
  have hok : (opt.updateParameters flat [5]).2 = .ok () := by
    unfold updateParameters
    rw [writeParameters_ok _ _ _ opt_history.nonneg, opt_parameters]
    intro q hq
    simp only [List.mem_singleton] at hq
    subst hq
    exact ⟨by simp, Dict.mem_keys_of_get? hd0⟩
  have hc : Carries opt.parameters flat [5] (opt.updateParameters flat [5]).1 :=
    carries_of_write opt_history.nonneg hok
  obtain ⟨_, _, d, hd, _⟩ := hc.holds [] 0 _ [] opt_parameters (by simp)
  obtain ⟨s, hs, hx⟩ := numpy_origin (validInput_same hc.same valid_flat)
    (directOnly_same hc.same direct_flat) (show 1 ≤ 100 by norm_num) (zero_le_one (α := ℝ))
    (n := 0) (tr := [0, 1, 2]) (by rw [hc.same.rest.2.2.1]; exact flat_trail) hd
  have hobj : ∃ v, (opt.optimizeForm 100 1 flat [5]).2 = .ok v := by
    unfold optimizeForm
    rcases hu : opt.updateParameters flat [5] with ⟨D', (e | u)⟩
    · rw [hu] at hok; cases hok
    · rw [hu] at hs
      simp only at hs ⊢
      rw [hs, opt_constraints]
      simp only [Dict.vals, List.map_cons, List.map_nil, calculatePenalty, Constraint.penalty,
        Dict.getE, hx]
      exact ⟨_, rfl⟩
  obtain ⟨v, hv⟩ := hobj
  have c5 := optimizeForm_carries opt_history.nonneg hv
  rcases e5 : opt.optimizeForm 100 1 flat [5] with ⟨D, r⟩
  rw [e5] at hv c5
  simp only at hv c5
  obtain ⟨F, hF⟩ := C20_returns_without_indirect (validInput_same c5.same valid_flat)
    (directOnly_same c5.same direct_flat) (show 1 ≤ 100 by norm_num) (zero_le_one (α := ℝ))
  have has : ∀ k p, Registered history k p → HasSlot flat p.slot := by
    intro k p hr
    have hm := Dict.mem_of_get? (((regInv history).get k p).2 hr)
    rw [← opt_history, opt_parameters] at hm
    simp only [List.mem_singleton, Prod.mk.injEq] at hm
    rw [hm.2]
    exact Dict.mem_keys_of_get? hd0
  obtain ⟨x, bs, hx, hb, _⟩ := C37_vector history flat has 1 history_segment
  have hx : opt.optimizationParameters flat = .ok x := hx
  have hb : opt.optimizationBounds flat = .ok bs := hb
  have hsane : opt.checkSanity = .ok () := by simp [checkSanity, opt_parameters, opt_constraints]
  have heq : opt.solve noAttrs (fun _ => tries) gradient 1 args flat =
      opt.optimize noAttrs (opt.gradFunc gradient args) 1 args tries flat := by
    unfold solve
    rw [hsane]
    simp only
    rw [if_neg (by simp [args]), hx, hb]
    simp only
    rw [if_neg (by simp [args, nloptAlgorithms])]
  rw [heq]
  have ha : args.tmax = 100 ∧ args.eta = 1 := ⟨rfl, rfl⟩
  refine ⟨F, ?_, ?_⟩ <;>
    · unfold optimize tries
      rw [ha.1, ha.2]
      simp [exec, e5, hv, hF]

end FlatEx

open FlatEx SolveEx in
/-- The X coordinate of node 0 is changed from 0 to 5; the plane `y = 3` is kept. -/
example : ∃ F, (opt.solve noAttrs (fun _ => tries) gradient 1 args flat).form = .ok F ∧
    ∀ n d, F.nodes.get? n = some d → d.pos.y = 3 ∧ d.reaction.y = 0 := by
  obtain ⟨F, hF, _⟩ := tried
  refine ⟨F, hF, C89_optimized .y opt_history valid_flat flat_origins flat_loads ?_ noAttrs _
    gradient 1 args hF⟩
  intro k p n hr
  have hm := Dict.mem_of_get? (((regInv history).get k p).2 hr)
  rw [← opt_history, opt_parameters] at hm
  simp only [List.mem_singleton, Prod.mk.injEq] at hm
  rw [hm.2]
  simp [originNodeXParameter, Coordinate.load, Coordinate.position]

end Props
end CEM
