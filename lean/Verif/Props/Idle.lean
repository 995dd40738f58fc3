import Verif.Lemmas.IdleParams
import Verif.Props.TrailEdges
import Verif.Props.ComponentResults
import Verif.Props.Grad

/-!
# Which optimization parameters have an effect (C67)
-/

set_option linter.unusedSectionVars false
set_option linter.unusedSimpArgs false

namespace CEM
namespace Props
open Diagram Spec Optimizer

variable {R : Type} [Field R] [LinearOrder R] [PySqrt R]

/-- **C67, forms.**  Two diagrams that differ only in positions of nodes that are not the first
ones of trails, in forces of trail edges and in lengths of deviation edges have the same form,
with either solver and any settings; one cannot be solved for the same reason as the other. -/
theorem C67_form {D E : Diagram R} (h : SameExcept (Idle D) D E) (I : ValidInput D) (tmax : Nat)
    (eta : R) (verbose : Bool) :
    staticEquilibrium E none tmax eta verbose = staticEquilibrium D none tmax eta verbose ∧
    staticEquilibriumNumpy E tmax eta verbose = staticEquilibriumNumpy D tmax eta verbose :=
  ⟨staticEquilibrium_idle h I tmax eta verbose, staticEquilibriumNumpy_idle h I tmax eta verbose⟩

/-- **C67, objective.**  Entries of the vector that belong to idle parameters have no influence on
the objective, nor on whether it raises. -/
theorem C67_objective {o : Optimizer R} {h : List (RegOp (Param R))} (hh : HasHistory o h)
    {D : Diagram R} (I : ValidInput D) (tmax : Nat) (eta : R) {x y : List R}
    (hl : y.length = x.length)
    (hx : ∀ k p, Registered h k p → ¬ Idle D p.slot → y[k.toNat]? = x[k.toNat]?) :
    (o.optimizeForm tmax eta D y).2 = (o.optimizeForm tmax eta D x).2 := by
  refine (optimizeForm_idle hh.nonneg tmax eta I (SameExcept.refl _ _) hl fun q hq hi => ?_).1
  rw [hh] at hq
  exact hx q.1 q.2 (((regInv h).get _ _).1 (Dict.get?_of_mem (regInv h).nodup hq)) hi

/-- **C67, gradient.**  Where the objective is a number, its finite difference derivative along an
idle parameter is exactly zero (and NaN where the objective is NaN). -/
theorem C67_gradient {o : Optimizer R} {h : List (RegOp (Param R))} (hh : HasHistory o h)
    {D : Diagram R} (I : ValidInput D) (tmax : Nat) (eta step : R) (hs : step ≠ 0) {x : List R}
    {grad g : List (Num R)} (hg : grad.length = x.length) {s : Diagram R × List R}
    (hr : gradFiniteDifferences (o.optimizeForm tmax eta) step D x grad = (s, .ok g)) {k : Nat}
    (hk : k < x.length) (hi : ∀ p, Registered h k p → Idle D p.slot) :
    ∃ f, (o.optimizeForm tmax eta D x).2 = .ok f ∧ g[k]? = some (f.map fun _ => 0) := by
  rw [C42_trace _ _ _ _ _ hg] at hr
  rcases he : evalAll (o.optimizeForm tmax eta) D
    (x :: (List.range x.length).map fun i => bump x i step) with ⟨E, (err | vs)⟩
  · rw [he] at hr; cases hr
  · have hv := evalAll_values hh.nonneg tmax eta I.wf _ (SameExcept.refl _ _) he
    cases hv with
    | @cons _ f _ fs h0 hv =>
      rw [he] at hr
      simp only [Prod.mk.injEq, Except.ok.injEq] at hr
      refine ⟨f, h0, ?_⟩
      have hlen := hv.length_eq
      simp only [List.length_map, List.length_range] at hlen
      have hkf : k < fs.length := by omega
      have hval := List.forall₂_iff_get.1 hv
      have hk' := hval.2 k (by simpa using hk) hkf
      simp only [List.get_eq_getElem, List.getElem_map, List.getElem_range] at hk'
      have hsame := C67_objective hh I tmax eta (x := x) (y := bump x k step) (by simp [bump])
        (by
          intro j p hp hn
          have hne : j.toNat ≠ k := by
            intro hc
            have hj : j = (k : Int) := by have := hp.1; omega
            subst hj
            exact hn (hi p hp)
          unfold bump
          rw [List.getElem?_mapIdx]
          simp [hne])
      rw [h0, hk'] at hsame
      cases hsame
      rw [← hr.2, List.getElem?_map, List.getElem?_eq_getElem hkf]
      simp only [Option.map_some, fdQuotient, lift2]
      cases fs[k] with
      | none => rfl
      | some a => simp [hs]

/-- **C67, solve.**  With idle parameters only, a form that `solve` returns is the form of the
diagram as it was, whatever NLopt and the gradients do. -/
theorem C67_solve {o : Optimizer R} {h : List (RegOp (Param R))} (hh : HasHistory o h)
    (old : Attrs R) (nlopt : Problem R → Run R) (ad : GradFunc R) (tol : R) (a : SolveArgs R)
    {D : Diagram R} (I : ValidInput D) (hi : ∀ k p, Registered h k p → Idle D p.slot)
    {F : Diagram R} (hF : (o.solve old nlopt ad tol a D).form = .ok F) :
    staticEquilibrium D none 100 tol false = .ok F := by
  rw [← (C49_ready hh old nlopt ad tol a I).2 F hF]
  refine (staticEquilibrium_idle ((C49_frame hh old nlopt ad tol a D).mono ?_) I _ _ _).symm
  rintro s ⟨k, p, hr, rfl⟩
  exact hi k p hr

/-- **C67, live.**  Conversely every other number has an effect: if two diagrams that differ in
numbers only have the same form, then the numbers that are not idle are equal, provided that trail
edges have no planes and carry force. -/
theorem C67_live {D E : Diagram ℝ} (h : SameExcept (fun _ => True) D E) (I : ValidInput D)
    {tmax tmax' : Nat} {eta eta' : ℝ} {verbose verbose' : Bool} {F : Diagram ℝ}
    (hD : staticEquilibrium D none tmax eta verbose = .ok F)
    (hE : staticEquilibrium E none tmax' eta' verbose' = .ok F)
    (hp : ∀ e d, D.edges.get? e = some d → d.type = .trail → d.plane = none)
    (hf : ∀ e d, F.edges.get? e = some d → d.type = .trail → d.force ≠ 0) :
    SameExcept (Idle D) D E := by
  have J := validInput_same h I
  obtain ⟨_, _, nD, eD⟩ := C25_keeps_data I hD
  obtain ⟨_, _, nE, eE⟩ := C25_keeps_data J hE
  refine ⟨h.nodeKeys, h.edgeKeys, fun n d d' h1 h2 => ?_, fun e d d' h1 h2 => ?_, h.rest⟩
  · obtain ⟨r, k, t, _⟩ := h.node n d d' h1 h2
    obtain ⟨f, hfn, l1, _, _, p1, _⟩ := nD n d h1
    obtain ⟨f', hfn', l2, _, _, p2, _⟩ := nE n d' h2
    rw [hfn] at hfn'
    cases hfn'
    have hl : d'.load = d.load := by rw [← l1, ← l2]
    have hpos : ∀ s, (¬ Idle D s → n ∈ D.trails.keys) → ¬ Idle D s → d'.pos = d.pos := by
      intro s hs hi
      obtain ⟨⟨m, tr⟩, htr, rfl⟩ := List.mem_map.1 (hs hi)
      rw [← p1 ⟨tr, htr⟩, ← p2 ⟨tr, by rw [h.rest.2.2.1]; exact htr⟩]
    have hkey : ∀ s : Slot, (Idle D s ↔ n ∉ D.trails.keys) → ¬ Idle D s → d'.pos = d.pos :=
      fun s hs => hpos s fun hi => by
        by_contra hc
        exact hi (hs.2 hc)
    refine ⟨r, k, t, fun hi => ?_, fun hi => ?_, fun hi => ?_, ?_, ?_, ?_⟩
    · rw [hkey (.node n .x) Iff.rfl hi]
    · rw [hkey (.node n .y) Iff.rfl hi]
    · rw [hkey (.node n .z) Iff.rfl hi]
    all_goals intro _; rw [hl]
  · obtain ⟨t, p, _⟩ := h.edge e d d' h1 h2
    obtain ⟨f, hfe, t1, _, f1⟩ := eD e d h1
    obtain ⟨f', hfe', t2, _, f2⟩ := eE e d' h2
    rw [hfe] at hfe'
    cases hfe'
    refine ⟨t, p, fun hi => ?_, fun hi => ?_⟩
    · have ht : d.type = .trail := by
        rcases hty : d.type with _ | _ | _
        · exact absurd hty (I.typed e d h1)
        · rfl
        · exact absurd ⟨d, h1, hty⟩ hi
      have hne := hf e f hfe (by rw [t1, ht])
      rw [← (C26_trail_length_sign I hD h1 ht (hp e d h1 ht) hfe hne).2.2.2,
        ← (C26_trail_length_sign J hE h2 (by rw [t, ht]) (by rw [p]; exact hp e d h1 ht) hfe hne).2.2.2]
    · have ht : d.type = .deviation := by
        rcases hty : d.type with _ | _ | _
        · exact absurd hty (I.typed e d h1)
        · exact absurd ⟨d, h1, hty⟩ hi
        · rfl
      rw [← f1 ht, ← f2 (by rw [t, ht])]

/-- **C67, exactly.**  For diagrams that differ in numbers only, whose trail edges have no planes and
carry force, the forms are the same if and only if the diagrams differ in idle numbers only. -/
theorem C67_iff {D E : Diagram ℝ} (h : SameExcept (fun _ => True) D E) (I : ValidInput D)
    {tmax : Nat} {eta : ℝ} {verbose : Bool} {F : Diagram ℝ}
    (hD : staticEquilibrium D none tmax eta verbose = .ok F)
    (hp : ∀ e d, D.edges.get? e = some d → d.type = .trail → d.plane = none)
    (hf : ∀ e d, F.edges.get? e = some d → d.type = .trail → d.force ≠ 0) :
    staticEquilibrium E none tmax eta verbose = .ok F ↔ SameExcept (Idle D) D E :=
  ⟨fun hE => C67_live h I hD hE hp hf, fun hi => by rw [(C67_form hi I tmax eta verbose).1, hD]⟩

/-- **C67, components.**  A parameter component makes a parameter whenever a key is connected (the
key 0 included), with the bounds as connected (zero included), and never looks at the node's or
the edge's role. -/
theorem C67_components [IsStrictOrderedRing R] {D : Diagram R} (low up : Option R) (w : R) :
    (∀ n d, D.nodes.get? n = some d →
      (∃ p, Component.parameterNodeOriginX (some n) low up = some p ∧ StartsAt p D d.pos.x low up ∧
        WritesNode p D w n { d with pos := ⟨w, d.pos.y, d.pos.z⟩ } ∧
        (Idle D p.slot ↔ n ∉ D.trails.keys)) ∧
      (∃ p, Component.parameterNodeOriginY (some n) low up = some p ∧ StartsAt p D d.pos.y low up ∧
        WritesNode p D w n { d with pos := ⟨d.pos.x, w, d.pos.z⟩ } ∧
        (Idle D p.slot ↔ n ∉ D.trails.keys)) ∧
      (∃ p, Component.parameterNodeOriginZ (some n) low up = some p ∧ StartsAt p D d.pos.z low up ∧
        WritesNode p D w n { d with pos := ⟨d.pos.x, d.pos.y, w⟩ } ∧
        (Idle D p.slot ↔ n ∉ D.trails.keys)) ∧
      (∃ p, Component.parameterNodeLoadX (some n) low up = some p ∧ StartsAt p D d.load.x low up ∧
        WritesNode p D w n { d with load := ⟨w, d.load.y, d.load.z⟩ } ∧ ¬ Idle D p.slot) ∧
      (∃ p, Component.parameterNodeLoadY (some n) low up = some p ∧ StartsAt p D d.load.y low up ∧
        WritesNode p D w n { d with load := ⟨d.load.x, w, d.load.z⟩ } ∧ ¬ Idle D p.slot) ∧
      (∃ p, Component.parameterNodeLoadZ (some n) low up = some p ∧ StartsAt p D d.load.z low up ∧
        WritesNode p D w n { d with load := ⟨d.load.x, d.load.y, w⟩ } ∧ ¬ Idle D p.slot)) ∧
    (∀ e d, D.edges.get? e = some d →
      (∃ p, Component.parameterTrailEdge (some e) low up = some p ∧ StartsAt p D d.length low up ∧
        WritesEdge p D w e { d with length := w } ∧ (Idle D p.slot ↔ d.type = .deviation)) ∧
      (∃ p, Component.parameterDeviationEdge (some e) low up = some p ∧
        StartsAt p D d.force low up ∧ WritesEdge p D w e { d with force := w } ∧
        (Idle D p.slot ↔ d.type = .trail))) ∧
    Component.parameterNodeOriginX none low up = none ∧
    Component.parameterNodeOriginY none low up = none ∧
    Component.parameterNodeOriginZ none low up = none ∧
    Component.parameterNodeLoadX none low up = none ∧
    Component.parameterNodeLoadY none low up = none ∧
    Component.parameterNodeLoadZ none low up = none ∧
    Component.parameterTrailEdge none low up = none ∧
    Component.parameterDeviationEdge none low up = none := by
  refine ⟨fun n d hd => ?_, fun e d hd => ?_, rfl, rfl, rfl, rfl, rfl, rfl, rfl, rfl⟩
  · obtain ⟨⟨a1, b1⟩, ⟨a2, b2⟩, ⟨a3, b3⟩, ⟨a4, b4⟩, ⟨a5, b5⟩, ⟨a6, b6⟩⟩ :=
      C37_node_classes hd low up w
    exact ⟨⟨_, rfl, a1, b1, Iff.rfl⟩, ⟨_, rfl, a2, b2, Iff.rfl⟩, ⟨_, rfl, a3, b3, Iff.rfl⟩,
      ⟨_, rfl, a4, b4, id⟩, ⟨_, rfl, a5, b5, id⟩, ⟨_, rfl, a6, b6, id⟩⟩
  · obtain ⟨⟨a1, b1⟩, ⟨a2, b2⟩⟩ := C37_edge_classes hd low up w
    refine ⟨⟨_, rfl, a1, b1, ?_⟩, ⟨_, rfl, a2, b2, ?_⟩⟩
    · exact ⟨fun ⟨d', h', ht⟩ => by rw [hd] at h'; cases h'; exact ht, fun ht => ⟨d, hd, ht⟩⟩
    · exact ⟨fun ⟨d', h', ht⟩ => by rw [hd] at h'; cases h'; exact ht, fun ht => ⟨d, hd, ht⟩⟩

/-! ## Examples -/

namespace IdleEx
open EqEx SolveEx

theorem direct_keys : direct.trails.keys = [0, 4] := by
  show directQ.trails.keys = _
  decide +kernel

theorem node1_idle : Idle direct (.node 1 .x) := by
  show (1 : Int) ∉ direct.trails.keys
  rw [direct_keys]
  decide

theorem direct_node1 : ∃ d, direct.nodes.get? 1 = some d := by
  obtain ⟨d, hd⟩ : ∃ d, directQ.nodes.get? 1 = some d :=
    ⟨(directQ.nodes.get? 1).get (by decide +kernel), by simp⟩
  refine ⟨NodeData.map (fun q : ℚ => (q : ℝ)) d, ?_⟩
  show (directQ.map _).nodes.get? 1 = _
  rw [map_nodes_get?, hd]
  rfl

/-- Moving a node that is not an origin. -/
theorem moved : ∃ E, direct.setAttribute 9 (.node 1 .x) = .ok E ∧ SameExcept (Idle direct) direct E ∧
    HoldsAt E (.node 1 .x) 9 := by
  obtain ⟨d, hd⟩ := direct_node1
  obtain ⟨E, hE⟩ := setAttribute_ok (D := direct) (s := .node 1 .x) 9 (Dict.mem_keys_of_get? hd)
  refine ⟨E, hE, (sameExcept_setAttribute hE).mono fun s e => by rw [e]; exact node1_idle, ?_⟩
  rw [holdsAt_iff, get_setAttribute hE, if_pos rfl]

example : ∃ E F, direct.setAttribute 9 (.node 1 .x) = .ok E ∧ SameExcept (Idle direct) direct E ∧
    HoldsAt E (.node 1 .x) 9 ∧ staticEquilibrium direct none 100 0 false = .ok F ∧
    staticEquilibrium E none 100 0 false = .ok F := by
  obtain ⟨E, h1, h2, h3⟩ := moved
  obtain ⟨F, hF⟩ := C20_returns_without_indirect valid_direct directOnly_direct
    (show 1 ≤ 100 by norm_num) (le_refl (0 : ℝ))
  exact ⟨E, F, h1, h2, h3, hF, by rw [(C67_form h2 valid_direct 100 0 false).1, hF]⟩

/-- One parameter, the X coordinate of the node `1`, which is not an origin. -/
noncomputable def idleOpt : Optimizer ℝ :=
  Optimizer.ofLists [.point 0 ⟨-1, 0, 0⟩ 1] [originNodeXParameter 1 none none]

def idleHistory : List (RegOp (Param ℝ)) := [.add (originNodeXParameter 1 none none)]

theorem idleOpt_history : HasHistory idleOpt idleHistory := rfl
theorem idleOpt_parameters : idleOpt.parameters = [(0, originNodeXParameter 1 none none)] := rfl
theorem idleOpt_constraints : idleOpt.constraints = [(0, .point 0 ⟨-1, 0, 0⟩ 1)] := rfl

theorem idle_registered : ∀ k p, Registered idleHistory k p → Idle direct p.slot := by
  intro k p hr
  have hm := Dict.mem_of_get? (((regInv idleHistory).get k p).2 hr)
  rw [← idleOpt_history, idleOpt_parameters] at hm
  simp only [List.mem_singleton, Prod.mk.injEq] at hm
  rw [hm.2]
  exact node1_idle

theorem idle_objective (D : Diagram ℝ)
    (h : SameExcept (fun s => ∃ q ∈ idleOpt.parameters, q.2.slot = s) direct D) (t : ℝ) :
    (idleOpt.optimizeForm 100 1 D [t]).2 = .ok (some 1) := by
  have hok : (idleOpt.updateParameters D [t]).2 = .ok () := by
    unfold updateParameters
    rw [writeParameters_ok _ _ _ idleOpt_history.nonneg, idleOpt_parameters]
    intro q hq
    simp only [List.mem_singleton] at hq
    subst hq
    obtain ⟨d, hd⟩ := direct_node1
    exact ⟨by simp, (h.hasSlot _).2 (Dict.mem_keys_of_get? hd)⟩
  have hc : Carries idleOpt.parameters direct [t] (idleOpt.updateParameters D [t]).1 :=
    Carries.frame h (carries_of_write idleOpt_history.nonneg hok)
  obtain ⟨d0, hd0, hp0⟩ := direct_node
  obtain ⟨d, hd⟩ := (Dict.exists_get?_iff (idleOpt.updateParameters D [t]).1.nodes 0).2
    (by rw [hc.same.nodeKeys]; exact Dict.mem_keys_of_get? hd0)
  have hp : d.pos = ⟨0, 0, 0⟩ := by
    obtain ⟨_, _, _, hx, hy, hz, _⟩ := hc.same.node 0 d0 d hd0 hd
    rw [idleOpt_parameters] at hx hy hz
    rw [← hp0]
    ext
    · exact hx (by simp [originNodeXParameter])
    · exact hy (by simp [originNodeXParameter])
    · exact hz (by simp [originNodeXParameter])
  obtain ⟨s, hs, hx⟩ := numpy_origin (validInput_same hc.same valid_direct)
    (directOnly_same hc.same directOnly_direct) (show 1 ≤ 100 by norm_num) (zero_le_one (α := ℝ))
    (n := 0) (tr := [0, 1, 2]) (by rw [hc.same.rest.2.2.1]; exact direct_trail) hd
  unfold optimizeForm
  rcases hu : idleOpt.updateParameters D [t] with ⟨D', (e | u)⟩
  · rw [hu] at hok; cases hok
  · rw [hu] at hs
    simp only at hs ⊢
    rw [hs, idleOpt_constraints]
    simp only [Dict.vals, List.map_cons, List.map_nil, calculatePenalty, Constraint.penalty, Dict.getE, hx]
    simp [vectorPenalty, lift2, distSq, hp, Vec.dot]

example : (idleOpt.optimizeForm 100 1 direct [7]).2 = (idleOpt.optimizeForm 100 1 direct [0]).2 ∧
    (idleOpt.optimizeForm 100 1 direct [0]).2 = .ok (some 1) :=
  ⟨C67_objective idleOpt_history valid_direct 100 1 rfl
    fun k p hr hn => absurd (idle_registered k p hr) hn, idle_objective _ (SameExcept.refl _ _) 0⟩

example : ∃ s g, gradFiniteDifferences (idleOpt.optimizeForm 100 1) (1 / 2) direct [3] [none] =
      (s, .ok g) ∧ g[0]? = some (some 0) := by
  have h3 := idle_objective direct (SameExcept.refl _ _) 3
  have hs := optimizeForm_same idleOpt 100 1 direct [3]
  rcases e3 : idleOpt.optimizeForm 100 1 direct [3] with ⟨D1, r1⟩
  rw [e3] at h3 hs
  simp only at h3 hs
  have h4 := idle_objective D1 hs (3 + 1 / 2)
  rcases e4 : idleOpt.optimizeForm 100 1 D1 [3 + 1 / 2] with ⟨D2, r2⟩
  rw [e4] at h4
  simp only at h4
  have hr : ∃ s g, gradFiniteDifferences (idleOpt.optimizeForm 100 1) (1 / 2) direct [3] [none] =
      (s, .ok g) := by
    rw [C42_trace _ _ _ _ _ rfl]
    have hb : (List.range [(3 : ℝ)].length).map (fun i => bump [(3 : ℝ)] i (1 / 2)) =
        [[3 + 1 / 2]] := by simp [bump, List.range_succ]
    rw [hb]
    simp only [evalAll, e3, e4, h3, h4]
    exact ⟨_, _, rfl⟩
  obtain ⟨s, g, hr⟩ := hr
  obtain ⟨f, hf, hg⟩ := C67_gradient idleOpt_history valid_direct 100 1 (1 / 2) (by norm_num)
    (by simp) hr (k := 0) (by simp) fun p hp => idle_registered _ p hp
  rw [idle_objective direct (SameExcept.refl _ _) 3] at hf
  cases hf
  exact ⟨s, g, hr, hg⟩

theorem idle_solve_eq (run : Run ℝ) (tol : ℝ) :
    idleOpt.solve noAttrs (fun _ => run) gradient tol args direct =
      idleOpt.optimize noAttrs (idleOpt.gradFunc gradient args) tol args run direct := by
  have hseg : InitialSegment idleHistory 1 := by
    intro k
    rw [← mem_keys_registered]
    show (k : Int) ∈ [(0 : Int)] ↔ _
    simp
  have hhas : ∀ k p, Registered idleHistory k p → HasSlot direct p.slot := by
    intro k p hr
    have hm := Dict.mem_of_get? (((regInv idleHistory).get k p).2 hr)
    rw [← idleOpt_history, idleOpt_parameters] at hm
    simp only [List.mem_singleton, Prod.mk.injEq] at hm
    rw [hm.2]
    obtain ⟨d, hd⟩ := direct_node1
    exact Dict.mem_keys_of_get? hd
  obtain ⟨x, bs, hx, hb, _⟩ := C37_vector idleHistory direct hhas 1 hseg
  have hx : idleOpt.optimizationParameters direct = .ok x := hx
  have hb : idleOpt.optimizationBounds direct = .ok bs := hb
  have hs : idleOpt.checkSanity = .ok () := by
    simp [checkSanity, idleOpt_parameters, idleOpt_constraints]
  unfold solve
  rw [hs]
  simp only
  rw [if_neg (by simp [args]), hx, hb]
  simp only
  rw [if_neg (by simp [args, nloptAlgorithms])]

/-- The optimizer accepts the parameter, moves the node to `x = 5`, and returns the form of the
diagram as it was. -/
example : ∃ F, (idleOpt.solve noAttrs (fun _ => run5) gradient 1 args direct).form = .ok F ∧
    HoldsAt (idleOpt.solve noAttrs (fun _ => run5) gradient 1 args direct).topology (.node 1 .x) 5 ∧
    staticEquilibrium direct none 100 1 false = .ok F := by
  have hg : ∀ C (t : ℝ), idleOpt.gradFunc gradient args C [t] = (C, .ok [some (2 * (t + 1))]) := by
    intro C t
    simp [gradFunc, args, gradient, gradAutograd]
  have h5 := idle_objective direct (SameExcept.refl _ _) 5
  have c5 := optimizeForm_carries idleOpt_history.nonneg h5
  rcases e5 : idleOpt.optimizeForm 100 1 direct [5] with ⟨D, r⟩
  rw [e5] at h5 c5
  simp only at h5 c5
  obtain ⟨F, hF⟩ := C20_returns_without_indirect (validInput_same c5.same valid_direct)
    (directOnly_same c5.same directOnly_direct) (show 1 ≤ 100 by norm_num) (zero_le_one (α := ℝ))
  have hsol : (idleOpt.solve noAttrs (fun _ => run5) gradient 1 args direct).form = .ok F ∧
      (idleOpt.solve noAttrs (fun _ => run5) gradient 1 args direct).topology = D := by
    rw [idle_solve_eq]
    unfold optimize run5
    have hst : nloptStatus 1 = .ok "NLOPT_SUCCESS" := by decide +kernel
    have ha : args.tmax = 100 ∧ args.eta = 1 := ⟨rfl, rfl⟩
    rw [ha.1, ha.2]
    simp only [exec, e5, h5, hg, if_true, finish, hst, hF, and_self]
  obtain ⟨v, hv, hx⟩ := c5.holds [] 0 _ [] idleOpt_parameters (by simp)
  simp only [Int.toNat_zero, List.getElem?_cons_zero, Option.some.injEq] at hv
  subst hv
  exact ⟨F, hsol.1, by rw [hsol.2]; exact hx, C67_solve idleOpt_history noAttrs (fun _ => run5)
    gradient 1 args valid_direct idle_registered hsol.1⟩

/-- The key 0 and the bound 0 are taken as they are. -/
example : ∃ p, Component.parameterNodeOriginX (some 0) (some 0) none = some p ∧
    StartsAt p direct 0 (some 0) none ∧ ¬ Idle direct p.slot := by
  obtain ⟨d, hd, hp⟩ := direct_node
  obtain ⟨p, h1, h2, _, h3⟩ := ((C67_components (D := direct) (some 0) none 1).1 0 d hd).1
  rw [hp] at h2
  exact ⟨p, h1, h2, fun hc => h3.1 hc (by rw [direct_keys]; simp)⟩

open ColEx in
/-- Of a column, moving the support has no effect on the form and moving the origin has one. -/
example : ∃ E1 E2 F, (col none).setAttribute 9 (.node 1 .x) = .ok E1 ∧
    (col none).setAttribute 9 (.node 0 .x) = .ok E2 ∧
    staticEquilibrium (col none) none 100 0 false = .ok F ∧
    staticEquilibrium E1 none 100 0 false = .ok F ∧
    staticEquilibrium E2 none 100 0 false ≠ .ok F := by
  have hk : (col none).nodes.keys = [0, 1] := by
    unfold col Diagram.real
    show Dict.keys ((colQ none).nodes.map fun p => (p.1, NodeData.map _ p.2) : Dict Int (NodeData ℝ)) = _
    rw [keys_map_val (colQ none).nodes, colQ_none]
    rfl
  have ht : (col none).trails.keys = [0] := by
    show (colQ none).trails.keys = _
    rw [colQ_none]
    rfl
  obtain ⟨E1, h1⟩ := setAttribute_ok (D := col none) (s := .node 1 .x) 9
    (show (1 : Int) ∈ (col none).nodes.keys by rw [hk]; simp)
  have h0m : (0 : Int) ∈ (col none).nodes.keys := by rw [hk]; simp
  obtain ⟨E2, h2⟩ := setAttribute_ok (D := col none) (s := .node 0 .x) 9 h0m
  obtain ⟨F, h⟩ := returns colQ_none valid_none
  obtain ⟨d, hd, _, _, hf⟩ := col_form colQ_none valid_none h
  have hf' : d.force ≠ 0 := by rw [hf, len_none]; norm_num [copysign]
  have hp : ∀ e d, (col none).edges.get? e = some d → d.type = .trail → d.plane = none := by
    intro e d hd _
    rw [col_edges colQ_none] at hd
    split_ifs at hd
    cases hd
    rfl
  have hall : ∀ e d, F.edges.get? e = some d → d.type = .trail → d.force ≠ 0 := by
    intro e d' hd' _
    have hm := Dict.mem_keys_of_get? hd'
    rw [(C25_keeps_data valid_none h).2.1] at hm
    obtain ⟨d0, h0⟩ := (Dict.exists_get?_iff _ _).2 hm
    rw [col_edges colQ_none] at h0
    split_ifs at h0 with he
    subst he
    rw [hd] at hd'
    cases hd'
    exact hf'
  have s1 := sameExcept_setAttribute h1
  have s2 := sameExcept_setAttribute h2
  refine ⟨E1, E2, F, h1, h2, h, ?_, ?_⟩
  · refine (C67_iff (s1.mono fun _ _ => trivial) valid_none h hp hall).2 (s1.mono fun s e => ?_)
    rw [e]
    show (1 : Int) ∉ (col none).trails.keys
    rw [ht]
    decide
  · rw [Ne, C67_iff (s2.mono fun _ _ => trivial) valid_none h hp hall]
    intro hs
    obtain ⟨d0, g0⟩ := (Dict.exists_get?_iff _ _).2 h0m
    obtain ⟨d2, g2⟩ := (Dict.exists_get?_iff E2.nodes 0).2 (by rw [hs.nodeKeys]; exact h0m)
    have hx := (hs.node 0 d0 d2 g0 g2).2.2.2.1 (by
      show ¬ (0 : Int) ∉ (col none).trails.keys
      rw [ht]; simp)
    have hget := get_setAttribute h2 (.node 0 .x)
    rw [if_pos rfl] at hget
    have hz : d0.pos.x = 0 := by
      unfold col Diagram.real at g0
      rw [map_nodes_get?, colQ_none] at g0
      have : Dict.get? (colLit none).nodes 0 =
        some ⟨⟨0, 0, 0⟩, ⟨0, 0, -1⟩, ⟨0, 0, 0⟩, some 0, .origin⟩ := rfl
      rw [this] at g0
      cases g0
      simp [NodeData.map, Vec.map]
    have h9 : d2.pos.x = 9 := by
      obtain ⟨d3, g3, h9⟩ := (holdsAt_iff E2 (.node 0 .x) 9).2 hget
      rw [g2] at g3
      cases g3
      exact h9
    rw [h9, hz] at hx
    norm_num at hx

end IdleEx

end Props
end CEM
