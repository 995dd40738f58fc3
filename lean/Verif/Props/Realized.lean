import Verif.Props.Idle

/-!
# Which vectors the form of `solve` realizes (C43)

`C43_claim_false` shows that the form need not be the one of the reported optimum.  Here it is said
exactly when it is: if and only if the optimum agrees with the last point that NLopt evaluated in
every entry that has an effect.
-/

set_option linter.unusedSectionVars false
set_option linter.unusedSimpArgs false

namespace CEM
namespace Spec
open CEM

variable {R : Type}

/-- The entry of the vector that a parameter in effect reads: no later parameter overwrites the same
number of the diagram. -/
def InEffect (parameters : Dict Int (Param R)) (k : Int) (p : Param R) : Prop :=
  ∃ l1 l2, parameters = l1 ++ (k, p) :: l2 ∧ ∀ q ∈ l2, q.2.slot ≠ p.slot

/-- Two vectors agree in the entries that parameters in effect write to numbers that form finding
uses. -/
def AgreeLive (parameters : Dict Int (Param R)) (D : Diagram R) (x y : List R) : Prop :=
  ∀ k p, InEffect parameters k p → ¬ Idle D p.slot → x[k.toNat]? = y[k.toNat]?

end Spec

namespace Props
open Diagram Spec Optimizer

variable {R : Type}

/-- Two diagrams that differ from a third one in some places are compared place by place. -/
theorem sameExcept_slots {S T : Slot → Prop} {D E F : Diagram R} (h : SameExcept S D E)
    (g : SameExcept S D F)
    (key : ∀ s a b, S s → ¬ T s → HoldsAt E s a → HoldsAt F s b → b = a) : SameExcept T E F := by
  classical
  have c := h.symm.trans g
  refine ⟨c.nodeKeys, c.edgeKeys, fun n d d' h1 h2 => ?_, fun e d d' h1 h2 => ?_, c.rest⟩
  · obtain ⟨a1, a2, a3, a4, a5, a6, a7, a8, a9⟩ := c.node n d d' h1 h2
    have pick : ∀ {s : Slot} {a b : R}, (¬ S s → b = a) → HoldsAt E s a → HoldsAt F s b →
        ¬ T s → b = a := fun {s a b} hs ha hb ht => by
      by_cases hS : S s
      · exact key s a b hS ht ha hb
      · exact hs hS
    exact ⟨a1, a2, a3, pick (s := .node n .x) a4 ⟨d, h1, rfl⟩ ⟨d', h2, rfl⟩,
      pick (s := .node n .y) a5 ⟨d, h1, rfl⟩ ⟨d', h2, rfl⟩,
      pick (s := .node n .z) a6 ⟨d, h1, rfl⟩ ⟨d', h2, rfl⟩,
      pick (s := .node n .qx) a7 ⟨d, h1, rfl⟩ ⟨d', h2, rfl⟩,
      pick (s := .node n .qy) a8 ⟨d, h1, rfl⟩ ⟨d', h2, rfl⟩,
      pick (s := .node n .qz) a9 ⟨d, h1, rfl⟩ ⟨d', h2, rfl⟩⟩
  · obtain ⟨a1, a2, a3, a4⟩ := c.edge e d d' h1 h2
    have pick : ∀ {s : Slot} {a b : R}, (¬ S s → b = a) → HoldsAt E s a → HoldsAt F s b →
        ¬ T s → b = a := fun {s a b} hs ha hb ht => by
      by_cases hS : S s
      · exact key s a b hS ht ha hb
      · exact hs hS
    exact ⟨a1, a2, pick (s := .edge e .length) a3 ⟨d, h1, rfl⟩ ⟨d', h2, rfl⟩,
      pick (s := .edge e .force) a4 ⟨d, h1, rfl⟩ ⟨d', h2, rfl⟩⟩

theorem holdsAt_unique {D : Diagram R} {s : Slot} {a b : R} (h : HoldsAt D s a) (g : HoldsAt D s b) :
    a = b := by
  rw [holdsAt_iff] at h g
  rw [h] at g
  cases g
  rfl

theorem holdsAt_same {S : Slot → Prop} {D E : Diagram R} (h : SameExcept S D E) {s : Slot}
    (hs : ¬ S s) {a b : R} (ha : HoldsAt D s a) (hb : HoldsAt E s b) : b = a := by
  rcases s with ⟨n, f⟩ | ⟨e, f⟩
  · cases f <;>
    · obtain ⟨d, hd, rfl⟩ := ha
      obtain ⟨d', hd', rfl⟩ := hb
      obtain ⟨_, _, _, h1, h2, h3, h4, h5, h6⟩ := h.node n d d' hd hd'
      first | exact h1 hs | exact h2 hs | exact h3 hs | exact h4 hs | exact h5 hs | exact h6 hs
  · cases f <;>
    · obtain ⟨d, hd, rfl⟩ := ha
      obtain ⟨d', hd', rfl⟩ := hb
      obtain ⟨_, _, h1, h2⟩ := h.edge e d d' hd hd'
      first | exact h1 hs | exact h2 hs

/-- A vector that is long enough can be written once another one has been. -/
theorem carries_exists {o : Optimizer R} (h0 : ∀ q ∈ o.parameters, 0 ≤ q.1) {D E : Diagram R}
    {x y : List R} (hy : Carries o.parameters D y E)
    (hx : ∀ q ∈ o.parameters, q.1 < x.length) : ∃ G, Carries o.parameters D x G := by
  refine ⟨_, carries_of_write h0 ((writeParameters_ok _ _ _ h0).2 fun q hq => ⟨hx q hq, ?_⟩)⟩
  obtain ⟨l1, ⟨k, p⟩, l2, e, hp, hr⟩ := exists_last (fun r => r.2.slot = q.2.slot) o.parameters
    ⟨q, hq, rfl⟩
  have hp : p.slot = q.2.slot := hp
  obtain ⟨v, _, hv⟩ := hy.holds l1 k p l2 e fun r hr' => by rw [hp]; exact hr r hr'
  rw [hp] at hv
  refine (hy.same.hasSlot _).1 ?_
  rw [holdsAt_iff] at hv
  exact (hasSlot_iff _ _).2 ⟨v, hv⟩

theorem carries_live {l : Dict Int (Param R)} {D E G : Diagram R} {x y : List R}
    (hE : Carries l D y E) (hG : Carries l D x G) (ha : AgreeLive l D x y) :
    SameExcept (Idle D) E G := by
  refine sameExcept_slots hE.same hG.same fun s a b hs hi ha' hb => ?_
  obtain ⟨l1, ⟨k, p⟩, l2, e, hp, hr⟩ := exists_last (fun q => q.2.slot = s) l hs
  subst hp
  obtain ⟨v, hv, h1⟩ := hE.holds l1 k p l2 e hr
  obtain ⟨w, hw, h2⟩ := hG.holds l1 k p l2 e hr
  rw [ha k p ⟨l1, l2, e, hr⟩ hi, hv] at hw
  cases hw
  rw [holdsAt_unique ha' h1, holdsAt_unique hb h2]

section field
variable [Field R] [LinearOrder R] [PySqrt R]

/-- **C43, sufficient.**  A form that realizes one vector realizes every vector, long enough, that
agrees with it in the entries that have an effect. -/
theorem C43_agreeing {o : Optimizer R} {h : List (RegOp (Param R))} (hh : HasHistory o h)
    {D : Diagram R} (I : ValidInput D) {tol : R} {F : Diagram R} {x y : List R}
    (hy : Realizes o.parameters tol D y F) (hx : ∀ q ∈ o.parameters, q.1 < x.length)
    (ha : AgreeLive o.parameters D x y) : Realizes o.parameters tol D x F := by
  obtain ⟨E, hE, hF⟩ := hy
  obtain ⟨G, hG⟩ := carries_exists hh.nonneg hE hx
  refine ⟨G, hG, ?_⟩
  have hs := (carries_live hE hG ha).mono fun s hc => (idle_same hE.same s).2 hc
  rw [(C67_form hs (validInput_same hE.same I) 100 tol false).1, hF]

end field

/-- **C43, necessary.**  Provided that trail edges have no planes and carry force, two vectors that
one form realizes agree in the entries that have an effect. -/
theorem C43_determined {l : Dict Int (Param ℝ)} {D : Diagram ℝ} (I : ValidInput D) {tol : ℝ}
    {F : Diagram ℝ} {x y : List ℝ} (hy : Realizes l tol D y F) (hx : Realizes l tol D x F)
    (hp : ∀ e d, D.edges.get? e = some d → d.type = .trail → d.plane = none)
    (hf : ∀ e d, F.edges.get? e = some d → d.type = .trail → d.force ≠ 0) :
    AgreeLive l D x y := by
  obtain ⟨E, hE, hFE⟩ := hy
  obtain ⟨G, hG, hFG⟩ := hx
  have hs := C67_live ((hE.same.symm.trans hG.same).mono fun _ _ => trivial)
    (validInput_same hE.same I) hFE hFG
    (fun e d he ht => by
      obtain ⟨d0, hd0⟩ := (Dict.exists_get?_iff D.edges e).2
        (by rw [← hE.same.edgeKeys]; exact Dict.mem_keys_of_get? he)
      obtain ⟨t, p, _⟩ := hE.same.edge e d0 d hd0 he
      rw [p]
      exact hp e d0 hd0 (by rw [← t, ht])) hf
  rintro k p ⟨l1, l2, e, hr⟩ hi
  obtain ⟨v, hv, h1⟩ := hE.holds l1 k p l2 e hr
  obtain ⟨w, hw, h2⟩ := hG.holds l1 k p l2 e hr
  have hi' : ¬ Idle E p.slot := fun hc => hi ((idle_same hE.same p.slot).1 hc)
  rw [hv, hw]
  rw [holdsAt_same hs hi' h1 h2]

/-- **C43, exactly.**  When NLopt has evaluated the objective, the form that `solve` returns realizes
a vector if and only if the vector agrees with the last evaluated point in every entry that has an
effect.  In particular this decides when the form realizes the reported optimum. -/
theorem C43_realizes_iff {o : Optimizer ℝ} {h : List (RegOp (Param ℝ))} (hh : HasHistory o h)
    {D : Diagram ℝ} (I : ValidInput D) (old : Attrs ℝ) (nlopt : Problem ℝ → Run ℝ) (ad : GradFunc ℝ)
    (tol : ℝ) (a : SolveArgs ℝ) (F : Diagram ℝ)
    (hF : (o.solve old nlopt ad tol a D).form = .ok F) {y : List ℝ} {ys : List (List ℝ)}
    (hys : (o.solve old nlopt ad tol a D).points = y :: ys)
    (hp : ∀ e d, D.edges.get? e = some d → d.type = .trail → d.plane = none)
    (hf : ∀ e d, F.edges.get? e = some d → d.type = .trail → d.force ≠ 0)
    {x : List ℝ} (hx : ∀ q ∈ o.parameters, q.1 < x.length) :
    Realizes o.parameters tol D x F ↔ AgreeLive o.parameters D x y := by
  rcases C43_last_call hh I old nlopt ad tol a F hF with ⟨he, _⟩ | ⟨z, zs, hz, hR⟩
  · rw [he] at hys; cases hys
  · rw [hys] at hz
    cases hz
    exact ⟨fun hX => C43_determined I hR hX hp hf, fun ha => C43_agreeing hh I hR hx ha⟩

/-! ## Example -/

namespace RealizedEx
open EqEx SolveEx ColEx

/-- Two parameters of a column: the X coordinates of its origin and of its support. -/
noncomputable def pairOpt : Optimizer ℝ :=
  Optimizer.ofLists [.point 0 ⟨-1, 0, 0⟩ 1] [originNodeXParameter 0 none none,
    originNodeXParameter 1 none none]

def pairHistory : List (RegOp (Param ℝ)) :=
  [.add (originNodeXParameter 0 none none), .add (originNodeXParameter 1 none none)]

theorem pair_history : HasHistory pairOpt pairHistory := rfl
theorem pair_parameters : pairOpt.parameters =
    [(0, originNodeXParameter 0 none none), (1, originNodeXParameter 1 none none)] := rfl
theorem pair_constraints : pairOpt.constraints = [(0, .point 0 ⟨-1, 0, 0⟩ 1)] := rfl

theorem col_keys : (col none).nodes.keys = [0, 1] := by
  unfold col Diagram.real
  show Dict.keys ((colQ none).nodes.map fun p => (p.1, NodeData.map _ p.2) : Dict Int (NodeData ℝ)) = _
  rw [keys_map_val (colQ none).nodes, colQ_none]
  rfl

theorem col_trails : (col none).trails = [(0, [0, 1])] := by
  show (colQ none).trails = _
  rw [colQ_none]
  rfl

theorem pair_slots : ∀ q ∈ pairOpt.parameters, q.1 < 2 ∧ HasSlot (col none) q.2.slot := by
  intro q hq
  rw [pair_parameters] at hq
  simp only [List.mem_cons, List.not_mem_nil, or_false] at hq
  rcases hq with rfl | rfl
  · exact ⟨by norm_num, show (0 : Int) ∈ (col none).nodes.keys by rw [col_keys]; simp⟩
  · exact ⟨by norm_num, show (1 : Int) ∈ (col none).nodes.keys by rw [col_keys]; simp⟩

/-- NLopt evaluates the objective at `(0, 7)` only, and reports `(0, 3)`. -/
noncomputable def pairRun : Run ℝ := .eval [0, 7] false fun v _ => .done [0, 3] v 1 1

theorem pair_value : ∃ v, (pairOpt.optimizeForm 100 1 (col none) [0, 7]).2 = .ok v := by
  have hok : (pairOpt.updateParameters (col none) [0, 7]).2 = .ok () := by
    unfold updateParameters
    rw [writeParameters_ok _ _ _ pair_history.nonneg]
    exact fun q hq => pair_slots q hq
  have hc := carries_of_write pair_history.nonneg hok
  obtain ⟨d, hd⟩ := (Dict.exists_get?_iff (pairOpt.updateParameters (col none) [0, 7]).1.nodes 0).2
    (by
      show (0 : Int) ∈ (writeParameters [0, 7] pairOpt.parameters (col none)).1.nodes.keys
      rw [hc.same.nodeKeys, col_keys]; simp)
  obtain ⟨s, hs, hx⟩ := numpy_origin (validInput_same hc.same valid_none)
    (directOnly_same hc.same (directOnly_col colQ_none)) (show 1 ≤ 100 by norm_num)
    (zero_le_one (α := ℝ)) (n := 0) (tr := [0, 1])
    (by rw [hc.same.rest.2.2.1, col_trails]; simp) hd
  unfold optimizeForm
  have hs : npEquilibriumState (pairOpt.updateParameters (col none) [0, 7]).1 100 1 false = .ok s := hs
  rcases hu : pairOpt.updateParameters (col none) [0, 7] with ⟨D', (e | u)⟩
  · rw [hu] at hok; cases hok
  · rw [hu] at hs
    simp only at hs ⊢
    rw [hs, pair_constraints]
    simp only [Dict.vals, List.map_cons, List.map_nil, calculatePenalty, Constraint.penalty,
      Dict.getE, hx]
    exact ⟨_, rfl⟩

theorem pair_solve_eq : pairOpt.solve noAttrs (fun _ => pairRun) gradient 0 args (col none) =
    pairOpt.optimize noAttrs (pairOpt.gradFunc gradient args) 0 args pairRun (col none) := by
  have hseg : InitialSegment pairHistory 2 := by
    intro k
    rw [← mem_keys_registered]
    show (k : Int) ∈ [(0 : Int), 1] ↔ _
    simp
    omega
  have hhas : ∀ k p, Registered pairHistory k p → HasSlot (col none) p.slot := by
    intro k p hr
    have hm := Dict.mem_of_get? (((regInv pairHistory).get k p).2 hr)
    rw [← pair_history] at hm
    exact (pair_slots _ hm).2
  obtain ⟨x, bs, hx, hb, _⟩ := C37_vector pairHistory (col none) hhas 2 hseg
  have hx : pairOpt.optimizationParameters (col none) = .ok x := hx
  have hb : pairOpt.optimizationBounds (col none) = .ok bs := hb
  have hs : pairOpt.checkSanity = .ok () := by
    simp [checkSanity, pair_parameters, pair_constraints]
  unfold solve
  rw [hs]
  simp only
  rw [if_neg (by simp [args]), hx, hb]
  simp only
  rw [if_neg (by simp [args, nloptAlgorithms])]

theorem pair_effect : AgreeLive pairOpt.parameters (col none) [0, 3] [0, 7] ∧
    ¬ AgreeLive pairOpt.parameters (col none) [2, 7] [0, 7] := by
  have ht : (col none).trails.keys = [0] := by rw [col_trails]; rfl
  constructor
  · rintro k p ⟨l1, l2, e, _⟩ hi
    have hm : (k, p) ∈ pairOpt.parameters := by rw [e]; simp
    rw [pair_parameters] at hm
    simp only [List.mem_cons, List.not_mem_nil, or_false, Prod.mk.injEq] at hm
    rcases hm with ⟨rfl, rfl⟩ | ⟨rfl, rfl⟩
    · rfl
    · refine absurd ?_ hi
      show (1 : Int) ∉ (col none).trails.keys
      rw [ht]
      decide
  · intro h
    have := h 0 (originNodeXParameter 0 none none)
      ⟨[], [(1, originNodeXParameter 1 none none)], pair_parameters, by
        simp [originNodeXParameter]⟩
      (by
        show ¬ (0 : Int) ∉ (col none).trails.keys
        rw [ht]
        simp)
    simp at this

/-- The reported vector differs from the last point in the entry of the support only, so that the
form realizes it; it does not realize a vector with another origin. -/
example : ∃ F, (pairOpt.solve noAttrs (fun _ => pairRun) gradient 0 args (col none)).form = .ok F ∧
    (pairOpt.solve noAttrs (fun _ => pairRun) gradient 0 args (col none)).attrs.xOpt = some [0, 3] ∧
    (pairOpt.solve noAttrs (fun _ => pairRun) gradient 0 args (col none)).points = [[0, 7]] ∧
    Realizes pairOpt.parameters 0 (col none) [0, 3] F ∧
    ¬ Realizes pairOpt.parameters 0 (col none) [2, 7] F := by
  have hg : ∀ C, pairOpt.gradFunc gradient args C [0, 3] =
      (C, .ok [some (2 * (0 + 1)), some (2 * (3 + 1))]) := by
    intro C
    simp [gradFunc, args, gradient, gradAutograd]
  obtain ⟨v, hv⟩ := pair_value
  have hc := optimizeForm_carries pair_history.nonneg hv
  rcases e7 : pairOpt.optimizeForm 100 1 (col none) [0, 7] with ⟨D, r⟩
  rw [e7] at hv hc
  simp only at hv hc
  obtain ⟨F, h⟩ := returns colQ_none valid_none
  have hlive : SameExcept (Idle (col none)) (col none) D := by
    have hself : Carries pairOpt.parameters (col none) [0, 1] (col none) := by
      refine ⟨SameExcept.refl _ _, fun l1 k p l2 e hl => ?_⟩
      have hm : (k, p) ∈ pairOpt.parameters := by rw [e]; simp
      rw [pair_parameters] at hm
      simp only [List.mem_cons, List.not_mem_nil, or_false, Prod.mk.injEq] at hm
      rcases hm with ⟨rfl, rfl⟩ | ⟨rfl, rfl⟩
      · refine ⟨0, rfl, NodeData.map (fun q : ℚ => (q : ℝ))
          ⟨⟨0, 0, 0⟩, ⟨0, 0, -1⟩, ⟨0, 0, 0⟩, some 0, .origin⟩, ?_, by simp [NodeData.map, Vec.map]⟩
        unfold col Diagram.real
        rw [map_nodes_get?, colQ_none]
        rfl
      · refine ⟨1, rfl, NodeData.map (fun q : ℚ => (q : ℝ))
          ⟨⟨1, 0, 0⟩, ⟨0, 0, 0⟩, ⟨0, 0, 0⟩, some 1, .support⟩, ?_, by simp [NodeData.map, Vec.map]⟩
        unfold col Diagram.real
        rw [map_nodes_get?, colQ_none]
        rfl
    refine carries_live hself hc ?_
    rintro k p ⟨l1, l2, e, _⟩ hi
    have hm : (k, p) ∈ pairOpt.parameters := by rw [e]; simp
    rw [pair_parameters] at hm
    simp only [List.mem_cons, List.not_mem_nil, or_false, Prod.mk.injEq] at hm
    rcases hm with ⟨rfl, rfl⟩ | ⟨rfl, rfl⟩
    · rfl
    · refine absurd ?_ hi
      show (1 : Int) ∉ (col none).trails.keys
      rw [col_trails]
      decide
  have hF : staticEquilibrium D none 100 0 false = .ok F := by
    rw [(C67_form hlive valid_none 100 0 false).1, h]
  have hsol : pairOpt.solve noAttrs (fun _ => pairRun) gradient 0 args (col none) =
      ⟨D, ⟨some [0, 3], some v, some 1, some "NLOPT_SUCCESS",
        some [some (2 * (0 + 1)), some (2 * (3 + 1))]⟩, [[0, 7]], some (.done [0, 3] v 1 1), .ok F⟩ := by
    rw [pair_solve_eq]
    unfold optimize pairRun
    have hst : nloptStatus 1 = .ok "NLOPT_SUCCESS" := by decide +kernel
    have ha : args.tmax = 100 ∧ args.eta = 1 := ⟨rfl, rfl⟩
    rw [ha.1, ha.2]
    simp only [exec, e7, hv, hg, Bool.false_eq_true, if_false, finish, hst, hF]
  obtain ⟨d, hd, _, _, hf⟩ := col_form colQ_none valid_none h
  have hf' : d.force ≠ 0 := by rw [hf, len_none]; norm_num [copysign]
  have hp : ∀ e d, (col none).edges.get? e = some d → d.type = .trail → d.plane = none := by
    intro e d hd _
    rw [col_edges colQ_none] at hd
    split_ifs at hd
    cases hd
    rfl
  have hall : ∀ e d, F.edges.get? e = some d → d.type = .trail → d.force ≠ 0 := by
    intro e d' hd' _
    have hm := Dict.mem_keys_of_get? hd'
    rw [(C25_keeps_data valid_none h).2.1] at hm
    obtain ⟨d0, h0⟩ := (Dict.exists_get?_iff _ _).2 hm
    rw [col_edges colQ_none] at h0
    split_ifs at h0 with he
    subst he
    rw [hd] at hd'
    cases hd'
    exact hf'
  have key : ∀ x : List ℝ, x.length = 2 →
      (Realizes pairOpt.parameters 0 (col none) x F ↔
        AgreeLive pairOpt.parameters (col none) x [0, 7]) := fun x hx =>
    C43_realizes_iff pair_history valid_none noAttrs (fun _ => pairRun) gradient 0 args F
      (by rw [hsol]) (y := [0, 7]) (ys := []) (by rw [hsol]) hp hall
      fun q hq => by rw [hx]; exact (pair_slots q hq).1
  exact ⟨F, by rw [hsol], by rw [hsol], by rw [hsol], (key _ rfl).2 pair_effect.1,
    fun hc => pair_effect.2 ((key _ rfl).1 hc)⟩

end RealizedEx

end Props
end CEM
