import Verif.Lemmas.NamesNumpy
import Verif.Lemmas.Solve

/-!
# The optimizer on a diagram with other names of nodes
-/

set_option linter.unusedSectionVars false
set_option linter.unusedSimpArgs false

namespace CEM
open Diagram Spec

namespace Names

/-! ## Form finding -/

section
variable {R : Type} [Field R] [LinearOrder R] [PySqrt R]
variable {f : Int → Int} {g : Int × Int → Int × Int} {D E : Diagram R}

theorem state_names (I : ValidInput D) (w' : WF E) (h : SameUpToNames f g D E) (kmax : Option Int)
    (tmax : Nat) (eta : R) (verbose : Bool) :
    SameOutcome (fun s t => SameState f g D s t ∧ s.xyz.keys = D.nodes.keys ∧
        t.xyz.keys = E.nodes.keys ∧ (s.reactions.keys.Nodup ∧ s.trailForces.keys.Nodup) ∧
        t.reactions.keys.Nodup ∧ t.trailForces.keys.Nodup)
      (equilibriumState D kmax tmax eta verbose) (equilibriumState E kmax tmax eta verbose) := by
  have I' := input I w' h
  obtain ⟨T, N, hT, hN, hg, hlt⟩ := goodSeqs_of_valid I.wf I.trails I.nonempty
  obtain ⟨T', N', hT', hN', hg', hlt'⟩ := goodSeqs_of_valid I'.wf I'.trails I'.nonempty
  by_cases hk : ∀ k, kmax = some k → 0 ≤ k
  swap
  · have hk' : kmax.any (· < 0) = true := by
      cases kmax with
      | none => simp at hk
      | some k => simpa using hk
    have one : ∀ (A : Diagram R), ValidInput A → ∀ {T N}, A.trailsSequences = .ok T →
        A.numberOfSequences = .ok N →
        equilibriumState A kmax tmax eta verbose = .error .assertionError := by
      intro A J T N h1 h2
      have hnum : A.numberOfTrails ≠ 0 := by
        unfold numberOfTrails
        have := J.nonempty
        simpa [Dict.vals] using this
      unfold equilibriumState
      rw [if_neg hnum, h1, h2]
      simp only
      rw [if_pos hk']
    rw [one D I hT hN, one E I' hT' hN']
    exact .error _
  have hs := sched_eq I.wf w' I.trails h hg hg' hlt hlt'
  have hL : ∀ n ∈ sched D T N, n ∈ D.nodes.keys := fun n hn => (mem_sched I.trails hg hlt).1 hn
  obtain ⟨a0, a1, a2⟩ := equilibriumState_sched I hk hT hN hg tmax eta verbose
  obtain ⟨b0, b1, b2⟩ := equilibriumState_sched I' hk hT' hN' hg' tmax eta verbose
  rw [hs] at b1 b2
  have hstate := fun m => sameState_iter I.wf I.simple I.trails w' h (kmax := kmax) hL m
  have hall : ∀ m, SameState f g D (iter D kmax (sched D T N) m)
        (iter E kmax ((sched D T N).map f) m) ∧
      (iter D kmax (sched D T N) m).xyz.keys = D.nodes.keys ∧
      (iter E kmax ((sched D T N).map f) m).xyz.keys = E.nodes.keys ∧
      ((iter D kmax (sched D T N) m).reactions.keys.Nodup ∧
        (iter D kmax (sched D T N) m).trailForces.keys.Nodup) ∧
      (iter E kmax ((sched D T N).map f) m).reactions.keys.Nodup ∧
        (iter E kmax ((sched D T N).map f) m).trailForces.keys.Nodup := fun m =>
    ⟨hstate m, (goodState_iter I.wf I.trails kmax _ m).1, (goodState_iter I'.wf I'.trails kmax _ m).1,
      iter_nodup m, iter_nodup m⟩
  have hd : ∀ m, residualDistance (iter E kmax ((sched D T N).map f) (m - 1)).xyz
      (iter E kmax ((sched D T N).map f) m).xyz =
      residualDistance (iter D kmax (sched D T N) (m - 1)).xyz (iter D kmax (sched D T N) m).xyz :=
    fun m => residualDistance_names I.wf w' h (hstate _) (hstate _) (hall m).2.1 (hall m).2.2.1
  rcases Nat.lt_or_ge tmax 2 with ht | ht
  · rcases Nat.lt_or_ge tmax 1 with ht' | ht'
    · rw [a0 (by omega), b0 (by omega)]; exact .error _
    · rw [a1 (by omega), b1 (by omega)]
      cases verbose
      · exact .ok (hall 1)
      · exact .error _
  · obtain ⟨m, m2, mt, mb, me, mr⟩ := a2 ht
    obtain ⟨m', m2', mt', mb', me', mr'⟩ := b2 ht
    simp only [hd] at mb' me' mr'
    have hmm : m = m' := by
      rcases Nat.lt_trichotomy m m' with hlt | he | hlt
      · rcases me with me | me
        · exact absurd me (mb' m m2 hlt)
        · omega
      · exact he
      · rcases me' with me' | me'
        · exact absurd me' (mb m' m2' hlt)
        · omega
    subst hmm
    rw [mr, mr']
    split_ifs
    · exact .error _
    · exact .ok (hall m)

theorem static_names (I : ValidInput D) (w' : WF E) (h : SameUpToNames f g D E) (kmax : Option Int)
    (tmax : Nat) (eta : R) (verbose : Bool) :
    SameOutcome (SameUpToNames f g) (staticEquilibrium D kmax tmax eta verbose)
      (staticEquilibrium E kmax tmax eta verbose) := by
  have := state_names I w' h kmax tmax eta verbose
  unfold staticEquilibrium
  generalize equilibriumState D kmax tmax eta verbose = x at this ⊢
  generalize equilibriumState E kmax tmax eta verbose = y at this ⊢
  cases this with
  | error err => exact .error err
  | ok hst => exact .ok (form_names I.wf w' h hst.1 hst.2.1 hst.2.2.1 hst.2.2.2.1 hst.2.2.2.2)

theorem numpy_names (I : ValidInput D) (w' : WF E) (h : SameUpToNames f g D E)
    (tmax : Nat) (eta : R) (verbose : Bool) :
    SameOutcome (SameUpToNames f g) (staticEquilibriumNumpy D tmax eta verbose)
      (staticEquilibriumNumpy E tmax eta verbose) := by
  have := npState_names I w' h tmax eta verbose
  unfold staticEquilibriumNumpy
  generalize npEquilibriumState D tmax eta verbose = x at this ⊢
  generalize npEquilibriumState E tmax eta verbose = y at this ⊢
  cases this with
  | error err => exact .error err
  | ok hst => exact .ok (npForm_names I.wf w' h hst.1 hst.2.1 hst.2.2.1 hst.2.2.2.1 hst.2.2.2.2)

end

/-! ## Parameters -/

section
variable {R : Type} {f : Int → Int} {g : Int × Int → Int × Int} {D E : Diagram R}

theorem getAttribute_names (h : SameUpToNames f g D E) {s : Slot} (hs : HasSlot D s) :
    E.getAttribute (renameSlot f g s) = D.getAttribute s := by
  rcases s with ⟨n, a⟩ | ⟨e, a⟩
  · simp only [renameSlot, Diagram.getAttribute]; rw [get_node h hs]
  · simp only [renameSlot, Diagram.getAttribute]; rw [get_edge h hs]

theorem setAttribute_names (w : WF D) (sg : SimpleGraph D) (h : SameUpToNames f g D E) {s : Slot}
    (hs : HasSlot D s) (v : R) :
    SameOutcome (SameUpToNames f g) (D.setAttribute v s) (E.setAttribute v (renameSlot f g s)) := by
  rcases s with ⟨n, a⟩ | ⟨e, a⟩
  · have hn : n ∈ D.nodes.keys := hs
    simp only [renameSlot, Diagram.setAttribute]
    rw [if_pos ((Dict.has_iff _ _).2 hn), if_pos ((Dict.has_iff _ _).2 (mem_node h hn))]
    refine .ok ⟨?_, ?_, ?_, h.ends, h.edge, h.edges, h.trails⟩
    · simp only [Dict.keys_modify]; exact h.inj
    · intro m d hd
      have hm := Dict.mem_keys_of_get? hd
      rw [Dict.keys_modify] at hm
      simp only [Dict.get?_modify] at hd ⊢
      by_cases hnm : n = m
      · rw [if_pos hnm] at hd; rw [if_pos (by rw [hnm]), get_node h hn, hd]
      · rw [if_neg hnm] at hd; rw [if_neg fun e => hnm (h.inj n hn m hm e), get_node h hm, hd]
    · simp only [Dict.keys_modify]; exact h.nodes
  · have he : e ∈ D.edges.keys := hs
    simp only [renameSlot, Diagram.setAttribute]
    rw [if_pos ((Dict.has_iff _ _).2 he), if_pos ((Dict.has_iff _ _).2 (mem_edge h he))]
    refine .ok ⟨h.inj, h.node, h.nodes, ?_, ?_, ?_, h.trails⟩
    · simp only [Dict.keys_modify]; exact h.ends
    · intro m d hd
      have hm := Dict.mem_keys_of_get? hd
      rw [Dict.keys_modify] at hm
      simp only [Dict.get?_modify] at hd ⊢
      by_cases hnm : e = m
      · rw [if_pos hnm] at hd; rw [if_pos (by rw [hnm]), get_edge h he, hd]
      · rw [if_neg hnm] at hd; rw [if_neg fun x => hnm (edge_inj w sg h he hm x), get_edge h hm, hd]
    · simp only [Dict.keys_modify]; exact h.edges

theorem constrainsIn_same {S : Slot → Prop} {D D' : Diagram R} (h : SameExcept S D D')
    (c : Constraint R) : ConstrainsIn D' c ↔ ConstrainsIn D c := by
  cases c <;> simp [ConstrainsIn, h.nodeKeys, h.edgeKeys]

theorem wf_same' {S : Slot → Prop} {D E : Diagram R} (h : SameExcept S D E) (w : WF D) : WF E where
  nodesNodup := by rw [h.nodeKeys]; exact w.nodesNodup
  edgesNodup := by rw [h.edgeKeys]; exact w.edgesNodup
  gkeysNodup := by rw [h.rest.2.1]; exact w.gkeysNodup
  le_max := by rw [h.nodeKeys, h.rest.1]; exact w.le_max
  max_ge := by rw [h.rest.1]; exact w.max_ge
  lookup_mem := by rw [h.rest.2.1, h.nodeKeys]; exact w.lookup_mem
  edge_left := by rw [h.edgeKeys, h.nodeKeys]; exact w.edge_left
  edge_right := by rw [h.edgeKeys, h.nodeKeys]; exact w.edge_right

variable [Field R]

/-- Both diagrams of two computations that correspond. -/
structure Pair (f : Int → Int) (g : Int × Int → Int × Int) (o : Optimizer R) (D E : Diagram R) : Prop where
  names : SameUpToNames f g D E
  input : ValidInput D
  wf : WF E
  refers : RefersTo o D

theorem Pair.same {o : Optimizer R} {D E D' E' : Diagram R} (h : Pair f g o D E)
    {S T : Slot → Prop} (hD : SameExcept S D D') (hE : SameExcept T E E')
    (hn : SameUpToNames f g D' E') : Pair f g o D' E' where
  names := hn
  input := validInput_same hD h.input
  wf := wf_same' hE h.wf
  refers := ⟨fun q hq => (hD.hasSlot _).2 (h.refers.parameters q hq),
    fun q hq => (constrainsIn_same hD _).2 (h.refers.constraints q hq)⟩

theorem writeParameters_names (x : List R) (l : Dict Int (Param R)) {D E : Diagram R}
    (w : WF D) (sg : SimpleGraph D) (h : SameUpToNames f g D E) (hl : ∀ q ∈ l, HasSlot D q.2.slot) :
    SameUpToNames f g (Optimizer.writeParameters x l D).1
      (Optimizer.writeParameters x (l.map fun q => (q.1, renameParam f g q.2)) E).1 ∧
    (Optimizer.writeParameters x (l.map fun q => (q.1, renameParam f g q.2)) E).2 =
      (Optimizer.writeParameters x l D).2 := by
  induction l generalizing D E with
  | nil => exact ⟨h, rfl⟩
  | cons q l ih =>
    obtain ⟨k, p⟩ := q
    simp only [List.map_cons, Optimizer.writeParameters]
    cases hv : npGet x k with
    | error err => exact ⟨h, rfl⟩
    | ok v =>
      simp only
      have hs := setAttribute_names w sg h (hl (k, p) (by simp)) v
      have hsame := fun D' => sameExcept_setAttribute (D := D) (D' := D') (s := p.slot) (v := v)
      change SameOutcome _ (D.setAttribute v p.slot) (E.setAttribute v (renameParam f g p).slot) at hs
      generalize D.setAttribute v p.slot = a at hs hsame ⊢
      generalize E.setAttribute v (renameParam f g p).slot = b at hs ⊢
      cases hs with
      | error err => exact ⟨h, rfl⟩
      | ok hn =>
        have hsm := hsame _ rfl
        refine ih (wf_same' hsm w) ?_ hn fun q hq => (hsm.hasSlot _).2 (hl q (by simp [hq]))
        exact ⟨by rw [hsm.edgeKeys]; exact sg.noLoop, by rw [hsm.edgeKeys]; exact sg.noAnti⟩

theorem assemble_names {α : Type} {F F' : Param R → Except PyErr α} (l : Dict Int (Param R))
    (h : ∀ q ∈ l, F' (renameParam f g q.2) = F q.2) (a : List α) :
    Optimizer.assemble F' (l.map fun q => (q.1, renameParam f g q.2)) a = Optimizer.assemble F l a := by
  induction l generalizing a with
  | nil => rfl
  | cons q l ih =>
    obtain ⟨k, p⟩ := q
    simp only [List.map_cons, Optimizer.assemble]
    rw [h (k, p) (by simp)]
    cases F p with
    | error err => rfl
    | ok v =>
      simp only
      cases npSet a k v with
      | error err => rfl
      | ok a' => exact ih (fun q hq => h q (by simp [hq])) a'

theorem start_names {o : Optimizer R} (h : Pair f g o D E) :
    (renameOptimizer f g o).optimizationParameters E = o.optimizationParameters D := by
  unfold Optimizer.optimizationParameters
  have hl : (renameOptimizer f g o).parameters.length = o.parameters.length := by
    simp [renameOptimizer]
  rw [hl]
  exact assemble_names _ (fun q hq => getAttribute_names h.names (h.refers.parameters q hq)) _

theorem bounds_names [LinearOrder R] {o : Optimizer R} (h : Pair f g o D E) :
    (renameOptimizer f g o).optimizationBounds E = o.optimizationBounds D := by
  unfold Optimizer.optimizationBounds
  have hl : (renameOptimizer f g o).parameters.length = o.parameters.length := by
    simp [renameOptimizer]
  rw [hl]
  refine assemble_names _ (fun q hq => ?_) _
  have hs : (renameParam f g q.2).startValue E = q.2.startValue D :=
    getAttribute_names h.names (h.refers.parameters q hq)
  have h1 : (renameParam f g q.2).boundLow E = q.2.boundLow D := by
    unfold Param.boundLow
    rw [hs]
    rfl
  have h2 : (renameParam f g q.2).boundUp E = q.2.boundUp D := by
    unfold Param.boundUp
    rw [hs]
    rfl
  simp only [h1, h2]

end

/-! ## Constraints -/

theorem sq_flip {a b : Vec ℝ} : distSq ((-1 : ℝ) • a) b = distSq a ((-1 : ℝ) • b) := by
  simp [distSq, Vec.dot]; ring

/-- The penalty of a direction constraint does not depend on the orientation of the edge. -/
theorem direction_flip (v t : Vec ℝ) (w : ℝ) :
    let u : NVec ℝ := if PySqrt.sqrt (Vec.dot v v) = (0 : ℝ) then none
      else some ((1 / PySqrt.sqrt (Vec.dot v v) : ℝ) • v)
    let u' : NVec ℝ := if PySqrt.sqrt (Vec.dot (-v) (-v)) = (0 : ℝ) then none
      else some ((1 / PySqrt.sqrt (Vec.dot (-v) (-v)) : ℝ) • (-v))
    vectorPenalty u' (some (alignedTarget t u')) w = vectorPenalty u (some (alignedTarget t u)) w := by
  have hd : Vec.dot (-v) (-v) = Vec.dot v v := by simp [Vec.dot]
  simp only [hd]
  by_cases h0 : (PySqrt.sqrt (Vec.dot v v) : ℝ) = 0
  · simp only [if_pos h0]
  · simp only [if_neg h0]
    generalize hu : (1 / PySqrt.sqrt (Vec.dot v v) : ℝ) • v = u
    have hu' : (1 / PySqrt.sqrt (Vec.dot v v) : ℝ) • (-v) = (-1 : ℝ) • u := by
      rw [← hu]; simp
    rw [hu']
    unfold vectorPenalty alignedTarget
    simp only
    generalize Vec.normalize t = T
    have hdot : Vec.dot T ((-1 : ℝ) • u) = - Vec.dot T u := by simp [Vec.dot]; ring
    simp only [hdot, lift2, Option.map_some, Option.some.injEq]
    congr 1
    rcases lt_trichotomy (Vec.dot T u) 0 with h | h | h
    · rw [if_neg (by linarith), if_pos h]; exact sq_flip
    · rw [if_neg (by linarith), if_neg (by linarith)]
      simp only [distSq, Vec.dot] at h ⊢
      simp
      linarith
    · rw [if_pos (by linarith), if_neg (by linarith), sq_flip]
      congr 1
      ext <;> simp

section
variable {f : Int → Int} {g : Int × Int → Int × Int} {D E : Diagram ℝ}

theorem penalty_names (w : WF D) (h : SameUpToNames f g D E) {s t : NState ℝ}
    (hst : SameNState f g D s t) (hx : s.xyz.keys = D.nodes.keys) {c : Constraint ℝ} (hc : ConstrainsIn D c) :
    (renameConstraint f g c).penalty t = c.penalty s := by
  have hpos : ∀ n ∈ D.nodes.keys, t.xyz.getE (f n) = s.xyz.getE n := by
    intro n hn; unfold Dict.getE; rw [hst.xyz n hn]
  cases c with
  | point n T v => simp only [renameConstraint, Constraint.penalty, hpos n hc]
  | plane n T v => simp only [renameConstraint, Constraint.penalty, hpos n hc]
  | line n T v => simp only [renameConstraint, Constraint.penalty, hpos n hc]
  | polyline n T v => simp only [renameConstraint, Constraint.penalty, hpos n hc]
  | trailForce e T v =>
    have : t.trailForces.getE (g e) = s.trailForces.getE e := by
      unfold Dict.getE; rw [hst.trailForces e hc]
    simp only [renameConstraint, Constraint.penalty, this]
  | reaction n T v =>
    have : t.reactions.getE (f n) = s.reactions.getE n := by
      unfold Dict.getE; rw [hst.reactions n hc]
    simp only [renameConstraint, Constraint.penalty, this]
  | length e T v =>
    have he : e ∈ D.edges.keys := hc
    have h1 := hpos e.1 (w.edge_left _ he)
    have h2 := hpos e.2 (w.edge_right _ he)
    obtain ⟨a, ha⟩ := (Dict.exists_get?_iff s.xyz e.1).2 (by rw [hx]; exact w.edge_left _ he)
    obtain ⟨b, hb⟩ := (Dict.exists_get?_iff s.xyz e.2).2 (by rw [hx]; exact w.edge_right _ he)
    have ha' : s.xyz.getE e.1 = .ok a := by simp [Dict.getE, ha]
    have hb' : s.xyz.getE e.2 = .ok b := by simp [Dict.getE, hb]
    rw [ha'] at h1
    rw [hb'] at h2
    simp only [renameConstraint, Constraint.penalty, edgeLengthRef]
    rcases h.ends e he with hg | hg <;> rw [hg] <;> simp only [h1, h2, ha', hb']
    have : lift2 Vec.dist b a = lift2 Vec.dist a b := by
      cases a <;> cases b <;> first | rfl | exact congrArg some (dist_swap _ _)
    rw [this]
  | direction e T v =>
    have he : e ∈ D.edges.keys := hc
    have h1 := hpos e.1 (w.edge_left _ he)
    have h2 := hpos e.2 (w.edge_right _ he)
    obtain ⟨a, ha⟩ := (Dict.exists_get?_iff s.xyz e.1).2 (by rw [hx]; exact w.edge_left _ he)
    obtain ⟨b, hb⟩ := (Dict.exists_get?_iff s.xyz e.2).2 (by rw [hx]; exact w.edge_right _ he)
    have ha' : s.xyz.getE e.1 = .ok a := by simp [Dict.getE, ha]
    have hb' : s.xyz.getE e.2 = .ok b := by simp [Dict.getE, hb]
    rw [ha'] at h1
    rw [hb'] at h2
    simp only [renameConstraint, Constraint.penalty, edgeDirection]
    rcases h.ends e he with hg | hg <;> rw [hg] <;> simp only [h1, h2, ha', hb']
    cases a with
    | none => cases b <;> rfl
    | some a =>
      cases b with
      | none => rfl
      | some b =>
        simp only [lift2, Option.bind_some]
        have hab : a - b = -(b - a) := by abel
        rw [hab]
        congr 1
        exact direction_flip (b - a) T v

theorem calculatePenalty_names (w : WF D) (h : SameUpToNames f g D E) {s t : NState ℝ}
    (hst : SameNState f g D s t) (hx : s.xyz.keys = D.nodes.keys) (cs : List (Constraint ℝ))
    (hc : ∀ c ∈ cs, ConstrainsIn D c) (acc : Num ℝ) :
    calculatePenalty t (cs.map (renameConstraint f g)) acc = calculatePenalty s cs acc := by
  induction cs generalizing acc with
  | nil => rfl
  | cons c cs ih =>
    simp only [List.map_cons, calculatePenalty]
    rw [penalty_names w h hst hx (hc c (by simp))]
    cases c.penalty s with
    | error err => rfl
    | ok p => exact ih (fun c hc' => hc c (by simp [hc'])) _

/-! ## The objective -/

theorem objective_names {o : Optimizer ℝ} (h : Pair f g o D E) (tmax : Nat) (eta : ℝ) (x : List ℝ) :
    Pair f g o (o.optimizeForm tmax eta D x).1 ((renameOptimizer f g o).optimizeForm tmax eta E x).1 ∧
    ((renameOptimizer f g o).optimizeForm tmax eta E x).2 = (o.optimizeForm tmax eta D x).2 := by
  obtain ⟨h1, h2⟩ := writeParameters_names x o.parameters h.input.wf h.input.simple h.names h.refers.parameters
  have s1 := Optimizer.writeParameters_same x o.parameters D
  have s2 := Optimizer.writeParameters_same x (renameOptimizer f g o).parameters E
  have hp : Pair f g o (Optimizer.writeParameters x o.parameters D).1
      (Optimizer.writeParameters x (renameOptimizer f g o).parameters E).1 := h.same s1 s2 h1
  change (Optimizer.writeParameters x (renameOptimizer f g o).parameters E).2 = _ at h2
  unfold Optimizer.optimizeForm Optimizer.updateParameters
  generalize Optimizer.writeParameters x o.parameters D = a at h2 hp ⊢
  generalize Optimizer.writeParameters x (renameOptimizer f g o).parameters E = b at h2 hp ⊢
  obtain ⟨D', r⟩ := a
  obtain ⟨E', r'⟩ := b
  simp only at h2 hp
  subst h2
  cases r' with
  | error err => exact ⟨hp, rfl⟩
  | ok _ =>
    simp only
    have hs := npState_names hp.input hp.wf hp.names tmax eta false
    generalize npEquilibriumState D' tmax eta false = y at hs ⊢
    generalize npEquilibriumState E' tmax eta false = z at hs ⊢
    cases hs with
    | error err => exact ⟨hp, rfl⟩
    | ok hst =>
      refine ⟨hp, ?_⟩
      have hv : (renameOptimizer f g o).constraints.vals = o.constraints.vals.map (renameConstraint f g) := by
        unfold renameOptimizer Dict.vals
        simp only [List.map_map]
        rfl
      simp only
      rw [hv]
      refine calculatePenalty_names hp.input.wf hp.names hst.1 hst.2.1 _ (fun c hc => ?_) _
      unfold Dict.vals at hc
      obtain ⟨q, hq, rfl⟩ := List.mem_map.1 hc
      exact hp.refers.constraints q hq

end

/-! ## Gradients and runs -/

section
variable {R : Type} [Field R] [LinearOrder R] {S : Type}

/-- The two functions keep their states related and have the same values. -/
def Together {V : Type} (rel : S → S → Prop) (F F' : S → List R → S × Except PyErr V) : Prop :=
  ∀ s t, rel s t → ∀ x, rel (F s x).1 (F' t x).1 ∧ (F' t x).2 = (F s x).2

theorem fdLoop_together {rel : S → S → Prop} {F F' : Objective S R} (h : Together rel F F') (st : R)
    (fx0 : Num R) (is : List Nat) {s t : S} (hst : rel s t) (m : FDArrays R) (grad : List (Num R)) :
    rel (fdLoop F st fx0 is s m grad).1.1 (fdLoop F' st fx0 is t m grad).1.1 ∧
    (fdLoop F' st fx0 is t m grad).1.2 = (fdLoop F st fx0 is s m grad).1.2 ∧
    (fdLoop F' st fx0 is t m grad).2 = (fdLoop F st fx0 is s m grad).2 := by
  induction is generalizing s t m grad with
  | nil => exact ⟨hst, rfl, rfl⟩
  | cons i is ih =>
    unfold fdLoop
    cases npGet m.copy i with
    | error err => exact ⟨hst, rfl, rfl⟩
    | ok xi =>
      simp only
      cases npSet m.copy i (xi + st) with
      | error err => exact ⟨hst, rfl, rfl⟩
      | ok c1 =>
        simp only
        obtain ⟨h1, h2⟩ := h s t hst c1
        generalize F s c1 = a at h1 h2 ⊢
        generalize F' t c1 = b at h1 h2 ⊢
        obtain ⟨s', r⟩ := a
        obtain ⟨t', r'⟩ := b
        simp only at h1 h2
        subst h2
        cases r' with
        | error err => exact ⟨h1, rfl, rfl⟩
        | ok fx1 =>
          simp only
          cases npSet grad i (fdQuotient fx0 fx1 st) with
          | error err => exact ⟨h1, rfl, rfl⟩
          | ok grad' =>
            simp only
            cases npSet c1 i xi with
            | error err => exact ⟨h1, rfl, rfl⟩
            | ok c2 => exact ih h1 _ _

theorem fd_together {rel : S → S → Prop} {F F' : Objective S R} (h : Together rel F F') (st : R)
    {s t : S} (hst : rel s t) (x : List R) (grad : List (Num R)) :
    rel (gradFiniteDifferences F st s x grad).1.1 (gradFiniteDifferences F' st t x grad).1.1 ∧
    (gradFiniteDifferences F' st t x grad).2 = (gradFiniteDifferences F st s x grad).2 := by
  unfold gradFiniteDifferences
  obtain ⟨h1, h2⟩ := h s t hst x
  generalize F s x = a at h1 h2 ⊢
  generalize F' t x = b at h1 h2 ⊢
  obtain ⟨s', r⟩ := a
  obtain ⟨t', r'⟩ := b
  simp only at h1 h2
  subst h2
  cases r' with
  | error err => exact ⟨h1, rfl⟩
  | ok fx0 =>
    simp only
    obtain ⟨h3, h4, h5⟩ := fdLoop_together h st fx0 (List.range x.length) h1 ⟨x, x⟩ grad
    exact ⟨h3, h5⟩

theorem exec_together {rel : Diagram R → Diagram R → Prop}
    {F F' : Diagram R → List R → Diagram R × Except PyErr (Num R)} {G G' : GradFunc R}
    (hF : Together rel F F') (hG : Together rel G G') (r : Run R) {D E C C' : Diagram R}
    (hD : rel D E) (hC : rel C C') (xs : List (List R)) :
    rel (Optimizer.exec F G r D C xs).1.1 (Optimizer.exec F' G' r E C' xs).1.1 ∧
    rel (Optimizer.exec F G r D C xs).1.2.1 (Optimizer.exec F' G' r E C' xs).1.2.1 ∧
    (Optimizer.exec F' G' r E C' xs).1.2.2 = (Optimizer.exec F G r D C xs).1.2.2 ∧
    (Optimizer.exec F' G' r E C' xs).2 = (Optimizer.exec F G r D C xs).2 := by
  induction r generalizing D E C C' xs with
  | done x v n c => exact ⟨hD, hC, rfl, rfl⟩
  | roundoff v n c => exact ⟨hD, hC, rfl, rfl⟩
  | raised err => exact ⟨hD, hC, rfl, rfl⟩
  | eval x wants next ih =>
    unfold Optimizer.exec
    obtain ⟨h1, h2⟩ := hF D E hD x
    generalize F D x = a at h1 h2 ⊢
    generalize F' E x = b at h1 h2 ⊢
    obtain ⟨D', r⟩ := a
    obtain ⟨E', r'⟩ := b
    simp only at h1 h2
    subst h2
    cases r' with
    | error err => exact ⟨h1, hC, rfl, rfl⟩
    | ok v =>
      simp only
      cases wants with
      | false =>
        simp only [Bool.false_eq_true, if_false]
        exact ih v [] h1 hC _
      | true =>
        simp only [if_true]
        obtain ⟨h3, h4⟩ := hG C C' hC x
        generalize G C x = a at h3 h4 ⊢
        generalize G' C' x = b at h3 h4 ⊢
        obtain ⟨C1, r⟩ := a
        obtain ⟨C1', r'⟩ := b
        simp only at h3 h4
        subst h4
        cases r' with
        | error err => exact ⟨h1, h3, rfl, rfl⟩
        | ok dv => exact ih v dv h1 h3 _

end

section
variable {f : Int → Int} {g : Int × Int → Int × Int} {D E : Diagram ℝ}

theorem gradient_names {o : Optimizer ℝ} {ad ad' : GradFunc ℝ} {a : SolveArgs ℝ}
    (had : a.grad = "AD" → Together (Pair f g o) ad ad') :
    Together (Pair f g o) (o.gradFunc ad a) ((renameOptimizer f g o).gradFunc ad' a) := by
  intro C C' hC x
  unfold Optimizer.gradFunc
  by_cases ha : a.grad = "AD"
  · simp only [if_pos ha]
    obtain ⟨h1, h2⟩ := had ha C C' hC x
    generalize ad C x = p at h1 h2 ⊢
    generalize ad' C' x = q at h1 h2 ⊢
    obtain ⟨C1, r⟩ := p
    obtain ⟨C1', r'⟩ := q
    simp only at h1 h2
    subst h2
    cases r' with
    | error err => exact ⟨h1, rfl⟩
    | ok v => exact ⟨h1, rfl⟩
  · simp only [if_neg ha]
    have hT : Together (Pair f g o) (o.optimizeForm a.tmax a.eta)
        ((renameOptimizer f g o).optimizeForm a.tmax a.eta) :=
      fun s t hst x => objective_names hst a.tmax a.eta x
    exact fd_together hT a.stepSize hC x _

theorem finish_names {o : Optimizer ℝ} {G G' : GradFunc ℝ} (hG : Together (Pair f g o) G G') (tol : ℝ)
    (old : Attrs ℝ) {C C' : Diagram ℝ} (hD : Pair f g o D E) (hC : Pair f g o C C')
    (xs : List (List ℝ)) (e : Ended ℝ) (x : List ℝ) (v : Num ℝ) (n : Nat) (c : Int) :
    SameSolved f g (Optimizer.finish G tol old D C xs e x v n c)
      (Optimizer.finish G' tol old E C' xs e x v n c) := by
  unfold Optimizer.finish
  cases nloptStatus c with
  | error err => exact ⟨hD.names, rfl, rfl, rfl, .error _⟩
  | ok status =>
    simp only
    rw [(hG C C' hC x).2]
    cases (G C x).2 with
    | error err => exact ⟨hD.names, rfl, rfl, rfl, .error _⟩
    | ok dv => exact ⟨hD.names, rfl, rfl, rfl, static_names hD.input hD.wf hD.names none 100 tol false⟩

theorem solve_names {o : Optimizer ℝ} {ad ad' : GradFunc ℝ} {a : SolveArgs ℝ}
    (had : a.grad = "AD" → Together (Pair f g o) ad ad') (hP : Pair f g o D E)
    (nlopt : Problem ℝ → Run ℝ) (old : Attrs ℝ) (tol : ℝ) :
    SameSolved f g (o.solve old nlopt ad tol a D)
      ((renameOptimizer f g o).solve old nlopt ad' tol a E) := by
  unfold Optimizer.solve
  have hc : (renameOptimizer f g o).checkSanity = o.checkSanity := by
    unfold Optimizer.checkSanity renameOptimizer
    simp only [List.length_map]
  have hl : (renameOptimizer f g o).parameters.length = o.parameters.length := by
    simp [renameOptimizer]
  rw [hc, start_names hP, bounds_names hP, hl]
  have stop : ∀ err, SameSolved f g (⟨D, old, [], none, .error err⟩ : Solved ℝ)
      ⟨E, old, [], none, .error err⟩ := fun err => ⟨hP.names, rfl, rfl, rfl, .error _⟩
  cases o.checkSanity with
  | error err => exact stop err
  | ok _ =>
    simp only
    by_cases hgrad : a.grad ≠ "AD" ∧ a.grad ≠ "FD"
    · rw [if_pos hgrad, if_pos hgrad]; exact stop _
    rw [if_neg hgrad, if_neg hgrad]
    cases o.optimizationParameters D with
    | error err => exact stop err
    | ok x =>
      simp only
      cases o.optimizationBounds D with
      | error err => exact stop err
      | ok bs =>
        simp only
        by_cases halg : a.algorithm ∉ nloptAlgorithms
        · rw [if_pos halg, if_pos halg]; exact stop _
        rw [if_neg halg, if_neg halg]
        unfold Optimizer.optimize
        have hG := gradient_names (f := f) (g := g) (o := o) had
        obtain ⟨e1, e2, e3, e4⟩ := exec_together
          (fun s t hst x => objective_names hst a.tmax a.eta x) hG
          (nlopt ⟨a.algorithm, o.parameters.length, bs, a.iters, a.eps, a.kappa, x⟩) hP hP []
        generalize Optimizer.exec (o.optimizeForm a.tmax a.eta) (o.gradFunc ad a)
          (nlopt ⟨a.algorithm, o.parameters.length, bs, a.iters, a.eps, a.kappa, x⟩) D D [] = p at *
        generalize Optimizer.exec ((renameOptimizer f g o).optimizeForm a.tmax a.eta)
          ((renameOptimizer f g o).gradFunc ad' a)
          (nlopt ⟨a.algorithm, o.parameters.length, bs, a.iters, a.eps, a.kappa, x⟩) E E [] = q at *
        obtain ⟨⟨D', C, xs⟩, e⟩ := p
        obtain ⟨⟨E', C', xs'⟩, e'⟩ := q
        simp only at e1 e2 e3 e4
        subst e3 e4
        cases e' with
        | done y v n k => exact finish_names hG tol old e1 e2 xs' _ y v n k
        | roundoff v n k =>
          simp only
          rw [start_names e1]
          cases o.optimizationParameters D' with
          | error err => exact ⟨e1.names, rfl, rfl, rfl, .error _⟩
          | ok y => exact finish_names hG tol old e1 e2 xs' _ y v n k
        | raised err =>
          simp only
          by_cases hr : err = .runtimeError
          · rw [if_pos hr, if_pos hr]
            exact ⟨e1.names, rfl, rfl, rfl, static_names e1.input e1.wf e1.names none 100 tol false⟩
          · rw [if_neg hr, if_neg hr]
            exact ⟨e1.names, rfl, rfl, rfl, .error _⟩

end
end Names
end CEM
