import Verif.Lemmas.NamesSolve
import Verif.Lemmas.Autodiff

/-!
# Automatic differentiation on a diagram with other names of nodes
-/

set_option linter.unusedSectionVars false
set_option linter.unusedSimpArgs false

namespace CEM
open Diagram Spec

namespace Names

section
variable {R : Type} [Field R] [LinearOrder R] [PySqrt R]
variable {f : Int → Int} {g : Int × Int → Int × Int} {D E T T' : Diagram R}

theorem lift2_traced (a b c : TVec R) :
    lift2 Traced.add (lift2 Traced.add a b) c = lift2 Traced.add (lift2 Traced.add a c) b := by
  cases a <;> cases b <;> cases c <;> simp [lift2, Traced.add, add_right_comm]

/-- A sum of traced arrays does not depend on the order. -/
theorem foldl_traced_perm {ι : Type} (F : ι → TVec R) {l l' : List ι} (h : l.Perm l') (a : TVec R) :
    l.foldl (fun acc m => lift2 Traced.add acc (F m)) a =
      l'.foldl (fun acc m => lift2 Traced.add acc (F m)) a := by
  induction h generalizing a with
  | nil => rfl
  | cons x _ ih => exact ih _
  | swap x y l =>
    rw [List.foldl_cons, List.foldl_cons, List.foldl_cons, List.foldl_cons, lift2_traced]
  | trans _ _ ih1 ih2 => exact (ih1 a).trans (ih2 a)

/-- The diagrams of derivatives correspond. -/
structure SameTangents (f : Int → Int) (g : Int × Int → Int × Int) (D T T' : Diagram R) : Prop where
  nodes : ∀ n ∈ D.nodes.keys, T'.nodes.get? (f n) = T.nodes.get? n
  edges : ∀ e ∈ D.edges.keys, T'.edges.get? (g e) = T.edges.get? e

structure SameAState (f : Int → Int) (g : Int × Int → Int × Int) (D : Diagram R)
    (s t : AState R) : Prop where
  xyz : Carried f D.nodes.keys s.xyz t.xyz
  residual : Carried f D.nodes.keys s.residual t.residual
  trailForces : Carried g D.edges.keys s.trailForces t.trailForces
  reactions : Carried f D.nodes.keys s.reactions t.reactions

theorem SameAState.pos {s t : AState R} (h : SameAState f g D s t) {n : Int}
    (hn : n ∈ D.nodes.keys) : t.pos (f n) = s.pos n := by
  unfold AState.pos; rw [h.xyz n hn]

theorem SameAState.res {s t : AState R} (h : SameAState f g D s t) {n : Int}
    (hn : n ∈ D.nodes.keys) : t.res (f n) = s.res n := by
  unfold AState.res; rw [h.residual n hn]

theorem devSumA_eq (w : WF D) (s : SimpleGraph D) (h : SameUpToNames f g D E)
    (hT : SameTangents f g D T T') {P P' : Int → TVec R} (hP : ∀ n ∈ D.nodes.keys, P' (f n) = P n)
    {n : Int} (hn : n ∈ D.nodes.keys) {l l' : List Int} (hl : l'.Perm (l.map f))
    (hm : ∀ m ∈ l, m ∈ D.neighbors n) (a : TVec R) :
    devSumA E T' P' (f n) l' a = devSumA D T P n l a := by
  unfold devSumA
  rw [foldl_traced_perm (devTermA E T' P' (f n)) hl a, List.foldl_map]
  refine List.foldl_ext _ _ _ fun acc m hml => ?_
  have := hm m hml
  have he : edgeKey D n m ∈ D.edges.keys := Dict.mem_keys_of_get? (edgeKey_mem this)
  rw [devTermA, devTermA, edgeData_eq w s h this, hP m (mem_keys_of_nbr w this).1, hP n hn,
    edgeKey_eq w s h this, tanForce, tanForce, hT.edges _ he]

theorem outVecA_eq (w : WF D) (s : SimpleGraph D) (w' : WF E) (h : SameUpToNames f g D E)
    (hT : SameTangents f g D T T') (ind : Bool) {P P' : Int → TVec R}
    (hP : ∀ n ∈ D.nodes.keys, P' (f n) = P n) (t : TVec R) {n : Int} (hn : n ∈ D.nodes.keys) :
    outVecA E T' ind P' t (f n) = outVecA D T ind P t n := by
  unfold outVecA
  rw [devSumA_eq w s h hT hP hn (dirNbrs_perm w s w' h hn) fun m hm => (List.mem_filter.1 hm).1,
    devSumA_eq w s h hT hP hn (indNbrs_perm w s w' h hn) fun m hm => (List.mem_filter.1 hm).1]
  have : loadOf E (f n) = loadOf D n := by rw [loadOf, loadOf, get_node h hn]
  rw [this, tanLoad, tanLoad, hT.nodes n hn]

theorem SameAState.aproc (w : WF D) (sg : SimpleGraph D) (V : ValidTrails D) (w' : WF E)
    (h : SameUpToNames f g D E) (hT : SameTangents f g D T T') {kmax : Option Int} {ind : Bool}
    {s t : AState R} (hst : SameAState f g D s t) {n : Int} (hn : n ∈ D.nodes.keys) :
    SameAState f g D (CEM.aproc D T (nxtK D kmax) ind s n)
      (CEM.aproc E T' (nxtK E kmax) ind t (f n)) := by
  have hr : outVecA E T' ind t.pos (t.res (f n)) (f n) = outVecA D T ind s.pos (s.res n) n := by
    rw [hst.res hn]
    exact outVecA_eq w sg w' h hT ind (fun m hm => hst.pos hm) _ hn
  have hx := nxtK_eq V h kmax hn
  cases hm : nxtK D kmax n with
  | none =>
    rw [hm, Option.map_none] at hx
    simp only [CEM.aproc, hm, hx, hr]
    exact ⟨hst.xyz, hst.residual, hst.trailForces, hst.reactions.set h.inj hn _⟩
  | some m =>
    rw [hm, Option.map_some] at hx
    have hmk := (nxtK_mem w V hm).1
    have hnb : m ∈ D.neighbors n := adj_mem_neighbors (trailNext_adj w V (nxtK_trail hm))
    have hek : edgeKey D n m ∈ D.edges.keys := Dict.mem_keys_of_get? (edgeKey_mem hnb)
    simp only [CEM.aproc, hm, hx, hr, lenA]
    rw [hst.pos hn, edgeData_eq w sg h hnb, edgeKey_eq w sg h hnb]
    have : tanLength T' (g (edgeKey D n m)) = tanLength T (edgeKey D n m) := by
      rw [tanLength, tanLength, hT.edges _ hek]
    rw [this]
    exact ⟨hst.xyz.set h.inj hmk _, hst.residual.set h.inj hmk _,
      hst.trailForces.set (fun a ha b hb => edge_inj w sg h ha hb) hek _, hst.reactions⟩

theorem SameAState.fold (w : WF D) (sg : SimpleGraph D) (V : ValidTrails D) (w' : WF E)
    (h : SameUpToNames f g D E) (hT : SameTangents f g D T T') {kmax : Option Int} {ind : Bool}
    (l : List Int) (hl : ∀ n ∈ l, n ∈ D.nodes.keys) {s t : AState R} (hst : SameAState f g D s t) :
    SameAState f g D (l.foldl (CEM.aproc D T (nxtK D kmax) ind) s)
      ((l.map f).foldl (CEM.aproc E T' (nxtK E kmax) ind) t) := by
  induction l generalizing s t with
  | nil => exact hst
  | cons n l ih =>
    rw [List.map_cons, List.foldl_cons, List.foldl_cons]
    exact ih (fun m hm => hl m (by simp [hm])) (hst.aproc w sg V w' h hT (hl n (by simp)))

theorem sameAState_init (h : SameUpToNames f g D E) (hT : SameTangents f g D T T') :
    SameAState f g D (adInit D T) (adInit E T') := by
  refine ⟨?_, ?_, fun _ _ => rfl, fun _ _ => rfl⟩
  · intro n hn
    unfold adInit
    simp only
    rw [get?_map_key E.nodes (fun n d => (some ⟨d.pos, tanPos T' n⟩ : TVec R)),
      get?_map_key D.nodes (fun n d => (some ⟨d.pos, tanPos T n⟩ : TVec R)), get_node h hn]
    have : tanPos T' (f n) = tanPos T n := by rw [tanPos, tanPos, hT.nodes n hn]
    simp only [this]
  · intro n hn
    unfold adInit
    simp only
    rw [get?_map_val E.nodes (fun d => (some (.const d.reaction) : TVec R)),
      get?_map_val D.nodes (fun d => (some (.const d.reaction) : TVec R)), get_node h hn]

theorem sameAState_iter (w : WF D) (sg : SimpleGraph D) (V : ValidTrails D) (w' : WF E)
    (h : SameUpToNames f g D E) (hT : SameTangents f g D T T') {L : List Int}
    (hL : ∀ n ∈ L, n ∈ D.nodes.keys) (m : Nat) :
    SameAState f g D (aIter D T L m) (aIter E T' (L.map f) m) := by
  induction m with
  | zero => exact sameAState_init h hT
  | succ m ih => exact ih.fold w sg V w' h hT L hL

theorem valuesOf_keys (d : Dict Int (TVec R)) : (valuesOf d).keys = d.keys := by
  unfold valuesOf Dict.keys
  rw [List.map_map]; rfl

theorem adState_names (I : ValidInput D) (w' : WF E) (h : SameUpToNames f g D E)
    (hT : SameTangents f g D T T') (tmax : Nat) (eta : R) :
    SameOutcome (fun s t => SameAState f g D s t ∧ s.xyz.keys = D.nodes.keys)
      (adEquilibriumState D T tmax eta) (adEquilibriumState E T' tmax eta) := by
  have I' := input I w' h
  obtain ⟨S, N, hS, hN, hg, hlt⟩ := goodSeqs_of_valid I.wf I.trails I.nonempty
  obtain ⟨S', N', hS', hN', hg', hlt'⟩ := goodSeqs_of_valid I'.wf I'.trails I'.nonempty
  have hs := sched_eq I.wf w' I.trails h hg hg' hlt hlt'
  have hL : ∀ n ∈ sched D S N, n ∈ D.nodes.keys := fun n hn => (mem_sched I.trails hg hlt).1 hn
  obtain ⟨a0, a1, a2⟩ := adEquilibriumState_cases (E := T) I hS hN hg tmax eta
  obtain ⟨b0, b1, b2⟩ := adEquilibriumState_cases (E := T') I' hS' hN' hg' tmax eta
  rw [hs] at b1 b2
  have hstate := fun m => sameAState_iter I.wf I.simple I.trails w' h hT hL m
  have hkeys : ∀ m, (aIter D T (sched D S N) m).xyz.keys = D.nodes.keys := fun m =>
    (goodAState_iter I.wf I.trails _ m).1
  have hkeys' : ∀ m, (aIter E T' ((sched D S N).map f) m).xyz.keys = E.nodes.keys := fun m =>
    (goodAState_iter I'.wf I'.trails _ m).1
  have hval : ∀ {s t : AState R}, SameAState f g D s t →
      SameNState f g D { npInit D with xyz := valuesOf s.xyz } { npInit E with xyz := valuesOf t.xyz } := by
    intro s t hst
    refine ⟨fun n hn => ?_, (sameNState_init h).residual, fun _ _ => rfl, fun _ _ => rfl⟩
    simp only [valuesOf_get?]
    rw [hst.xyz n hn]
  have hd : ∀ m, aDist E T' ((sched D S N).map f) m = aDist D T (sched D S N) m := fun m =>
    npDistance_names I.wf w' h (hval (hstate (m - 1))) (hval (hstate m))
      ((valuesOf_keys _).trans (hkeys m)) ((valuesOf_keys _).trans (hkeys' m))
  rcases Nat.lt_or_ge tmax 2 with ht | ht
  · rcases Nat.lt_or_ge tmax 1 with ht' | ht'
    · rw [a0 (by omega), b0 (by omega)]; exact .error _
    · rw [a1 (by omega), b1 (by omega)]
      exact .ok ⟨hstate 1, hkeys 1⟩
  · obtain ⟨m, m2, mt, mb, me, mr⟩ := a2 ht
    obtain ⟨m', m2', mt', mb', me', mr'⟩ := b2 ht
    simp only [hd] at mb' me' mr'
    have hmm : m = m' := by
      rcases Nat.lt_trichotomy m m' with hlt | he | hlt
      · rcases me with me | me
        · exact absurd me (mb' m m2 hlt)
        · omega
      · exact he
      · rcases me' with me' | me'
        · exact absurd me' (mb m' m2' hlt)
        · omega
    subst hmm
    rw [mr, mr']
    split_ifs
    · exact .error _
    · exact .ok ⟨hstate m, hkeys m⟩

theorem norm_swap (a b : Traced (Vec R)) : (Traced.sub a b).norm = (Traced.sub b a).norm := by
  have h1 := length_swap a.val b.val
  have h2 : Vec.dot (a.val - b.val) (a.tan - b.tan) = Vec.dot (b.val - a.val) (b.tan - a.tan) := by
    simp [Vec.dot]; ring
  unfold Traced.norm Traced.sub
  simp only
  rw [h1, h2]

theorem adPenalty_names (w : WF D) (h : SameUpToNames f g D E) {s t : AState R}
    (hst : SameAState f g D s t) (hx : s.xyz.keys = D.nodes.keys) {c : Constraint R}
    (hc : ConstrainsIn D c) (ho : KeepsDirection f g c) :
    (renameConstraint f g c).adPenalty t = c.adPenalty s := by
  have hpos : ∀ n ∈ D.nodes.keys, t.xyz.getE (f n) = s.xyz.getE n := by
    intro n hn; unfold Dict.getE; rw [hst.xyz n hn]
  cases c with
  | point n T v => simp only [renameConstraint, Constraint.adPenalty, hpos n hc]
  | plane n T v => simp only [renameConstraint, Constraint.adPenalty, hpos n hc]
  | line n T v => simp only [renameConstraint, Constraint.adPenalty, hpos n hc]
  | polyline n T v => simp only [renameConstraint, Constraint.adPenalty, hpos n hc]
  | trailForce e T v =>
    have : t.trailForces.getE (g e) = s.trailForces.getE e := by
      unfold Dict.getE; rw [hst.trailForces e hc]
    simp only [renameConstraint, Constraint.adPenalty, this]
  | reaction n T v =>
    have : t.reactions.getE (f n) = s.reactions.getE n := by
      unfold Dict.getE; rw [hst.reactions n hc]
    simp only [renameConstraint, Constraint.adPenalty, this]
  | length e T v =>
    have he : e ∈ D.edges.keys := hc
    have h1 := hpos e.1 (w.edge_left _ he)
    have h2 := hpos e.2 (w.edge_right _ he)
    obtain ⟨a, ha⟩ := (Dict.exists_get?_iff s.xyz e.1).2 (by rw [hx]; exact w.edge_left _ he)
    obtain ⟨b, hb⟩ := (Dict.exists_get?_iff s.xyz e.2).2 (by rw [hx]; exact w.edge_right _ he)
    have ha' : s.xyz.getE e.1 = .ok a := by simp [Dict.getE, ha]
    have hb' : s.xyz.getE e.2 = .ok b := by simp [Dict.getE, hb]
    rw [ha'] at h1
    rw [hb'] at h2
    simp only [renameConstraint, Constraint.adPenalty, adEdgeLengthRef]
    rcases h.ends e he with hg | hg <;> rw [hg] <;> simp only [h1, h2, ha', hb']
    have : (lift2 Traced.sub b a).bind Traced.norm = (lift2 Traced.sub a b).bind Traced.norm := by
      cases a <;> cases b <;> first | rfl | exact norm_swap _ _
    rw [this]
  | direction e T v =>
    have he : e ∈ D.edges.keys := hc
    have hg : g e = (f e.1, f e.2) := ho
    simp only [renameConstraint, Constraint.adPenalty, adEdgeDirection]
    rw [hg]
    simp only [hpos e.1 (w.edge_left _ he), hpos e.2 (w.edge_right _ he)]

theorem adCalculatePenalty_names (w : WF D) (h : SameUpToNames f g D E) {s t : AState R}
    (hst : SameAState f g D s t) (hx : s.xyz.keys = D.nodes.keys) (cs : List (Constraint R))
    (hc : ∀ c ∈ cs, ConstrainsIn D c ∧ KeepsDirection f g c) (acc : TNum R) :
    adCalculatePenalty t (cs.map (renameConstraint f g)) acc = adCalculatePenalty s cs acc := by
  induction cs generalizing acc with
  | nil => rfl
  | cons c cs ih =>
    simp only [List.map_cons, adCalculatePenalty]
    rw [adPenalty_names w h hst hx (hc c (by simp)).1 (hc c (by simp)).2]
    cases c.adPenalty s with
    | error err => rfl
    | ok p => exact ih (fun c hc' => hc c (by simp [hc'])) _

theorem still_nodes (D : Diagram R) : D.still.nodes.keys = D.nodes.keys :=
  keys_map_val D.nodes fun d => ({ d with pos := 0, load := 0, reaction := 0 } : NodeData R)

theorem still_edges (D : Diagram R) : D.still.edges.keys = D.edges.keys :=
  keys_map_val D.edges fun d => ({ d with length := 0, force := 0 } : EdgeData R)

theorem still_node (D : Diagram R) (n : Int) : D.still.nodes.get? n =
    (D.nodes.get? n).map fun d => { d with pos := 0, load := 0, reaction := 0 } :=
  get?_map_val D.nodes (fun d => ({ d with pos := 0, load := 0, reaction := 0 } : NodeData R)) n

theorem still_edge (D : Diagram R) (e : Int × Int) : D.still.edges.get? e =
    (D.edges.get? e).map fun d => { d with length := 0, force := 0 } :=
  get?_map_val D.edges (fun d => ({ d with length := 0, force := 0 } : EdgeData R)) e

theorem still_names (h : SameUpToNames f g D E) : SameUpToNames f g D.still E.still where
  inj := by rw [still_nodes]; exact h.inj
  node n d hd := by
    have hn := Dict.mem_keys_of_get? hd
    rw [still_nodes] at hn
    rw [still_node] at hd ⊢
    rw [get_node h hn, hd]
  nodes := by rw [still_nodes, still_nodes]; exact h.nodes
  ends := by rw [still_edges]; exact h.ends
  edge e d hd := by
    have he := Dict.mem_keys_of_get? hd
    rw [still_edges] at he
    rw [still_edge] at hd ⊢
    rw [get_edge h he, hd]
  edges := by rw [still_edges, still_edges]; exact h.edges
  trails := h.trails

theorem still_wf (w : WF D) : WF D.still where
  nodesNodup := by rw [still_nodes]; exact w.nodesNodup
  edgesNodup := by rw [still_edges]; exact w.edgesNodup
  gkeysNodup := w.gkeysNodup
  le_max := by rw [still_nodes]; exact w.le_max
  max_ge := w.max_ge
  lookup_mem := by rw [still_nodes]; exact w.lookup_mem
  edge_left := by rw [still_edges, still_nodes]; exact w.edge_left
  edge_right := by rw [still_edges, still_nodes]; exact w.edge_right

theorem tangents_names {o : Optimizer R} (h : Pair f g o D E) (u : List R) :
    SameTangents f g D (o.updateParameters D.still u).1
      ((renameOptimizer f g o).updateParameters E.still u).1 := by
  have hs : ∀ q ∈ o.parameters, HasSlot D.still q.2.slot := by
    intro q hq
    have := h.refers.parameters q hq
    cases hsl : q.2.slot with
    | node n a => rw [hsl] at this; simp only [HasSlot] at this ⊢; rw [still_nodes]; exact this
    | edge e a => rw [hsl] at this; simp only [HasSlot] at this ⊢; rw [still_edges]; exact this
  have hn := (writeParameters_names u o.parameters (still_wf h.input.wf)
    ⟨by rw [still_edges]; exact h.input.simple.noLoop, by rw [still_edges]; exact h.input.simple.noAnti⟩
    (still_names h.names) hs).1
  have s1 := Optimizer.writeParameters_same u o.parameters D.still
  refine ⟨fun n hm => ?_, fun e he => ?_⟩
  · exact get_node hn (by rw [s1.nodeKeys, still_nodes]; exact hm)
  · exact get_edge hn (by rw [s1.edgeKeys, still_edges]; exact he)

theorem adEntry_names {o : Optimizer R} (h : Pair f g o D E)
    (ho : ∀ q ∈ o.constraints, KeepsDirection f g q.2) (tmax : Nat) (eta : R) (n i : Nat) :
    (renameOptimizer f g o).adEntry tmax eta E n i = o.adEntry tmax eta D n i := by
  unfold Optimizer.adEntry
  have hs := adState_names h.input h.wf h.names (tangents_names h (unitList n i)) tmax eta
  generalize adEquilibriumState D (o.updateParameters D.still (unitList n i)).1 tmax eta = y at hs ⊢
  generalize adEquilibriumState E ((renameOptimizer f g o).updateParameters E.still (unitList n i)).1 tmax
    eta = z at hs ⊢
  cases hs with
  | error err => rfl
  | ok hst =>
    have hv : (renameOptimizer f g o).constraints.vals = o.constraints.vals.map (renameConstraint f g) := by
      unfold renameOptimizer Dict.vals
      simp only [List.map_map]
      rfl
    simp only
    rw [hv, adCalculatePenalty_names h.input.wf h.names hst.1 hst.2 _ fun c hc => ?_]
    unfold Dict.vals at hc
    obtain ⟨q, hq, rfl⟩ := List.mem_map.1 hc
    exact ⟨h.refers.constraints q hq, ho q hq⟩

end

/-- The automatic gradient of the renamed optimizer is the same. -/
theorem autograd_names {f : Int → Int} {g : Int × Int → Int × Int} {o : Optimizer ℝ}
    (ho : ∀ q ∈ o.constraints, KeepsDirection f g q.2) (tmax : Nat) (eta : ℝ) :
    Together (Pair f g o) (o.autograd tmax eta) ((renameOptimizer f g o).autograd tmax eta) := by
  intro C C' hC x
  obtain ⟨h1, h2⟩ := objective_names hC tmax eta x
  unfold Optimizer.autograd
  generalize o.optimizeForm tmax eta C x = p at h1 h2 ⊢
  generalize (renameOptimizer f g o).optimizeForm tmax eta C' x = q at h1 h2 ⊢
  obtain ⟨C1, r⟩ := p
  obtain ⟨C1', r'⟩ := q
  simp only at h1 h2
  subst h2
  cases r' with
  | error err => exact ⟨h1, rfl⟩
  | ok v =>
    refine ⟨h1, ?_⟩
    simp only
    congr 1
    funext i
    exact adEntry_names h1 ho tmax eta _ i

end Names
end CEM
