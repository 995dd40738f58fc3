import Verif.Lemmas.Returned
import Verif.Spec.Transform

/-!
# Form finding on transformed diagrams

`Trans` collects what a transformation of positions, forces and lengths has to satisfy so
that form finding commutes with it.
-/

set_option linter.unusedSectionVars false
set_option linter.unusedSimpArgs false

namespace CEM
open Diagram Spec

/-! ## Topology -/

/-- The diagrams agree in everything except geometry and forces. -/
structure SameTopo {R S : Type} (D : Diagram R) (E : Diagram S) : Prop where
  nodes : D.nodes.map (fun p => (p.1, (p.2.k, p.2.type))) =
    E.nodes.map (fun p => (p.1, (p.2.k, p.2.type)))
  edges : D.edges.map (fun p => (p.1, p.2.type)) = E.edges.map (fun p => (p.1, p.2.type))
  trails : D.trails = E.trails

namespace SameTopo
variable {R S : Type} {D : Diagram R} {E : Diagram S} (h : SameTopo D E)
include h

theorem nodeKeys : D.nodes.keys = E.nodes.keys := by
  have := congrArg (List.map Prod.fst) h.nodes
  rw [List.map_map, List.map_map] at this
  exact this

theorem edgeKeys : D.edges.keys = E.edges.keys := by
  have := congrArg (List.map Prod.fst) h.edges
  rw [List.map_map, List.map_map] at this
  exact this

theorem node (n : Int) : (D.nodes.get? n).map (fun d => (d.k, d.type)) =
    (E.nodes.get? n).map (fun d => (d.k, d.type)) := by
  rw [← get?_map_val D.nodes (fun d => (d.k, d.type)), ← get?_map_val E.nodes (fun d => (d.k, d.type)),
    h.nodes]

theorem edge (e : Int × Int) : (D.edges.get? e).map (fun d => d.type) =
    (E.edges.get? e).map (fun d => d.type) := by
  rw [← get?_map_val D.edges (fun d => d.type), ← get?_map_val E.edges (fun d => d.type),
    h.edges]

theorem has (e : Int × Int) : D.edges.has e = E.edges.has e := by
  have := congrArg Option.isSome (h.edge e)
  rw [Option.isSome_map, Option.isSome_map] at this
  exact this

theorem isNodeSupport (n : Int) : D.isNodeSupport n = E.isNodeSupport n := by
  have := h.node n
  unfold Diagram.isNodeSupport
  cases h1 : D.nodes.get? n <;> cases h2 : E.nodes.get? n <;> rw [h1, h2] at this <;> simp at this ⊢
  simp [this.2]

theorem nodeSequence (n : Int) : D.nodeSequence n = E.nodeSequence n := by
  have := h.node n
  unfold Diagram.nodeSequence
  cases h1 : D.nodes.get? n <;> cases h2 : E.nodes.get? n <;> rw [h1, h2] at this <;> simp at this ⊢
  simp [this.1]

theorem isDeviationEdge (e : Int × Int) : D.isDeviationEdge e = E.isDeviationEdge e := by
  have := h.edge e
  unfold Diagram.isDeviationEdge
  cases h1 : D.edges.get? e <;> cases h2 : E.edges.get? e <;> rw [h1, h2] at this <;> simp at this ⊢
  simp [this]

theorem edgeSequence (e : Int × Int) : D.edgeSequence e = E.edgeSequence e := by
  unfold Diagram.edgeSequence; rw [h.nodeSequence, h.nodeSequence]

theorem isDirect : D.isDirectDeviationEdge = E.isDirectDeviationEdge := by
  funext e
  unfold Diagram.isDirectDeviationEdge isDeviationEdgePredicate
  rw [h.isDeviationEdge]
  simp only [h.edgeSequence]

theorem isIndirect : D.isIndirectDeviationEdge = E.isIndirectDeviationEdge := by
  funext e
  unfold Diagram.isIndirectDeviationEdge isDeviationEdgePredicate
  rw [h.isDeviationEdge]
  simp only [h.edgeSequence]

theorem connectedEdges (n : Int) : D.connectedEdges n = E.connectedEdges n := by
  unfold Diagram.connectedEdges Diagram.neighbors
  rw [h.edgeKeys]
  simp only [h.has]

theorem direct (n : Int) : D.connectedDirectDeviationEdges n = E.connectedDirectDeviationEdges n := by
  unfold Diagram.connectedDirectDeviationEdges
  rw [h.isDirect, h.connectedEdges]

theorem indirect (n : Int) :
    D.connectedIndirectDeviationEdges n = E.connectedIndirectDeviationEdges n := by
  unfold Diagram.connectedIndirectDeviationEdges
  rw [h.isIndirect, h.connectedEdges]

theorem allSequences : Diagram.allSequences D.nodes = Diagram.allSequences E.nodes := by
  have := h.nodes
  generalize D.nodes = l at this
  generalize E.nodes = l' at this
  induction l generalizing l' with
  | nil =>
    cases l' with
    | nil => rfl
    | cons _ _ => simp at this
  | cons p l ih =>
    cases l' with
    | nil => simp at this
    | cons p' l' =>
      simp only [List.map_cons, List.cons.injEq, Prod.mk.injEq] at this
      unfold Diagram.allSequences
      rw [ih l' this.2, this.1.2.1]

theorem numberOfSequences : D.numberOfSequences = E.numberOfSequences := by
  unfold Diagram.numberOfSequences sequenceLast
  rw [h.allSequences]

theorem trailsSequences : D.trailsSequences = E.trailsSequences := by
  have h1 : ∀ l acc, D.trailSequencesLoop l acc = E.trailSequencesLoop l acc := by
    intro l
    induction l with
    | nil => intro acc; rfl
    | cons n l ih =>
      intro acc
      unfold trailSequencesLoop
      rw [h.nodeSequence]
      simp only [ih]
  have h2 : ∀ key, D.trailSequences key = E.trailSequences key := by
    intro key; unfold trailSequences; rw [h.trails]; simp only [h1]
  have h3 : ∀ l acc, D.trailsSequencesLoop l acc = E.trailsSequencesLoop l acc := by
    intro l
    induction l with
    | nil => intro acc; rfl
    | cons n l ih =>
      intro acc
      unfold trailsSequencesLoop
      rw [h2]
      simp only [ih]
  unfold Diagram.trailsSequences
  rw [h3, h.trails]

end SameTopo

/-! ## Dictionaries with transformed values -/

/-- Apply `f` to all values. -/
def mapVal {K V W : Type} (f : V → W) (d : Dict K V) : Dict K W := d.map fun p => (p.1, f p.2)

section
variable {K V W : Type} [DecidableEq K] (f : V → W)

theorem mapVal_get? (d : Dict K V) (k : K) : (mapVal f d).get? k = (d.get? k).map f :=
  get?_map_val d f k

theorem mapVal_keys (d : Dict K V) : (mapVal f d).keys = d.keys := keys_map_val d f

theorem mapVal_set (d : Dict K V) (k : K) (v : V) :
    (mapVal f d).set k (f v) = mapVal f (d.set k v) := by
  induction d with
  | nil => rfl
  | cons p d ih =>
    unfold mapVal at ih ⊢
    simp only [List.map_cons, Dict.set]
    split_ifs
    · rfl
    · simp only [List.map_cons, ih]

theorem mapVal_getE (d : Dict K V) (k : K) : (mapVal f d).getE k = (d.getE k).map f := by
  unfold Dict.getE
  rw [mapVal_get?]
  cases d.get? k <;> rfl

theorem mapVal_modify (d : Dict K V) (k : K) (g : V → V) (g' : W → W)
    (hg : ∀ v, g' (f v) = f (g v)) : (mapVal f d).modify k g' = mapVal f (d.modify k g) := by
  unfold Dict.modify
  rw [mapVal_get?]
  cases d.get? k with
  | none => rfl
  | some v => simp only [Option.map_some]; rw [hg, mapVal_set]

end

/-! ## Transformations -/

variable {R : Type} [Field R] [LinearOrder R] [PySqrt R]

/-- A transformation: of positions (`p`), force vectors (`r`), directions (`u`), forces
(`f`), lengths (`l`) and planes (`q`). -/
structure Trans (R : Type) where
  p : Vec R → Vec R
  r : Vec R → Vec R
  u : Vec R → Vec R
  f : R → R
  l : R → R
  q : Vec R × Vec R → Vec R × Vec R

namespace Trans

def node (τ : Trans R) (d : NodeData R) : NodeData R :=
  { d with pos := τ.p d.pos, load := τ.r d.load, reaction := τ.r d.reaction }

def edge (τ : Trans R) (d : EdgeData R) : EdgeData R :=
  { d with force := τ.f d.force, length := τ.l d.length, plane := d.plane.map τ.q }

def diagram (τ : Trans R) (D : Diagram R) : Diagram R :=
  { D with nodes := mapVal τ.node D.nodes, edges := mapVal τ.edge D.edges }

def state (τ : Trans R) (s : EqState R) : EqState R where
  xyz := mapVal τ.p s.xyz
  residual := mapVal τ.r s.residual
  trailForces := mapVal τ.f s.trailForces
  trailDirs := mapVal τ.u s.trailDirs
  reactions := mapVal τ.r s.reactions

/-- What form finding needs. -/
structure Good (τ : Trans R) : Prop where
  r_zero : τ.r 0 = 0
  r_add : ∀ a b, τ.r (a + b) = τ.r a + τ.r b
  r_neg : ∀ a, τ.r (-a) = -τ.r a
  dev : ∀ f a b, τ.f f • Vec.normalize (τ.p a - τ.p b) = τ.r (f • Vec.normalize (a - b))
  norm : ∀ a, Vec.normalize (τ.r a) = τ.u (Vec.normalize a)
  move : ∀ a l d, τ.p (a + l • d) = τ.p a + τ.l l • τ.u d
  force : ∀ a l, copysign (Vec.length (τ.r a)) (τ.l l) = τ.f (copysign (Vec.length a) l)
  eff : ∀ d a r, effectiveLength (τ.edge d) (τ.p a) (τ.r r) = τ.l (effectiveLength d a r)
  dist : ∀ a b, Vec.dist (τ.p a) (τ.p b) = τ.l (Vec.dist a b)
  l_zero : τ.l 0 = 0
  l_add : ∀ a b, τ.l (a + b) = τ.l a + τ.l b
  l_lt : ∀ a b, τ.l a < τ.l b ↔ a < b
  sign : ∀ a f, copysign (τ.l a) (τ.f f) = τ.l (copysign a f)

variable {τ : Trans R}

theorem sameTopo (τ : Trans R) (D : Diagram R) : SameTopo (τ.diagram D) D := by
  refine ⟨?_, ?_, rfl⟩
  · unfold diagram mapVal; simp only [List.map_map]; rfl
  · unfold diagram mapVal; simp only [List.map_map]; rfl

/-- A step whose result is transformed along. -/
theorem bind_map {α β γ δ : Type} (x : Except PyErr α) (g : α → γ) (k : γ → Except PyErr δ)
    (k' : α → Except PyErr β) (h : β → δ)
    (hk : ∀ a, x = .ok a → k (g a) = (k' a).map h) :
    (match x.map g with | .error e => .error e | .ok c => k c) =
      (match x with | .error e => Except.error e | .ok a => k' a).map h := by
  cases x with
  | error e => rfl
  | ok a => exact hk a rfl

namespace Good
variable (T : τ.Good)
include T

theorem incoming (node : Int) (xyz : Dict Int (Vec R)) (e : Int × Int) (f : R) :
    (incomingEdgeVector node (mapVal τ.p xyz) e).map (τ.f f • ·) =
      (incomingEdgeVector node xyz e).map fun v => τ.r (f • v) := by
  unfold incomingEdgeVector
  simp only [mapVal_getE]
  cases xyz.getE (if e.1 ≠ node then e.1 else e.2) with
  | error _ => rfl
  | ok a =>
    cases xyz.getE node with
    | error _ => rfl
    | ok b => exact congrArg Except.ok (T.dev f a b)

theorem deviationLoop (D : Diagram R) (node : Int) (xyz : Dict Int (Vec R))
    (l : List (Int × Int)) (acc : Vec R) :
    deviationResultantLoop (τ.diagram D) node (mapVal τ.p xyz) l (τ.r acc) =
      (deviationResultantLoop D node xyz l acc).map τ.r := by
  induction l generalizing acc with
  | nil => rfl
  | cons e l ih =>
    unfold deviationResultantLoop
    have he : (τ.diagram D).edges.getE e = (D.edges.getE e).map τ.edge := mapVal_getE _ _ _
    rw [he]
    cases hd : D.edges.getE e with
    | error err =>
      have := T.incoming node xyz e 0
      cases h1 : incomingEdgeVector node (mapVal τ.p xyz) e <;>
        cases h2 : incomingEdgeVector node xyz e <;> rw [h1, h2] at this <;>
        simp only [Except.map] at this ⊢
      · exact congrArg Except.error (Except.error.inj this)
      · cases this
      · cases this
    | ok d =>
      have := T.incoming node xyz e d.force
      cases h1 : incomingEdgeVector node (mapVal τ.p xyz) e <;>
        cases h2 : incomingEdgeVector node xyz e <;> rw [h1, h2] at this <;>
        simp only [Except.map] at this ⊢
      · exact congrArg Except.error (Except.error.inj this)
      · cases this
      · cases this
      · have := Except.ok.inj this
        change deviationResultantLoop (τ.diagram D) node (mapVal τ.p xyz) l (τ.r acc + τ.f d.force • _) = _
        rw [this, ← T.r_add, ih]
        rfl

theorem direct (D : Diagram R) (node : Int) (xyz : Dict Int (Vec R)) :
    directResultant (τ.diagram D) node (mapVal τ.p xyz) = (directResultant D node xyz).map τ.r := by
  unfold directResultant
  rw [(sameTopo τ D).direct]
  cases D.connectedDirectDeviationEdges node with
  | error _ => rfl
  | ok es =>
    have := T.deviationLoop D node xyz es 0
    rw [T.r_zero] at this
    exact this

theorem indirect (D : Diagram R) (node : Int) (xyz : Dict Int (Vec R)) :
    indirectResultant (τ.diagram D) node (mapVal τ.p xyz) =
      (indirectResultant D node xyz).map τ.r := by
  unfold indirectResultant
  rw [(sameTopo τ D).indirect]
  cases D.connectedIndirectDeviationEdges node with
  | error _ => rfl
  | ok es =>
    have := T.deviationLoop D node xyz es 0
    rw [T.r_zero] at this
    exact this

theorem out (a b c d : Vec R) :
    trailVectorOut (τ.r a) (τ.r b) (τ.r c) (τ.r d) = τ.r (trailVectorOut a b c d) := by
  unfold trailVectorOut
  rw [T.r_neg, T.r_add, T.r_add, T.r_add, T.r_add, T.r_zero]

theorem nodeEq (D : Diagram R) (node : Int) (t : Vec R) (xyz : Dict Int (Vec R)) (ind : Bool) :
    nodeEquilibrium (τ.diagram D) node (τ.r t) (mapVal τ.p xyz) ind =
      (nodeEquilibrium D node t xyz ind).map τ.r := by
  unfold nodeEquilibrium
  have he : (τ.diagram D).nodes.getE node = (D.nodes.getE node).map τ.node := mapVal_getE _ _ _
  rw [he, T.direct, T.indirect]
  cases D.nodes.getE node with
  | error _ => rfl
  | ok d =>
    cases directResultant D node xyz with
    | error _ => rfl
    | ok rd =>
      cases ind with
      | false =>
        simp only [Except.map, Bool.false_eq_true, if_false]
        rw [← T.out, T.r_neg, T.r_zero]
        rfl
      | true =>
        cases indirectResultant D node xyz with
        | error _ => rfl
        | ok ri =>
          simp only [Except.map, if_true]
          rw [← T.out, T.r_neg]
          rfl

theorem step (D : Diagram R) (tseq : Dict Int (Dict Int Int)) (kmax : Option Int) (ind : Bool)
    (k : Int) (s : EqState R) (key : Int) :
    eqStep (τ.diagram D) tseq kmax ind k (τ.state s) key =
      (eqStep D tseq kmax ind k s key).map τ.state := by
  unfold eqStep
  have hx : ∀ n, (τ.state s).xyz.getE n = (s.xyz.getE n).map τ.p := fun n => mapVal_getE _ _ _
  have hr : ∀ n, (τ.state s).residual.getE n = (s.residual.getE n).map τ.r :=
    fun n => mapVal_getE _ _ _
  have he : ∀ e, (τ.diagram D).edges.getE e = (D.edges.getE e).map τ.edge :=
    fun n => mapVal_getE _ _ _
  cases tseq.getE key with
  | error _ => rfl
  | ok seqs =>
    simp only
    cases seqs.get? k with
    | none => rfl
    | some node =>
      simp only
      rw [hx]
      cases s.xyz.getE node with
      | error _ => rfl
      | ok pos =>
        simp only [Except.map]
        rw [hr]
        cases s.residual.getE node with
        | error _ => rfl
        | ok rin =>
          simp only [Except.map]
          have := T.nodeEq D node rin s.xyz ind
          change nodeEquilibrium (τ.diagram D) node (τ.r rin) (τ.state s).xyz ind = _ at this
          rw [this]
          cases nodeEquilibrium D node rin s.xyz ind with
          | error _ => rfl
          | ok rvec =>
            simp only [Except.map]
            rw [(sameTopo τ D).isNodeSupport]
            cases D.isNodeSupport node with
            | error _ => rfl
            | ok sup =>
              simp only
              by_cases hs : sup = true ∨ kmax = some k
              · rw [if_pos hs, if_pos hs]
                simp only [state, mapVal_set]
              · rw [if_neg hs, if_neg hs]
                cases seqs.getE (k + 1) with
                | error _ => rfl
                | ok next =>
                  simp only
                  rw [(sameTopo τ D).has, he]
                  cases D.edges.getE (if D.edges.has (node, next) then (node, next)
                    else (next, node)) with
                  | error _ => rfl
                  | ok d =>
                    simp only [Except.map]
                    rw [T.eff, T.norm, T.force, ← T.move]
                    simp only [state, mapVal_set]

theorem forE_map {α : Type} (f f' : EqState R → α → Except PyErr (EqState R))
    (h : ∀ s a, f' (τ.state s) a = (f s a).map τ.state) (l : List α) (s : EqState R) :
    forE f' l (τ.state s) = (forE f l s).map τ.state := by
  induction l generalizing s with
  | nil => rfl
  | cons a l ih =>
    unfold forE
    rw [h]
    cases f s a with
    | error _ => rfl
    | ok s' => exact ih s'

theorem sweep (D : Diagram R) (tseq : Dict Int (Dict Int Int)) (kmax : Option Int) (ind : Bool)
    (n : Int) (s : EqState R) :
    CEM.sweep (τ.diagram D) tseq kmax ind n (τ.state s) =
      (CEM.sweep D tseq kmax ind n s).map τ.state := by
  unfold CEM.sweep
  exact T.forE_map _ _ (fun s k => T.forE_map _ _ (fun s key => T.step D tseq kmax ind k s key) _ s) _ s

omit T in
theorem step_keys {D : Diagram R} (w : WF D) {tseq : Dict Int (Dict Int Int)} {kmax : Option Int}
    {ind : Bool} {k : Int} {s s' : EqState R} {key : Int}
    (h : eqStep D tseq kmax ind k s key = .ok s') (hs : s.xyz.keys = D.nodes.keys) :
    s'.xyz.keys = D.nodes.keys := by
  unfold eqStep at h
  cases h1 : tseq.getE key with
  | error _ => simp [h1] at h
  | ok seqs =>
    simp only [h1] at h
    cases h2 : seqs.get? k with
    | none => simp only [h2] at h; rw [← Except.ok.inj h]; exact hs
    | some node =>
      simp only [h2] at h
      cases h3 : s.xyz.getE node with
      | error _ => simp [h3] at h
      | ok pos =>
        simp only [h3] at h
        cases h4 : s.residual.getE node with
        | error _ => simp [h4] at h
        | ok rin =>
          simp only [h4] at h
          cases h5 : nodeEquilibrium D node rin s.xyz ind with
          | error _ => simp [h5] at h
          | ok rvec =>
            simp only [h5] at h
            cases h6 : D.isNodeSupport node with
            | error _ => simp [h6] at h
            | ok sup =>
              simp only [h6] at h
              by_cases hsup : sup = true ∨ kmax = some k
              · rw [if_pos hsup] at h
                rw [← Except.ok.inj h]; exact hs
              · rw [if_neg hsup] at h
                cases h7 : seqs.getE (k + 1) with
                | error _ => simp [h7] at h
                | ok next =>
                  simp only [h7] at h
                  cases h8 : D.edges.getE (if D.edges.has (node, next) then (node, next)
                      else (next, node)) with
                  | error _ => simp [h8] at h
                  | ok d =>
                    simp only [h8] at h
                    rw [← Except.ok.inj h]
                    simp only
                    rw [Dict.keys_set_of_mem _ (by
                      rw [hs]
                      have := Dict.mem_keys_of_get? (Dict.getE_eq_ok_iff.1 h8)
                      split_ifs at this
                      · exact w.edge_right _ this
                      · exact w.edge_left _ this)]
                    exact hs

omit T in
theorem forE_inv {α : Type} {f : EqState R → α → Except PyErr (EqState R)} {P : EqState R → Prop}
    (h : ∀ s a s', f s a = .ok s' → P s → P s') (l : List α) {s s' : EqState R}
    (hl : forE f l s = .ok s') (hs : P s) : P s' := by
  induction l generalizing s with
  | nil => unfold forE at hl; rw [← Except.ok.inj hl]; exact hs
  | cons a l ih =>
    unfold forE at hl
    cases hf : f s a with
    | error _ => simp [hf] at hl
    | ok s1 => simp only [hf] at hl; exact ih hl (h _ _ _ hf hs)

omit T in
theorem sweep_keys {D : Diagram R} (w : WF D) {tseq : Dict Int (Dict Int Int)} {kmax : Option Int}
    {ind : Bool} {n : Int} {s s' : EqState R}
    (h : CEM.sweep D tseq kmax ind n s = .ok s') (hs : s.xyz.keys = D.nodes.keys) :
    s'.xyz.keys = D.nodes.keys :=
  forE_inv (P := fun s => s.xyz.keys = D.nodes.keys)
    (fun _ _ _ h hs => forE_inv (P := fun s => s.xyz.keys = D.nodes.keys)
      (fun _ _ _ h hs => step_keys w h hs) _ h hs) _ h hs

theorem residual {last new : Dict Int (Vec R)} (h : ∀ k ∈ new.keys, k ∈ last.keys) :
    residualDistance (mapVal τ.p last) (mapVal τ.p new) = τ.l (residualDistance last new) := by
  have : ∀ (l : Dict Int (Vec R)) (acc : R), (∀ k ∈ l.keys, k ∈ last.keys) →
      (mapVal τ.p l).foldl (fun acc p => acc + Vec.dist (((mapVal τ.p last).get? p.1).getD 0) p.2)
        (τ.l acc) =
      τ.l (l.foldl (fun acc p => acc + Vec.dist ((last.get? p.1).getD 0) p.2) acc) := by
    intro l
    induction l with
    | nil => intro acc _; rfl
    | cons p l ih =>
      intro acc hl
      obtain ⟨v, hv⟩ := (Dict.exists_get?_iff last p.1).2 (hl p.1 (by simp))
      simp only [mapVal, List.map_cons, List.foldl_cons]
      have hv' := mapVal_get? τ.p last p.1
      rw [hv] at hv'
      unfold mapVal at hv'
      rw [hv', hv]
      simp only [Option.map_some, Option.getD_some]
      rw [T.dist, ← T.l_add]
      exact ih _ (fun k hk => hl k (by simp [hk]))
  have h0 := this new 0 h
  rw [T.l_zero] at h0
  exact h0

/-- Result of the loop, transformed. -/
def info (τ : Trans R) (r : EqState R × Option (LoopInfo R)) : EqState R × Option (LoopInfo R) :=
  (τ.state r.1, r.2.map fun i => ⟨i.t, i.distance.map τ.l⟩)

theorem loop {D : Diagram R} (w : WF D) (tseq : Dict Int (Dict Int Int)) (kmax : Option Int) (eta : R)
    (n : Int) (fuel t : Nat) (s : EqState R) (i : Option (LoopInfo R))
    (hs : s.xyz.keys = D.nodes.keys) :
    eqLoop (τ.diagram D) tseq kmax (τ.l eta) n fuel t (τ.state s)
      (i.map fun i => ⟨i.t, i.distance.map τ.l⟩) =
      (eqLoop D tseq kmax eta n fuel t s i).map (info τ) := by
  induction fuel generalizing t s i with
  | zero => rfl
  | succ fuel ih =>
    unfold eqLoop
    rw [T.sweep]
    cases hsw : CEM.sweep D tseq kmax (decide (t ≠ 0)) n s with
    | error _ => rfl
    | ok s' =>
      have hs' := sweep_keys w hsw hs
      simp only [Except.map]
      by_cases ht : t = 0
      · rw [if_pos ht, if_pos ht]
        exact ih (t + 1) s' (some ⟨0, none⟩) hs'
      · rw [if_neg ht, if_neg ht]
        have hres : residualDistance (τ.state s).xyz (τ.state s').xyz =
            τ.l (residualDistance s.xyz s'.xyz) := T.residual (by rw [hs, hs']; exact fun _ h => h)
        rw [hres]
        by_cases hd : residualDistance s.xyz s'.xyz < eta
        · rw [if_pos ((T.l_lt _ _).2 hd), if_pos hd]
          rfl
        · rw [if_neg (fun h => hd ((T.l_lt _ _).1 h)), if_neg hd]
          exact ih (t + 1) s' (some ⟨t, some (residualDistance s.xyz s'.xyz)⟩) hs'

theorem finish (eta : R) (verbose : Bool) (r : EqState R × Option (LoopInfo R)) :
    eqFinish (τ.l eta) verbose (info τ r) = (eqFinish eta verbose r).map τ.state := by
  obtain ⟨s, i⟩ := r
  unfold eqFinish info
  cases i with
  | none => rfl
  | some i =>
    obtain ⟨t, d⟩ := i
    simp only [Option.map_some]
    by_cases ht : t > 0
    · rw [if_pos ht, if_pos ht]
      cases d with
      | none => rfl
      | some d =>
        simp only [Option.map_some]
        by_cases hd : d > eta
        · rw [if_pos ((T.l_lt _ _).2 hd), if_pos hd]; rfl
        · rw [if_neg (fun h => hd ((T.l_lt _ _).1 h)), if_neg hd]; rfl
    · rw [if_neg ht, if_neg ht]
      cases verbose with
      | false => rfl
      | true => cases d <;> rfl

theorem init (D : Diagram R) : initState (τ.diagram D) = τ.state (initState D) := by
  unfold initState state diagram mapVal
  simp only [List.map_map, List.map_nil]
  rfl

theorem equilibrium {D : Diagram R} (w : WF D) (kmax : Option Int) (tmax : Nat) (eta : R)
    (verbose : Bool) :
    equilibriumState (τ.diagram D) kmax tmax (τ.l eta) verbose =
      (equilibriumState D kmax tmax eta verbose).map τ.state := by
  unfold equilibriumState
  rw [(sameTopo τ D).trailsSequences, (sameTopo τ D).numberOfSequences]
  have hn : (τ.diagram D).numberOfTrails = D.numberOfTrails := rfl
  rw [hn]
  by_cases h0 : D.numberOfTrails = 0
  · rw [if_pos h0, if_pos h0]; rfl
  rw [if_neg h0, if_neg h0]
  cases D.trailsSequences with
  | error _ => rfl
  | ok tseq =>
    simp only
    cases D.numberOfSequences with
    | error _ => rfl
    | ok n =>
      simp only
      by_cases hk : kmax.any (fun x => decide (x < 0)) = true
      · rw [if_pos hk, if_pos hk]; rfl
      rw [if_neg hk, if_neg hk, T.init]
      have := T.loop w tseq kmax eta n tmax 0 (initState D) none (keys_map_val _ _)
      simp only [Option.map_none] at this
      rw [this]
      cases eqLoop D tseq kmax eta n tmax 0 (initState D) none with
      | error _ => rfl
      | ok r => exact T.finish eta verbose r

theorem update (F : Diagram R) (s : EqState R) :
    formUpdate (τ.diagram F) (τ.state s) = τ.diagram (formUpdate F s) := by
  have h1 : ∀ (l : Dict Int (Vec R)) (ns : Dict Int (NodeData R)),
      updateCoords (mapVal τ.node ns) (mapVal τ.p l) = mapVal τ.node (updateCoords ns l) := by
    intro l
    unfold updateCoords mapVal
    induction l with
    | nil => intro ns; rfl
    | cons p l ih =>
      intro ns
      simp only [List.map_cons, List.foldl_cons]
      have hm := mapVal_modify τ.node ns p.1 (fun d => { d with pos := p.2 })
        (fun d => { d with pos := τ.p p.2 }) (fun v => rfl)
      unfold mapVal at hm
      rw [hm]
      exact ih _
  have h2 : ∀ (l : Dict Int (Vec R)) (ns : Dict Int (NodeData R)),
      updateReactions (mapVal τ.node ns) (mapVal τ.r l) = mapVal τ.node (updateReactions ns l) := by
    intro l
    unfold updateReactions mapVal
    induction l with
    | nil => intro ns; rfl
    | cons p l ih =>
      intro ns
      simp only [List.map_cons, List.foldl_cons]
      have hm := mapVal_modify τ.node ns p.1 (fun d => { d with reaction := p.2 })
        (fun d => { d with reaction := τ.r p.2 }) (fun v => rfl)
      unfold mapVal at hm
      rw [hm]
      exact ih _
  have h3 : ∀ (l : Dict (Int × Int) R) (es : Dict (Int × Int) (EdgeData R)),
      updateForces (mapVal τ.edge es) (mapVal τ.f l) = mapVal τ.edge (updateForces es l) := by
    intro l
    unfold updateForces mapVal
    induction l with
    | nil => intro ns; rfl
    | cons p l ih =>
      intro ns
      simp only [List.map_cons, List.foldl_cons]
      have hm := mapVal_modify τ.edge ns p.1 (fun d => { d with force := p.2 })
        (fun d => { d with force := τ.f p.2 }) (fun v => rfl)
      unfold mapVal at hm
      rw [hm]
      exact ih _
  have h4 : ∀ (ns : Dict Int (NodeData R)) e d,
      signedLength (mapVal τ.node ns) e (τ.edge d) = τ.edge (signedLength ns e d) := by
    intro ns e d
    unfold signedLength
    rw [mapVal_get?, mapVal_get?]
    cases ns.get? e.1 with
    | none => rfl
    | some a =>
      cases ns.get? e.2 with
      | none => rfl
      | some b =>
        have h5 : copysign (Vec.dist (τ.p a.pos) (τ.p b.pos)) (τ.f d.force) =
          τ.l (copysign (Vec.dist a.pos b.pos) d.force) := by rw [T.dist, T.sign]
        simp only [Option.map_some, node, edge, h5]
  unfold formUpdate
  have hn : updateReactions (updateCoords (τ.diagram F).nodes (τ.state s).xyz) (τ.state s).reactions =
      mapVal τ.node (updateReactions (updateCoords F.nodes s.xyz) s.reactions) := by
    change updateReactions (updateCoords (mapVal τ.node F.nodes) (mapVal τ.p s.xyz))
      (mapVal τ.r s.reactions) = _
    rw [h1, h2]
  have he : updateForces (τ.diagram F).edges (τ.state s).trailForces =
      mapVal τ.edge (updateForces F.edges s.trailForces) := h3 _ _
  simp only [hn, he]
  unfold diagram
  simp only [mapVal, List.map_map, Diagram.mk.injEq, and_true, true_and]
  refine List.map_congr_left fun p _ => ?_
  have := h4 (updateReactions (updateCoords F.nodes s.xyz) s.reactions) p.1 p.2
  unfold mapVal at this
  exact congrArg (Prod.mk p.1) this

/-- Form finding commutes with the transformation, on every diagram. -/
theorem staticEquilibrium {D : Diagram R} (w : WF D) (kmax : Option Int) (tmax : Nat) (eta : R)
    (verbose : Bool) :
    CEM.staticEquilibrium (τ.diagram D) kmax tmax (τ.l eta) verbose =
      (CEM.staticEquilibrium D kmax tmax eta verbose).map τ.diagram := by
  unfold CEM.staticEquilibrium
  rw [T.equilibrium w]
  cases equilibriumState D kmax tmax eta verbose with
  | error _ => rfl
  | ok s => exact congrArg Except.ok (T.update (formFromTopology D) s)

end Good
end Trans
end CEM
