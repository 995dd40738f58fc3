import Verif.Lemmas.Simulation
import Verif.Lemmas.Numpy

/-!
# The numpy solver on transformed diagrams

What a transformation has to satisfy so that the numpy solver commutes with it, NaN and errors included.
-/

set_option linter.unusedSectionVars false
set_option linter.unusedSimpArgs false

namespace CEM
open Diagram Spec

variable {R : Type} [Field R] [LinearOrder R] [PySqrt R]

theorem lift2_map {α β γ α' β' γ' : Type} {f : α → β → γ} {f' : α' → β' → γ'} {a : α → α'} {b : β → β'} {c : γ → γ'}
    (h : ∀ x y, f' (a x) (b y) = c (f x y)) (x : Option α) (y : Option β) :
    lift2 f' (x.map a) (y.map b) = (lift2 f x y).map c := by
  cases x with
  | none => rfl
  | some x => cases y with
    | none => rfl
    | some y => exact congrArg some (h x y)

namespace Trans

/-- The state of the numpy solver, transformed. -/
def nstate (τ : Trans R) (s : NState R) : NState R where
  xyz := mapVal (Option.map τ.p) s.xyz
  residual := mapVal (Option.map τ.r) s.residual
  trailForces := mapVal (Option.map τ.f) s.trailForces
  trailDirs := mapVal (Option.map τ.u) s.trailDirs
  reactions := mapVal (Option.map τ.r) s.reactions

/-- The tables of the numpy solver, transformed. -/
def tables (τ : Trans R) (t : NTables R) : NTables R where
  forces := mapVal τ.f t.forces
  lengths := mapVal τ.l t.lengths
  loads := mapVal τ.r t.loads
  direct := t.direct
  indirect := t.indirect
  edgeKeys := t.edgeKeys
  planes := mapVal τ.q t.planes

/-- What the numpy solver needs.  `g` is what happens to squares of distances. -/
structure NGood (τ : Trans R) (g : R → R) : Prop where
  r_zero : τ.r 0 = 0
  r_add : ∀ a b, τ.r (a + b) = τ.r a + τ.r b
  r_neg : ∀ a, τ.r (-a) = -τ.r a
  dev : ∀ f a b, (normalizeNumpy (some (τ.p a - τ.p b))).map (τ.f f • ·) =
    (normalizeNumpy (some (a - b))).map fun v => τ.r (f • v)
  dir : ∀ a, npDirection (some (τ.r a)) = (npDirection (some a)).map τ.u
  move : ∀ a l d, τ.p (a + l • d) = τ.p a + τ.l l • τ.u d
  force : ∀ a l, npTrailForce (some (τ.r a)) (Option.map τ.l l) = (npTrailForce (some a) l).map τ.f
  eff : ∀ l q a r, npEffectiveLength (τ.l l) (q.map τ.q) (Option.map τ.p a) (Option.map τ.r r) =
    (npEffectiveLength l q a r).map τ.l
  dist : ∀ a b, Vec.dot (τ.p a - τ.p b) (τ.p a - τ.p b) = g (Vec.dot (a - b) (a - b))
  g_zero : g 0 = 0
  g_add : ∀ a b, g (a + b) = g a + g b
  g_sqrt : ∀ a, PySqrt.sqrt (g a) = τ.l (PySqrt.sqrt a)
  l_lt : ∀ a b, τ.l a < τ.l b ↔ a < b

variable {τ : Trans R} {g : R → R}

theorem edgeList_eq {R S : Type} {D : Diagram R} {E : Diagram S} (h : SameTopo D E) : D.edgeList = E.edgeList := by
  unfold edgeList
  rw [h.nodeKeys, h.edgeKeys]

theorem trailEdges_eq {R S : Type} {D : Diagram R} {E : Diagram S} (h : SameTopo D E) : D.trailEdges = E.trailEdges := by
  unfold trailEdges
  rw [edgeList_eq h]
  refine List.filter_congr fun e _ => ?_
  rw [h.edge]

theorem edgeTable_map {V W : Type} (D : Diagram R) (f : EdgeData R → Option V) (f' : EdgeData R → Option W) (k : V → W)
    (h : ∀ d, f' (τ.edge d) = (f d).map k) (l : List (Int × Int)) :
    edgeTable (τ.diagram D) f' l = mapVal k (edgeTable D f l) := by
  have he : ∀ e, (τ.diagram D).edges.get? e = (D.edges.get? e).map τ.edge := fun e => mapVal_get? _ _ _
  unfold edgeTable mapVal
  rw [List.map_filterMap]
  congr 1
  funext e
  rw [he]
  cases D.edges.get? e with
  | none => rfl
  | some d =>
    simp only [Option.map_some, Option.bind_some, h]
    cases f d <;> rfl

theorem npTables_map (τ : Trans R) (D : Diagram R) : npTables (τ.diagram D) = (npTables D).map τ.tables := by
  have h := sameTopo τ D
  unfold npTables
  rw [h.nodeKeys, funext h.direct, funext h.indirect, edgeList_eq h, trailEdges_eq h]
  cases dictE D.connectedDirectDeviationEdges D.nodes.keys with
  | error _ => rfl
  | ok direct =>
    cases dictE D.connectedIndirectDeviationEdges D.nodes.keys with
    | error _ => rfl
    | ok indirect =>
      simp only [Except.map, tables]
      rw [edgeTable_map D (fun d => some d.force) (fun d => some d.force) τ.f (fun _ => rfl),
        edgeTable_map D (fun d => some d.length) (fun d => some d.length) τ.l (fun _ => rfl),
        edgeTable_map D (fun d => d.plane) (fun d => d.plane) τ.q (fun _ => rfl)]
      congr 2
      unfold diagram mapVal
      simp only [List.map_map]
      rfl

namespace NGood
variable (T : τ.NGood g)
include T

theorem incoming (node : Int) (xyz : Dict Int (NVec R)) (e : Int × Int) (f : R) :
    (npIncoming node (mapVal (Option.map τ.p) xyz) e).map (Option.map (τ.f f • ·)) =
      (npIncoming node xyz e).map (Option.map fun v => τ.r (f • v)) := by
  unfold npIncoming
  simp only [mapVal_getE]
  cases xyz.getE (if e.1 ≠ node then e.1 else e.2) with
  | error _ => rfl
  | ok a =>
    cases xyz.getE node with
    | error _ => rfl
    | ok b =>
      cases a with
      | none => rfl
      | some a => cases b with
        | none => rfl
        | some b => exact congrArg Except.ok (T.dev f a b)

theorem add (a b : NVec R) : lift2 (· + ·) (a.map τ.r) (b.map τ.r) = (lift2 (· + ·) a b).map τ.r :=
  lift2_map (fun x y => (T.r_add x y).symm) a b

theorem resultant (node : Int) (xyz : Dict Int (NVec R)) (forces : Dict (Int × Int) R) (l : List (Int × Int))
    (acc : NVec R) :
    npResultant node (mapVal (Option.map τ.p) xyz) (mapVal τ.f forces) l (acc.map τ.r) =
      (npResultant node xyz forces l acc).map (Option.map τ.r) := by
  induction l generalizing acc with
  | nil => rfl
  | cons e l ih =>
    unfold npResultant
    rw [mapVal_getE]
    cases forces.getE e with
    | error _ => rfl
    | ok f =>
      have h := T.incoming node xyz e f
      simp only [Except.map]
      cases h1 : npIncoming node (mapVal (Option.map τ.p) xyz) e with
      | error _ =>
        cases h2 : npIncoming node xyz e with
        | error _ => rw [h1, h2] at h; exact congrArg Except.error (Except.error.inj h)
        | ok _ => rw [h1, h2] at h; cases h
      | ok v =>
        cases h2 : npIncoming node xyz e with
        | error _ => rw [h1, h2] at h; cases h
        | ok w =>
          rw [h1, h2] at h
          have h := Except.ok.inj h
          simp only
          rw [h]
          refine Eq.trans ?_ (ih _)
          rw [← T.add, Option.map_map]
          rfl

theorem zero : (some 0 : NVec R) = (some 0 : NVec R).map τ.r := by
  rw [Option.map_some, T.r_zero]

theorem indirect (tab : NTables R) (ind : Bool) (node : Int) (xyz : Dict Int (NVec R)) :
    npIndirect (τ.tables tab) ind node (mapVal (Option.map τ.p) xyz) =
      (npIndirect tab ind node xyz).map (Option.map τ.r) := by
  unfold npIndirect
  cases ind with
  | false =>
    simp only [Bool.false_eq_true, if_false]
    exact congrArg Except.ok T.zero
  | true =>
    simp only [if_true, tables]
    cases tab.indirect.getE node with
    | error _ => rfl
    | ok es =>
      simp only
      conv_lhs => rw [T.zero]
      exact T.resultant node xyz tab.forces es _

theorem nodeEq (t q rd ri : NVec R) : npNodeEquilibrium (t.map τ.r) (q.map τ.r) (rd.map τ.r) (ri.map τ.r) =
    (npNodeEquilibrium t q rd ri).map τ.r := by
  unfold npNodeEquilibrium
  have h : (t.map τ.r).map (- ·) = (t.map (- ·)).map τ.r := by
    cases t with
    | none => rfl
    | some t => exact congrArg some (T.r_neg t).symm
  rw [h, T.add, T.add, T.add]
  generalize lift2 (· + ·) (lift2 (· + ·) (lift2 (· + ·) (t.map (- ·)) q) rd) ri = x
  cases x with
  | none => rfl
  | some x => exact congrArg some (T.r_neg x).symm

theorem direction (r : NVec R) : npDirection (r.map τ.r) = (npDirection r).map τ.u := by
  cases r with
  | none => rfl
  | some r => exact T.dir r

theorem trailForce (r : NVec R) (l : Num R) : npTrailForce (r.map τ.r) (l.map τ.l) = (npTrailForce r l).map τ.f := by
  cases r with
  | none => cases l <;> rfl
  | some r => exact T.force r l

theorem next (pos : NVec R) (l : Num R) (d : NVec R) :
    lift2 (· + ·) (pos.map τ.p) (lift2 (· • ·) (l.map τ.l) (d.map τ.u)) =
      (lift2 (· + ·) pos (lift2 (· • ·) l d)).map τ.p := by
  cases pos with
  | none => rfl
  | some pos => cases l with
    | none => rfl
    | some l => cases d with
      | none => rfl
      | some d => exact congrArg some (T.move pos l d).symm

theorem step (D : Diagram R) (tab : NTables R) (tseq : Dict Int (Dict Int Int)) (ind : Bool)
    (k : Int) (s : NState R) (key : Int) :
    npStep (τ.diagram D) (τ.tables tab) tseq ind k (τ.nstate s) key =
      (npStep D tab tseq ind k s key).map τ.nstate := by
  unfold npStep
  have hx : ∀ n, (τ.nstate s).xyz.getE n = (s.xyz.getE n).map (Option.map τ.p) := fun n => mapVal_getE _ _ _
  have hr : ∀ n, (τ.nstate s).residual.getE n = (s.residual.getE n).map (Option.map τ.r) :=
    fun n => mapVal_getE _ _ _
  have hq : ∀ n, (τ.tables tab).loads.getE n = (tab.loads.getE n).map τ.r := fun n => mapVal_getE _ _ _
  have hl : ∀ e, (τ.tables tab).lengths.getE e = (tab.lengths.getE e).map τ.l := fun n => mapVal_getE _ _ _
  have hp : ∀ e, (τ.tables tab).planes.get? e = (tab.planes.get? e).map τ.q := fun n => mapVal_get? _ _ _
  cases tseq.getE key with
  | error _ => rfl
  | ok seqs =>
    simp only
    cases seqs.get? k with
    | none => rfl
    | some node =>
      simp only
      rw [hx]
      cases s.xyz.getE node with
      | error _ => rfl
      | ok pos =>
        simp only [Except.map]
        rw [hr]
        cases s.residual.getE node with
        | error _ => rfl
        | ok rin =>
          simp only [Except.map]
          rw [hq]
          cases tab.loads.getE node with
          | error _ => rfl
          | ok q =>
            simp only [Except.map]
            change (match tab.direct.getE node with | .error err => _ | .ok dirEdges => _) = _
            cases tab.direct.getE node with
            | error _ => rfl
            | ok dirEdges =>
              simp only
              have h1 : npResultant node (τ.nstate s).xyz (τ.tables tab).forces dirEdges (some 0) =
                  (npResultant node s.xyz tab.forces dirEdges (some 0)).map (Option.map τ.r) := by
                conv_lhs => rw [T.zero]
                exact T.resultant node s.xyz tab.forces dirEdges _
              have h2 : npIndirect (τ.tables tab) ind node (τ.nstate s).xyz =
                  (npIndirect tab ind node s.xyz).map (Option.map τ.r) := T.indirect tab ind node s.xyz
              rw [h1]
              cases npResultant node s.xyz tab.forces dirEdges (some 0) with
              | error _ => rfl
              | ok rd =>
                simp only [Except.map]
                rw [h2]
                cases npIndirect tab ind node s.xyz with
                | error _ => rfl
                | ok ri =>
                  simp only [Except.map]
                  have h3 := T.nodeEq rin (some q) rd ri
                  rw [Option.map_some] at h3
                  rw [(sameTopo τ D).isNodeSupport, h3]
                  generalize npNodeEquilibrium rin (some q) rd ri = rvec
                  cases D.isNodeSupport node with
                  | error _ => rfl
                  | ok sup =>
                    simp only
                    by_cases hs : sup = true
                    · rw [if_pos hs, if_pos hs]
                      simp only [nstate, mapVal_set]
                    · rw [if_neg hs, if_neg hs]
                      cases seqs.getE (k + 1) with
                      | error _ => rfl
                      | ok nxt =>
                        simp only
                        change (match (τ.tables tab).lengths.getE
                          (if (node, nxt) ∈ tab.edgeKeys then (node, nxt) else (nxt, node)) with
                          | .error err => _ | .ok length0 => _) = _
                        generalize hedge : (if (node, nxt) ∈ tab.edgeKeys then (node, nxt) else (nxt, node)) = edge
                        rw [hl]
                        cases tab.lengths.getE edge with
                        | error _ => rfl
                        | ok length0 =>
                          simp only [Except.map]
                          have hedge' : (if (node, nxt) ∈ (τ.tables tab).edgeKeys then (node, nxt) else (nxt, node)) =
                            edge := hedge
                          rw [hedge', hp, T.eff, T.direction, T.trailForce, T.next]
                          simp only [nstate, mapVal_set]

theorem forE_map {α : Type} (f f' : NState R → α → Except PyErr (NState R))
    (h : ∀ s a, f' (τ.nstate s) a = (f s a).map τ.nstate) (l : List α) (s : NState R) :
    forE f' l (τ.nstate s) = (forE f l s).map τ.nstate := by
  induction l generalizing s with
  | nil => rfl
  | cons a l ih =>
    unfold forE
    rw [h]
    cases f s a with
    | error _ => rfl
    | ok s' => exact ih s'

theorem sweep (D : Diagram R) (tab : NTables R) (tseq : Dict Int (Dict Int Int)) (ind : Bool)
    (n : Int) (s : NState R) :
    npSweep (τ.diagram D) (τ.tables tab) tseq ind n (τ.nstate s) =
      (npSweep D tab tseq ind n s).map τ.nstate := by
  unfold npSweep
  exact T.forE_map _ _ (fun s k => T.forE_map _ _ (fun s key => T.step D tab tseq ind k s key) _ s) _ s

theorem distance (last new : Dict Int (NVec R)) :
    npDistance (mapVal (Option.map τ.p) last) (mapVal (Option.map τ.p) new) = (npDistance last new).map τ.l := by
  have : ∀ (l : Dict Int (NVec R)) (acc : Num R),
      (mapVal (Option.map τ.p) l).foldl (fun acc p => lift2 (· + ·) acc
        ((lift2 (· - ·) (((mapVal (Option.map τ.p) last).get? p.1).getD none) p.2).map fun d => Vec.dot d d)) (acc.map g) =
      (l.foldl (fun acc p => lift2 (· + ·) acc
        ((lift2 (· - ·) ((last.get? p.1).getD none) p.2).map fun d => Vec.dot d d)) acc).map g := by
    intro l
    induction l with
    | nil => intro acc; rfl
    | cons p l ih =>
      intro acc
      have hv := mapVal_get? (Option.map τ.p) last p.1
      simp only [mapVal, List.map_cons, List.foldl_cons]
      rw [← mapVal]
      have e : (((mapVal (Option.map τ.p) last).get? p.1).getD none) = ((last.get? p.1).getD none).map τ.p := by
        rw [hv]; cases last.get? p.1 <;> rfl
      have e2 : lift2 (· + ·) (acc.map g) ((lift2 (· - ·) (((last.get? p.1).getD none).map τ.p) (p.2.map τ.p)).map
          fun d => Vec.dot d d) = (lift2 (· + ·) acc ((lift2 (· - ·) ((last.get? p.1).getD none) p.2).map
          fun d => Vec.dot d d)).map g := by
        have : ((lift2 (· - ·) (((last.get? p.1).getD none).map τ.p) (p.2.map τ.p)).map fun d => Vec.dot d d) =
            ((lift2 (· - ·) ((last.get? p.1).getD none) p.2).map fun d => Vec.dot d d).map g := by
          cases (last.get? p.1).getD none with
          | none => rfl
          | some a => cases p.2 with
            | none => rfl
            | some b => exact congrArg some (T.dist a b)
        rw [this]
        exact lift2_map (fun x y => (T.g_add x y).symm) _ _
      rw [e, e2]
      exact ih _
  unfold npDistance
  have h0 := this new (some 0)
  rw [Option.map_some, T.g_zero] at h0
  rw [h0, Option.map_map]
  generalize new.foldl (fun acc p => lift2 (· + ·) acc
        ((lift2 (· - ·) ((last.get? p.1).getD none) p.2).map fun d => Vec.dot d d)) (some 0) = x
  cases x with
  | none => rfl
  | some x => exact congrArg some (T.g_sqrt x)

theorem lt (d : Num R) (eta : R) : Num.lt (d.map τ.l) (τ.l eta) = Num.lt d eta := by
  cases d with
  | none => rfl
  | some d => simp [Num.lt, T.l_lt]

theorem gt (d : Num R) (eta : R) : Num.gt (d.map τ.l) (τ.l eta) = Num.gt d eta := by
  cases d with
  | none => rfl
  | some d => simp [Num.gt, T.l_lt]

omit T in
/-- Result of the loop, transformed. -/
def ninfo (τ : Trans R) (r : NState R × Option (NLoopInfo R)) : NState R × Option (NLoopInfo R) :=
  (τ.nstate r.1, r.2.map fun i => ⟨i.t, i.distance.map (Option.map τ.l)⟩)

theorem loop (D : Diagram R) (tab : NTables R) (tseq : Dict Int (Dict Int Int)) (eta : R)
    (n : Int) (fuel t : Nat) (s : NState R) (i : Option (NLoopInfo R)) :
    npLoop (τ.diagram D) (τ.tables tab) tseq (τ.l eta) n fuel t (τ.nstate s)
      (i.map fun i => ⟨i.t, i.distance.map (Option.map τ.l)⟩) =
      (npLoop D tab tseq eta n fuel t s i).map (ninfo τ) := by
  induction fuel generalizing t s i with
  | zero => rfl
  | succ fuel ih =>
    unfold npLoop
    rw [T.sweep]
    cases npSweep D tab tseq (decide (t > 0)) n s with
    | error _ => rfl
    | ok s' =>
      simp only [Except.map]
      by_cases ht : t = 0
      · rw [if_pos ht, if_pos ht]
        exact ih (t + 1) s' (some ⟨0, none⟩)
      · rw [if_neg ht, if_neg ht]
        have hres : npDistance (τ.nstate s).xyz (τ.nstate s').xyz =
            (npDistance s.xyz s'.xyz).map τ.l := T.distance _ _
        rw [hres, T.lt]
        by_cases hd : Num.lt (npDistance s.xyz s'.xyz) eta = true
        · rw [if_pos hd, if_pos hd]
          rfl
        · rw [if_neg hd, if_neg hd]
          exact ih (t + 1) s' (some ⟨t, some (npDistance s.xyz s'.xyz)⟩)

theorem finish (eta : R) (verbose : Bool) (r : NState R × Option (NLoopInfo R)) :
    npFinish (τ.l eta) verbose (ninfo τ r) = (npFinish eta verbose r).map τ.nstate := by
  obtain ⟨s, i⟩ := r
  unfold npFinish ninfo
  cases i with
  | none => rfl
  | some i =>
    obtain ⟨t, d⟩ := i
    simp only [Option.map_some]
    by_cases ht : t > 0
    · rw [if_pos ht, if_pos ht]
      cases d with
      | none => rfl
      | some d =>
        simp only [Option.map_some, T.gt]
        by_cases hd : Num.gt d eta = true
        · rw [if_pos hd, if_pos hd]; rfl
        · rw [if_neg hd, if_neg hd]; rfl
    · rw [if_neg ht, if_neg ht]
      cases verbose with
      | false => rfl
      | true => cases d <;> rfl

omit T in
theorem init (D : Diagram R) : npInit (τ.diagram D) = τ.nstate (npInit D) := by
  unfold npInit nstate diagram mapVal
  simp only [List.map_map, List.map_nil]
  rfl

/-- The numpy solver commutes with the transformation, on every diagram. -/
theorem equilibrium (D : Diagram R) (tmax : Nat) (eta : R) (verbose : Bool) :
    npEquilibriumState (τ.diagram D) tmax (τ.l eta) verbose =
      (npEquilibriumState D tmax eta verbose).map τ.nstate := by
  unfold npEquilibriumState
  rw [(sameTopo τ D).trailsSequences, (sameTopo τ D).numberOfSequences, npTables_map]
  have hn : (τ.diagram D).numberOfTrails = D.numberOfTrails := rfl
  rw [hn]
  by_cases h0 : D.numberOfTrails = 0
  · rw [if_pos h0, if_pos h0]; rfl
  rw [if_neg h0, if_neg h0]
  cases D.trailsSequences with
  | error _ => rfl
  | ok tseq =>
    simp only
    cases npTables D with
    | error _ => rfl
    | ok tab =>
      simp only [Except.map]
      by_cases ht : tmax = 0
      · rw [if_pos ht, if_pos ht]
      rw [if_neg ht, if_neg ht]
      cases D.numberOfSequences with
      | error _ => rfl
      | ok n =>
        simp only
        have := T.loop D tab tseq eta n tmax 0 (npInit D) none
        simp only [Option.map_none] at this
        rw [init, this]
        cases npLoop D tab tseq eta n tmax 0 (npInit D) none with
        | error _ => rfl
        | ok r => exact T.finish eta verbose r

end NGood
end Trans
end CEM
