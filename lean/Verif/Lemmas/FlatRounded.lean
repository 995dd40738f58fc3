import Verif.Lemmas.Flat
import Verif.Model.RoundedNumpy
import Verif.Spec.Rounded

/-! # Coordinate planes are kept in rounded arithmetic -/

set_option linter.unusedSectionVars false
set_option linter.unusedSimpArgs false

namespace CEM.Flatness
open Diagram Spec

/-- Sets of positions and of vectors that the operations do not leave. -/
structure Kept {R : Type} [Field R] [LinearOrder R] (A : Arith R) (P V : Vec R → Prop) : Prop where
  zero : V 0
  neg : ∀ a, V a → V (-a)
  add : ∀ a b, V a → V b → V (A.vadd a b)
  scale : ∀ s a, V a → V (A.vscale s a)
  unit : ∀ a, V a → A.vlength a ≠ 0 →
    V ⟨A.div a.x (A.vlength a), A.div a.y (A.vlength a), A.div a.z (A.vlength a)⟩
  diff : ∀ a b, P a → P b → V (A.vsub a b)
  shift : ∀ a v, P a → V v → P (A.vadd a v)

namespace Rounded

variable {R : Type} [Field R] [LinearOrder R] {A : Arith R} {P V : Vec R → Prop}

theorem forE_kept {α σ : Type} {f : σ → α → Except PyErr σ} {Q : σ → Prop}
    (hf : ∀ s a s', f s a = .ok s' → Q s → Q s') :
    ∀ (l : List α) {s s' : σ}, forE f l s = .ok s' → Q s → Q s'
  | [], s, s', h, hs => by unfold forE at h; rw [← Except.ok.inj h]; exact hs
  | a :: l, s, s', h, hs => by
    unfold forE at h
    cases h1 : f s a with
    | error _ => simp [h1] at h
    | ok s1 =>
      simp only [h1] at h
      exact forE_kept hf l h (hf _ _ _ h1 hs)

theorem normalize (hV : Kept A P V) {a : Vec R} (h : V a) : V (A.vnormalize a) := by
  unfold Arith.vnormalize
  split_ifs with h0
  · exact h
  · exact hV.unit a h h0

theorem trailOut (hV : Kept A P V) {t q a b : Vec R} (ht : V t) (hq : V q) (ha : V a) (hb : V b) :
    V (flTrailVectorOut A (-t) q a b) :=
  hV.neg _ (hV.add _ _ (hV.add _ _ (hV.add _ _ (hV.add _ _ hV.zero (hV.neg _ ht)) hq) ha) hb)

/-! ## Plain solver -/

/-- The state of the plain solver is flat. -/
structure State (P V : Vec R → Prop) (s : EqState R) : Prop where
  xyz : Vals P s.xyz
  residual : Vals V s.residual
  reactions : Vals V s.reactions

/-- An array of numbers is known from its coordinates. -/
theorem coords_inj_ {a : NVec R} {p : Vec R} (h : a.coords = NVec.coords (some p)) : a = some p := by
  cases a with
  | none => simp [NVec.coords] at h
  | some v => simp only [NVec.coords, Vec.mk.injEq, Option.some.injEq] at h
              rw [Vec.ext h.1 h.2.1 h.2.2]

section plain
variable (hV : Kept A P V) {D : Diagram R}
include hV

theorem resultant {node : Int} {xyz : Dict Int (Vec R)} (hx : Vals P xyz) :
    ∀ (l : List (Int × Int)) (acc : Vec R) {v : Vec R}, V acc →
      flDeviationResultantLoop A D node xyz l acc = .ok v → V v
  | [], acc, v, ha, h => by
    unfold flDeviationResultantLoop at h; rw [← Except.ok.inj h]; exact ha
  | e :: l, acc, v, ha, h => by
    unfold flDeviationResultantLoop flIncomingEdgeVector at h
    cases h1 : xyz.getE (if e.1 ≠ node then e.1 else e.2) with
    | error _ => simp only [h1] at h; cases h
    | ok a =>
      cases h2 : xyz.getE node with
      | error _ => simp only [h1, h2] at h; cases h
      | ok b =>
        simp only [h1, h2] at h
        cases h3 : D.edges.getE e with
        | error _ => simp [h3] at h
        | ok d =>
          simp only [h3] at h
          exact resultant hx l _ (hV.add _ _ ha (hV.scale _ _
            (normalize hV (hV.diff _ _ (hx.getE h1) (hx.getE h2))))) h

theorem node {node : Int} {t : Vec R} {xyz : Dict Int (Vec R)} {ind : Bool} {v : Vec R}
    (hL : FlatLoads V D) (hx : Vals P xyz) (ht : V t)
    (h : flNodeEquilibrium A D node t xyz ind = .ok v) : V v := by
  unfold flNodeEquilibrium at h
  cases h1 : D.nodes.getE node with
  | error _ => simp [h1] at h
  | ok d =>
    have hq := hL _ _ (Dict.getE_eq_ok_iff.1 h1)
    simp only [h1] at h
    unfold flDirectResultant at h
    cases h2 : D.connectedDirectDeviationEdges node with
    | error _ => simp [h2] at h
    | ok es =>
      simp only [h2] at h
      cases h3 : flDeviationResultantLoop A D node xyz es 0 with
      | error _ => simp [h3] at h
      | ok rd =>
        have hrd := resultant hV hx es 0 hV.zero h3
        simp only [h3] at h
        cases ind with
        | false =>
          simp only [Bool.false_eq_true, if_false] at h
          rw [← Except.ok.inj h]
          exact trailOut hV ht hq hrd hV.zero
        | true =>
          simp only [if_true] at h
          unfold flIndirectResultant at h
          cases h4 : D.connectedIndirectDeviationEdges node with
          | error _ => simp [h4] at h
          | ok es' =>
            simp only [h4] at h
            cases h5 : flDeviationResultantLoop A D node xyz es' 0 with
            | error _ => simp [h5] at h
            | ok ri =>
              simp only [h5] at h
              rw [← Except.ok.inj h]
              exact trailOut hV ht hq hrd (resultant hV hx es' 0 hV.zero h5)

theorem step (hL : FlatLoads V D) {T : Dict Int (Dict Int Int)} {kmax : Option Int} {ind : Bool}
    {k : Int} {s s' : EqState R} {key : Int} (h : flStep A D T kmax ind k s key = .ok s')
    (hs : State P V s) : State P V s' := by
  unfold flStep at h
  cases h1 : T.getE key with
  | error _ => simp [h1] at h
  | ok seqs =>
    cases h2 : seqs.get? k with
    | none => simp only [h1, h2] at h; rw [← Except.ok.inj h]; exact hs
    | some node =>
      cases h3 : s.xyz.getE node with
      | error _ => simp [h1, h2, h3] at h
      | ok pos =>
        cases h4 : s.residual.getE node with
        | error _ => simp [h1, h2, h3, h4] at h
        | ok rin =>
          cases h5 : flNodeEquilibrium A D node rin s.xyz ind with
          | error _ => simp [h1, h2, h3, h4, h5] at h
          | ok rvec =>
            have hr := Rounded.node hV hL hs.xyz (hs.residual.getE h4) h5
            cases h6 : D.isNodeSupport node with
            | error _ => simp [h1, h2, h3, h4, h5, h6] at h
            | ok sup =>
              simp only [h1, h2, h3, h4, h5, h6] at h
              by_cases h7 : sup = true ∨ kmax = some k
              · rw [if_pos h7] at h
                rw [← Except.ok.inj h]
                exact ⟨hs.xyz, hs.residual, hs.reactions.set _ hr⟩
              · rw [if_neg h7] at h
                cases h8 : seqs.getE (k + 1) with
                | error _ => simp [h8] at h
                | ok next =>
                  simp only [h8] at h
                  generalize (if D.edges.has (node, next) = true then (node, next)
                    else (next, node)) = e at h
                  cases h9 : D.edges.getE e with
                  | error _ => simp [h9] at h
                  | ok d =>
                    simp only [h9] at h
                    rw [← Except.ok.inj h]
                    exact ⟨hs.xyz.set _ (hV.shift _ _ (hs.xyz.getE h3)
                      (hV.scale _ _ (normalize hV hr))), hs.residual.set _ hr, hs.reactions⟩

theorem sweep (hL : FlatLoads V D) {T : Dict Int (Dict Int Int)} {kmax : Option Int} {ind : Bool}
    {n : Int} {s s' : EqState R} (h : CEM.flSweep A D T kmax ind n s = .ok s') (hs : State P V s) :
    State P V s' := by
  unfold CEM.flSweep at h
  exact forE_kept (fun _ _ _ h hs => forE_kept (fun _ _ _ h hs => step hV hL h hs) _ h hs) _ h hs

theorem loop (hL : FlatLoads V D) {T : Dict Int (Dict Int Int)} {kmax : Option Int} {eta : R}
    {n : Int} : ∀ (fuel t : Nat) {s : EqState R} {i : Option (LoopInfo R)}
      {r : EqState R × Option (LoopInfo R)}, State P V s →
      flLoop A D T kmax eta n fuel t s i = .ok r → State P V r.1
  | 0, t, s, i, r, hs, h => by
    unfold flLoop at h; rw [← Except.ok.inj h]; exact hs
  | fuel + 1, t, s, i, r, hs, h => by
    unfold flLoop at h
    cases h1 : CEM.flSweep A D T kmax (t ≠ 0) n s with
    | error _ => simp only [h1] at h; cases h
    | ok s' =>
      have hs' := sweep hV hL h1 hs
      simp only [h1] at h
      split_ifs at h
      · exact loop hL _ _ hs' h
      · rw [← Except.ok.inj h]; exact hs'
      · exact loop hL _ _ hs' h

theorem plain (hL : FlatLoads V D) (w : D.nodes.keys.Nodup)
    (hD : ∀ n d, D.nodes.get? n = some d → P d.pos ∧ V d.reaction) {kmax : Option Int} {tmax : Nat}
    {eta : R} {verbose : Bool} {F : Diagram R}
    (h : flStaticEquilibrium A D kmax tmax eta verbose = .ok F) :
    ∀ n d, F.nodes.get? n = some d → P d.pos ∧ V d.reaction := by
  unfold flStaticEquilibrium at h
  cases hq : flEquilibriumState A D kmax tmax eta verbose with
  | error _ => simp [hq] at h
  | ok s =>
    simp only [hq] at h
    have hs : State P V s := by
      unfold flEquilibriumState at hq
      by_cases h0 : D.numberOfTrails = 0
      · rw [if_pos h0] at hq; cases hq
      rw [if_neg h0] at hq
      cases h1 : D.trailsSequences with
      | error _ => simp [h1] at hq
      | ok T =>
        cases h2 : D.numberOfSequences with
        | error _ => simp [h1, h2] at hq
        | ok n =>
          simp only [h1, h2] at hq
          by_cases hk : kmax.any (· < 0) = true
          · rw [if_pos hk] at hq; cases hq
          rw [if_neg hk] at hq
          cases h3 : flLoop A D T kmax eta n tmax 0 (initState D) none with
          | error _ => simp [h3] at hq
          | ok r =>
            simp only [h3] at hq
            have hr : State P V r.1 := by
              refine loop hV hL tmax 0 ⟨fun q hq => ?_, fun q hq => ?_, fun q hq => ?_⟩ h3
              · obtain ⟨p, hp, rfl⟩ := List.mem_map.1 hq
                exact (hD p.1 p.2 (Dict.get?_of_mem w hp)).1
              · obtain ⟨p, hp, rfl⟩ := List.mem_map.1 hq
                exact (hD p.1 p.2 (Dict.get?_of_mem w hp)).2
              · cases hq
            have : s = r.1 := by
              unfold eqFinish at hq
              repeat' split at hq
              all_goals first | exact (Except.ok.inj hq).symm | cases hq
            rw [this]; exact hr
    rw [← Except.ok.inj h]
    unfold flFormUpdate updateReactions updateCoords
    refine foldl_modify (P := fun d : NodeData R => P d.pos ∧ V d.reaction)
      (fun (b : Vec R) (d : NodeData R) => { d with reaction := b })
      (fun b a hb ha => ⟨ha.1, hb⟩) _ hs.reactions _ ?_
    exact foldl_modify (P := fun d : NodeData R => P d.pos ∧ V d.reaction)
      (fun (b : Vec R) (d : NodeData R) => { d with pos := b })
      (fun b a hb ha => ⟨hb, ha.2⟩) _ hs.xyz _ hD

end plain

/-! ## Numpy solver -/

/-- The state of the numpy solver is flat where it consists of numbers. -/
structure NumState (P V : Vec R → Prop) (s : NState R) : Prop where
  xyz : Vals (Maybe P) s.xyz
  residual : Vals (Maybe V) s.residual
  reactions : Vals (Maybe V) s.reactions

section numpy
variable {total : List R → R} (hV : Kept A P V) {D : Diagram R}
include hV

theorem maybe_add {a b : NVec R} (ha : Maybe V a) (hb : Maybe V b) :
    Maybe V (lift2 A.vadd a b) := by
  intro p hp
  cases a <;> cases b <;> simp only [lift2, Option.some.injEq, reduceCtorEq] at hp
  subst hp
  exact hV.add _ _ (ha _ rfl) (hb _ rfl)

theorem maybe_neg {a : NVec R} (ha : Maybe V a) : Maybe V (a.map (- ·)) := by
  intro p hp
  obtain ⟨b, rfl, rfl⟩ := Option.map_eq_some_iff.1 hp
  exact hV.neg _ (ha _ rfl)

theorem maybe_smul (t : R) {a : NVec R} (ha : Maybe V a) : Maybe V (a.map (A.vscale t)) := by
  intro p hp
  obtain ⟨b, rfl, rfl⟩ := Option.map_eq_some_iff.1 hp
  exact hV.scale _ _ (ha _ rfl)

theorem maybe_normalize {a : NVec R} (ha : Maybe V a) : Maybe V (flNormalizeNumpy A a) := by
  intro p hp
  cases a with
  | none => simp [flNormalizeNumpy] at hp
  | some v =>
    have hp : (if A.vlength v = 0 then none else some (⟨A.div v.x (A.vlength v),
      A.div v.y (A.vlength v), A.div v.z (A.vlength v)⟩ : Vec R)) = some p := hp
    split_ifs at hp with h0
    rw [← Option.some.inj hp]
    exact hV.unit v (ha _ rfl) h0

theorem maybe_direction {a : NVec R} (ha : Maybe V a) : Maybe V (flNpDirection A a) := by
  unfold flNpDirection
  have h := maybe_normalize hV ha
  cases hn : flNormalizeNumpy A a with
  | none => exact ha
  | some u => rw [hn] at h; exact h

theorem maybe_diff {a b : NVec R} (ha : Maybe P a)
    (hb : Maybe P b) : Maybe V (lift2 A.vsub a b) := by
  intro p hp
  cases a <;> cases b <;> simp only [lift2, Option.some.injEq, reduceCtorEq] at hp
  subst hp
  exact hV.diff _ _ (ha _ rfl) (hb _ rfl)

theorem maybe_shift {a v : NVec R} {l : Num R} (ha : Maybe P a)
    (hv : Maybe V v) : Maybe P (lift2 A.vadd a (lift2 A.vscale l v)) := by
  intro p hp
  cases a <;> cases l <;> cases v <;> simp only [lift2, Option.some.injEq, reduceCtorEq] at hp
  subst hp
  exact hV.shift _ _ (ha _ rfl) (hV.scale _ _ (hv _ rfl))

theorem maybe_zero : Maybe V (some (0 : Vec R)) := by
  intro p hp; rw [← Option.some.inj hp]; exact hV.zero

theorem npResultant_flat {node : Int} {xyz : Dict Int (NVec R)} {forces : Dict (Int × Int) R}
    (hx : Vals (Maybe P) xyz) :
    ∀ (l : List (Int × Int)) (acc : NVec R) {v : NVec R}, Maybe V acc →
      flNpResultant A node xyz forces l acc = .ok v → Maybe V v
  | [], acc, v, ha, h => by
    unfold flNpResultant at h; rw [← Except.ok.inj h]; exact ha
  | e :: l, acc, v, ha, h => by
    unfold flNpResultant flNpIncoming at h
    cases h3 : forces.getE e with
    | error _ => simp [h3] at h
    | ok f =>
      cases h1 : xyz.getE (if e.1 ≠ node then e.1 else e.2) with
      | error _ => simp only [h1, h3] at h; cases h
      | ok a =>
        cases h2 : xyz.getE node with
        | error _ => simp only [h1, h2, h3] at h; cases h
        | ok b =>
          simp only [h1, h2, h3] at h
          exact npResultant_flat hx l _ (maybe_add hV ha (maybe_smul hV _
            (maybe_normalize hV (maybe_diff hV (hx.getE h1) (hx.getE h2))))) h

theorem npStep_flat {tab : NTables R} (hL : Vals V tab.loads) {T : Dict Int (Dict Int Int)}
    {ind : Bool} {k : Int} {s s' : NState R} {key : Int} (h : flNpStep A D tab T ind k s key = .ok s')
    (hs : NumState P V s) : NumState P V s' := by
  unfold flNpStep at h
  cases h1 : T.getE key with
  | error _ => simp [h1] at h
  | ok seqs =>
    cases h2 : seqs.get? k with
    | none => simp only [h1, h2] at h; rw [← Except.ok.inj h]; exact hs
    | some node =>
      cases h3 : s.xyz.getE node with
      | error _ => simp [h1, h2, h3] at h
      | ok pos =>
        cases h4 : s.residual.getE node with
        | error _ => simp [h1, h2, h3, h4] at h
        | ok rin =>
          cases h5 : tab.loads.getE node with
          | error _ => simp [h1, h2, h3, h4, h5] at h
          | ok q =>
            cases h6 : tab.direct.getE node with
            | error _ => simp [h1, h2, h3, h4, h5, h6] at h
            | ok es =>
              simp only [h1, h2, h3, h4, h5, h6] at h
              cases h7 : flNpResultant A node s.xyz tab.forces es (some 0) with
              | error _ => simp [h7] at h
              | ok rd =>
                have hrd := npResultant_flat hV hs.xyz es _ (maybe_zero hV) h7
                simp only [h7] at h
                cases h8 : flNpIndirect A tab ind node s.xyz with
                | error _ => simp [h8] at h
                | ok ri =>
                  have hri : Maybe V ri := by
                    unfold flNpIndirect at h8
                    split_ifs at h8
                    · cases h9 : tab.indirect.getE node with
                      | error _ => simp [h9] at h8
                      | ok es' =>
                        simp only [h9] at h8
                        exact npResultant_flat hV hs.xyz es' _ (maybe_zero hV) h8
                    · rw [← Except.ok.inj h8]; exact maybe_zero hV
                  simp only [h8] at h
                  have hq : Maybe V (some q) := by
                    intro p hp; rw [← Option.some.inj hp]; exact hL.getE h5
                  have hr : Maybe V (flNpNodeEquilibrium A rin (some q) rd ri) :=
                    maybe_neg hV (maybe_add hV (maybe_add hV (maybe_add hV
                      (maybe_neg hV (hs.residual.getE h4)) hq) hrd) hri)
                  generalize flNpNodeEquilibrium A rin (some q) rd ri = rvec at h hr
                  cases h9 : D.isNodeSupport node with
                  | error _ => simp [h9] at h
                  | ok sup =>
                    simp only [h9] at h
                    by_cases hsup : sup = true
                    · rw [if_pos hsup] at h
                      rw [← Except.ok.inj h]
                      exact ⟨hs.xyz, hs.residual, hs.reactions.set _ hr⟩
                    · rw [if_neg hsup] at h
                      cases h10 : seqs.getE (k + 1) with
                      | error _ => simp [h10] at h
                      | ok next =>
                        simp only [h10] at h
                        generalize (if (node, next) ∈ tab.edgeKeys then (node, next)
                          else (next, node)) = e at h
                        cases h11 : tab.lengths.getE e with
                        | error _ => simp [h11] at h
                        | ok l =>
                          simp only [h11] at h
                          rw [← Except.ok.inj h]
                          exact ⟨hs.xyz.set _ (maybe_shift hV (hs.xyz.getE h3)
                            (maybe_direction hV hr)), hs.residual.set _ hr, hs.reactions⟩

theorem npLoop_flat {tab : NTables R} (hL : Vals V tab.loads) {T : Dict Int (Dict Int Int)}
    {eta : R} {n : Int} : ∀ (fuel t : Nat) {s : NState R} {i : Option (NLoopInfo R)}
      {r : NState R × Option (NLoopInfo R)}, NumState P V s →
      flNpLoop A total D tab T eta n fuel t s i = .ok r → NumState P V r.1
  | 0, t, s, i, r, hs, h => by
    unfold flNpLoop at h; rw [← Except.ok.inj h]; exact hs
  | fuel + 1, t, s, i, r, hs, h => by
    unfold flNpLoop at h
    cases h1 : flNpSweep A D tab T (t > 0) n s with
    | error _ => simp only [h1] at h; cases h
    | ok s' =>
      have hs' : NumState P V s' := by
        unfold flNpSweep at h1
        exact forE_inv_mem (P := NumState P V) _ (fun _ _ _ _ h hs =>
          forE_inv_mem (P := NumState P V) _ (fun _ _ _ _ h hs => npStep_flat hV hL h hs) h hs)
          h1 hs
      simp only [h1] at h
      split_ifs at h
      · exact npLoop_flat hL _ _ hs' h
      · rw [← Except.ok.inj h]; exact hs'
      · exact npLoop_flat hL _ _ hs' h

theorem numpy (hL : FlatLoads V D) (w : D.nodes.keys.Nodup)
    (hD : ∀ n d, D.nodes.get? n = some d → P d.pos ∧ V d.reaction) {tmax : Nat}
    {eta : R} {verbose : Bool} {F : Diagram (Num R)}
    (h : flStaticEquilibriumNumpy A total D tmax eta verbose = .ok F) :
    ∀ n d, F.nodes.get? n = some d → (∀ p, d.pos = NVec.coords (some p) → P p) ∧
      ∀ r, d.reaction = NVec.coords (some r) → V r := by
  unfold flStaticEquilibriumNumpy at h
  cases hq : flNpEquilibriumState A total D tmax eta verbose with
  | error _ => simp [hq] at h
  | ok s =>
    simp only [hq] at h
    have hs : NumState P V s := by
      unfold flNpEquilibriumState at hq
      by_cases h0 : D.numberOfTrails = 0
      · rw [if_pos h0] at hq; cases hq
      rw [if_neg h0] at hq
      cases h1 : D.trailsSequences with
      | error _ => simp [h1] at hq
      | ok T =>
        cases h2 : npTables D with
        | error _ => simp [h1, h2] at hq
        | ok tab =>
          simp only [h1, h2] at hq
          by_cases hk : tmax = 0
          · rw [if_pos hk] at hq; cases hq
          rw [if_neg hk] at hq
          cases h3 : D.numberOfSequences with
          | error _ => simp [h3] at hq
          | ok n =>
            simp only [h3] at hq
            cases h4 : flNpLoop A total D tab T eta n tmax 0 (npInit D) none with
            | error _ => simp [h4] at hq
            | ok r =>
              simp only [h4] at hq
              have hl : Vals V tab.loads := by
                unfold npTables at h2
                repeat' split at h2
                all_goals try cases h2
                intro q hq
                obtain ⟨p, hp, rfl⟩ := List.mem_map.1 hq
                exact hL p.1 p.2 (Dict.get?_of_mem w hp)
              have hr : NumState P V r.1 := by
                refine npLoop_flat hV hl tmax 0 ⟨fun q hq => ?_, fun q hq => ?_, fun q hq => ?_⟩ h4
                · obtain ⟨p, hp, rfl⟩ := List.mem_map.1 hq
                  intro v hv
                  rw [← Option.some.inj hv]
                  exact (hD p.1 p.2 (Dict.get?_of_mem w hp)).1
                · obtain ⟨p, hp, rfl⟩ := List.mem_map.1 hq
                  intro v hv
                  rw [← Option.some.inj hv]
                  exact (hD p.1 p.2 (Dict.get?_of_mem w hp)).2
                · cases hq
              have : s = r.1 := by
                unfold npFinish at hq
                repeat' split at hq
                all_goals first | exact (Except.ok.inj hq).symm | cases hq
              rw [this]; exact hr
    rw [← Except.ok.inj h]
    unfold flNpFormUpdate
    refine foldl_modify (P := fun d : NodeData (Num R) =>
        (∀ p, d.pos = NVec.coords (some p) → P p) ∧
        ∀ r, d.reaction = NVec.coords (some r) → V r)
      (fun (b : NVec R) (d : NodeData (Num R)) => { d with reaction := b.coords })
      (fun b a hb ha => ⟨ha.1, fun r hr => hb r (coords_inj_ hr)⟩) _ hs.reactions _ ?_
    refine foldl_modify (P := fun d : NodeData (Num R) =>
        (∀ p, d.pos = NVec.coords (some p) → P p) ∧
        ∀ r, d.reaction = NVec.coords (some r) → V r)
      (fun (b : NVec R) (d : NodeData (Num R)) => { d with pos := b.coords })
      (fun b a hb ha => ⟨fun r hr => hb r (coords_inj_ hr), ha.2⟩) _ hs.xyz _ ?_
    intro n d hd
    have := (get?_map_val D.nodes (fun d : NodeData R => d.num) n).symm.trans hd
    obtain ⟨e, he, rfl⟩ := Option.map_eq_some_iff.1 this
    refine ⟨fun p hp => ?_, fun p hp => ?_⟩
    · rw [← Option.some.inj (coords_inj_ hp)]; exact (hD n e he).1
    · rw [← Option.some.inj (coords_inj_ hp)]; exact (hD n e he).2

end numpy

end Rounded

/-- Operations of a bounded relative error keep the planes of a constant coordinate. -/
theorem kept_coordinate (c : Coordinate) {A : Arith ℝ} {u : ℝ} (hA : Precise A u) {t : ℝ}
    (ht : A.add t 0 = t) : Kept A (fun p => c.of p = t) fun v => c.of v = 0 := by
  have hadd : A.add 0 0 = 0 := by
    have := hA.add 0 0
    simpa using this
  have hsub : A.sub t t = 0 := by
    have := hA.sub t t
    simpa using this
  have hmul : ∀ s, A.mul s 0 = 0 := by
    intro s
    have := hA.mul s 0
    simpa using this
  have hdiv : ∀ l, l ≠ 0 → A.div 0 l = 0 := by
    intro l hl
    have := hA.div 0 l hl
    simpa using this
  cases c <;>
  exact ⟨rfl, fun a ha => by simp [Coordinate.of] at *; exact ha,
    fun a b ha hb => by simp only [Coordinate.of, Arith.vadd] at *; rw [ha, hb, hadd],
    fun s a ha => by simp only [Coordinate.of, Arith.vscale] at *; rw [ha, hmul],
    fun a ha h0 => by simp only [Coordinate.of] at *; rw [ha, hdiv _ h0],
    fun a b ha hb => by simp only [Coordinate.of, Arith.vsub] at *; rw [ha, hb, hsub],
    fun a v ha hv => by simp only [Coordinate.of, Arith.vadd] at *; rw [ha, hv, ht]⟩

end CEM.Flatness
