import Verif.Spec.Flat
import Verif.Lemmas.Stray
import Verif.Lemmas.Idle
import Verif.Props.Transform

/-! # Flatness is kept by the solvers -/

set_option linter.unusedSectionVars false
set_option linter.unusedSimpArgs false

namespace CEM.Flatness
open Diagram Spec

variable {R : Type} [Field R] [LinearOrder R] [PySqrt R]

section algebra
variable {V : Vec R → Prop} (hV : Directions V)
include hV

theorem neg {a : Vec R} (h : V a) : V (-a) := by
  have : -a = (-1 : R) • a := by ext <;> simp
  rw [this]; exact hV.smul _ _ h

theorem diff {a b o : Vec R} (ha : V (a - o)) (hb : V (b - o)) : V (a - b) := by
  have : a - b = (a - o) + -(b - o) := by ext <;> simp
  rw [this]; exact hV.add _ _ ha (neg hV hb)

theorem shift {a o v : Vec R} (ha : V (a - o)) (hv : V v) : V (a + v - o) := by
  have : a + v - o = (a - o) + v := by ext <;> simp <;> ring
  rw [this]; exact hV.add _ _ ha hv

theorem normalize {a : Vec R} (h : V a) : V (Vec.normalize a) := by
  rw [Props.normalize_smul]
  split_ifs
  · exact h
  · exact hV.smul _ _ h

theorem trailOut {t q a b : Vec R} (ht : V t) (hq : V q) (ha : V a) (hb : V b) :
    V (trailVectorOut (-t) q a b) :=
  neg hV (hV.add _ _ (hV.add _ _ (hV.add _ _ (hV.add _ _ hV.zero (neg hV ht)) hq) ha) hb)

end algebra

/-- All values of a dictionary have the property. -/
def Vals {K A : Type} (P : A → Prop) (d : Dict K A) : Prop := ∀ q ∈ d, P q.2

theorem Vals.set {K A : Type} [DecidableEq K] {P : A → Prop} {d : Dict K A} (h : Vals P d) (k : K)
    {v : A} (hv : P v) : Vals P (d.set k v) := by
  induction d with
  | nil => intro q hq; simp only [Dict.set, List.mem_singleton] at hq; subst hq; exact hv
  | cons p d ih =>
    obtain ⟨a, b⟩ := p
    intro q hq
    unfold Dict.set at hq
    split_ifs at hq
    · rcases List.mem_cons.1 hq with rfl | hq
      · exact hv
      · exact h q (List.mem_cons_of_mem _ hq)
    · rcases List.mem_cons.1 hq with rfl | hq
      · exact h _ List.mem_cons_self
      · exact ih (fun q hq => h q (List.mem_cons_of_mem _ hq)) q hq

theorem Vals.get {K A : Type} [DecidableEq K] {P : A → Prop} {d : Dict K A} (h : Vals P d) {k : K}
    {v : A} (hv : d.get? k = some v) : P v := h (k, v) (Dict.mem_of_get? hv)

theorem Vals.getE {K A : Type} [DecidableEq K] {P : A → Prop} {d : Dict K A} (h : Vals P d) {k : K}
    {v : A} (hv : d.getE k = .ok v) : P v := h.get (Dict.getE_eq_ok_iff.1 hv)

/-- Updating the values of a dictionary by a list of changes. -/
theorem foldl_modify {K A B : Type} [DecidableEq K] {P : A → Prop} {Q : B → Prop}
    (f : B → A → A) (hf : ∀ b a, Q b → P a → P (f b a)) (l : Dict K B) (hl : Vals Q l)
    (d : Dict K A) (hd : ∀ k a, d.get? k = some a → P a) :
    ∀ k a, (l.foldl (fun ns p => ns.modify p.1 (f p.2)) d).get? k = some a → P a := by
  induction l generalizing d with
  | nil => exact hd
  | cons p l ih =>
    rw [List.foldl_cons]
    refine ih (fun q hq => hl q (List.mem_cons_of_mem _ hq)) _ fun k a h => ?_
    rw [Dict.get?_modify] at h
    split_ifs at h
    · obtain ⟨b, hb, rfl⟩ := Option.map_eq_some_iff.1 h
      exact hf _ _ (hl p List.mem_cons_self) (hd _ _ hb)
    · exact hd _ _ h

/-! ## Plain solver -/

/-- The state of the plain solver is flat. -/
structure State (V : Vec R → Prop) (o : Vec R) (s : EqState R) : Prop where
  xyz : Vals (fun p => V (p - o)) s.xyz
  residual : Vals V s.residual
  reactions : Vals V s.reactions

section plain
variable {V : Vec R → Prop} (hV : Directions V) {o : Vec R} {D : Diagram R}
include hV

theorem resultant {node : Int} {xyz : Dict Int (Vec R)} (hx : Vals (fun p => V (p - o)) xyz) :
    ∀ (l : List (Int × Int)) (acc : Vec R) {v : Vec R}, V acc →
      deviationResultantLoop D node xyz l acc = .ok v → V v
  | [], acc, v, ha, h => by
    unfold deviationResultantLoop at h; rw [← Except.ok.inj h]; exact ha
  | e :: l, acc, v, ha, h => by
    unfold deviationResultantLoop incomingEdgeVector at h
    cases h1 : xyz.getE (if e.1 ≠ node then e.1 else e.2) with
    | error _ => simp only [h1] at h; cases h
    | ok a =>
      cases h2 : xyz.getE node with
      | error _ => simp only [h1, h2] at h; cases h
      | ok b =>
        simp only [h1, h2] at h
        cases h3 : D.edges.getE e with
        | error _ => simp [h3] at h
        | ok d =>
          simp only [h3] at h
          exact resultant hx l _ (hV.add _ _ ha (hV.smul _ _
            (normalize hV (diff hV (hx.getE h1) (hx.getE h2))))) h

theorem node {node : Int} {t : Vec R} {xyz : Dict Int (Vec R)} {ind : Bool} {v : Vec R}
    (hL : FlatLoads V D) (hx : Vals (fun p => V (p - o)) xyz) (ht : V t)
    (h : nodeEquilibrium D node t xyz ind = .ok v) : V v := by
  unfold nodeEquilibrium at h
  cases h1 : D.nodes.getE node with
  | error _ => simp [h1] at h
  | ok d =>
    have hq := hL _ _ (Dict.getE_eq_ok_iff.1 h1)
    simp only [h1] at h
    unfold directResultant at h
    cases h2 : D.connectedDirectDeviationEdges node with
    | error _ => simp [h2] at h
    | ok es =>
      simp only [h2] at h
      cases h3 : deviationResultantLoop D node xyz es 0 with
      | error _ => simp [h3] at h
      | ok rd =>
        have hrd := resultant hV hx es 0 hV.zero h3
        simp only [h3] at h
        cases ind with
        | false =>
          simp only [Bool.false_eq_true, if_false] at h
          rw [← Except.ok.inj h]
          exact trailOut hV ht hq hrd hV.zero
        | true =>
          simp only [if_true] at h
          unfold indirectResultant at h
          cases h4 : D.connectedIndirectDeviationEdges node with
          | error _ => simp [h4] at h
          | ok es' =>
            simp only [h4] at h
            cases h5 : deviationResultantLoop D node xyz es' 0 with
            | error _ => simp [h5] at h
            | ok ri =>
              simp only [h5] at h
              rw [← Except.ok.inj h]
              exact trailOut hV ht hq hrd (resultant hV hx es' 0 hV.zero h5)

theorem step (hL : FlatLoads V D) {T : Dict Int (Dict Int Int)} {kmax : Option Int} {ind : Bool}
    {k : Int} {s s' : EqState R} {key : Int} (h : eqStep D T kmax ind k s key = .ok s')
    (hs : State V o s) : State V o s' := by
  unfold eqStep at h
  cases h1 : T.getE key with
  | error _ => simp [h1] at h
  | ok seqs =>
    cases h2 : seqs.get? k with
    | none => simp only [h1, h2] at h; rw [← Except.ok.inj h]; exact hs
    | some node =>
      cases h3 : s.xyz.getE node with
      | error _ => simp [h1, h2, h3] at h
      | ok pos =>
        cases h4 : s.residual.getE node with
        | error _ => simp [h1, h2, h3, h4] at h
        | ok rin =>
          cases h5 : nodeEquilibrium D node rin s.xyz ind with
          | error _ => simp [h1, h2, h3, h4, h5] at h
          | ok rvec =>
            have hr := Flatness.node hV hL hs.xyz (hs.residual.getE h4) h5
            cases h6 : D.isNodeSupport node with
            | error _ => simp [h1, h2, h3, h4, h5, h6] at h
            | ok sup =>
              simp only [h1, h2, h3, h4, h5, h6] at h
              by_cases h7 : sup = true ∨ kmax = some k
              · rw [if_pos h7] at h
                rw [← Except.ok.inj h]
                exact ⟨hs.xyz, hs.residual, hs.reactions.set _ hr⟩
              · rw [if_neg h7] at h
                cases h8 : seqs.getE (k + 1) with
                | error _ => simp [h8] at h
                | ok next =>
                  simp only [h8] at h
                  generalize (if D.edges.has (node, next) = true then (node, next)
                    else (next, node)) = e at h
                  cases h9 : D.edges.getE e with
                  | error _ => simp [h9] at h
                  | ok d =>
                    simp only [h9] at h
                    rw [← Except.ok.inj h]
                    exact ⟨hs.xyz.set _ (shift hV (hs.xyz.getE h3)
                      (hV.smul _ _ (normalize hV hr))), hs.residual.set _ hr, hs.reactions⟩

theorem sweep (hL : FlatLoads V D) {T : Dict Int (Dict Int Int)} {kmax : Option Int} {ind : Bool}
    {n : Int} {s s' : EqState R} (h : CEM.sweep D T kmax ind n s = .ok s') (hs : State V o s) :
    State V o s' := by
  unfold CEM.sweep at h
  exact Trans.Good.forE_inv (P := State V o) (fun _ _ _ h hs =>
    Trans.Good.forE_inv (P := State V o) (fun _ _ _ h hs => step hV hL h hs) _ h hs) _ h hs

theorem loop (hL : FlatLoads V D) {T : Dict Int (Dict Int Int)} {kmax : Option Int} {eta : R}
    {n : Int} : ∀ (fuel t : Nat) {s : EqState R} {i : Option (LoopInfo R)}
      {r : EqState R × Option (LoopInfo R)}, State V o s →
      eqLoop D T kmax eta n fuel t s i = .ok r → State V o r.1
  | 0, t, s, i, r, hs, h => by
    unfold eqLoop at h; rw [← Except.ok.inj h]; exact hs
  | fuel + 1, t, s, i, r, hs, h => by
    unfold eqLoop at h
    cases h1 : CEM.sweep D T kmax (t ≠ 0) n s with
    | error _ => simp only [h1] at h; cases h
    | ok s' =>
      have hs' := sweep hV hL h1 hs
      simp only [h1] at h
      split_ifs at h
      · exact loop hL _ _ hs' h
      · rw [← Except.ok.inj h]; exact hs'
      · exact loop hL _ _ hs' h

theorem plain (hL : FlatLoads V D) (w : D.nodes.keys.Nodup) (hD : Flat V o D) {kmax : Option Int} {tmax : Nat}
    {eta : R} {verbose : Bool} {F : Diagram R}
    (h : staticEquilibrium D kmax tmax eta verbose = .ok F) : Flat V o F := by
  unfold staticEquilibrium at h
  cases hq : equilibriumState D kmax tmax eta verbose with
  | error _ => simp [hq] at h
  | ok s =>
    simp only [hq] at h
    have hs : State V o s := by
      unfold equilibriumState at hq
      by_cases h0 : D.numberOfTrails = 0
      · rw [if_pos h0] at hq; cases hq
      rw [if_neg h0] at hq
      cases h1 : D.trailsSequences with
      | error _ => simp [h1] at hq
      | ok T =>
        cases h2 : D.numberOfSequences with
        | error _ => simp [h1, h2] at hq
        | ok n =>
          simp only [h1, h2] at hq
          by_cases hk : kmax.any (· < 0) = true
          · rw [if_pos hk] at hq; cases hq
          rw [if_neg hk] at hq
          cases h3 : eqLoop D T kmax eta n tmax 0 (initState D) none with
          | error _ => simp [h3] at hq
          | ok r =>
            simp only [h3] at hq
            have hr : State V o r.1 := by
              refine loop hV hL tmax 0 ⟨fun q hq => ?_, fun q hq => ?_, fun q hq => ?_⟩ h3
              · obtain ⟨p, hp, rfl⟩ := List.mem_map.1 hq
                exact (hD p.1 p.2 (Dict.get?_of_mem w hp)).1
              · obtain ⟨p, hp, rfl⟩ := List.mem_map.1 hq
                exact (hD p.1 p.2 (Dict.get?_of_mem w hp)).2
              · cases hq
            have : s = r.1 := by
              unfold eqFinish at hq
              repeat' split at hq
              all_goals first | exact (Except.ok.inj hq).symm | cases hq
            rw [this]; exact hr
    rw [← Except.ok.inj h]
    unfold formUpdate updateReactions updateCoords Flat
    refine foldl_modify (P := fun d : NodeData R => V (d.pos - o) ∧ V d.reaction)
      (fun (b : Vec R) (d : NodeData R) => { d with reaction := b })
      (fun b a hb ha => ⟨ha.1, hb⟩) _ hs.reactions _ ?_
    exact foldl_modify (P := fun d : NodeData R => V (d.pos - o) ∧ V d.reaction)
      (fun (b : Vec R) (d : NodeData R) => { d with pos := b })
      (fun b a hb ha => ⟨hb, ha.2⟩) _ hs.xyz _ hD

end plain

/-! ## Numpy solver -/

/-- The number, where there is one, has the property. -/
def Maybe {A : Type} (P : A → Prop) (v : Option A) : Prop := ∀ p, v = some p → P p

/-- The state of the numpy solver is flat where it consists of numbers. -/
structure NumState (V : Vec R → Prop) (o : Vec R) (s : NState R) : Prop where
  xyz : Vals (Maybe fun p => V (p - o)) s.xyz
  residual : Vals (Maybe V) s.residual
  reactions : Vals (Maybe V) s.reactions

section numpy
variable {V : Vec R → Prop} (hV : Directions V) {o : Vec R} {D : Diagram R}
include hV

theorem maybe_add {a b : NVec R} (ha : Maybe V a) (hb : Maybe V b) :
    Maybe V (lift2 (· + ·) a b) := by
  intro p hp
  cases a <;> cases b <;> simp only [lift2, Option.some.injEq, reduceCtorEq] at hp
  subst hp
  exact hV.add _ _ (ha _ rfl) (hb _ rfl)

theorem maybe_neg {a : NVec R} (ha : Maybe V a) : Maybe V (a.map (- ·)) := by
  intro p hp
  obtain ⟨b, rfl, rfl⟩ := Option.map_eq_some_iff.1 hp
  exact neg hV (ha _ rfl)

theorem maybe_smul (t : R) {a : NVec R} (ha : Maybe V a) : Maybe V (a.map (t • ·)) := by
  intro p hp
  obtain ⟨b, rfl, rfl⟩ := Option.map_eq_some_iff.1 hp
  exact hV.smul _ _ (ha _ rfl)

theorem maybe_normalize {a : NVec R} (ha : Maybe V a) : Maybe V (normalizeNumpy a) := by
  intro p hp
  cases a with
  | none => simp [normalizeNumpy] at hp
  | some v =>
    have hp : (if Vec.length v = 0 then none else some (⟨v.x / Vec.length v, v.y / Vec.length v,
      v.z / Vec.length v⟩ : Vec R)) = some p := hp
    split_ifs at hp
    rw [← Option.some.inj hp]
    have : (⟨v.x / Vec.length v, v.y / Vec.length v, v.z / Vec.length v⟩ : Vec R) =
        (Vec.length v)⁻¹ • v := by ext <;> simp <;> ring
    rw [this]; exact hV.smul _ _ (ha _ rfl)

theorem maybe_direction {a : NVec R} (ha : Maybe V a) : Maybe V (npDirection a) := by
  unfold npDirection
  have h := maybe_normalize hV ha
  cases hn : normalizeNumpy a with
  | none => exact ha
  | some u => rw [hn] at h; exact h

theorem maybe_diff {a b : NVec R} (ha : Maybe (fun p => V (p - o)) a)
    (hb : Maybe (fun p => V (p - o)) b) : Maybe V (lift2 (· - ·) a b) := by
  intro p hp
  cases a <;> cases b <;> simp only [lift2, Option.some.injEq, reduceCtorEq] at hp
  subst hp
  exact diff hV (ha _ rfl) (hb _ rfl)

theorem maybe_shift {a v : NVec R} {l : Num R} (ha : Maybe (fun p => V (p - o)) a)
    (hv : Maybe V v) : Maybe (fun p => V (p - o)) (lift2 (· + ·) a (lift2 (· • ·) l v)) := by
  intro p hp
  cases a <;> cases l <;> cases v <;> simp only [lift2, Option.some.injEq, reduceCtorEq] at hp
  subst hp
  exact shift hV (ha _ rfl) (hV.smul _ _ (hv _ rfl))

theorem maybe_zero : Maybe V (some (0 : Vec R)) := by
  intro p hp; rw [← Option.some.inj hp]; exact hV.zero

theorem npResultant_flat {node : Int} {xyz : Dict Int (NVec R)} {forces : Dict (Int × Int) R}
    (hx : Vals (Maybe fun p => V (p - o)) xyz) :
    ∀ (l : List (Int × Int)) (acc : NVec R) {v : NVec R}, Maybe V acc →
      npResultant node xyz forces l acc = .ok v → Maybe V v
  | [], acc, v, ha, h => by
    unfold npResultant at h; rw [← Except.ok.inj h]; exact ha
  | e :: l, acc, v, ha, h => by
    unfold npResultant npIncoming at h
    cases h3 : forces.getE e with
    | error _ => simp [h3] at h
    | ok f =>
      cases h1 : xyz.getE (if e.1 ≠ node then e.1 else e.2) with
      | error _ => simp only [h1, h3] at h; cases h
      | ok a =>
        cases h2 : xyz.getE node with
        | error _ => simp only [h1, h2, h3] at h; cases h
        | ok b =>
          simp only [h1, h2, h3] at h
          exact npResultant_flat hx l _ (maybe_add hV ha (maybe_smul hV _
            (maybe_normalize hV (maybe_diff hV (hx.getE h1) (hx.getE h2))))) h

theorem npStep_flat {tab : NTables R} (hL : Vals V tab.loads) {T : Dict Int (Dict Int Int)}
    {ind : Bool} {k : Int} {s s' : NState R} {key : Int} (h : npStep D tab T ind k s key = .ok s')
    (hs : NumState V o s) : NumState V o s' := by
  unfold npStep at h
  cases h1 : T.getE key with
  | error _ => simp [h1] at h
  | ok seqs =>
    cases h2 : seqs.get? k with
    | none => simp only [h1, h2] at h; rw [← Except.ok.inj h]; exact hs
    | some node =>
      cases h3 : s.xyz.getE node with
      | error _ => simp [h1, h2, h3] at h
      | ok pos =>
        cases h4 : s.residual.getE node with
        | error _ => simp [h1, h2, h3, h4] at h
        | ok rin =>
          cases h5 : tab.loads.getE node with
          | error _ => simp [h1, h2, h3, h4, h5] at h
          | ok q =>
            cases h6 : tab.direct.getE node with
            | error _ => simp [h1, h2, h3, h4, h5, h6] at h
            | ok es =>
              simp only [h1, h2, h3, h4, h5, h6] at h
              cases h7 : npResultant node s.xyz tab.forces es (some 0) with
              | error _ => simp [h7] at h
              | ok rd =>
                have hrd := npResultant_flat hV hs.xyz es _ (maybe_zero hV) h7
                simp only [h7] at h
                cases h8 : npIndirect tab ind node s.xyz with
                | error _ => simp [h8] at h
                | ok ri =>
                  have hri : Maybe V ri := by
                    unfold npIndirect at h8
                    split_ifs at h8
                    · cases h9 : tab.indirect.getE node with
                      | error _ => simp [h9] at h8
                      | ok es' =>
                        simp only [h9] at h8
                        exact npResultant_flat hV hs.xyz es' _ (maybe_zero hV) h8
                    · rw [← Except.ok.inj h8]; exact maybe_zero hV
                  simp only [h8] at h
                  have hq : Maybe V (some q) := by
                    intro p hp; rw [← Option.some.inj hp]; exact hL.getE h5
                  have hr : Maybe V (npNodeEquilibrium rin (some q) rd ri) :=
                    maybe_neg hV (maybe_add hV (maybe_add hV (maybe_add hV
                      (maybe_neg hV (hs.residual.getE h4)) hq) hrd) hri)
                  generalize npNodeEquilibrium rin (some q) rd ri = rvec at h hr
                  cases h9 : D.isNodeSupport node with
                  | error _ => simp [h9] at h
                  | ok sup =>
                    simp only [h9] at h
                    by_cases hsup : sup = true
                    · rw [if_pos hsup] at h
                      rw [← Except.ok.inj h]
                      exact ⟨hs.xyz, hs.residual, hs.reactions.set _ hr⟩
                    · rw [if_neg hsup] at h
                      cases h10 : seqs.getE (k + 1) with
                      | error _ => simp [h10] at h
                      | ok next =>
                        simp only [h10] at h
                        generalize (if (node, next) ∈ tab.edgeKeys then (node, next)
                          else (next, node)) = e at h
                        cases h11 : tab.lengths.getE e with
                        | error _ => simp [h11] at h
                        | ok l =>
                          simp only [h11] at h
                          rw [← Except.ok.inj h]
                          exact ⟨hs.xyz.set _ (maybe_shift hV (hs.xyz.getE h3)
                            (maybe_direction hV hr)), hs.residual.set _ hr, hs.reactions⟩

theorem npLoop_flat {tab : NTables R} (hL : Vals V tab.loads) {T : Dict Int (Dict Int Int)}
    {eta : R} {n : Int} : ∀ (fuel t : Nat) {s : NState R} {i : Option (NLoopInfo R)}
      {r : NState R × Option (NLoopInfo R)}, NumState V o s →
      npLoop D tab T eta n fuel t s i = .ok r → NumState V o r.1
  | 0, t, s, i, r, hs, h => by
    unfold npLoop at h; rw [← Except.ok.inj h]; exact hs
  | fuel + 1, t, s, i, r, hs, h => by
    unfold npLoop at h
    cases h1 : npSweep D tab T (t > 0) n s with
    | error _ => simp only [h1] at h; cases h
    | ok s' =>
      have hs' : NumState V o s' := by
        unfold npSweep at h1
        exact forE_inv_mem (P := NumState V o) _ (fun _ _ _ _ h hs =>
          forE_inv_mem (P := NumState V o) _ (fun _ _ _ _ h hs => npStep_flat hV hL h hs) h hs)
          h1 hs
      simp only [h1] at h
      split_ifs at h
      · exact npLoop_flat hL _ _ hs' h
      · rw [← Except.ok.inj h]; exact hs'
      · exact npLoop_flat hL _ _ hs' h

theorem coords_inj {a : NVec R} {p : Vec R} (h : a.coords = NVec.coords (some p)) : a = some p := by
  cases a with
  | none => simp [NVec.coords] at h
  | some v => simp only [NVec.coords, Vec.mk.injEq, Option.some.injEq] at h
              rw [Vec.ext h.1 h.2.1 h.2.2]

theorem numpy (hL : FlatLoads V D) (w : D.nodes.keys.Nodup) (hD : Flat V o D) {tmax : Nat}
    {eta : R} {verbose : Bool} {F : Diagram (Num R)}
    (h : staticEquilibriumNumpy D tmax eta verbose = .ok F) : FlatNum V o F := by
  unfold staticEquilibriumNumpy at h
  cases hq : npEquilibriumState D tmax eta verbose with
  | error _ => simp [hq] at h
  | ok s =>
    simp only [hq] at h
    have hs : NumState V o s := by
      unfold npEquilibriumState at hq
      by_cases h0 : D.numberOfTrails = 0
      · rw [if_pos h0] at hq; cases hq
      rw [if_neg h0] at hq
      cases h1 : D.trailsSequences with
      | error _ => simp [h1] at hq
      | ok T =>
        cases h2 : npTables D with
        | error _ => simp [h1, h2] at hq
        | ok tab =>
          simp only [h1, h2] at hq
          by_cases hk : tmax = 0
          · rw [if_pos hk] at hq; cases hq
          rw [if_neg hk] at hq
          cases h3 : D.numberOfSequences with
          | error _ => simp [h3] at hq
          | ok n =>
            simp only [h3] at hq
            cases h4 : npLoop D tab T eta n tmax 0 (npInit D) none with
            | error _ => simp [h4] at hq
            | ok r =>
              simp only [h4] at hq
              have hl : Vals V tab.loads := by
                unfold npTables at h2
                repeat' split at h2
                all_goals try cases h2
                intro q hq
                obtain ⟨p, hp, rfl⟩ := List.mem_map.1 hq
                exact hL p.1 p.2 (Dict.get?_of_mem w hp)
              have hr : NumState V o r.1 := by
                refine npLoop_flat hV hl tmax 0 ⟨fun q hq => ?_, fun q hq => ?_, fun q hq => ?_⟩ h4
                · obtain ⟨p, hp, rfl⟩ := List.mem_map.1 hq
                  intro v hv
                  rw [← Option.some.inj hv]
                  exact (hD p.1 p.2 (Dict.get?_of_mem w hp)).1
                · obtain ⟨p, hp, rfl⟩ := List.mem_map.1 hq
                  intro v hv
                  rw [← Option.some.inj hv]
                  exact (hD p.1 p.2 (Dict.get?_of_mem w hp)).2
                · cases hq
              have : s = r.1 := by
                unfold npFinish at hq
                repeat' split at hq
                all_goals first | exact (Except.ok.inj hq).symm | cases hq
              rw [this]; exact hr
    rw [← Except.ok.inj h]
    unfold npFormUpdate FlatNum
    refine foldl_modify (P := fun d : NodeData (Num R) =>
        (∀ p, d.pos = NVec.coords (some p) → V (p - o)) ∧
        ∀ r, d.reaction = NVec.coords (some r) → V r)
      (fun (b : NVec R) (d : NodeData (Num R)) => { d with reaction := b.coords })
      (fun b a hb ha => ⟨ha.1, fun r hr => hb r (coords_inj hV hr)⟩) _ hs.reactions _ ?_
    refine foldl_modify (P := fun d : NodeData (Num R) =>
        (∀ p, d.pos = NVec.coords (some p) → V (p - o)) ∧
        ∀ r, d.reaction = NVec.coords (some r) → V r)
      (fun (b : NVec R) (d : NodeData (Num R)) => { d with pos := b.coords })
      (fun b a hb ha => ⟨fun r hr => hb r (coords_inj hV hr), ha.2⟩) _ hs.xyz _ ?_
    intro n d hd
    have := (get?_map_val D.nodes (fun d : NodeData R => d.num) n).symm.trans hd
    obtain ⟨e, he, rfl⟩ := Option.map_eq_some_iff.1 this
    refine ⟨fun p hp => ?_, fun p hp => ?_⟩
    · rw [← Option.some.inj (coords_inj hV hp)]; exact (hD n e he).1
    · rw [← Option.some.inj (coords_inj hV hp)]; exact (hD n e he).2

end numpy

end CEM.Flatness
