import Verif.Lemmas.Optimizer
import Verif.Props.Equilibrium
import Mathlib.Algebra.Order.Field.Basic
import Mathlib.Algebra.Order.Field.Rat
import Mathlib.Algebra.Order.Ring.Unbundled.Rat

/-!
# Optimizer registry, bounds and parameter updates (C36, C37, C38)
-/

set_option linter.unusedSectionVars false
set_option linter.unusedSimpArgs false

namespace CEM
namespace Props
open Diagram Spec

variable {R : Type}

/-! ## C36: the registry -/

/-- After any history a key leads to a parameter exactly if this parameter was the one
added with this number and was not removed since.  So keys are never reused. -/
theorem C36_registry (h : List (RegOp (Param R))) (k : Int) (p : Param R) :
    (runOps Optimizer.empty h).parameters.get? k = some p ↔ Registered h k p :=
  (regInv h).get k p

/-- The dictionary lists the parameters in the order in which they were added. -/
theorem C36_order (h : List (RegOp (Param R))) :
    (runOps (Optimizer.empty : Optimizer R) h).parameters.keys.Pairwise (· < ·) :=
  (regInv h).sorted

/-- `remove_parameter` raises `KeyError` exactly if no parameter is registered there. -/
theorem C36_remove (h : List (RegOp (Param R))) (k : Int) :
    (runOps (Optimizer.empty : Optimizer R) h).removeParameter k = .error .keyError ↔
      ¬ ∃ p, Registered h k p := by
  have hp : ∀ p, (runOps (Optimizer.empty : Optimizer R) h).parameters.get? k = some p ↔
      Registered h k p := (regInv h).get k
  simp only [← hp, Dict.exists_get?_iff, Optimizer.removeParameter]
  by_cases hk : (runOps (Optimizer.empty : Optimizer R) h).parameters.has k = true
  · simp [hk, (Dict.has_iff _ _).1 hk]
  · simp [hk, show k ∉ _ from fun hc => hk ((Dict.has_iff _ _).2 hc)]

/-- The registry of constraints works the same way. -/
theorem C36_constraints (h : List (RegOp (Constraint R))) :
    (∀ k c, (runConstraintOps Optimizer.empty h).constraints.get? k = some c ↔ Registered h k c) ∧
    (runConstraintOps (Optimizer.empty : Optimizer R) h).constraints.keys.Pairwise (· < ·) :=
  ⟨(regInv_constraints h).get, (regInv_constraints h).sorted⟩

/-- The registered numbers are `0, ..., n - 1`: the parameters that are left are the ones
that were added first. -/
def InitialSegment (h : List (RegOp (Param R))) (n : Nat) : Prop :=
  ∀ k : Nat, (∃ p, Registered h k p) ↔ k < n

theorem mem_keys_registered (h : List (RegOp (Param R))) (k : Int) :
    k ∈ (runOps (Optimizer.empty : Optimizer R) h).parameters.keys ↔ ∃ p, Registered h k p := by
  simp only [← (regInv h).get, Dict.exists_get?_iff]

theorem initialSegment_iff (h : List (RegOp (Param R))) :
    (∃ n, InitialSegment h n) ↔
      ∀ k ∈ (runOps (Optimizer.empty : Optimizer R) h).parameters.keys,
        k < (runOps (Optimizer.empty : Optimizer R) h).parameters.length := by
  have i := regInv h
  have hm := mem_keys_registered h
  generalize runOps (Optimizer.empty : Optimizer R) h = o at i hm ⊢
  constructor
  · rintro ⟨n, hn⟩ k hk
    have hsub : (List.range n).map Int.ofNat ⊆ o.parameters.keys := fun j hj => by
      obtain ⟨m, hm1, rfl⟩ := List.mem_map.1 hj
      exact (hm _).2 ((hn m).2 (List.mem_range.1 hm1))
    have hnd : ((List.range n).map Int.ofNat).Nodup :=
      List.nodup_range.map (fun a b h => by simpa using h)
    have hlen := (List.subperm_of_subset hnd hsub).length_le
    simp only [List.length_map, List.length_range, Dict.length_keys] at hlen
    have h0 := (i.key_lt hk).1
    have hk' : k = (k.toNat : Int) := by omega
    have : k.toNat < n := (hn k.toNat).1 (by rw [← hk']; exact (hm k).1 hk)
    omega
  · intro hl
    refine ⟨o.parameters.length, fun k => ?_⟩
    rw [← hm]
    have e := keys_eq_range i.sorted (fun k hk => (i.key_lt hk).1) (by simpa using hl)
    rw [e]
    simp

theorem initialSegment_length {h : List (RegOp (Param R))} {n : Nat} (hn : InitialSegment h n) :
    (runOps (Optimizer.empty : Optimizer R) h).parameters.length = n := by
  have hl := (initialSegment_iff h).1 ⟨n, hn⟩
  have i := regInv h
  have hm := mem_keys_registered h
  generalize runOps (Optimizer.empty : Optimizer R) h = o at i hm hl ⊢
  have e := keys_eq_range i.sorted (fun k hk => (i.key_lt hk).1) (by simpa using hl)
  rw [Dict.length_keys] at e
  have h2 : ∀ k : Nat, k < o.parameters.length ↔ k < n := fun k => by
    rw [← hn k, ← hm, e]
    simp
  have := h2 n
  have := h2 o.parameters.length
  omega

theorem assemble_history {α : Type} (h : List (RegOp (Param R))) (f : Param R → Except PyErr α)
    (z : α) (hf : ∀ k p, Registered h k p → ∃ v, f p = .ok v) :
    (∀ n, InitialSegment h n → ∃ x,
      Optimizer.assemble f (runOps (Optimizer.empty : Optimizer R) h).parameters
        (List.replicate (runOps (Optimizer.empty : Optimizer R) h).parameters.length z) = .ok x ∧
      x.length = n ∧ ∀ k p, Registered h k p → ∃ v, f p = .ok v ∧ x[k.toNat]? = some v) ∧
    ((¬ ∃ n, InitialSegment h n) →
      Optimizer.assemble f (runOps (Optimizer.empty : Optimizer R) h).parameters
        (List.replicate (runOps (Optimizer.empty : Optimizer R) h).parameters.length z) =
          .error .indexError) := by
  have i := regInv h
  have hi := initialSegment_iff h
  have hlen := fun n => initialSegment_length (h := h) (n := n)
  generalize runOps (Optimizer.empty : Optimizer R) h = o at i hi hlen ⊢
  have hf' : ∀ q ∈ o.parameters, ∃ v, f q.2 = .ok v := fun q hq =>
    hf q.1 q.2 ((i.get q.1 q.2).1 (Dict.get?_of_mem i.nodup hq))
  constructor
  · intro n hn
    obtain ⟨x, h1, h2, h3, _⟩ := Optimizer.assemble_ok f o.parameters
      (List.replicate o.parameters.length z) i.nodup (fun k hk => (i.key_lt hk).1) hf'
      (by simpa using hi.1 ⟨n, hn⟩)
    exact ⟨x, h1, by rw [h2, List.length_replicate, hlen n hn],
      fun k p hr => h3 k p (Dict.mem_of_get? ((i.get k p).2 hr))⟩
  · intro hn
    rw [hi] at hn
    simp only [not_forall] at hn
    obtain ⟨k, hk, hk2⟩ := hn
    exact Optimizer.assemble_error f _ _ (fun k hk => (i.key_lt hk).1) hf' ⟨k, hk, by simpa using hk2⟩

/-- **C36.**  If the diagram has all places that the registered parameters designate: the
vector of start values is assembled if the parameters left are the ones added first, with
entry `k` the value of parameter `k`; in all other cases the code raises `IndexError`. -/
theorem C36_vector [Zero R] (h : List (RegOp (Param R))) (D : Diagram R)
    (hD : ∀ k p, Registered h k p → HasSlot D p.slot) :
    (∀ n, InitialSegment h n → ∃ x,
      (runOps Optimizer.empty h).optimizationParameters D = .ok x ∧ x.length = n ∧
      ∀ k p, Registered h k p → ∃ v, HoldsAt D p.slot v ∧ x[k.toNat]? = some v) ∧
    ((¬ ∃ n, InitialSegment h n) →
      (runOps Optimizer.empty h).optimizationParameters D = .error .indexError) := by
  have := assemble_history h (fun p => p.startValue D) 0
    (fun k p hr => (hasSlot_iff _ _).1 (hD k p hr))
  refine ⟨fun n hn => ?_, this.2⟩
  obtain ⟨x, h1, h2, h3⟩ := this.1 n hn
  refine ⟨x, h1, h2, fun k p hr => ?_⟩
  obtain ⟨v, hv, hx⟩ := h3 k p hr
  exact ⟨v, (holdsAt_iff _ _ _).2 hv, hx⟩

theorem foldl_addParameter (ps : List (Param R)) (o : Optimizer R) :
    ps.foldl Optimizer.addParameter o = runOps o (ps.map .add) := by
  induction ps generalizing o with
  | nil => rfl
  | cons p ps ih => exact ih _

theorem foldl_addConstraint (cs : List (Constraint R)) (o : Optimizer R) :
    cs.foldl Optimizer.addConstraint o = runConstraintOps o (cs.map .add) := by
  induction cs generalizing o with
  | nil => rfl
  | cons p ps ih => exact ih _

theorem added_map_add {P : Type} (ps : List P) : added (ps.map .add) = ps := by
  induction ps with
  | nil => rfl
  | cons p ps ih => simp [added, ih]

theorem registered_map_add {P : Type} (ps : List P) (k : Int) (p : P) :
    Registered (ps.map .add) k p ↔ 0 ≤ k ∧ ps[k.toNat]? = some p := by
  unfold Registered
  rw [added_map_add]
  refine and_congr_right fun _ => and_iff_left ?_
  rintro ⟨h1, h2, e, _⟩
  have : RegOp.remove k ∈ ps.map RegOp.add := by rw [e]; simp
  simp at this

/-- Histories without removal, as those of `solve_proxy`, always assemble. -/
theorem C36_proxy [Zero R] (cs : List (Constraint R)) (ps : List (Param R)) (D : Diagram R)
    (hD : ∀ p ∈ ps, HasSlot D p.slot) :
    ∃ x, (Optimizer.ofLists cs ps).optimizationParameters D = .ok x ∧
      List.Forall₂ (fun p v => HoldsAt D p.slot v) ps x := by
  have hpar : (Optimizer.ofLists cs ps).parameters =
      (runOps (Optimizer.empty : Optimizer R) (ps.map .add)).parameters := by
    have key : ∀ (ps : List (Param R)) (o o' : Optimizer R), o.parameters = o'.parameters →
        o.pkey = o'.pkey → (ps.foldl Optimizer.addParameter o).parameters =
          (ps.foldl Optimizer.addParameter o').parameters := by
      intro ps
      induction ps with
      | nil => exact fun _ _ h _ => h
      | cons p ps ih =>
        intro o o' h1 h2
        exact ih _ _ (by simp [Optimizer.addParameter, h1, h2]) (by simp [Optimizer.addParameter, h2])
    have hc : ∀ (cs : List (Constraint R)) (o : Optimizer R),
        (cs.foldl Optimizer.addConstraint o).parameters = o.parameters ∧
          (cs.foldl Optimizer.addConstraint o).pkey = o.pkey := by
      intro cs
      induction cs with
      | nil => exact fun _ => ⟨rfl, rfl⟩
      | cons c cs ih => exact fun o => ih _
    rw [← foldl_addParameter]
    exact key ps _ _ (hc cs _).1 (hc cs _).2
  have hseg : InitialSegment (ps.map RegOp.add) ps.length := fun k => by
    simp [registered_map_add, List.getElem?_eq_some_iff]
  obtain ⟨x, hx, hl, hv⟩ := (C36_vector (ps.map .add) D fun k p hr =>
    hD p (List.mem_of_getElem? ((registered_map_add _ _ _).1 hr).2)).1 _ hseg
  refine ⟨x, ?_, ?_⟩
  · unfold Optimizer.optimizationParameters at hx ⊢
    rw [hpar]
    exact hx
  · refine List.forall₂_iff_get.2 ⟨hl.symm, fun k h1 h2 => ?_⟩
    obtain ⟨v, hv, e⟩ := hv k ps[k] ((registered_map_add _ _ _).2 (by simp [h1]))
    simp only [Int.toNat_natCast, List.getElem?_eq_getElem h2, Option.some.injEq] at e
    simpa [e] using hv

/-! ## C37: bounds -/

section Bounds
variable [Field R] [LinearOrder R] [IsStrictOrderedRing R]

/-- **C37.**  The bounds of a parameter bracket its start value: they are infinite where none
was given, lie on the proper side whatever the sign of the given number, and are attained only
if zero was given. -/
theorem C37_bounds (p : Param R) (D : Diagram R) (v : R) (hv : HoldsAt D p.slot v) :
    ∃ a b, p.boundLow D = .ok a ∧ p.boundUp D = .ok b ∧ a ≤ (v : WithBot R) ∧
      (v : WithTop R) ≤ b ∧
      (a = ⊥ ↔ p.low = none) ∧ (b = ⊤ ↔ p.up = none) ∧
      (a = (v : WithBot R) ↔ p.low = some 0) ∧ (b = (v : WithTop R) ↔ p.up = some 0) ∧
      (∀ l, p.low = some l → ∃ a' : R, a = (a' : WithBot R) ∧ |v - a'| = |l|) ∧
      (∀ l, p.up = some l → ∃ b' : R, b = (b' : WithTop R) ∧ |b' - v| = |l|) := by
  have hs : p.startValue D = .ok v := (holdsAt_iff _ _ _).1 hv
  have key : ∀ l : R, 0 ≤ |l| := fun l => abs_nonneg l
  refine ⟨p.low.elim ⊥ fun l => ((v - |l| : R) : WithBot R),
    p.up.elim ⊤ fun l => ((v + |l| : R) : WithTop R), ?_, ?_, ?_, ?_, ?_, ?_, ?_, ?_, ?_, ?_⟩
  · cases hl : p.low <;> simp [Param.boundLow, hl, hs]
  · cases hl : p.up <;> simp [Param.boundUp, hl, hs]
  · cases hl : p.low with
    | none => simp
    | some l => simp only [Option.elim_some]; exact WithBot.coe_le_coe.2 (by linarith [key l])
  · cases hl : p.up with
    | none => simp
    | some l => simp only [Option.elim_some]; exact WithTop.coe_le_coe.2 (by linarith [key l])
  · cases hl : p.low with
    | none => simp
    | some l => simp only [Option.elim_some, reduceCtorEq, iff_false]; exact WithBot.coe_ne_bot
  · cases hl : p.up with
    | none => simp
    | some l => simp only [Option.elim_some, reduceCtorEq, iff_false]; exact WithTop.coe_ne_top
  · cases hl : p.low with
    | none => simp
    | some l => simp only [Option.elim_some, WithBot.coe_inj]; simp
  · cases hl : p.up with
    | none => simp
    | some l => simp only [Option.elim_some, WithTop.coe_inj]; simp
  · intro l hl
    exact ⟨v - |l|, by simp [hl], by simp⟩
  · intro l hl
    exact ⟨v + |l|, by simp [hl], by simp⟩

theorem bounds_total (h : List (RegOp (Param R))) (D : Diagram R)
    (hD : ∀ k p, Registered h k p → HasSlot D p.slot) (k : Int) (p : Param R)
    (hr : Registered h k p) : ∃ w, (match p.boundLow D with
      | .error err => (.error err : Except PyErr (WithBot R × WithTop R))
      | .ok a =>
        match p.boundUp D with
        | .error err => .error err
        | .ok b => .ok (a, b)) = .ok w := by
  obtain ⟨v, hv⟩ := (hasSlot_iff _ _).1 (hD k p hr)
  obtain ⟨a, b, ha, hb, _⟩ := C37_bounds p D v ((holdsAt_iff _ _ _).2 hv)
  exact ⟨(a, b), by simp only [ha, hb]⟩

/-- The bounds cannot be assembled where the start values cannot. -/
theorem C36_bounds_fail (h : List (RegOp (Param R))) (D : Diagram R)
    (hD : ∀ k p, Registered h k p → HasSlot D p.slot) (hn : ¬ ∃ n, InitialSegment h n) :
    (runOps Optimizer.empty h).optimizationBounds D = .error .indexError :=
  (assemble_history h _ _ (bounds_total h D hD)).2 hn

/-- The bounds of an optimization problem belong to the same parameters as the start values. -/
theorem C37_vector (h : List (RegOp (Param R))) (D : Diagram R)
    (hD : ∀ k p, Registered h k p → HasSlot D p.slot) (n : Nat) (hn : InitialSegment h n) :
    ∃ x bs, (runOps Optimizer.empty h).optimizationParameters D = .ok x ∧
      (runOps Optimizer.empty h).optimizationBounds D = .ok bs ∧ x.length = n ∧ bs.length = n ∧
      ∀ (k : Nat) v b, x[k]? = some v → bs[k]? = some b →
        b.1 ≤ (v : WithBot R) ∧ (v : WithTop R) ≤ b.2 := by
  obtain ⟨x, hx, hxl, hxv⟩ := (C36_vector h D hD).1 n hn
  obtain ⟨bs, hbs, hbl, hbv⟩ := (assemble_history h _
    (((0 : R) : WithBot R), ((0 : R) : WithTop R)) (bounds_total h D hD)).1 n hn
  refine ⟨x, bs, hx, hbs, hxl, hbl, fun k v b hv hb => ?_⟩
  have hk : k < n := hxl ▸ (List.getElem?_eq_some_iff.1 hv).1
  obtain ⟨p, hp⟩ := (hn k).2 hk
  obtain ⟨v', hv', hx'⟩ := hxv k p hp
  obtain ⟨w, hw, hb'⟩ := hbv k p hp
  simp only [Int.toNat_natCast] at hx' hb'
  rw [hv] at hx'
  rw [hb] at hb'
  cases hx'
  cases hb'
  obtain ⟨a, c, ha, hc, h1, h2, _⟩ := C37_bounds p D v hv'
  simp only [ha, hc] at hw
  cases hw
  exact ⟨h1, h2⟩

/-- What a parameter stands for: the value it starts from and the interval around it. -/
def StartsAt (p : Param R) (D : Diagram R) (v : R) (low up : Option R) : Prop :=
  p.startValue D = .ok v ∧
  p.boundLow D = .ok (low.elim ⊥ fun l => ((v - |l| : R) : WithBot R)) ∧
  p.boundUp D = .ok (up.elim ⊤ fun l => ((v + |l| : R) : WithTop R))

/-- Writing the value `w` replaces the data of the node `n` by `d'` and nothing else. -/
def WritesNode (p : Param R) (D : Diagram R) (w : R) (n : Int) (d' : NodeData R) : Prop :=
  ∃ D', D.setAttribute w p.slot = .ok D' ∧ D'.nodes.get? n = some d' ∧
    (∀ m, m ≠ n → D'.nodes.get? m = D.nodes.get? m) ∧ D'.edges = D.edges

/-- Writing the value `w` replaces the data of the edge `e` by `d'` and nothing else. -/
def WritesEdge (p : Param R) (D : Diagram R) (w : R) (e : Int × Int) (d' : EdgeData R) : Prop :=
  ∃ D', D.setAttribute w p.slot = .ok D' ∧ D'.edges.get? e = some d' ∧
    (∀ f, f ≠ e → D'.edges.get? f = D.edges.get? f) ∧ D'.nodes = D.nodes

theorem writesNode {D : Diagram R} {n : Int} {d : NodeData R} (h : D.nodes.get? n = some d)
    {p : Param R} {a : NodeAttr} (hp : p.slot = .node n a) (w : R) : WritesNode p D w n (a.set d w) := by
  have hh : D.nodes.has n = true := (Dict.has_iff _ _).2 (Dict.mem_keys_of_get? h)
  refine ⟨{ D with nodes := D.nodes.modify n fun d => a.set d w }, ?_, ?_, fun m hm => ?_, rfl⟩
  · simp only [hp, setAttribute, hh, if_true]
  · simp [Dict.get?_modify, h]
  · simp [Dict.get?_modify, Ne.symm hm]

theorem writesEdge {D : Diagram R} {e : Int × Int} {d : EdgeData R} (h : D.edges.get? e = some d)
    {p : Param R} {a : EdgeAttr} (hp : p.slot = .edge e a) (w : R) : WritesEdge p D w e (a.set d w) := by
  have hh : D.edges.has e = true := (Dict.has_iff _ _).2 (Dict.mem_keys_of_get? h)
  refine ⟨{ D with edges := D.edges.modify e fun d => a.set d w }, ?_, ?_, fun m hm => ?_, rfl⟩
  · simp only [hp, setAttribute, hh, if_true]
  · simp [Dict.get?_modify, h]
  · simp [Dict.get?_modify, Ne.symm hm]

theorem startsAt {D : Diagram R} {p : Param R} {v : R} (hv : p.startValue D = .ok v) {low up : Option R}
    (hl : p.low = low) (hu : p.up = up) : StartsAt p D v low up := by
  subst hl hu
  refine ⟨hv, ?_, ?_⟩
  · cases hl : p.low <;> simp [Param.boundLow, hl, hv]
  · cases hl : p.up <;> simp [Param.boundUp, hl, hv]

/-- **C37, node classes.**  Each of the six node parameter classes starts from, brackets and
writes its own coordinate of the position or of the load, with the lower number below and the
upper number above. -/
theorem C37_node_classes {D : Diagram R} {n : Int} {d : NodeData R} (h : D.nodes.get? n = some d)
    (low up : Option R) (w : R) :
    (StartsAt (originNodeXParameter n low up) D d.pos.x low up ∧
      WritesNode (originNodeXParameter n low up) D w n { d with pos := ⟨w, d.pos.y, d.pos.z⟩ }) ∧
    (StartsAt (originNodeYParameter n low up) D d.pos.y low up ∧
      WritesNode (originNodeYParameter n low up) D w n { d with pos := ⟨d.pos.x, w, d.pos.z⟩ }) ∧
    (StartsAt (originNodeZParameter n low up) D d.pos.z low up ∧
      WritesNode (originNodeZParameter n low up) D w n { d with pos := ⟨d.pos.x, d.pos.y, w⟩ }) ∧
    (StartsAt (nodeLoadXParameter n low up) D d.load.x low up ∧
      WritesNode (nodeLoadXParameter n low up) D w n { d with load := ⟨w, d.load.y, d.load.z⟩ }) ∧
    (StartsAt (nodeLoadYParameter n low up) D d.load.y low up ∧
      WritesNode (nodeLoadYParameter n low up) D w n { d with load := ⟨d.load.x, w, d.load.z⟩ }) ∧
    (StartsAt (nodeLoadZParameter n low up) D d.load.z low up ∧
      WritesNode (nodeLoadZParameter n low up) D w n { d with load := ⟨d.load.x, d.load.y, w⟩ }) := by
  exact ⟨⟨startsAt (by simp [Param.startValue, getAttribute, originNodeXParameter, h, NodeAttr.get]) rfl rfl,
      writesNode (a := .x) h rfl w⟩,
    ⟨startsAt (by simp [Param.startValue, getAttribute, originNodeYParameter, h, NodeAttr.get]) rfl rfl,
      writesNode (a := .y) h rfl w⟩,
    ⟨startsAt (by simp [Param.startValue, getAttribute, originNodeZParameter, h, NodeAttr.get]) rfl rfl,
      writesNode (a := .z) h rfl w⟩,
    ⟨startsAt (by simp [Param.startValue, getAttribute, nodeLoadXParameter, h, NodeAttr.get]) rfl rfl,
      writesNode (a := .qx) h rfl w⟩,
    ⟨startsAt (by simp [Param.startValue, getAttribute, nodeLoadYParameter, h, NodeAttr.get]) rfl rfl,
      writesNode (a := .qy) h rfl w⟩,
    ⟨startsAt (by simp [Param.startValue, getAttribute, nodeLoadZParameter, h, NodeAttr.get]) rfl rfl,
      writesNode (a := .qz) h rfl w⟩⟩

/-- **C37, edge classes.**  The trail parameter stands for the length of its edge and the deviation
parameter for the force. -/
theorem C37_edge_classes {D : Diagram R} {e : Int × Int} {d : EdgeData R} (h : D.edges.get? e = some d)
    (low up : Option R) (w : R) :
    (StartsAt (trailEdgeParameter e low up) D d.length low up ∧
      WritesEdge (trailEdgeParameter e low up) D w e { d with length := w }) ∧
    (StartsAt (deviationEdgeParameter e low up) D d.force low up ∧
      WritesEdge (deviationEdgeParameter e low up) D w e { d with force := w }) := by
  exact ⟨⟨startsAt (by simp [Param.startValue, getAttribute, trailEdgeParameter, h, EdgeAttr.get]) rfl rfl,
      writesEdge (a := .length) h rfl w⟩,
    ⟨startsAt (by simp [Param.startValue, getAttribute, deviationEdgeParameter, h, EdgeAttr.get]) rfl rfl,
      writesEdge (a := .force) h rfl w⟩⟩

end Bounds

/-! ## C38: writing parameters -/

/-- **C38, frame.**  Whether it returns or raises, writing parameters changes nothing but the
numbers at the designated places. -/
theorem C38_frame (h : List (RegOp (Param R))) (D : Diagram R) (x : List R) :
    SameExcept (fun s => ∃ k p, Registered h k p ∧ p.slot = s) D
      ((runOps Optimizer.empty h).updateParameters D x).1 :=
  (Optimizer.writeParameters_same x _ D).mono fun _ ⟨q, hq, e⟩ =>
    ⟨q.1, q.2, ((regInv h).get _ _).1 (Dict.get?_of_mem (regInv h).nodup hq), e⟩

/-- Writing succeeds exactly if the vector has an entry and the diagram a place for every
registered parameter. -/
theorem C38_succeeds (h : List (RegOp (Param R))) (D : Diagram R) (x : List R) :
    ((runOps Optimizer.empty h).updateParameters D x).2 = .ok () ↔
      ∀ k p, Registered h k p → k < x.length ∧ HasSlot D p.slot := by
  have i := regInv h
  unfold Optimizer.updateParameters
  rw [Optimizer.writeParameters_ok _ _ _
    (fun q hq => (i.key_lt (Dict.mem_keys_of_mem hq)).1)]
  constructor
  · exact fun H k p hr => H (k, p) (Dict.mem_of_get? ((i.get k p).2 hr))
  · exact fun H q hq => H q.1 q.2 ((i.get _ _).1 (Dict.get?_of_mem i.nodup hq))

/-- **C38, last one wins.**  A place holds afterwards the entry of the last parameter that
designates it. -/
theorem C38_last (h : List (RegOp (Param R))) (D : Diagram R) (x : List R)
    (hok : ((runOps Optimizer.empty h).updateParameters D x).2 = .ok ())
    (k : Int) (p : Param R) (hr : Registered h k p)
    (hlast : ∀ j q, Registered h j q → q.slot = p.slot → j ≤ k) :
    ∃ v, x[k.toNat]? = some v ∧
      HoldsAt ((runOps Optimizer.empty h).updateParameters D x).1 p.slot v := by
  have i := regInv h
  simp only [holdsAt_iff]
  obtain ⟨l1, l2, e⟩ := List.append_of_mem (Dict.mem_of_get? ((i.get k p).2 hr))
  refine (Optimizer.writeParameters_get x _ D
    (fun q hq => (i.key_lt (Dict.mem_keys_of_mem hq)).1) hok p.slot).2 l1 k p l2 e rfl ?_
  intro q hq hs
  have hreg : Registered h q.1 q.2 :=
    (i.get _ _).1 (Dict.get?_of_mem i.nodup (by rw [e]; simp [hq]))
  have h1 := hlast q.1 q.2 hreg hs
  have hsort := i.sorted
  rw [e] at hsort
  simp only [Dict.keys, List.map_append, List.map_cons, List.pairwise_append,
    List.pairwise_cons] at hsort
  have := hsort.2.1.1 q.1 (List.mem_map.2 ⟨q, hq, rfl⟩)
  omega

/-- **C38.**  If no two parameters designate the same place, reading the start values after
writing a vector returns this vector. -/
theorem C38_read_back [Zero R] (h : List (RegOp (Param R))) (D : Diagram R) (x : List R) (n : Nat)
    (hn : InitialSegment h n) (hx : x.length = n)
    (hD : ∀ k p, Registered h k p → HasSlot D p.slot)
    (hd : ∀ k p j q, Registered h k p → Registered h j q → p.slot = q.slot → k = j) :
    ((runOps Optimizer.empty h).updateParameters D x).2 = .ok () ∧
    (runOps Optimizer.empty h).optimizationParameters
      ((runOps Optimizer.empty h).updateParameters D x).1 = .ok x := by
  have hok : ((runOps Optimizer.empty h).updateParameters D x).2 = .ok () := by
    rw [C38_succeeds]
    intro k p hr
    refine ⟨?_, hD k p hr⟩
    have h0 := (registered_lt hr).1
    have : k.toNat < n := (hn k.toNat).1 ⟨p, by rwa [Int.toNat_of_nonneg h0]⟩
    omega
  refine ⟨hok, ?_⟩
  obtain ⟨y, hy, hyl, hyv⟩ := (C36_vector h ((runOps Optimizer.empty h).updateParameters D x).1
    (fun k p hr => ((C38_frame h D x).hasSlot _).2 (hD k p hr))).1 n hn
  rw [hy]
  congr 1
  refine List.ext_getElem? fun k => ?_
  by_cases hk : k < n
  · obtain ⟨p, hp⟩ := (hn k).2 hk
    obtain ⟨v, hv, e⟩ := hyv k p hp
    obtain ⟨w, e2, hw⟩ := C38_last h D x hok k p hp (fun j q hq e => (hd _ _ _ _ hq hp e).le)
    rw [holdsAt_iff] at hv hw
    rw [hv] at hw
    cases hw
    simp only [Int.toNat_natCast] at e e2
    rw [e, e2]
  · rw [List.getElem?_eq_none (by omega), List.getElem?_eq_none (by omega)]

/-! ## Examples -/

namespace OptEx
open EqEx

/-- X coordinate of the origin `0`. -/
def pX : Param ℚ := originNodeXParameter 0 (some (-1)) none
/-- Force of the deviation edge `(0, 4)`. -/
def pF : Param ℚ := deviationEdgeParameter (0, 4) (some 2) (some 0)
/-- Length of the trail edge `(2, 1)`. -/
def pL : Param ℚ := trailEdgeParameter (2, 1) none (some (-3))

/-- The node `0` and the edge `(0, 4)` of the example have data, so the class theorems apply. -/
example : (∃ d, directQ.nodes.get? 0 = some d) ∧ (∃ d, directQ.edges.get? (0, 4) = some d) ∧
    ∀ d, directQ.nodes.get? 0 = some d →
      StartsAt (originNodeYParameter 0 (some (-1)) (some 2)) directQ d.pos.y (some (-1)) (some 2) ∧
      StartsAt (nodeLoadZParameter 0 (some 3) none) directQ d.load.z (some 3) none := by
  refine ⟨Option.isSome_iff_exists.1 (by decide +kernel), Option.isSome_iff_exists.1 (by decide +kernel),
    fun d h => ⟨(C37_node_classes h _ _ 0).2.1.1, (C37_node_classes h _ _ 0).2.2.2.2.2.1⟩⟩

/-- Three parameters, and a removal that fails. -/
def good : List (RegOp (Param ℚ)) :=
  [.add pX, .add pF, .add pL, .remove 7]
/-- The first of two parameters is removed. -/
def removeFirst : List (RegOp (Param ℚ)) := [.add pX, .add pF, .remove 0]
/-- A parameter is added after the last one was removed. -/
def replaceLast : List (RegOp (Param ℚ)) := [.add pX, .add pF, .remove 1, .add pL]
/-- After removing that one, too, the first one is left. -/
def onlyFirst : List (RegOp (Param ℚ)) := replaceLast ++ [.remove 2]

theorem segment_of {h : List (RegOp (Param ℚ))} (n : Nat)
    (h1 : (runOps (Optimizer.empty : Optimizer ℚ) h).parameters.keys =
      (List.range n).map Int.ofNat) : InitialSegment h n := fun k => by
  rw [← mem_keys_registered, h1]
  simp

theorem no_segment {h : List (RegOp (Param ℚ))}
    (h1 : ¬ ∀ k ∈ (runOps (Optimizer.empty : Optimizer ℚ) h).parameters.keys,
      k < (runOps (Optimizer.empty : Optimizer ℚ) h).parameters.length) :
    ¬ ∃ n, InitialSegment h n := fun hc => h1 ((initialSegment_iff h).1 hc)

theorem good_segment : InitialSegment good 3 := segment_of 3 (by decide +kernel)

/-- The registered parameters of a concrete history, from its dictionary. -/
theorem registered_mem {h : List (RegOp (Param ℚ))} {k : Int} {p : Param ℚ}
    (hr : Registered h k p) : (k, p) ∈ (runOps (Optimizer.empty : Optimizer ℚ) h).parameters :=
  Dict.mem_of_get? (((regInv h).get k p).2 hr)

instance (D : Diagram ℚ) (s : Slot) : Decidable (HasSlot D s) := by
  cases s <;> unfold HasSlot <;> infer_instance

theorem has_of {h : List (RegOp (Param ℚ))} {D : Diagram ℚ}
    (hd : ∀ q ∈ (runOps (Optimizer.empty : Optimizer ℚ) h).parameters, HasSlot D q.2.slot) :
    ∀ k p, Registered h k p → HasSlot D p.slot := fun _ _ hr => hd _ (registered_mem hr)

theorem good_has : ∀ k p, Registered good k p → HasSlot directQ p.slot :=
  has_of (by decide +kernel)

theorem good_distinct : ∀ k p j q, Registered good k p → Registered good j q →
    p.slot = q.slot → k = j := fun k p j q hp hq => by
  have H : ∀ a ∈ (runOps (Optimizer.empty : Optimizer ℚ) good).parameters,
      ∀ b ∈ (runOps (Optimizer.empty : Optimizer ℚ) good).parameters,
        a.2.slot = b.2.slot → a.1 = b.1 := by decide +kernel
  exact H _ (registered_mem hp) _ (registered_mem hq)

/-- Removing the first of two parameters makes the start values unobtainable. -/
theorem C36_remove_first_fails :
    (runOps (Optimizer.empty : Optimizer ℚ) removeFirst).optimizationParameters directQ =
      .error .indexError :=
  (C36_vector removeFirst directQ (has_of (by decide +kernel))).2 (no_segment (by decide +kernel))

/-- So does replacing the last one. -/
theorem C36_replace_last_fails :
    (runOps (Optimizer.empty : Optimizer ℚ) replaceLast).optimizationParameters directQ =
      .error .indexError :=
  (C36_vector replaceLast directQ (has_of (by decide +kernel))).2 (no_segment (by decide +kernel))

example : (runOps (Optimizer.empty : Optimizer ℚ) removeFirst).optimizationBounds directQ =
    .error .indexError :=
  C36_bounds_fail removeFirst directQ (has_of (by decide +kernel)) (no_segment (by decide +kernel))

example : InitialSegment onlyFirst 1 := segment_of 1 (by decide +kernel)
example : (runOps (Optimizer.empty : Optimizer ℚ) onlyFirst).optimizationParameters directQ =
    .ok [0] := by decide +kernel
example : Registered replaceLast 2 pL ∧ ¬ ∃ p, Registered replaceLast 1 p := by
  refine ⟨((regInv _).get _ _).1 (by decide +kernel), ?_⟩
  rw [← mem_keys_registered]
  decide +kernel
example : (runOps (Optimizer.empty : Optimizer ℚ) good).optimizationParameters directQ =
    .ok [0, 1, -1] := by decide +kernel
example : HoldsAt directQ pX.slot 0 ∧ HoldsAt directQ pF.slot 1 := by
  simp only [holdsAt_iff]
  decide +kernel
example : pF.boundLow directQ = .ok (((-1 : ℚ) : WithBot ℚ)) ∧
    pF.boundUp directQ = .ok ((1 : ℚ) : WithTop ℚ) := by decide +kernel
example : ∃ x, (Optimizer.ofLists [.point 1 0 1] [pX, pL]).optimizationParameters directQ = .ok x ∧
    List.Forall₂ (fun p v => HoldsAt directQ p.slot v) [pX, pL] x :=
  C36_proxy _ _ _ (by decide +kernel)

/-- Writing and reading back three values. -/
example : ((runOps Optimizer.empty good).updateParameters directQ [5, -7, 9]).2 = .ok () ∧
    (runOps Optimizer.empty good).optimizationParameters
      ((runOps Optimizer.empty good).updateParameters directQ [5, -7, 9]).1 = .ok [5, -7, 9] :=
  C38_read_back good directQ [5, -7, 9] 3 good_segment rfl good_has good_distinct

/-- Two parameters for the same place: the last one wins. -/
def twice : List (RegOp (Param ℚ)) := [.add pX, .add (originNodeXParameter 0 none none)]

example : (runOps Optimizer.empty twice).optimizationParameters
    ((runOps Optimizer.empty twice).updateParameters directQ [5, 6]).1 = .ok [6, 6] := by
  decide +kernel

/-- A write that fails half way has already changed the diagram. -/
theorem C38_failed_write_changes :
    ((runOps Optimizer.empty [.add pX, .add (nodeLoadZParameter 77 none none)]).updateParameters
      directQ [5, 6]).2 = .error .keyError ∧
    HoldsAt ((runOps Optimizer.empty
      [.add pX, .add (nodeLoadZParameter 77 none none)]).updateParameters directQ [5, 6]).1
      pX.slot 5 ∧ ¬ HoldsAt directQ pX.slot 5 := by
  simp only [holdsAt_iff]
  decide +kernel

end OptEx
end Props
end CEM
