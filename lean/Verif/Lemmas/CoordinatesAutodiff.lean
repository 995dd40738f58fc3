import Verif.Lemmas.CoordinatesPenalty
import Verif.Props.Transform
import Verif.Lemmas.Autodiff

/-!
# Automatic differentiation in other coordinates and units

All transformations of C84 are similarities: positions are turned, enlarged and moved, force vectors
turned and enlarged.  Derivatives are turned and enlarged in the same way, and multiplied by `lam`,
since an entry of the rewritten vector is a multiple of the entry of the vector.
-/

set_option linter.unusedSectionVars false
set_option linter.unusedSimpArgs false

namespace CEM
open Diagram Spec

section
variable {R : Type} [Field R] [LinearOrder R] [IsStrictOrderedRing R] [PySqrt R]

/-- A factor of a similarity. -/
structure Scaling (k : R) : Prop where
  pos : 0 < k
  sqrt : ∀ a : R, PySqrt.sqrt (k * k * a) = k * PySqrt.sqrt a

theorem Scaling.one : Scaling (1 : R) := ⟨one_pos, fun a => by rw [one_mul, one_mul, one_mul]⟩

theorem Scaling.ne {k : R} (h : Scaling k) : k ≠ 0 := h.pos.ne'

theorem Scaling.neg_iff {k : R} (h : Scaling k) (a : R) : k * a < 0 ↔ a < 0 := by
  have := mul_lt_mul_iff_right₀ h.pos (b := a) (c := 0)
  rwa [mul_zero] at this

/-- A traced array, turned by `A`, multiplied by `k` and moved by `w`. -/
def tv (A : Vec R → Vec R) (lam k : R) (w : Vec R) (a : Traced (Vec R)) : Traced (Vec R) :=
  ⟨k • A a.val + w, (lam * k) • A a.tan⟩

/-- A traced number, multiplied by `k`. -/
def tn (lam k : R) (a : Traced R) : Traced R := ⟨k * a.val, lam * k * a.tan⟩

variable {A : Vec R → Vec R} (h : Orthogonal A) (lam : R)

theorem dot_smul_smul (a b : R) (x y : Vec R) : Vec.dot (a • x) (b • y) = a * b * Vec.dot x y := by
  simp [Vec.dot]; ring

section
include h

theorem orth_zero : A 0 = 0 := by
  have := h.smul 0 0
  rwa [zero_smul, zero_smul] at this

theorem orth_neg (a : Vec R) : A (-a) = -A a := by
  have := h.smul (-1) a
  rwa [neg_one_smul, neg_one_smul] at this

theorem tv_sub (k : R) (w : Vec R) (a b : Traced (Vec R)) :
    Traced.sub (tv A lam k w a) (tv A lam k w b) = tv A lam k 0 (a.sub b) := by
  unfold Traced.sub tv
  simp only [Props.orth_sub h, smul_sub, add_zero, add_sub_add_right_eq_sub]

theorem tv_add (k : R) (w : Vec R) (a b : Traced (Vec R)) :
    Traced.add (tv A lam k w a) (tv A lam k 0 b) = tv A lam k w (a.add b) := by
  unfold Traced.add tv
  simp only [h.add, smul_add, add_zero]
  congr 1
  abel

theorem tv_neg (k : R) (a : Traced (Vec R)) : Traced.neg (tv A lam k 0 a) = tv A lam k 0 a.neg := by
  unfold Traced.neg tv
  simp only [orth_neg h, smul_neg, add_zero]

theorem tv_const (k : R) (w a : Vec R) : tv A lam k w (.const a) = .const (k • A a + w) := by
  unfold tv Traced.const
  simp only [orth_zero h, smul_zero]

theorem tv_dot (k m : R) (a b : Traced (Vec R)) :
    Traced.dot (tv A lam k 0 a) (tv A lam m 0 b) = tn lam (k * m) (a.dot b) := by
  unfold Traced.dot tv tn
  simp only [add_zero, dot_smul_smul, h.dot]
  congr 1
  ring

theorem length_tv {k : R} (hk : Scaling k) (a : Vec R) : Vec.length (k • A a) = k * Vec.length a := by
  unfold Vec.length
  rw [dot_smul_smul, h.dot, hk.sqrt]

theorem tv_norm {k : R} (hk : Scaling k) (a : Traced (Vec R)) :
    Traced.norm (tv A lam k 0 a) = (Traced.norm a).map (tn lam k) := by
  unfold Traced.norm tv tn
  simp only [add_zero, length_tv h hk, mul_eq_zero, hk.ne, false_or]
  split_ifs with h0
  · rfl
  · rw [Option.map_some, dot_smul_smul, h.dot]
    congr 2
    rw [mul_assoc, mul_div_mul_left _ _ hk.ne]
    ring

theorem quot_eq (v : Traced (Vec R)) (n : Traced R) :
    v.quot n = ⟨n.val⁻¹ • v.val, (n.val * n.val)⁻¹ • (n.val • v.tan - n.tan • v.val)⟩ := by
  unfold Traced.quot
  congr 1
  · ext <;> simp [div_eq_inv_mul]
  · ext <;> simp [div_eq_inv_mul] <;> left <;> ring

theorem tv_quot {k : R} (hk : Scaling k) (a : Traced (Vec R)) (n : Traced R) :
    (tv A lam k 0 a).quot (tn lam k n) = tv A lam 1 0 (a.quot n) := by
  rw [quot_eq h, quot_eq h]
  unfold tv tn
  simp only [add_zero, h.smul, Props.orth_sub h, one_smul, mul_one]
  have hk := hk.ne
  congr 1
  · rw [smul_smul, mul_inv, mul_right_comm, inv_mul_cancel₀ hk, one_mul]
  · have : (k * n.val) • (lam * k) • A a.tan - (lam * k * n.tan) • k • A a.val =
        (lam * (k * k)) • (n.val • A a.tan - n.tan • A a.val) := by
      rw [smul_sub, smul_smul, smul_smul, smul_smul, smul_smul]
      congr 2 <;> ring
    rw [this, smul_smul, smul_smul]
    congr 1
    rw [show k * n.val * (k * n.val) = k * k * (n.val * n.val) by ring, mul_inv,
      show (k * k)⁻¹ * (n.val * n.val)⁻¹ * (lam * (k * k)) = (k * k)⁻¹ * (k * k) * (lam * (n.val * n.val)⁻¹) by ring,
      inv_mul_cancel₀ (mul_ne_zero hk hk), one_mul]

theorem tv_normalize {k : R} (hk : Scaling k) (a : TVec R) :
    adNormalize (a.map (tv A lam k 0)) = (adNormalize a).map (tv A lam 1 0) := by
  cases a with
  | none => rfl
  | some a =>
    unfold adNormalize
    simp only [Option.map_some, Option.bind_some]
    rw [tv_norm h lam hk]
    cases a.norm with
    | none => rfl
    | some n => exact congrArg some (tv_quot h lam hk a n)

theorem tv_scale (m k : R) (f : Traced R) (a : Traced (Vec R)) :
    Traced.scale (tn lam m f) (tv A lam k 0 a) = tv A lam (m * k) 0 (f.scale a) := by
  unfold Traced.scale tv tn
  simp only [add_zero, h.smul, h.add, smul_add, smul_smul]
  congr 1
  · congr 1; ring
  · congr 2 <;> ring

end

theorem tn_div (m : R) {k : R} (hk : k ≠ 0) (a b : Traced R) :
    Traced.div (tn lam m a) (tn lam k b) = tn lam (m / k) (a.div b) := by
  unfold Traced.div tn
  simp only
  congr 1
  · rw [mul_div_mul_comm]
  · rw [show lam * m * a.tan * (k * b.val) - m * a.val * (lam * k * b.tan) =
      (lam * m * k) * (a.tan * b.val - a.val * b.tan) by ring,
      show k * b.val * (k * b.val) = (k * k) * (b.val * b.val) by ring, mul_div_mul_comm]
    congr 1
    field_simp

theorem tn_const (k a : R) : tn lam k (.const a) = .const (k * a) := by
  unfold tn Traced.const
  simp only [mul_zero]

theorem tn_neg (k : R) (a : Traced R) : Traced.neg (tn lam k a) = tn lam k a.neg := by
  unfold Traced.neg tn
  simp only [mul_neg]

theorem tn_sub (k : R) (a b : Traced R) : Traced.sub (tn lam k a) (tn lam k b) = tn lam k (a.sub b) := by
  unfold Traced.sub tn
  simp only [mul_sub]

theorem tn_add (k : R) (a b : Traced R) : Traced.add (tn lam k a) (tn lam k b) = tn lam k (a.add b) := by
  unfold Traced.add tn
  simp only [mul_add]

theorem tn_mul (m k : R) (a b : Traced R) : Traced.mul (tn lam m a) (tn lam k b) = tn lam (m * k) (a.mul b) := by
  unfold Traced.mul tn
  simp only
  congr 1 <;> ring

theorem tn_sqrt {k : R} (hk : Scaling k) (a : Traced R) :
    Traced.sqrt (tn lam (k * k) a) = tn lam k a.sqrt := by
  unfold Traced.sqrt tn
  simp only [hk.sqrt]
  congr 1
  rw [show lam * (k * k) * a.tan = k * (lam * k * a.tan) by ring,
    show 2 * (k * PySqrt.sqrt a.val) = k * (2 * PySqrt.sqrt a.val) by ring, mul_div_mul_left _ _ hk.ne]
  ring

/-! ## The solver -/

/-- The transformation is a similarity. -/
structure Trans.Similar (τ : Trans R) (A : Vec R → Vec R) (cl cf : R) (v : Vec R) : Prop where
  orth : Orthogonal A
  len : Scaling cl
  frc : Scaling cf
  p : ∀ a, τ.p a = cl • A a + v
  r : ∀ a, τ.r a = cf • A a
  u : ∀ a, τ.u a = A a
  f : ∀ a, τ.f a = cf * a
  l : ∀ a, τ.l a = cl * a
  q : ∀ a, τ.q a = (τ.p a.1, τ.u a.2)

/-- What happens to derivatives. -/
def Trans.tangent (τ : Trans R) (A : Vec R → Vec R) (cl cf lam : R) : Trans R where
  p a := (lam * cl) • A a
  r a := (lam * cf) • A a
  u a := lam • A a
  f a := lam * cf * a
  l a := lam * cl * a
  q := τ.q

/-- The traced state, transformed. -/
def aTrans (A : Vec R → Vec R) (cl cf : R) (v : Vec R) (lam : R) (s : AState R) : AState R where
  xyz := mapVal (Option.map (tv A lam cl v)) s.xyz
  residual := mapVal (Option.map (tv A lam cf 0)) s.residual
  trailForces := mapVal (Option.map (tn lam cf)) s.trailForces
  reactions := mapVal (Option.map (tv A lam cf 0)) s.reactions

namespace Trans.Similar
variable {τ : Trans R} {cl cf : R} {v : Vec R} (S : τ.Similar A cl cf v)
include S

theorem tanForce (T : Diagram R) (e : Int × Int) :
    tanForce ((τ.tangent A cl cf lam).diagram T) e = lam * cf * CEM.tanForce T e := by
  unfold CEM.tanForce Trans.diagram
  simp only [mapVal_get?]
  cases T.edges.get? e with
  | none => simp
  | some d => rfl

theorem tanLength (T : Diagram R) (e : Int × Int) :
    tanLength ((τ.tangent A cl cf lam).diagram T) e = lam * cl * CEM.tanLength T e := by
  unfold CEM.tanLength Trans.diagram
  simp only [mapVal_get?]
  cases T.edges.get? e with
  | none => simp
  | some d => rfl

theorem tanLoad (T : Diagram R) (n : Int) :
    tanLoad ((τ.tangent A cl cf lam).diagram T) n = (lam * cf) • A (CEM.tanLoad T n) := by
  unfold CEM.tanLoad Trans.diagram
  simp only [mapVal_get?]
  cases T.nodes.get? n with
  | none => simp [orth_zero S.orth]
  | some d => rfl

theorem tanPos (T : Diagram R) (n : Int) :
    tanPos ((τ.tangent A cl cf lam).diagram T) n = (lam * cl) • A (CEM.tanPos T n) := by
  unfold CEM.tanPos Trans.diagram
  simp only [mapVal_get?]
  cases T.nodes.get? n with
  | none => simp [orth_zero S.orth]
  | some d => rfl

theorem incoming (node : Int) (xyz : Dict Int (TVec R)) (e : Int × Int) :
    adIncoming node (mapVal (Option.map (tv A lam cl v)) xyz) e =
      (adIncoming node xyz e).map (Option.map (tv A lam 1 0)) := by
  unfold adIncoming
  simp only [mapVal_getE]
  cases xyz.getE (if e.1 ≠ node then e.1 else e.2) with
  | error _ => rfl
  | ok a =>
    cases xyz.getE node with
    | error _ => rfl
    | ok b =>
      simp only [Except.map]
      rw [lift2_map (tv_sub S.orth lam cl v), tv_normalize S.orth lam S.len]

theorem resultant (T : Diagram R) (node : Int) (xyz : Dict Int (TVec R)) (forces : Dict (Int × Int) R)
    (l : List (Int × Int)) (acc : TVec R) :
    adResultant ((τ.tangent A cl cf lam).diagram T) node (mapVal (Option.map (tv A lam cl v)) xyz)
      (mapVal τ.f forces) l (acc.map (tv A lam cf 0)) =
      (adResultant T node xyz forces l acc).map (Option.map (tv A lam cf 0)) := by
  induction l generalizing acc with
  | nil => rfl
  | cons e l ih =>
    unfold adResultant
    rw [mapVal_getE]
    cases forces.getE e with
    | error _ => rfl
    | ok f =>
      simp only [Except.map]
      rw [S.incoming lam node xyz e]
      cases adIncoming node xyz e with
      | error _ => rfl
      | ok w =>
        simp only [Except.map]
        refine Eq.trans ?_ (ih _)
        congr 1
        rw [← lift2_map (fun a b => tv_add S.orth lam cf 0 a b)]
        congr 1
        cases w with
        | none => rfl
        | some w =>
          simp only [Option.map_some]
          rw [S.tanForce, S.f, show (⟨cf * f, lam * cf * CEM.tanForce T e⟩ : Traced R) =
            tn lam cf ⟨f, CEM.tanForce T e⟩ from rfl, tv_scale S.orth, mul_one]

theorem zeroVec : (some (.const 0) : TVec R) = (some (.const 0) : TVec R).map (tv A lam cf 0) := by
  rw [Option.map_some, tv_const S.orth, orth_zero S.orth, smul_zero, add_zero]

theorem indirect (T : Diagram R) (tab : NTables R) (ind : Bool) (node : Int) (xyz : Dict Int (TVec R)) :
    adIndirect ((τ.tangent A cl cf lam).diagram T) (τ.tables tab) ind node
      (mapVal (Option.map (tv A lam cl v)) xyz) =
      (adIndirect T tab ind node xyz).map (Option.map (tv A lam cf 0)) := by
  unfold adIndirect
  cases ind with
  | false =>
    simp only [Bool.false_eq_true, if_false]
    exact congrArg Except.ok (S.zeroVec lam)
  | true =>
    simp only [if_true, Trans.tables]
    cases tab.indirect.getE node with
    | error _ => rfl
    | ok es =>
      simp only
      conv_lhs => rw [S.zeroVec lam]
      exact S.resultant lam T node xyz tab.forces es _

theorem nodeEq (t q rd ri : TVec R) : adNodeEquilibrium (t.map (tv A lam cf 0)) (q.map (tv A lam cf 0))
    (rd.map (tv A lam cf 0)) (ri.map (tv A lam cf 0)) =
    (adNodeEquilibrium t q rd ri).map (tv A lam cf 0) := by
  unfold adNodeEquilibrium
  have hn : ∀ t : TVec R, (t.map (tv A lam cf 0)).map Traced.neg = (t.map Traced.neg).map (tv A lam cf 0) := by
    intro t
    cases t with
    | none => rfl
    | some t => exact congrArg some (tv_neg S.orth lam cf t)
  have ha := fun a b => lift2_map (fun x y => tv_add S.orth lam cf 0 x y) a b
  rw [hn, ha, ha, ha, hn]

theorem planeLength (a r : TVec R) (q : Vec R × Vec R) :
    adPlaneLength (a.map (tv A lam cl v)) (r.map (tv A lam cf 0)) (τ.q q) =
      (adPlaneLength a r q).map (Option.map (tn lam cl)) := by
  unfold adPlaneLength
  rw [tv_normalize S.orth lam S.frc]
  cases adNormalize r with
  | none => rfl
  | some u =>
    simp only [Option.map_some]
    have hN : (Traced.const (τ.q q).2 : Traced (Vec R)) = tv A lam 1 0 (.const q.2) := by
      rw [S.q, tv_const S.orth, S.u, one_smul, add_zero]
    have ho : (Traced.const (τ.q q).1 : Traced (Vec R)) = tv A lam cl v (.const q.1) := by
      rw [S.q, tv_const S.orth, S.p]
    rw [hN, ho, tv_dot S.orth, mul_one]
    have hval : (tn lam 1 (Traced.dot (.const q.2) u)).val = (Traced.dot (.const q.2) u).val := one_mul _
    rw [hval]
    split_ifs
    · rfl
    · cases a with
      | none => rfl
      | some a =>
        simp only [Option.map_some]
        rw [tv_sub S.orth, tv_dot S.orth, tn_div lam _ one_ne_zero, one_mul, div_one]

theorem effective (l : Traced R) (q : Option (Vec R × Vec R)) (a r : TVec R) :
    adEffectiveLength (tn lam cl l) (q.map τ.q) (a.map (tv A lam cl v)) (r.map (tv A lam cf 0)) =
      (adEffectiveLength l q a r).map (tn lam cl) := by
  unfold adEffectiveLength
  cases q with
  | none => rfl
  | some q =>
    simp only [Option.map_some]
    rw [S.planeLength]
    cases adPlaneLength a r q with
    | none => rfl
    | some l' => cases l' with
      | none => rfl
      | some l' =>
        simp only [Option.map_some, tn, mul_eq_zero, S.len.ne, false_or]
        split_ifs <;> rfl

theorem direction (r : TVec R) : adDirection (r.map (tv A lam cf 0)) =
    match adNormalize r with
    | none => r.map (tv A lam cf 0)
    | some u => some (tv A lam 1 0 u) := by
  unfold adDirection
  rw [tv_normalize S.orth lam S.frc]
  cases adNormalize r <;> rfl

theorem trailForce (r : TVec R) (l : TNum R) :
    adTrailForce (r.map (tv A lam cf 0)) (l.map (tn lam cl)) = (adTrailForce r l).map (tn lam cf) := by
  unfold adTrailForce
  have hb : (r.map (tv A lam cf 0)).bind Traced.norm = (r.bind Traced.norm).map (tn lam cf) := by
    cases r with
    | none => rfl
    | some r => exact tv_norm S.orth lam S.frc r
  rw [hb]
  cases r.bind Traced.norm with
  | none => cases l <;> rfl
  | some f => cases l with
    | none => rfl
    | some l =>
      simp only [Option.map_some]
      have : (tn lam cf f).val * (tn lam cl l).val = cf * (cl * (f.val * l.val)) := by
        simp only [tn]; ring
      rw [this]
      simp only [S.frc.neg_iff, S.len.neg_iff]
      split_ifs
      · rw [tn_neg]; rfl
      · rfl

/-- The next node.  Where the resulting force vanishes, the code uses the force vector instead of a
direction. -/
theorem next (pos : TVec R) (l : TNum R) (r : TVec R)
    (hz : cf = 1 ∨ ∀ a, r = some a → Vec.length a.val ≠ 0) :
    lift2 Traced.add (pos.map (tv A lam cl v)) (lift2 Traced.scale (l.map (tn lam cl))
      (adDirection (r.map (tv A lam cf 0)))) =
      (lift2 Traced.add pos (lift2 Traced.scale l (adDirection r))).map (tv A lam cl v) := by
  have hd : adDirection (r.map (tv A lam cf 0)) = (adDirection r).map (tv A lam 1 0) := by
    rw [S.direction]
    unfold adDirection
    cases hn : adNormalize r with
    | some u => rfl
    | none =>
      simp only
      cases r with
      | none => rfl
      | some r =>
        rcases hz with rfl | hz
        · rfl
        · exfalso
          unfold adNormalize Traced.norm at hn
          simp [if_neg (hz r rfl)] at hn
  have h1 : ∀ a b, Traced.scale (tn lam cl a) (tv A lam 1 0 b) = tv A lam cl 0 (a.scale b) := by
    intro a b
    rw [tv_scale S.orth, mul_one]
  rw [hd, lift2_map h1, lift2_map (fun x y => tv_add S.orth lam cl v x y)]

theorem step (D T : Diagram R) (tab : NTables R) (tseq : Dict Int (Dict Int Int)) (ind : Bool)
    (k : Int) (s : AState R) (key : Int)
    (hz : cf = 1 ∨ ∀ s', adStep D T tab tseq ind k s key = .ok s' → ∀ e, s'.trailForces.get? e ≠ some none) :
    adStep (τ.diagram D) ((τ.tangent A cl cf lam).diagram T) (τ.tables tab) tseq ind k
      (aTrans A cl cf v lam s) key =
      (adStep D T tab tseq ind k s key).map (aTrans A cl cf v lam) := by
  revert hz
  unfold adStep
  have hx : ∀ n, (aTrans A cl cf v lam s).xyz.getE n = (s.xyz.getE n).map (Option.map (tv A lam cl v)) :=
    fun n => mapVal_getE _ _ _
  have hr : ∀ n, (aTrans A cl cf v lam s).residual.getE n = (s.residual.getE n).map (Option.map (tv A lam cf 0)) :=
    fun n => mapVal_getE _ _ _
  have hq : ∀ n, (τ.tables tab).loads.getE n = (tab.loads.getE n).map τ.r := fun n => mapVal_getE _ _ _
  have hl : ∀ e, (τ.tables tab).lengths.getE e = (tab.lengths.getE e).map τ.l := fun n => mapVal_getE _ _ _
  have hp : ∀ e, (τ.tables tab).planes.get? e = (tab.planes.get? e).map τ.q := fun n => mapVal_get? _ _ _
  cases tseq.getE key with
  | error _ => intro _; rfl
  | ok seqs =>
    simp only
    cases seqs.get? k with
    | none => intro _; rfl
    | some node =>
      simp only
      rw [hx]
      cases s.xyz.getE node with
      | error _ => intro _; rfl
      | ok pos =>
        simp only [Except.map]
        rw [hr]
        cases s.residual.getE node with
        | error _ => intro _; rfl
        | ok rin =>
          simp only [Except.map]
          rw [hq]
          cases tab.loads.getE node with
          | error _ => intro _; rfl
          | ok q =>
            simp only [Except.map]
            have hdir : (τ.tables tab).direct = tab.direct := rfl
            rw [hdir]
            cases tab.direct.getE node with
            | error _ => intro _; rfl
            | ok dirEdges =>
              simp only
              have h1 : adResultant ((τ.tangent A cl cf lam).diagram T) node (aTrans A cl cf v lam s).xyz
                  (τ.tables tab).forces dirEdges (some (.const 0)) =
                  (adResultant T node s.xyz tab.forces dirEdges (some (.const 0))).map
                    (Option.map (tv A lam cf 0)) := by
                conv_lhs => rw [S.zeroVec lam]
                exact S.resultant lam T node s.xyz tab.forces dirEdges _
              have h2 : adIndirect ((τ.tangent A cl cf lam).diagram T) (τ.tables tab) ind node
                  (aTrans A cl cf v lam s).xyz =
                  (adIndirect T tab ind node s.xyz).map (Option.map (tv A lam cf 0)) :=
                S.indirect lam T tab ind node s.xyz
              rw [h1]
              cases adResultant T node s.xyz tab.forces dirEdges (some (.const 0)) with
              | error _ => intro _; rfl
              | ok rd =>
                simp only [Except.map]
                rw [h2]
                cases adIndirect T tab ind node s.xyz with
                | error _ => intro _; rfl
                | ok ri =>
                  simp only [Except.map]
                  have h3 := S.nodeEq lam rin (some ⟨q, CEM.tanLoad T node⟩) rd ri
                  have hload : (some ⟨τ.r q, CEM.tanLoad ((τ.tangent A cl cf lam).diagram T) node⟩ : TVec R) =
                      (some ⟨q, CEM.tanLoad T node⟩ : TVec R).map (tv A lam cf 0) := by
                    rw [Option.map_some, S.tanLoad, S.r]
                    simp only [tv, add_zero]
                  rw [(sameTopo τ D).isNodeSupport, hload, h3]
                  generalize adNodeEquilibrium rin (some ⟨q, CEM.tanLoad T node⟩) rd ri = rvec
                  cases D.isNodeSupport node with
                  | error _ => intro _; rfl
                  | ok sup =>
                    simp only
                    by_cases hs : sup = true
                    · rw [if_pos hs, if_pos hs]
                      intro _
                      simp only [aTrans, mapVal_set]
                    · rw [if_neg hs, if_neg hs]
                      cases seqs.getE (k + 1) with
                      | error _ => intro _; rfl
                      | ok nxt =>
                        simp only
                        have hek : (τ.tables tab).edgeKeys = tab.edgeKeys := rfl
                        rw [hek]
                        generalize (if (node, nxt) ∈ tab.edgeKeys then (node, nxt) else (nxt, node)) = edge
                        rw [hl]
                        cases tab.lengths.getE edge with
                        | error _ => intro _; rfl
                        | ok length0 =>
                          simp only [Except.map]
                          intro hz
                          have hlen : (⟨τ.l length0, CEM.tanLength ((τ.tangent A cl cf lam).diagram T) edge⟩ : Traced R) =
                              tn lam cl ⟨length0, CEM.tanLength T edge⟩ := by
                            rw [S.tanLength, S.l]; rfl
                          have hz' : cf = 1 ∨ ∀ a, rvec = some a → Vec.length a.val ≠ 0 := by
                            refine hz.imp id fun hz a ha h0 => ?_
                            refine hz _ rfl edge ?_
                            simp only
                            rw [Dict.get?_set_self, ha]
                            unfold adTrailForce
                            rw [Option.bind_some]
                            have : Traced.norm a = none := if_pos h0
                            rw [this]
                          rw [hlen, hp, S.effective, S.trailForce, S.next lam _ _ _ hz']
                          simp only [aTrans, mapVal_set]

end Trans.Similar

/-! ### Sweeps -/

theorem forE_prefix {σ σ' α : Type} {φ : σ → σ'} {f : σ → α → Except PyErr σ} {f' : σ' → α → Except PyErr σ'}
    (l : List α) (s : σ)
    (h : ∀ pre a post s1, l = pre ++ a :: post → forE f pre s = .ok s1 → f' (φ s1) a = (f s1 a).map φ) :
    forE f' l (φ s) = (forE f l s).map φ := by
  induction l generalizing s with
  | nil => rfl
  | cons a l ih =>
    unfold forE
    rw [h [] a l s rfl rfl]
    cases hs : f s a with
    | error _ => rfl
    | ok s' =>
      refine ih s' fun pre b post s1 hl h1 => h (a :: pre) b post s1 (by rw [hl]; rfl) ?_
      unfold forE
      rw [hs]
      exact h1

theorem forE_concat {σ α : Type} (f : σ → α → Except PyErr σ) (l m : List α) (s : σ) :
    forE f (l ++ m) s = match forE f l s with
      | .error err => .error err
      | .ok s' => forE f m s' := by
  induction l generalizing s with
  | nil => rfl
  | cons a l ih =>
    have h : ∀ l, forE f (a :: l) s = match f s a with
      | .error err => .error err
      | .ok s' => forE f l s' := fun _ => rfl
    rw [List.cons_append, h, h]
    cases f s a with
    | error _ => rfl
    | ok s' => exact ih s'

/-- Two nested loops are one loop over pairs. -/
theorem forE_pairs {σ α β : Type} (f : α → σ → β → Except PyErr σ) (l : List α) (m : List β) (s : σ) :
    forE (fun s a => forE (f a) m s) l s =
      forE (fun s q => f q.1 s q.2) (l.flatMap fun a => m.map (Prod.mk a)) s := by
  have hm : ∀ (a : α) (m : List β) (s : σ), forE (fun s q => f q.1 s q.2) (m.map (Prod.mk a)) s = forE (f a) m s := by
    intro a m
    induction m with
    | nil => intro s; rfl
    | cons b m ih =>
      intro s
      rw [List.map_cons]
      unfold forE
      cases f a s b with
      | error _ => rfl
      | ok s' => exact ih s'
  induction l generalizing s with
  | nil => rfl
  | cons a l ih =>
    rw [List.flatMap_cons, forE_concat, hm, forE]
    cases forE (f a) m s with
    | error _ => rfl
    | ok s' => exact ih s'

/-- The steps of a sweep. -/
def stepsOf (D : Diagram R) (n : Int) : List (Int × Int) :=
  (pyRange n).flatMap fun k => D.trails.keys.map (Prod.mk k)

/-- The first `t` sweeps. -/
def adSweeps (D T : Diagram R) (tab : NTables R) (tseq : Dict Int (Dict Int Int)) (n : Int) :
    Nat → Except PyErr (AState R)
  | 0 => .ok (adInit D T)
  | t + 1 =>
    match adSweeps D T tab tseq n t with
    | .error err => .error err
    | .ok s => adSweep D T tab tseq (t > 0) n s

/-- In no step of the first `tmax` sweeps the derivative of a trail force is NaN. -/
def NeverSlack (D T : Diagram R) (tmax : Nat) : Prop :=
  ∀ tseq tab n, D.trailsSequences = .ok tseq → npTables D = .ok tab → D.numberOfSequences = .ok n →
    ∀ t, t < tmax → ∀ s, adSweeps D T tab tseq n t = .ok s → ∀ pre, pre <+: stepsOf D n →
      ∀ s', forE (fun s q => adStep D T tab tseq (t > 0) q.1 s q.2) pre s = .ok s' →
        ∀ e, s'.trailForces.get? e ≠ some none

/-- The first `t` sweeps of the numpy solver. -/
def npSweeps (D : Diagram R) (tab : NTables R) (tseq : Dict Int (Dict Int Int)) (n : Int) :
    Nat → Except PyErr (NState R)
  | 0 => .ok (npInit D)
  | t + 1 =>
    match npSweeps D tab tseq n t with
    | .error err => .error err
    | .ok s => npSweep D tab tseq (t > 0) n s

/-- In no step of the first `tmax` sweeps of the numpy solver a trail edge carries no force. -/
def Taut (D : Diagram R) (tmax : Nat) : Prop :=
  ∀ tseq tab n, D.trailsSequences = .ok tseq → npTables D = .ok tab → D.numberOfSequences = .ok n →
    ∀ t, t < tmax → ∀ s, npSweeps D tab tseq n t = .ok s → ∀ pre, pre <+: stepsOf D n →
      ∀ s', forE (fun s q => npStep D tab tseq (t > 0) q.1 s q.2) pre s = .ok s' →
        ∀ e, s'.trailForces.get? e ≠ some none ∧ s'.trailForces.get? e ≠ some (some 0)

theorem sweeps_both (D T : Diagram R) (tab : NTables R) (tseq : Dict Int (Dict Int Int)) (n : Int) (t : Nat) :
    Both Shadows (adSweeps D T tab tseq n t) (npSweeps D tab tseq n t) := by
  induction t with
  | zero => exact shadows_init D T
  | succ t ih =>
    unfold adSweeps npSweeps
    cases h1 : adSweeps D T tab tseq n t with
    | error e =>
      cases h2 : npSweeps D tab tseq n t with
      | error e' => rw [h1, h2] at ih; exact ih
      | ok s => rw [h1, h2] at ih; exact ih.elim
    | ok a =>
      cases h2 : npSweeps D tab tseq n t with
      | error e' => rw [h1, h2] at ih; exact ih.elim
      | ok s => rw [h1, h2] at ih; exact adSweep_both ih

theorem Taut.neverSlack {D : Diagram R} {tmax : Nat} (h : Taut D tmax) (T : Diagram R) : NeverSlack D T tmax := by
  intro tseq tab n h1 h2 h3 t ht a ha pre hpre a' ha' e he
  have hb := sweeps_both D T tab tseq n t
  cases hs : npSweeps D tab tseq n t with
  | error err => rw [ha, hs] at hb; exact hb
  | ok s =>
    rw [ha, hs] at hb
    have hb' := forE_both (r := Shadows) (f := fun s q => adStep D T tab tseq (t > 0) q.1 s q.2)
      (g := fun s q => npStep D tab tseq (t > 0) q.1 s q.2) (fun _ _ c h => adStep_both h c.2) pre hb
    cases hs' : forE (fun s (q : Int × Int) => npStep D tab tseq (t > 0) q.1 s q.2) pre s with
    | error err => rw [ha', hs'] at hb'; exact hb'
    | ok s' =>
      rw [ha', hs'] at hb'
      obtain ⟨k1, k2⟩ := h tseq tab n h1 h2 h3 t ht s hs pre hpre s' hs' e
      rcases hb'.slack e he with h | h
      · exact k1 h
      · exact k2 h

theorem adSweep_steps (D T : Diagram R) (tab : NTables R) (tseq : Dict Int (Dict Int Int)) (ind : Bool) (n : Int)
    (s : AState R) : adSweep D T tab tseq ind n s =
      forE (fun s q => adStep D T tab tseq ind q.1 s q.2) (stepsOf D n) s :=
  forE_pairs (fun k s key => adStep D T tab tseq ind k s key) _ _ s

namespace Trans.Similar
variable {τ : Trans R} {cl cf : R} {v : Vec R} (S : τ.Similar A cl cf v)
include S

theorem sweep (D T : Diagram R) (tab : NTables R) (tseq : Dict Int (Dict Int Int)) (ind : Bool)
    (n : Int) (s : AState R)
    (hz : cf = 1 ∨ ∀ pre, pre <+: stepsOf D n →
      ∀ s', forE (fun s q => adStep D T tab tseq ind q.1 s q.2) pre s = .ok s' →
        ∀ e, s'.trailForces.get? e ≠ some none) :
    adSweep (τ.diagram D) ((τ.tangent A cl cf lam).diagram T) (τ.tables tab) tseq ind n
      (aTrans A cl cf v lam s) =
      (adSweep D T tab tseq ind n s).map (aTrans A cl cf v lam) := by
  rw [adSweep_steps, adSweep_steps]
  have hs : stepsOf (τ.diagram D) n = stepsOf D n := rfl
  rw [hs]
  refine forE_prefix _ s fun pre a post s1 hl h1 => ?_
  refine S.step lam D T tab tseq ind a.1 s1 a.2 (hz.imp id fun hz s' hs' => ?_)
  refine hz (pre ++ [a]) ⟨post, by rw [hl]; simp⟩ s' ?_
  rw [forE_concat, h1]
  simp only [forE, hs']

theorem valuesOf (xyz : Dict Int (TVec R)) :
    valuesOf (mapVal (Option.map (tv A lam cl v)) xyz) = mapVal (Option.map τ.p) (CEM.valuesOf xyz) := by
  unfold CEM.valuesOf mapVal
  rw [List.map_map, List.map_map]
  refine List.map_congr_left fun q _ => ?_
  simp only [Function.comp]
  cases q.2 with
  | none => rfl
  | some a => simp only [Option.map_some, S.p]; rfl

theorem loop {sq : R → R} (N : τ.NGood sq) (D T : Diagram R) (tab : NTables R) (tseq : Dict Int (Dict Int Int)) (eta : R)
    (n : Int) (tmax fuel t : Nat) (ht : t + fuel ≤ tmax) (s : AState R) (i : Option (NLoopInfo R))
    (hs : adSweeps D T tab tseq n t = .ok s)
    (hz : cf = 1 ∨ ∀ t, t < tmax → ∀ s, adSweeps D T tab tseq n t = .ok s → ∀ pre, pre <+: stepsOf D n →
      ∀ s', forE (fun s q => adStep D T tab tseq (t > 0) q.1 s q.2) pre s = .ok s' →
        ∀ e, s'.trailForces.get? e ≠ some none) :
    adLoop (τ.diagram D) ((τ.tangent A cl cf lam).diagram T) (τ.tables tab) tseq (τ.l eta) n fuel t
      (aTrans A cl cf v lam s) (i.map fun i => ⟨i.t, i.distance.map (Option.map τ.l)⟩) =
      (adLoop D T tab tseq eta n fuel t s i).map fun r =>
        (aTrans A cl cf v lam r.1, r.2.map fun i => ⟨i.t, i.distance.map (Option.map τ.l)⟩) := by
  induction fuel generalizing t s i with
  | zero => rfl
  | succ fuel ih =>
    unfold adLoop
    rw [S.sweep lam D T tab tseq (t > 0) n s (hz.imp id fun hz => hz t (by omega) s hs)]
    have hnext : adSweeps D T tab tseq n (t + 1) = adSweep D T tab tseq (t > 0) n s := by
      rw [adSweeps, hs]
    cases hs' : adSweep D T tab tseq (decide (t > 0)) n s with
    | error _ => rfl
    | ok s' =>
      rw [hs'] at hnext
      simp only [Except.map]
      by_cases h0 : t = 0
      · rw [if_pos h0, if_pos h0]
        exact ih (t + 1) (by omega) s' (some ⟨0, none⟩) hnext
      · rw [if_neg h0, if_neg h0]
        have hres : npDistance (CEM.valuesOf (aTrans A cl cf v lam s).xyz) (CEM.valuesOf (aTrans A cl cf v lam s').xyz) =
            (npDistance (CEM.valuesOf s.xyz) (CEM.valuesOf s'.xyz)).map τ.l := by
          change npDistance (CEM.valuesOf (mapVal _ s.xyz)) (CEM.valuesOf (mapVal _ s'.xyz)) = _
          rw [S.valuesOf, S.valuesOf]
          exact N.distance _ _
        rw [hres, N.lt]
        by_cases hd : Num.lt (npDistance (CEM.valuesOf s.xyz) (CEM.valuesOf s'.xyz)) eta = true
        · rw [if_pos hd, if_pos hd]
          rfl
        · rw [if_neg hd, if_neg hd]
          exact ih (t + 1) (by omega) s' (some ⟨t, some (npDistance (CEM.valuesOf s.xyz) (CEM.valuesOf s'.xyz))⟩) hnext

theorem init (D T : Diagram R) : adInit (τ.diagram D) ((τ.tangent A cl cf lam).diagram T) =
    aTrans A cl cf v lam (adInit D T) := by
  unfold adInit aTrans
  have hn : (τ.diagram D).nodes = mapVal τ.node D.nodes := rfl
  rw [hn]
  simp only [mapVal, List.map_map, List.map_nil]
  congr 1
  · refine List.map_congr_left fun q _ => ?_
    simp only [Function.comp, Option.map_some, S.tanPos]
    unfold tv Trans.node
    simp only [S.p]
  · refine List.map_congr_left fun q _ => ?_
    simp only [Function.comp, Option.map_some]
    rw [tv_const S.orth, add_zero]
    unfold Trans.node
    simp only [S.r]

/-- Automatic differentiation of form finding commutes with the transformation. -/
theorem equilibrium {sq : R → R} (N : τ.NGood sq) (D T : Diagram R) (tmax : Nat) (eta : R)
    (hz : cf = 1 ∨ NeverSlack D T tmax) :
    adEquilibriumState (τ.diagram D) ((τ.tangent A cl cf lam).diagram T) tmax (τ.l eta) =
      (adEquilibriumState D T tmax eta).map (aTrans A cl cf v lam) := by
  unfold adEquilibriumState
  rw [(sameTopo τ D).trailsSequences, (sameTopo τ D).numberOfSequences, npTables_map]
  have hn : (τ.diagram D).numberOfTrails = D.numberOfTrails := rfl
  rw [hn]
  by_cases h0 : D.numberOfTrails = 0
  · rw [if_pos h0, if_pos h0]; rfl
  rw [if_neg h0, if_neg h0]
  cases hseq : D.trailsSequences with
  | error _ => rfl
  | ok tseq =>
    simp only
    cases htab : npTables D with
    | error _ => rfl
    | ok tab =>
      simp only [Except.map]
      by_cases ht : tmax = 0
      · rw [if_pos ht, if_pos ht]
      rw [if_neg ht, if_neg ht]
      cases hnum : D.numberOfSequences with
      | error _ => rfl
      | ok n =>
        simp only
        have := S.loop lam N D T tab tseq eta n tmax tmax 0 (by omega) (adInit D T) none rfl
          (hz.imp id fun hz => hz tseq tab n hseq htab hnum)
        simp only [Option.map_none] at this
        rw [S.init, this]
        cases adLoop D T tab tseq eta n tmax 0 (adInit D T) none with
        | error _ => rfl
        | ok r =>
          obtain ⟨s, i⟩ := r
          simp only [Except.map]
          unfold adFinish
          cases i with
          | none => rfl
          | some i =>
            obtain ⟨t, d⟩ := i
            simp only [Option.map_some]
            by_cases ht : t > 0
            · rw [if_pos ht, if_pos ht]
              cases d with
              | none => rfl
              | some d =>
                simp only [Option.map_some, N.gt]
                by_cases hd : Num.gt d eta = true
                · rw [if_pos hd, if_pos hd]
                · rw [if_neg hd, if_neg hd]
            · rw [if_neg ht, if_neg ht]

end Trans.Similar
end
end CEM
