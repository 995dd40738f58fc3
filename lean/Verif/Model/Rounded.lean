import Verif.Model.Equilibrium

/-!
# Form finding with any arithmetic

The functions of `src/compas_cem/equilibrium/force.py` once more, with every
addition, subtraction, multiplication, division and square root made by a given
arithmetic `A`.  Floating point numbers are one such arithmetic
(`Spec/Rounded.lean`).  With the exact operations these are the functions of
`Model/Equilibrium.lean` (`flStaticEquilibrium_exact`).

Simplifications: scaling by `-1.0`, adding to the literal `0.0` of Python's `sum`,
`fabs`, `copysign` and comparisons are exact, as in IEEE arithmetic; `x ** 2` is one
multiplication.
-/

namespace CEM
open Diagram

/-- The operations on numbers. -/
structure Arith (R : Type) where
  add : R → R → R
  sub : R → R → R
  mul : R → R → R
  div : R → R → R
  sqrt : R → R

variable {R : Type} [Field R] [LinearOrder R]

namespace Arith

/-- The operations of the field. -/
def exact [PySqrt R] : Arith R where
  add a b := a + b
  sub a b := a - b
  mul a b := a * b
  div a b := a / b
  sqrt a := PySqrt.sqrt a

variable (A : Arith R)

/-- `compas.geometry.add_vectors` -/
def vadd (a b : Vec R) : Vec R := ⟨A.add a.x b.x, A.add a.y b.y, A.add a.z b.z⟩

/-- `compas.geometry.subtract_vectors` -/
def vsub (a b : Vec R) : Vec R := ⟨A.sub a.x b.x, A.sub a.y b.y, A.sub a.z b.z⟩

/-- `compas.geometry.scale_vector` -/
def vscale (s : R) (a : Vec R) : Vec R := ⟨A.mul s a.x, A.mul s a.y, A.mul s a.z⟩

/-- `compas.geometry.dot_vectors` -/
def vdot (a b : Vec R) : R := A.add (A.add (A.mul a.x b.x) (A.mul a.y b.y)) (A.mul a.z b.z)

/-- `compas.geometry.length_vector` -/
def vlength (a : Vec R) : R := A.sqrt (A.vdot a a)

/-- `compas.geometry.distance_point_point` -/
def vdist (a b : Vec R) : R := A.vlength (A.vsub a b)

/-- `compas.geometry.normalize_vector` -/
def vnormalize (a : Vec R) : Vec R :=
  if A.vlength a = 0 then a
  else ⟨A.div a.x (A.vlength a), A.div a.y (A.vlength a), A.div a.z (A.vlength a)⟩

end Arith

variable (A : Arith R)

/-- force.py 260-295, one edge. -/
def flIncomingEdgeVector (node : Int) (xyz : Dict Int (Vec R)) (e : Int × Int) :
    Except PyErr (Vec R) :=
  let other := if e.1 ≠ node then e.1 else e.2
  match xyz.getE other with
  | .error err => .error err
  | .ok a =>
    match xyz.getE node with
    | .error err => .error err
    | .ok b => .ok (A.vnormalize (A.vsub a b))

/-- force.py 298-329 -/
def flDeviationResultantLoop (D : Diagram R) (node : Int) (xyz : Dict Int (Vec R)) :
    List (Int × Int) → Vec R → Except PyErr (Vec R)
  | [], acc => .ok acc
  | e :: l, acc =>
    match flIncomingEdgeVector A node xyz e with
    | .error err => .error err
    | .ok v =>
      match D.edges.getE e with
      | .error err => .error err
      | .ok d => flDeviationResultantLoop D node xyz l (A.vadd acc (A.vscale d.force v))

/-- force.py 332-349 -/
def flDirectResultant (D : Diagram R) (node : Int) (xyz : Dict Int (Vec R)) :
    Except PyErr (Vec R) :=
  match D.connectedDirectDeviationEdges node with
  | .error err => .error err
  | .ok es => flDeviationResultantLoop A D node xyz es 0

/-- force.py 352-369 -/
def flIndirectResultant (D : Diagram R) (node : Int) (xyz : Dict Int (Vec R)) :
    Except PyErr (Vec R) :=
  match D.connectedIndirectDeviationEdges node with
  | .error err => .error err
  | .ok es => flDeviationResultantLoop A D node xyz es 0

/-- force.py 372-396 -/
def flTrailVectorOut (tin q rd ri : Vec R) : Vec R :=
  -(A.vadd (A.vadd (A.vadd (A.vadd 0 tin) q) rd) ri)

/-- force.py 223-257 -/
def flNodeEquilibrium (D : Diagram R) (node : Int) (t : Vec R) (xyz : Dict Int (Vec R))
    (indirect : Bool) : Except PyErr (Vec R) :=
  match D.nodes.getE node with
  | .error err => .error err
  | .ok d =>
    match flDirectResultant A D node xyz with
    | .error err => .error err
    | .ok rd =>
      if indirect then
        match flIndirectResultant A D node xyz with
        | .error err => .error err
        | .ok ri => .ok (flTrailVectorOut A (-t) d.load rd ri)
      else .ok (flTrailVectorOut A (-t) d.load rd 0)

/-- force.py 399-430 -/
def flPlaneLength (p v : Vec R) (plane : Vec R × Vec R) : Option R :=
  let c := A.vdot plane.2 (A.vnormalize v)
  if |c| < planeTol then none else some (A.div (A.vdot plane.2 (A.vsub plane.1 p)) c)

/-- force.py 124-145 -/
def flEffectiveLength (d : EdgeData R) (pos rvec : Vec R) : R :=
  match d.plane with
  | none => d.length
  | some plane =>
    match flPlaneLength A pos rvec plane with
    | none => d.length
    | some l => if l = 0 then d.length else l

/-- force.py 92-159 -/
def flStep (D : Diagram R) (tseq : Dict Int (Dict Int Int)) (kmax : Option Int)
    (indirect : Bool) (k : Int) (s : EqState R) (key : Int) : Except PyErr (EqState R) :=
  match tseq.getE key with
  | .error err => .error err
  | .ok seqs =>
    match seqs.get? k with
    | none => .ok s
    | some node =>
      match s.xyz.getE node with
      | .error err => .error err
      | .ok pos =>
        match s.residual.getE node with
        | .error err => .error err
        | .ok rin =>
          match flNodeEquilibrium A D node rin s.xyz indirect with
          | .error err => .error err
          | .ok rvec =>
            match D.isNodeSupport node with
            | .error err => .error err
            | .ok sup =>
              if sup ∨ kmax = some k then
                .ok { s with reactions := s.reactions.set node rvec }
              else
                match seqs.getE (k + 1) with
                | .error err => .error err
                | .ok next =>
                  let edge := if D.edges.has (node, next) then (node, next) else (next, node)
                  match D.edges.getE edge with
                  | .error err => .error err
                  | .ok d =>
                    let length := flEffectiveLength A d pos rvec
                    let nrvec := A.vnormalize rvec
                    .ok { s with
                      xyz := s.xyz.set next (A.vadd pos (A.vscale length nrvec))
                      trailForces := s.trailForces.set edge (copysign (A.vlength rvec) length)
                      trailDirs := s.trailDirs.set edge nrvec
                      residual := s.residual.set next rvec }

/-- force.py 88-163 -/
def flSweep (D : Diagram R) (tseq : Dict Int (Dict Int Int)) (kmax : Option Int)
    (indirect : Bool) (n : Int) (s : EqState R) : Except PyErr (EqState R) :=
  forE (fun s k => forE (flStep A D tseq kmax indirect k) D.trails.keys s) (pyRange n) s

/-- force.py 170-173 -/
def flResidualDistance (last new : Dict Int (Vec R)) : R :=
  new.foldl (fun acc p => A.add acc (A.vdist ((last.get? p.1).getD 0) p.2)) 0

/-- force.py 83-177 -/
def flLoop (D : Diagram R) (tseq : Dict Int (Dict Int Int)) (kmax : Option Int) (eta : R)
    (n : Int) : Nat → Nat → EqState R → Option (LoopInfo R) →
      Except PyErr (EqState R × Option (LoopInfo R))
  | 0, _, s, info => .ok (s, info)
  | fuel + 1, t, s, _ =>
    match flSweep A D tseq kmax (t ≠ 0) n s with
    | .error err => .error err
    | .ok s' =>
      if t = 0 then flLoop D tseq kmax eta n fuel (t + 1) s' (some ⟨0, none⟩)
      else
        let distance := flResidualDistance A s.xyz s'.xyz
        if distance < eta then .ok (s', some ⟨t, some distance⟩)
        else flLoop D tseq kmax eta n fuel (t + 1) s' (some ⟨t, some distance⟩)

/-- force.py 59-195 -/
def flEquilibriumState (D : Diagram R) (kmax : Option Int) (tmax : Nat) (eta : R)
    (verbose : Bool) : Except PyErr (EqState R) :=
  if D.numberOfTrails = 0 then .error .assertionError
  else
    match D.trailsSequences with
    | .error err => .error err
    | .ok tseq =>
      match D.numberOfSequences with
      | .error err => .error err
      | .ok n =>
        if kmax.any (· < 0) then .error .assertionError
        else
          match flLoop A D tseq kmax eta n tmax 0 (initState D) none with
          | .error err => .error err
          | .ok r => eqFinish eta verbose r

/-- force.py 215-220 -/
def flSignedLength (nodes : Dict Int (NodeData R)) (e : Int × Int) (d : EdgeData R) : EdgeData R :=
  match nodes.get? e.1, nodes.get? e.2 with
  | some a, some b => { d with length := copysign (A.vdist a.pos b.pos) d.force }
  | _, _ => d

/-- force.py 198-220 -/
def flFormUpdate (F : Diagram R) (s : EqState R) : Diagram R :=
  let nodes := updateReactions (updateCoords F.nodes s.xyz) s.reactions
  let edges := updateForces F.edges s.trailForces
  { F with nodes := nodes
           edges := edges.map fun p => (p.1, flSignedLength A nodes p.1 p.2) }

/-- force.py 18-56 -/
def flStaticEquilibrium (D : Diagram R) (kmax : Option Int) (tmax : Nat) (eta : R)
    (verbose : Bool) : Except PyErr (Diagram R) :=
  match flEquilibriumState A D kmax tmax eta verbose with
  | .error err => .error err
  | .ok s => .ok (flFormUpdate A (formFromTopology D) s)

/-! ## Exact arithmetic -/

section exact
variable [PySqrt R]

theorem flDeviationResultantLoop_exact (D : Diagram R) (node : Int) (xyz : Dict Int (Vec R))
    (l : List (Int × Int)) (acc : Vec R) :
    flDeviationResultantLoop Arith.exact D node xyz l acc = deviationResultantLoop D node xyz l acc := by
  induction l generalizing acc with
  | nil => rfl
  | cons e l ih =>
    unfold flDeviationResultantLoop deviationResultantLoop
    have h : flIncomingEdgeVector Arith.exact node xyz e = incomingEdgeVector node xyz e := rfl
    rw [h]
    cases incomingEdgeVector node xyz e with
    | error err => rfl
    | ok v =>
      cases D.edges.getE e with
      | error err => rfl
      | ok d => exact ih _

theorem flStep_exact : (flStep Arith.exact : Diagram R → _) = eqStep := by
  have h1 : ∀ (D : Diagram R) (node : Int) (t : Vec R) (xyz : Dict Int (Vec R)) (ind : Bool),
      flNodeEquilibrium Arith.exact D node t xyz ind = nodeEquilibrium D node t xyz ind := by
    intro D node t xyz ind
    unfold flNodeEquilibrium nodeEquilibrium flDirectResultant directResultant flIndirectResultant
      indirectResultant
    simp only [flDeviationResultantLoop_exact]
    rfl
  funext D tseq kmax ind k s key
  unfold flStep eqStep
  simp only [h1]
  rfl

theorem flLoop_exact (D : Diagram R) (tseq : Dict Int (Dict Int Int)) (kmax : Option Int) (eta : R)
    (n : Int) (fuel t : Nat) (s : EqState R) (info : Option (LoopInfo R)) :
    flLoop Arith.exact D tseq kmax eta n fuel t s info = eqLoop D tseq kmax eta n fuel t s info := by
  have h : ∀ b s, flSweep Arith.exact D tseq kmax b n s = sweep D tseq kmax b n s := by
    intro b s
    unfold flSweep sweep
    rw [flStep_exact]
  induction fuel generalizing t s info with
  | zero => rfl
  | succ fuel ih =>
    unfold flLoop eqLoop
    simp only [h, ih]
    rfl

/-- With exact operations this is the model of `static_equilibrium`. -/
theorem flStaticEquilibrium_exact (D : Diagram R) (kmax : Option Int) (tmax : Nat) (eta : R)
    (verbose : Bool) :
    flStaticEquilibrium Arith.exact D kmax tmax eta verbose = staticEquilibrium D kmax tmax eta verbose := by
  unfold flStaticEquilibrium staticEquilibrium flEquilibriumState equilibriumState
  simp only [flLoop_exact]
  rfl

end exact
end CEM
