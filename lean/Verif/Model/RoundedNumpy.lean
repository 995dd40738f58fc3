import Verif.Model.Rounded
import Verif.Model.EquilibriumNumpy

/-!
# The numpy solver with any arithmetic

The functions of `src/compas_cem/equilibrium/force_numpy.py` once more, with every
addition, subtraction, multiplication, division and square root made by a given
arithmetic `A` and `np.sum` by a given function `total`, as numpy does not document in
which order it adds.  NaN is treated as in `Model/EquilibriumNumpy.lean`.  With the exact
operations these are the functions of that file (`flStaticEquilibriumNumpy_exact`).

Simplifications: `np.linalg.norm` and `np.dot` of three numbers add the products from the
left; multiplication by `-1.0`, `np.abs`, `np.copysign` and comparisons are exact, as in
IEEE arithmetic.  A vector of computed length zero is the zero vector, so that its
normalization is NaN and not infinite; for the arithmetics of `Spec/Rounded.lean` this is
a theorem (`vlength_eq_zero`).
-/

set_option linter.unusedSectionVars false

namespace CEM
open Diagram

variable {R : Type} [Field R] [LinearOrder R] (A : Arith R)

/-- force_numpy.py 419-430 -/
def flNormalizeNumpy : NVec R → NVec R
  | none => none
  | some v => if A.vlength v = 0 then none
    else some ⟨A.div v.x (A.vlength v), A.div v.y (A.vlength v), A.div v.z (A.vlength v)⟩

/-- force_numpy.py 384-416 with `normalize=True`. -/
def flNpIncoming (node : Int) (xyz : Dict Int (NVec R)) (e : Int × Int) : Except PyErr (NVec R) :=
  let other := if e.1 ≠ node then e.1 else e.2
  match xyz.getE other with
  | .error err => .error err
  | .ok a =>
    match xyz.getE node with
    | .error err => .error err
    | .ok b => .ok (flNormalizeNumpy A (lift2 A.vsub a b))

/-- force_numpy.py 266-298 -/
def flNpResultant (node : Int) (xyz : Dict Int (NVec R)) (forces : Dict (Int × Int) R) :
    List (Int × Int) → NVec R → Except PyErr (NVec R)
  | [], acc => .ok acc
  | e :: l, acc =>
    match forces.getE e with
    | .error err => .error err
    | .ok f =>
      match flNpIncoming A node xyz e with
      | .error err => .error err
      | .ok v => flNpResultant node xyz forces l (lift2 A.vadd acc (v.map (A.vscale f)))

/-- force_numpy.py 244-263 and 344-364 -/
def flNpNodeEquilibrium (t q rd ri : NVec R) : NVec R :=
  (lift2 A.vadd (lift2 A.vadd (lift2 A.vadd (t.map (- ·)) q) rd) ri).map (- ·)

/-- force_numpy.py 433-464.  The outer `none` is Python's `None`. -/
def flNpPlaneLength (p v : NVec R) (plane : Vec R × Vec R) : Option (Num R) :=
  match flNormalizeNumpy A v with
  | none => some none
  | some u =>
    let c := A.vdot plane.2 u
    if |c| < planeTol then none
    else some (p.map fun p => A.div (A.vdot plane.2 (A.vsub plane.1 p)) c)

/-- force_numpy.py 138-151 -/
def flNpEffectiveLength (length : R) (plane : Option (Vec R × Vec R)) (pos rvec : NVec R) : Num R :=
  match plane with
  | none => some length
  | some plane =>
    match flNpPlaneLength A pos rvec plane with
    | none => some length
    | some none => none
    | some (some l) => if l = 0 then some length else some l

/-- force_numpy.py 156-160 -/
def flNpDirection (rvec : NVec R) : NVec R :=
  match flNormalizeNumpy A rvec with
  | none => rvec
  | some u => some u

/-- force_numpy.py 153-154 and 169-172 -/
def flNpTrailForce (rvec : NVec R) (length : Num R) : Num R :=
  match rvec.map A.vlength, length with
  | some f, some l => if A.mul f l < 0 then some (f * -1) else some f
  | f, _ => f

/-- force_numpy.py 117-120 -/
def flNpIndirect (tab : NTables R) (indirect : Bool) (node : Int) (xyz : Dict Int (NVec R)) :
    Except PyErr (NVec R) :=
  if indirect then
    match tab.indirect.getE node with
    | .error err => .error err
    | .ok edges => flNpResultant A node xyz tab.forces edges (some 0)
  else .ok (some 0)

/-- force_numpy.py 97-178 -/
def flNpStep (D : Diagram R) (tab : NTables R) (tseq : Dict Int (Dict Int Int)) (indirect : Bool)
    (k : Int) (s : NState R) (key : Int) : Except PyErr (NState R) :=
  match tseq.getE key with
  | .error err => .error err
  | .ok seqs =>
    match seqs.get? k with
    | none => .ok s
    | some node =>
      match s.xyz.getE node with
      | .error err => .error err
      | .ok pos =>
        match s.residual.getE node with
        | .error err => .error err
        | .ok rin =>
          match tab.loads.getE node with
          | .error err => .error err
          | .ok q =>
            match tab.direct.getE node with
            | .error err => .error err
            | .ok dirEdges =>
              match flNpResultant A node s.xyz tab.forces dirEdges (some 0) with
              | .error err => .error err
              | .ok rd =>
                match flNpIndirect A tab indirect node s.xyz with
                | .error err => .error err
                | .ok ri =>
                  let rvec := flNpNodeEquilibrium A rin (some q) rd ri
                  match D.isNodeSupport node with
                  | .error err => .error err
                  | .ok sup =>
                    if sup then .ok { s with reactions := s.reactions.set node rvec }
                    else
                      match seqs.getE (k + 1) with
                      | .error err => .error err
                      | .ok next =>
                        let edge := if (node, next) ∈ tab.edgeKeys then (node, next)
                          else (next, node)
                        match tab.lengths.getE edge with
                        | .error err => .error err
                        | .ok length0 =>
                          let length := flNpEffectiveLength A length0 (tab.planes.get? edge) pos rvec
                          let nrvec := flNpDirection A rvec
                          .ok { s with
                            trailDirs := s.trailDirs.set edge nrvec
                            xyz := s.xyz.set next (lift2 A.vadd pos (lift2 A.vscale length nrvec))
                            trailForces := s.trailForces.set edge (flNpTrailForce A rvec length)
                            residual := s.residual.set next rvec }

/-- force_numpy.py 92-182 -/
def flNpSweep (D : Diagram R) (tab : NTables R) (tseq : Dict Int (Dict Int Int))
    (indirect : Bool) (n : Int) (s : NState R) : Except PyErr (NState R) :=
  forE (fun s k => forE (flNpStep A D tab tseq indirect k) D.trails.keys s) (pyRange n) s

/-- force_numpy.py 189-193: the array `np.square(last_pos_array - pos_array)`. -/
def flNpSquares (last : Dict Int (NVec R)) : Dict Int (NVec R) → Option (List R)
  | [] => some []
  | p :: l => lift2 (fun d r => A.mul d.x d.x :: A.mul d.y d.y :: A.mul d.z d.z :: r)
      (lift2 A.vsub ((last.get? p.1).getD none) p.2) (flNpSquares last l)

/-- force_numpy.py 193 -/
def flNpDistance (total : List R → R) (last new : Dict Int (NVec R)) : Num R :=
  (flNpSquares A last new).map fun l => A.sqrt (total l)

/-- force_numpy.py 87-196 -/
def flNpLoop (total : List R → R) (D : Diagram R) (tab : NTables R) (tseq : Dict Int (Dict Int Int))
    (eta : R) (n : Int) : Nat → Nat → NState R → Option (NLoopInfo R) →
      Except PyErr (NState R × Option (NLoopInfo R))
  | 0, _, s, info => .ok (s, info)
  | fuel + 1, t, s, _ =>
    match flNpSweep A D tab tseq (t > 0) n s with
    | .error err => .error err
    | .ok s' =>
      if t = 0 then flNpLoop total D tab tseq eta n fuel (t + 1) s' (some ⟨0, none⟩)
      else
        let distance := flNpDistance A total s.xyz s'.xyz
        if distance.lt eta then .ok (s', some ⟨t, some distance⟩)
        else flNpLoop total D tab tseq eta n fuel (t + 1) s' (some ⟨t, some distance⟩)

/-- force_numpy.py 45-215 -/
def flNpEquilibriumState (total : List R → R) (D : Diagram R) (tmax : Nat) (eta : R) (verbose : Bool) :
    Except PyErr (NState R) :=
  if D.numberOfTrails = 0 then .error .assertionError
  else
    match D.trailsSequences with
    | .error err => .error err
    | .ok tseq =>
      match npTables D with
      | .error err => .error err
      | .ok tab =>
        if tmax = 0 then .error .unboundLocal
        else
          match D.numberOfSequences with
          | .error err => .error err
          | .ok n =>
            match flNpLoop A total D tab tseq eta n tmax 0 (npInit D) none with
            | .error err => .error err
            | .ok r => npFinish eta verbose r

/-- force_numpy.py 236-241 -/
def flNpSignedLength (xyz : Dict Int (NVec R)) (e : Int × Int) (d : EdgeData (Num R)) :
    EdgeData (Num R) :=
  match xyz.get? e.1, xyz.get? e.2 with
  | some a, some b => { d with length := lift2 copysign (lift2 A.vdist a b) d.force }
  | _, _ => d

/-- force_numpy.py 218-241 -/
def flNpFormUpdate (F : Diagram (Num R)) (s : NState R) : Diagram (Num R) :=
  let nodes := s.xyz.foldl (fun ns p => ns.modify p.1 fun d => { d with pos := p.2.coords }) F.nodes
  let nodes := s.reactions.foldl
    (fun ns p => ns.modify p.1 fun d => { d with reaction := p.2.coords }) nodes
  let edges := s.trailForces.foldl
    (fun es p => es.modify p.1 fun d => { d with force := p.2 }) F.edges
  { F with nodes := nodes
           edges := edges.map fun p => (p.1, flNpSignedLength A s.xyz p.1 p.2) }

/-- force_numpy.py 9-42 -/
def flStaticEquilibriumNumpy (total : List R → R) (D : Diagram R) (tmax : Nat) (eta : R) (verbose : Bool) :
    Except PyErr (Diagram (Num R)) :=
  match flNpEquilibriumState A total D tmax eta verbose with
  | .error err => .error err
  | .ok s => .ok (flNpFormUpdate A (formFromTopology D).num s)

/-! ## Exact arithmetic -/

section exact
variable [PySqrt R]

theorem flNormalizeNumpy_exact (v : NVec R) : flNormalizeNumpy Arith.exact v = normalizeNumpy v := by
  cases v <;> rfl

theorem flNpResultant_exact (node : Int) (xyz : Dict Int (NVec R)) (forces : Dict (Int × Int) R)
    (l : List (Int × Int)) (acc : NVec R) :
    flNpResultant Arith.exact node xyz forces l acc = npResultant node xyz forces l acc := by
  induction l generalizing acc with
  | nil => rfl
  | cons e l ih =>
    unfold flNpResultant npResultant
    have h : flNpIncoming Arith.exact node xyz e = npIncoming node xyz e := by
      unfold flNpIncoming npIncoming
      simp only [flNormalizeNumpy_exact]
      rfl
    rw [h]
    cases forces.getE e with
    | error err => rfl
    | ok f =>
      cases npIncoming node xyz e with
      | error err => rfl
      | ok v => exact ih _

theorem flNpStep_exact : (flNpStep Arith.exact : Diagram R → _) = npStep := by
  have h1 : ∀ (tab : NTables R) (b : Bool) (node : Int) (xyz : Dict Int (NVec R)),
      flNpIndirect Arith.exact tab b node xyz = npIndirect tab b node xyz := by
    intro tab b node xyz
    unfold flNpIndirect npIndirect
    simp only [flNpResultant_exact]
    rfl
  have h2 : ∀ (length : R) plane (pos rvec : NVec R),
      flNpEffectiveLength Arith.exact length plane pos rvec = npEffectiveLength length plane pos rvec := by
    intro length plane pos rvec
    unfold flNpEffectiveLength npEffectiveLength flNpPlaneLength npPlaneLength
    simp only [flNormalizeNumpy_exact]
    rfl
  have h3 : ∀ rvec : NVec R, flNpDirection Arith.exact rvec = npDirection rvec := by
    intro rvec
    unfold flNpDirection npDirection
    simp only [flNormalizeNumpy_exact]
    rfl
  funext D tab tseq ind k s key
  unfold flNpStep npStep
  simp only [h1, h2, h3, flNpResultant_exact]
  rfl

theorem flNpDistance_exact (last new : Dict Int (NVec R)) :
    flNpDistance Arith.exact List.sum last new = npDistance last new := by
  have key : ∀ (l : Dict Int (NVec R)) (a : Num R),
      l.foldl (fun acc p => lift2 (· + ·) acc
        ((lift2 (· - ·) ((last.get? p.1).getD none) p.2).map fun d => Vec.dot d d)) a =
      lift2 (· + ·) a ((flNpSquares Arith.exact last l).map List.sum) := by
    intro l
    induction l with
    | nil => intro a; cases a <;> simp [flNpSquares, lift2]
    | cons p l ih =>
      intro a
      rw [List.foldl_cons, ih, flNpSquares]
      have e : lift2 (Arith.exact (R := R)).vsub ((last.get? p.1).getD none) p.2 =
        lift2 (· - ·) ((last.get? p.1).getD none) p.2 := rfl
      rw [e]
      cases lift2 (· - ·) ((last.get? p.1).getD none) p.2 with
      | none => cases a <;> cases flNpSquares Arith.exact last l <;> rfl
      | some d =>
        cases a with
        | none => cases flNpSquares Arith.exact last l <;> rfl
        | some a =>
          cases flNpSquares Arith.exact last l with
          | none => rfl
          | some r =>
            simp only [lift2, Option.map_some, List.sum_cons, Arith.exact, Vec.dot, Option.some.injEq]
            ring
  unfold npDistance flNpDistance
  rw [key]
  cases flNpSquares Arith.exact last new with
  | none => rfl
  | some r => simp only [lift2, Option.map_some, zero_add]; rfl

theorem flNpLoop_exact (D : Diagram R) (tab : NTables R) (tseq : Dict Int (Dict Int Int)) (eta : R)
    (n : Int) (fuel t : Nat) (s : NState R) (info : Option (NLoopInfo R)) :
    flNpLoop Arith.exact List.sum D tab tseq eta n fuel t s info = npLoop D tab tseq eta n fuel t s info := by
  have h : ∀ b s, flNpSweep Arith.exact D tab tseq b n s = npSweep D tab tseq b n s := by
    intro b s
    unfold flNpSweep npSweep
    rw [flNpStep_exact]
  induction fuel generalizing t s info with
  | zero => rfl
  | succ fuel ih =>
    unfold flNpLoop npLoop
    simp only [h, ih, flNpDistance_exact]
    rfl

/-- With exact operations this is the model of `static_equilibrium_numpy`. -/
theorem flStaticEquilibriumNumpy_exact (D : Diagram R) (tmax : Nat) (eta : R) (verbose : Bool) :
    flStaticEquilibriumNumpy Arith.exact List.sum D tmax eta verbose =
      staticEquilibriumNumpy D tmax eta verbose := by
  have h : ∀ (F : Diagram (Num R)) (s : NState R), flNpFormUpdate Arith.exact F s = npFormUpdate F s := by
    intro F s
    have e : (flNpSignedLength Arith.exact : Dict Int (NVec R) → _) = npSignedLength := by
      funext xyz e d
      unfold flNpSignedLength npSignedLength
      cases xyz.get? e.1 with
      | none => rfl
      | some a =>
        cases xyz.get? e.2 with
        | none => rfl
        | some b => cases a <;> cases b <;> rfl
    unfold flNpFormUpdate npFormUpdate
    rw [e]
  unfold flStaticEquilibriumNumpy staticEquilibriumNumpy flNpEquilibriumState npEquilibriumState
  simp only [flNpLoop_exact, h]
  rfl

end exact
end CEM
