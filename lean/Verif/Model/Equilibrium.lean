import Verif.Model.Topology

/-!
# Form finding, plain Python solver

Models `src/compas_cem/equilibrium/force.py` and
`src/compas_cem/diagrams/form.py`.
-/

namespace CEM
open Diagram

variable {R : Type} [Field R] [LinearOrder R] [PySqrt R]

/-- The containers of force.py 70-74. -/
structure EqState (R : Type) where
  xyz : Dict Int (Vec R)
  residual : Dict Int (Vec R)
  trailForces : Dict (Int × Int) R
  trailDirs : Dict (Int × Int) (Vec R)
  reactions : Dict Int (Vec R)

/-- force.py 260-295, one edge: unit vector from `node` to the other end. -/
def incomingEdgeVector (node : Int) (xyz : Dict Int (Vec R)) (e : Int × Int) :
    Except PyErr (Vec R) :=
  let other := if e.1 ≠ node then e.1 else e.2
  match xyz.getE other with
  | .error err => .error err
  | .ok a =>
    match xyz.getE node with
    | .error err => .error err
    | .ok b => .ok (Vec.normalize (a - b))

/-- force.py 298-329: sum of force times incoming unit vector, from the left. -/
def deviationResultantLoop (D : Diagram R) (node : Int) (xyz : Dict Int (Vec R)) :
    List (Int × Int) → Vec R → Except PyErr (Vec R)
  | [], acc => .ok acc
  | e :: l, acc =>
    match incomingEdgeVector node xyz e with
    | .error err => .error err
    | .ok v =>
      match D.edges.getE e with
      | .error err => .error err
      | .ok d => deviationResultantLoop D node xyz l (acc + d.force • v)

/-- force.py 332-349 -/
def directResultant (D : Diagram R) (node : Int) (xyz : Dict Int (Vec R)) :
    Except PyErr (Vec R) :=
  match D.connectedDirectDeviationEdges node with
  | .error err => .error err
  | .ok es => deviationResultantLoop D node xyz es 0

/-- force.py 352-369 -/
def indirectResultant (D : Diagram R) (node : Int) (xyz : Dict Int (Vec R)) :
    Except PyErr (Vec R) :=
  match D.connectedIndirectDeviationEdges node with
  | .error err => .error err
  | .ok es => deviationResultantLoop D node xyz es 0

/-- force.py 372-396 -/
def trailVectorOut (tin q rd ri : Vec R) : Vec R := -(0 + tin + q + rd + ri)

/-- force.py 223-257 -/
def nodeEquilibrium (D : Diagram R) (node : Int) (t : Vec R) (xyz : Dict Int (Vec R))
    (indirect : Bool) : Except PyErr (Vec R) :=
  match D.nodes.getE node with
  | .error err => .error err
  | .ok d =>
    match directResultant D node xyz with
    | .error err => .error err
    | .ok rd =>
      if indirect then
        match indirectResultant D node xyz with
        | .error err => .error err
        | .ok ri => .ok (trailVectorOut (-t) d.load rd ri)
      else .ok (trailVectorOut (-t) d.load rd 0)

/-- The tolerance `1e-6` of force.py 399. -/
def planeTol : R := 1 / 1000000

/-- force.py 399-430 -/
def planeLength (p v : Vec R) (plane : Vec R × Vec R) : Option R :=
  let c := Vec.dot plane.2 (Vec.normalize v)
  if |c| < planeTol then none else some (Vec.dot plane.2 (plane.1 - p) / c)

/-- force.py 124-145: the signed length used for a trail edge. -/
def effectiveLength (d : EdgeData R) (pos rvec : Vec R) : R :=
  match d.plane with
  | none => d.length
  | some plane =>
    match planeLength pos rvec plane with
    | none => d.length
    | some l => if l = 0 then d.length else l

/-- The body force.py 92-159 of the innermost loop.  `indirect` is `t ≠ 0`. -/
def eqStep (D : Diagram R) (tseq : Dict Int (Dict Int Int)) (kmax : Option Int)
    (indirect : Bool) (k : Int) (s : EqState R) (key : Int) : Except PyErr (EqState R) :=
  match tseq.getE key with
  | .error err => .error err
  | .ok seqs =>
    match seqs.get? k with
    | none => .ok s
    | some node =>
      match s.xyz.getE node with
      | .error err => .error err
      | .ok pos =>
        match s.residual.getE node with
        | .error err => .error err
        | .ok rin =>
          match nodeEquilibrium D node rin s.xyz indirect with
          | .error err => .error err
          | .ok rvec =>
            match D.isNodeSupport node with
            | .error err => .error err
            | .ok sup =>
              if sup ∨ kmax = some k then
                .ok { s with reactions := s.reactions.set node rvec }
              else
                match seqs.getE (k + 1) with
                | .error err => .error err
                | .ok next =>
                  let edge := if D.edges.has (node, next) then (node, next) else (next, node)
                  match D.edges.getE edge with
                  | .error err => .error err
                  | .ok d =>
                    let length := effectiveLength d pos rvec
                    let nrvec := Vec.normalize rvec
                    .ok { s with
                      xyz := s.xyz.set next (pos + length • nrvec)
                      trailForces := s.trailForces.set edge (copysign (Vec.length rvec) length)
                      trailDirs := s.trailDirs.set edge nrvec
                      residual := s.residual.set next rvec }

/-- A `for` loop whose body may raise. -/
def forE {α σ : Type} (f : σ → α → Except PyErr σ) : List α → σ → Except PyErr σ
  | [], s => .ok s
  | a :: l, s =>
    match f s a with
    | .error e => .error e
    | .ok s' => forE f l s'

/-- force.py 88-163: one sweep over all sequences and trails. -/
def sweep (D : Diagram R) (tseq : Dict Int (Dict Int Int)) (kmax : Option Int)
    (indirect : Bool) (n : Int) (s : EqState R) : Except PyErr (EqState R) :=
  forE (fun s k => forE (eqStep D tseq kmax indirect k) D.trails.keys s) (pyRange n) s

/-- force.py 170-173: sum of the distances between old and new positions. -/
def residualDistance (last new : Dict Int (Vec R)) : R :=
  new.foldl (fun acc p => acc + Vec.dist ((last.get? p.1).getD 0) p.2) 0

/-- The variables `t` and `distance` after the loop force.py 83-177; `none` when
they are unbound. -/
structure LoopInfo (R : Type) where
  t : Nat
  distance : Option R

/-- force.py 83-177: `fuel` counts the remaining values of `range(tmax)`, `t` is
the current one. -/
def eqLoop (D : Diagram R) (tseq : Dict Int (Dict Int Int)) (kmax : Option Int) (eta : R)
    (n : Int) : Nat → Nat → EqState R → Option (LoopInfo R) →
      Except PyErr (EqState R × Option (LoopInfo R))
  | 0, _, s, info => .ok (s, info)
  | fuel + 1, t, s, _ =>
    match sweep D tseq kmax (t ≠ 0) n s with
    | .error err => .error err
    | .ok s' =>
      if t = 0 then eqLoop D tseq kmax eta n fuel (t + 1) s' (some ⟨0, none⟩)
      else
        let distance := residualDistance s.xyz s'.xyz
        if distance < eta then .ok (s', some ⟨t, some distance⟩)
        else eqLoop D tseq kmax eta n fuel (t + 1) s' (some ⟨t, some distance⟩)

/-- force.py 70-74 -/
def initState (D : Diagram R) : EqState R where
  xyz := D.nodes.map fun p => (p.1, p.2.pos)
  residual := D.nodes.map fun p => (p.1, p.2.reaction)
  trailForces := []
  trailDirs := []
  reactions := []

/-- force.py 179-187: checks after the loop. -/
def eqFinish (eta : R) (verbose : Bool) (r : EqState R × Option (LoopInfo R)) :
    Except PyErr (EqState R) :=
  match r.2 with
  | none => .error .unboundLocal
  | some ⟨t, dist⟩ =>
    if t > 0 then
      match dist with
      | none => .error .unboundLocal
      | some d => if d > eta then .error .valueError else .ok r.1
    else if verbose then
      match dist with
      | none => .error .unboundLocal
      | some _ => .ok r.1
    else .ok r.1

/-- force.py 59-195 (`tmax` a natural number: a negative `tmax` behaves like 0).
The variable `klast` of lines 77-81 is never used. -/
def equilibriumState (D : Diagram R) (kmax : Option Int) (tmax : Nat) (eta : R)
    (verbose : Bool) : Except PyErr (EqState R) :=
  if D.numberOfTrails = 0 then .error .assertionError
  else
    match D.trailsSequences with
    | .error err => .error err
    | .ok tseq =>
      match D.numberOfSequences with
      | .error err => .error err
      | .ok n =>
        if kmax.any (· < 0) then .error .assertionError
        else
          match eqLoop D tseq kmax eta n tmax 0 (initState D) none with
          | .error err => .error err
          | .ok r => eqFinish eta verbose r

/-- form.py 34-46: an independent copy without the trail attributes. -/
def formFromTopology (D : Diagram R) : Diagram R :=
  { D with trails := [], auxTrails := [], auxLength := 0, auxVector := 0 }

/-- force.py 203-204 -/
def updateCoords (nodes : Dict Int (NodeData R)) (xyz : Dict Int (Vec R)) :
    Dict Int (NodeData R) :=
  xyz.foldl (fun ns p => ns.modify p.1 fun d => { d with pos := p.2 }) nodes

/-- force.py 211-212 -/
def updateReactions (nodes : Dict Int (NodeData R)) (rs : Dict Int (Vec R)) :
    Dict Int (NodeData R) :=
  rs.foldl (fun ns p => ns.modify p.1 fun d => { d with reaction := p.2 }) nodes

/-- force.py 207-208 -/
def updateForces (edges : Dict (Int × Int) (EdgeData R)) (fs : Dict (Int × Int) R) :
    Dict (Int × Int) (EdgeData R) :=
  fs.foldl (fun es p => es.modify p.1 fun d => { d with force := p.2 }) edges

/-- force.py 215-220: signed geometric length of one edge. -/
def signedLength (nodes : Dict Int (NodeData R)) (e : Int × Int) (d : EdgeData R) : EdgeData R :=
  match nodes.get? e.1, nodes.get? e.2 with
  | some a, some b => { d with length := copysign (Vec.dist a.pos b.pos) d.force }
  | _, _ => d

/-- force.py 198-220.  All keys come from the diagram itself, so the attribute
setters never raise. -/
def formUpdate (F : Diagram R) (s : EqState R) : Diagram R :=
  let nodes := updateReactions (updateCoords F.nodes s.xyz) s.reactions
  let edges := updateForces F.edges s.trailForces
  { F with nodes := nodes
           edges := edges.map fun p => (p.1, signedLength nodes p.1 p.2) }

/-- force.py 18-56 -/
def staticEquilibrium (D : Diagram R) (kmax : Option Int) (tmax : Nat) (eta : R)
    (verbose : Bool) : Except PyErr (Diagram R) :=
  match equilibriumState D kmax tmax eta verbose with
  | .error err => .error err
  | .ok s => .ok (formUpdate (formFromTopology D) s)

end CEM
