import Verif.Model.Equilibrium

/-!
# Form finding, numpy solver

Models `src/compas_cem/equilibrium/force_numpy.py`.

Numpy does not raise on `0 / 0` but goes on with NaN.  A vector is divided only by its
own length, so either all or none of its coordinates become NaN: a vector is `none`
(all NaN) or `some v`, a number `none` (NaN) or `some x`.  Every operation with NaN
gives NaN, every comparison with NaN is false, and NaN counts as true.
-/

namespace CEM
open Diagram

/-- A float that may be NaN. -/
abbrev Num (R : Type) := Option R
/-- An array of three floats, all NaN or none. -/
abbrev NVec (R : Type) := Option (Vec R)

/-- An operation on two arrays or numbers: NaN if one of them is. -/
def lift2 {α β γ : Type} (f : α → β → γ) : Option α → Option β → Option γ
  | some a, some b => some (f a b)
  | _, _ => none

variable {R : Type} [Field R] [LinearOrder R] [PySqrt R]

/-- `a < b`, false for NaN. -/
def Num.lt : Num R → R → Bool
  | some a, b => a < b
  | none, _ => false

/-- `a > b`, false for NaN. -/
def Num.gt : Num R → R → Bool
  | some a, b => a > b
  | none, _ => false

/-- force_numpy.py 419-430: `vector / length_vector_numpy(vector)`. -/
def normalizeNumpy : NVec R → NVec R
  | none => none
  | some v => if Vec.length v = 0 then none
    else some ⟨v.x / Vec.length v, v.y / Vec.length v, v.z / Vec.length v⟩

/-- The dictionaries of force_numpy.py 59-77 that are not modified by the loop. -/
structure NTables (R : Type) where
  forces : Dict (Int × Int) R
  lengths : Dict (Int × Int) R
  loads : Dict Int (Vec R)
  direct : Dict Int (List (Int × Int))
  indirect : Dict Int (List (Int × Int))
  edgeKeys : List (Int × Int)
  planes : Dict (Int × Int) (Vec R × Vec R)

/-- The dictionaries of force_numpy.py 56 and 80-85 that the loop modifies. -/
structure NState (R : Type) where
  xyz : Dict Int (NVec R)
  residual : Dict Int (NVec R)
  trailForces : Dict (Int × Int) (Num R)
  trailDirs : Dict (Int × Int) (NVec R)
  reactions : Dict Int (NVec R)

/-- `{n: f(n) for n in l}` with a function that may raise. -/
def dictE {K V : Type} [DecidableEq K] (f : K → Except PyErr V) : List K → Except PyErr (Dict K V)
  | [] => .ok []
  | a :: l =>
    match f a with
    | .error e => .error e
    | .ok b =>
      match dictE f l with
      | .error e => .error e
      | .ok d => .ok ((a, b) :: d)

/-- `{e: f(e) for e in edges}` for edges of the diagram. -/
def edgeTable {V : Type} (D : Diagram R) (f : EdgeData R → Option V) (l : List (Int × Int)) :
    Dict (Int × Int) V :=
  l.filterMap fun e => (D.edges.get? e).bind fun d => (f d).map fun v => (e, v)

/-- force_numpy.py 59-77 -/
def npTables (D : Diagram R) : Except PyErr (NTables R) :=
  match dictE D.connectedDirectDeviationEdges D.nodes.keys with
  | .error e => .error e
  | .ok direct =>
    match dictE D.connectedIndirectDeviationEdges D.nodes.keys with
    | .error e => .error e
    | .ok indirect => .ok
      { forces := edgeTable D (fun d => some d.force) D.edgeList
        lengths := edgeTable D (fun d => some d.length) D.edgeList
        loads := D.nodes.map fun p => (p.1, p.2.load)
        direct := direct
        indirect := indirect
        edgeKeys := D.edgeList
        planes := edgeTable D (fun d => d.plane) D.trailEdges }

/-- force_numpy.py 384-416 with `normalize=True`. -/
def npIncoming (node : Int) (xyz : Dict Int (NVec R)) (e : Int × Int) : Except PyErr (NVec R) :=
  let other := if e.1 ≠ node then e.1 else e.2
  match xyz.getE other with
  | .error err => .error err
  | .ok a =>
    match xyz.getE node with
    | .error err => .error err
    | .ok b => .ok (normalizeNumpy (lift2 (· - ·) a b))

/-- force_numpy.py 266-298 -/
def npResultant (node : Int) (xyz : Dict Int (NVec R)) (forces : Dict (Int × Int) R) :
    List (Int × Int) → NVec R → Except PyErr (NVec R)
  | [], acc => .ok acc
  | e :: l, acc =>
    match forces.getE e with
    | .error err => .error err
    | .ok f =>
      match npIncoming node xyz e with
      | .error err => .error err
      | .ok v => npResultant node xyz forces l (lift2 (· + ·) acc (v.map (f • ·)))

/-- force_numpy.py 244-263 and 344-364 -/
def npNodeEquilibrium (t q rd ri : NVec R) : NVec R :=
  (lift2 (· + ·) (lift2 (· + ·) (lift2 (· + ·) (t.map (- ·)) q) rd) ri).map (- ·)

/-- force_numpy.py 433-464.  The outer `none` is Python's `None`. -/
def npPlaneLength (p v : NVec R) (plane : Vec R × Vec R) : Option (Num R) :=
  match normalizeNumpy v with
  | none => some none
  | some u =>
    let c := Vec.dot plane.2 u
    if |c| < planeTol then none else some (p.map fun p => Vec.dot plane.2 (plane.1 - p) / c)

/-- force_numpy.py 138-151: the signed length used for a trail edge. -/
def npEffectiveLength (length : R) (plane : Option (Vec R × Vec R)) (pos rvec : NVec R) : Num R :=
  match plane with
  | none => some length
  | some plane =>
    match npPlaneLength pos rvec plane with
    | none => some length
    | some none => none
    | some (some l) => if l = 0 then some length else some l

/-- force_numpy.py 156-160: direction of the trail edge; a NaN is replaced by the vector
itself. -/
def npDirection (rvec : NVec R) : NVec R :=
  match normalizeNumpy rvec with
  | none => rvec
  | some u => some u

/-- force_numpy.py 153-154 and 169-172 -/
def npTrailForce (rvec : NVec R) (length : Num R) : Num R :=
  match rvec.map Vec.length, length with
  | some f, some l => if f * l < 0 then some (f * -1) else some f
  | f, _ => f

/-- force_numpy.py 117-120 -/
def npIndirect (tab : NTables R) (indirect : Bool) (node : Int) (xyz : Dict Int (NVec R)) :
    Except PyErr (NVec R) :=
  if indirect then
    match tab.indirect.getE node with
    | .error err => .error err
    | .ok edges => npResultant node xyz tab.forces edges (some 0)
  else .ok (some 0)

/-- The body force_numpy.py 97-178 of the innermost loop.  `indirect` is `t > 0`. -/
def npStep (D : Diagram R) (tab : NTables R) (tseq : Dict Int (Dict Int Int)) (indirect : Bool)
    (k : Int) (s : NState R) (key : Int) : Except PyErr (NState R) :=
  match tseq.getE key with
  | .error err => .error err
  | .ok seqs =>
    match seqs.get? k with
    | none => .ok s
    | some node =>
      match s.xyz.getE node with
      | .error err => .error err
      | .ok pos =>
        match s.residual.getE node with
        | .error err => .error err
        | .ok rin =>
          match tab.loads.getE node with
          | .error err => .error err
          | .ok q =>
            match tab.direct.getE node with
            | .error err => .error err
            | .ok dirEdges =>
              match npResultant node s.xyz tab.forces dirEdges (some 0) with
              | .error err => .error err
              | .ok rd =>
                match npIndirect tab indirect node s.xyz with
                | .error err => .error err
                | .ok ri =>
                  let rvec := npNodeEquilibrium rin (some q) rd ri
                  match D.isNodeSupport node with
                  | .error err => .error err
                  | .ok sup =>
                    if sup then .ok { s with reactions := s.reactions.set node rvec }
                    else
                      match seqs.getE (k + 1) with
                      | .error err => .error err
                      | .ok next =>
                        let edge := if (node, next) ∈ tab.edgeKeys then (node, next)
                          else (next, node)
                        match tab.lengths.getE edge with
                        | .error err => .error err
                        | .ok length0 =>
                          let length := npEffectiveLength length0 (tab.planes.get? edge) pos rvec
                          let nrvec := npDirection rvec
                          .ok { s with
                            trailDirs := s.trailDirs.set edge nrvec
                            xyz := s.xyz.set next
                              (lift2 (· + ·) pos (lift2 (· • ·) length nrvec))
                            trailForces := s.trailForces.set edge (npTrailForce rvec length)
                            residual := s.residual.set next rvec }

/-- force_numpy.py 92-182: one sweep over all sequences and trails. -/
def npSweep (D : Diagram R) (tab : NTables R) (tseq : Dict Int (Dict Int Int))
    (indirect : Bool) (n : Int) (s : NState R) : Except PyErr (NState R) :=
  forE (fun s k => forE (npStep D tab tseq indirect k) D.trails.keys s) (pyRange n) s

/-- force_numpy.py 189-193: square root of the sum of the squared differences. -/
def npDistance (last new : Dict Int (NVec R)) : Num R :=
  (new.foldl (fun acc p => lift2 (· + ·) acc
    ((lift2 (· - ·) ((last.get? p.1).getD none) p.2).map fun d => Vec.dot d d)) (some 0)).map
      PySqrt.sqrt

/-- The variables `t` and `distance` after the loop; `none` when they are unbound. -/
structure NLoopInfo (R : Type) where
  t : Nat
  distance : Option (Num R)

/-- force_numpy.py 87-196: `fuel` counts the remaining values of `range(tmax)`, `t` is the
current one. -/
def npLoop (D : Diagram R) (tab : NTables R) (tseq : Dict Int (Dict Int Int)) (eta : R)
    (n : Int) : Nat → Nat → NState R → Option (NLoopInfo R) →
      Except PyErr (NState R × Option (NLoopInfo R))
  | 0, _, s, info => .ok (s, info)
  | fuel + 1, t, s, _ =>
    match npSweep D tab tseq (t > 0) n s with
    | .error err => .error err
    | .ok s' =>
      if t = 0 then npLoop D tab tseq eta n fuel (t + 1) s' (some ⟨0, none⟩)
      else
        let distance := npDistance s.xyz s'.xyz
        if distance.lt eta then .ok (s', some ⟨t, some distance⟩)
        else npLoop D tab tseq eta n fuel (t + 1) s' (some ⟨t, some distance⟩)

/-- force_numpy.py 56 and 80-85 -/
def npInit (D : Diagram R) : NState R where
  xyz := D.nodes.map fun p => (p.1, some p.2.pos)
  residual := D.nodes.map fun p => (p.1, some p.2.reaction)
  trailForces := []
  trailDirs := []
  reactions := []

/-- force_numpy.py 198-206: checks after the loop. -/
def npFinish (eta : R) (verbose : Bool) (r : NState R × Option (NLoopInfo R)) :
    Except PyErr (NState R) :=
  match r.2 with
  | none => .error .unboundLocal
  | some ⟨t, dist⟩ =>
    if t > 0 then
      match dist with
      | none => .error .unboundLocal
      | some d => if d.gt eta then .error .valueError else .ok r.1
    else if verbose then
      match dist with
      | none => .error .unboundLocal
      | some _ => .ok r.1
    else .ok r.1

/-- force_numpy.py 45-215 (`tmax` a natural number: a negative `tmax` behaves like 0). -/
def npEquilibriumState (D : Diagram R) (tmax : Nat) (eta : R) (verbose : Bool) :
    Except PyErr (NState R) :=
  if D.numberOfTrails = 0 then .error .assertionError
  else
    match D.trailsSequences with
    | .error err => .error err
    | .ok tseq =>
      match npTables D with
      | .error err => .error err
      | .ok tab =>
        -- `number_of_sequences()` is called in the loop only
        if tmax = 0 then .error .unboundLocal
        else
          match D.numberOfSequences with
          | .error err => .error err
          | .ok n =>
            match npLoop D tab tseq eta n tmax 0 (npInit D) none with
            | .error err => .error err
            | .ok r => npFinish eta verbose r

/-! The form may contain NaN, so it is a diagram of numbers that may be NaN. -/

/-- Coordinates of an array. -/
def NVec.coords : NVec R → Vec (Num R)
  | none => ⟨none, none, none⟩
  | some v => ⟨some v.x, some v.y, some v.z⟩

/-- The attributes of a node as floats. -/
def NodeData.num (d : NodeData R) : NodeData (Num R) :=
  ⟨NVec.coords (some d.pos), NVec.coords (some d.load), NVec.coords (some d.reaction), d.k, d.type⟩

/-- The attributes of an edge as floats. -/
def EdgeData.num (d : EdgeData R) : EdgeData (Num R) :=
  ⟨d.type, some d.length, some d.force,
    d.plane.map fun q => (NVec.coords (some q.1), NVec.coords (some q.2))⟩

/-- A diagram as one of floats. -/
def Diagram.num (D : Diagram R) : Diagram (Num R) where
  nodes := D.nodes.map fun p => (p.1, p.2.num)
  edges := D.edges.map fun p => (p.1, p.2.num)
  maxNode := D.maxNode
  gkeyNode := D.gkeyNode
  trails := D.trails
  auxTrails := D.auxTrails
  auxLength := some D.auxLength
  auxVector := NVec.coords (some D.auxVector)

/-- force_numpy.py 236-241: signed length of one edge, from the positions of the state.
(`np.copysign` with a NaN force, whose sign is undefined, gives NaN here.) -/
def npSignedLength (xyz : Dict Int (NVec R)) (e : Int × Int) (d : EdgeData (Num R)) :
    EdgeData (Num R) :=
  match xyz.get? e.1, xyz.get? e.2 with
  | some a, some b =>
    { d with length := lift2 copysign ((lift2 (· - ·) a b).map Vec.length) d.force }
  | _, _ => d

/-- force_numpy.py 218-241.  All keys come from the diagram itself, so nothing raises. -/
def npFormUpdate (F : Diagram (Num R)) (s : NState R) : Diagram (Num R) :=
  let nodes := s.xyz.foldl (fun ns p => ns.modify p.1 fun d => { d with pos := p.2.coords }) F.nodes
  let nodes := s.reactions.foldl
    (fun ns p => ns.modify p.1 fun d => { d with reaction := p.2.coords }) nodes
  let edges := s.trailForces.foldl
    (fun es p => es.modify p.1 fun d => { d with force := p.2 }) F.edges
  { F with nodes := nodes
           edges := edges.map fun p => (p.1, npSignedLength s.xyz p.1 p.2) }

/-- force_numpy.py 9-42 -/
def staticEquilibriumNumpy (D : Diagram R) (tmax : Nat) (eta : R) (verbose : Bool) :
    Except PyErr (Diagram (Num R)) :=
  match npEquilibriumState D tmax eta verbose with
  | .error err => .error err
  | .ok s => .ok (npFormUpdate (formFromTopology D).num s)

end CEM
