import Verif.Model.EquilibriumNumpy

/-!
# Form finding with a callback

Models the argument `callback` of `static_equilibrium` (`src/compas_cem/equilibrium/force.py` 18-195) and
`static_equilibrium_numpy` (`src/compas_cem/equilibrium/force_numpy.py` 9-215).  It is called without arguments at the
end of the innermost loop, force.py 161-163 and force_numpy.py 180-182, wherever a node was placed.

A callback may raise, change the diagram, to which it may hold a reference, and change anything else, of type `W`.  The
trails of a sequence are those at the beginning of its loop, and the form has all nodes and edges of the computation: a
callback that adds or removes trails, nodes or edges is not modelled.  All else of the diagram is read where the code reads it.
-/

namespace CEM
open Diagram
variable {R W : Type} [Field R] [LinearOrder R] [PySqrt R]

/-- What a callback does to the diagram and to the rest of the world. -/
abbrev Callback (R W : Type) := Diagram R × W → Except PyErr (Diagram R × W)

/-- `if callback: callback()` -/
def callE (cb : Option (Callback R W)) (w : Diagram R × W) : Except PyErr (Diagram R × W) :=
  match cb with
  | none => .ok w
  | some f => f w

/-- force.py 92-163 -/
def cbStep (cb : Option (Callback R W)) (tseq : Dict Int (Dict Int Int)) (kmax : Option Int) (indirect : Bool) (k : Int)
    (p : EqState R × (Diagram R × W)) (key : Int) : Except PyErr (EqState R × (Diagram R × W)) :=
  match tseq.getE key with
  | .error err => .error err
  | .ok seqs =>
    match seqs.get? k with
    | none => .ok p
    | some node =>
      match p.1.xyz.getE node with
      | .error err => .error err
      | .ok pos =>
        match p.1.residual.getE node with
        | .error err => .error err
        | .ok rin =>
          match nodeEquilibrium p.2.1 node rin p.1.xyz indirect with
          | .error err => .error err
          | .ok rvec =>
            match p.2.1.isNodeSupport node with
            | .error err => .error err
            | .ok sup =>
              if sup ∨ kmax = some k then
                .ok ({ p.1 with reactions := p.1.reactions.set node rvec }, p.2)
              else
                match seqs.getE (k + 1) with
                | .error err => .error err
                | .ok next =>
                  let edge := if p.2.1.edges.has (node, next) then (node, next) else (next, node)
                  match p.2.1.edges.getE edge with
                  | .error err => .error err
                  | .ok d =>
                    let length := effectiveLength d pos rvec
                    let nrvec := Vec.normalize rvec
                    match callE cb p.2 with
                    | .error err => .error err
                    | .ok w => .ok ({ p.1 with
                        xyz := p.1.xyz.set next (pos + length • nrvec)
                        trailForces := p.1.trailForces.set edge (copysign (Vec.length rvec) length)
                        trailDirs := p.1.trailDirs.set edge nrvec
                        residual := p.1.residual.set next rvec }, w)

/-- force.py 88-163 -/
def cbSweep (cb : Option (Callback R W)) (tseq : Dict Int (Dict Int Int)) (kmax : Option Int) (indirect : Bool)
    (n : Int) (p : EqState R × (Diagram R × W)) : Except PyErr (EqState R × (Diagram R × W)) :=
  forE (fun p k => forE (cbStep cb tseq kmax indirect k) p.2.1.trails.keys p) (pyRange n) p

/-- force.py 83-177 -/
def cbLoop (cb : Option (Callback R W)) (tseq : Dict Int (Dict Int Int)) (kmax : Option Int) (eta : R) :
    Nat → Nat → EqState R × (Diagram R × W) → Option (LoopInfo R) →
      Except PyErr ((EqState R × Option (LoopInfo R)) × (Diagram R × W))
  | 0, _, p, info => .ok ((p.1, info), p.2)
  | fuel + 1, t, p, _ =>
    match p.2.1.numberOfSequences with
    | .error err => .error err
    | .ok n =>
      match cbSweep cb tseq kmax (t ≠ 0) n p with
      | .error err => .error err
      | .ok p' =>
        if t = 0 then cbLoop cb tseq kmax eta fuel (t + 1) p' (some ⟨0, none⟩)
        else
          let distance := residualDistance p.1.xyz p'.1.xyz
          if distance < eta then .ok ((p'.1, some ⟨t, some distance⟩), p'.2)
          else cbLoop cb tseq kmax eta fuel (t + 1) p' (some ⟨t, some distance⟩)

/-- force.py 18-195: the form, and the diagram and the rest of the world afterwards. -/
def staticEquilibriumCb (cb : Option (Callback R W)) (D : Diagram R) (x : W) (kmax : Option Int) (tmax : Nat) (eta : R)
    (verbose : Bool) : Except PyErr (Diagram R × (Diagram R × W)) :=
  if D.numberOfTrails = 0 then .error .assertionError
  else
    match D.trailsSequences with
    | .error err => .error err
    | .ok tseq =>
      match D.numberOfSequences with
      | .error err => .error err
      | .ok _ =>
        if kmax.any (· < 0) then .error .assertionError
        else
          match cbLoop cb tseq kmax eta tmax 0 (initState D, (D, x)) none with
          | .error err => .error err
          | .ok r =>
            match eqFinish eta verbose r.1 with
            | .error err => .error err
            | .ok s => .ok (formUpdate (formFromTopology r.2.1) s, r.2)

/-- force_numpy.py 97-182.  Loads, edges, lengths, planes and forces were stored before the loop (`tab`). -/
def npCbStep (cb : Option (Callback R W)) (tab : NTables R) (tseq : Dict Int (Dict Int Int)) (indirect : Bool)
    (k : Int) (p : NState R × (Diagram R × W)) (key : Int) : Except PyErr (NState R × (Diagram R × W)) :=
  match tseq.getE key with
  | .error err => .error err
  | .ok seqs =>
    match seqs.get? k with
    | none => .ok p
    | some node =>
      match p.1.xyz.getE node with
      | .error err => .error err
      | .ok pos =>
        match p.1.residual.getE node with
        | .error err => .error err
        | .ok rin =>
          match tab.loads.getE node with
          | .error err => .error err
          | .ok q =>
            match tab.direct.getE node with
            | .error err => .error err
            | .ok dirEdges =>
              match npResultant node p.1.xyz tab.forces dirEdges (some 0) with
              | .error err => .error err
              | .ok rd =>
                match npIndirect tab indirect node p.1.xyz with
                | .error err => .error err
                | .ok ri =>
                  let rvec := npNodeEquilibrium rin (some q) rd ri
                  match p.2.1.isNodeSupport node with
                  | .error err => .error err
                  | .ok sup =>
                    if sup then .ok ({ p.1 with reactions := p.1.reactions.set node rvec }, p.2)
                    else
                      match seqs.getE (k + 1) with
                      | .error err => .error err
                      | .ok next =>
                        let edge := if (node, next) ∈ tab.edgeKeys then (node, next)
                          else (next, node)
                        match tab.lengths.getE edge with
                        | .error err => .error err
                        | .ok length0 =>
                          let length := npEffectiveLength length0 (tab.planes.get? edge) pos rvec
                          let nrvec := npDirection rvec
                          match callE cb p.2 with
                          | .error err => .error err
                          | .ok w => .ok ({ p.1 with
                              trailDirs := p.1.trailDirs.set edge nrvec
                              xyz := p.1.xyz.set next
                                (lift2 (· + ·) pos (lift2 (· • ·) length nrvec))
                              trailForces := p.1.trailForces.set edge (npTrailForce rvec length)
                              residual := p.1.residual.set next rvec }, w)

/-- force_numpy.py 92-182 -/
def npCbSweep (cb : Option (Callback R W)) (tab : NTables R) (tseq : Dict Int (Dict Int Int)) (indirect : Bool)
    (n : Int) (p : NState R × (Diagram R × W)) : Except PyErr (NState R × (Diagram R × W)) :=
  forE (fun p k => forE (npCbStep cb tab tseq indirect k) p.2.1.trails.keys p) (pyRange n) p

/-- force_numpy.py 87-196 -/
def npCbLoop (cb : Option (Callback R W)) (tab : NTables R) (tseq : Dict Int (Dict Int Int)) (eta : R) :
    Nat → Nat → NState R × (Diagram R × W) → Option (NLoopInfo R) →
      Except PyErr ((NState R × Option (NLoopInfo R)) × (Diagram R × W))
  | 0, _, p, info => .ok ((p.1, info), p.2)
  | fuel + 1, t, p, _ =>
    match p.2.1.numberOfSequences with
    | .error err => .error err
    | .ok n =>
      match npCbSweep cb tab tseq (t > 0) n p with
      | .error err => .error err
      | .ok p' =>
        if t = 0 then npCbLoop cb tab tseq eta fuel (t + 1) p' (some ⟨0, none⟩)
        else
          let distance := npDistance p.1.xyz p'.1.xyz
          if distance.lt eta then .ok ((p'.1, some ⟨t, some distance⟩), p'.2)
          else npCbLoop cb tab tseq eta fuel (t + 1) p' (some ⟨t, some distance⟩)

/-- force_numpy.py 9-215 -/
def staticEquilibriumNumpyCb (cb : Option (Callback R W)) (D : Diagram R) (x : W) (tmax : Nat) (eta : R)
    (verbose : Bool) : Except PyErr (Diagram (Num R) × (Diagram R × W)) :=
  if D.numberOfTrails = 0 then .error .assertionError
  else
    match D.trailsSequences with
    | .error err => .error err
    | .ok tseq =>
      match npTables D with
      | .error err => .error err
      | .ok tab =>
        match npCbLoop cb tab tseq eta tmax 0 (npInit D, (D, x)) none with
        | .error err => .error err
        | .ok r =>
          match npFinish eta verbose r.1 with
          | .error err => .error err
          | .ok s => .ok (npFormUpdate (formFromTopology r.2.1).num s, r.2)

end CEM
