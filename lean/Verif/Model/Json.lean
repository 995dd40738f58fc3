import Verif.Model.Solve
import Verif.Model.Serialization

/-!
# Diagrams saved to and read from JSON

Models what `to_json` and `from_json` (`CompasCem_JSONExportDiagram/code.py`,
`CompasCem_JSONImportTopology/code.py`) and the proxy (`CompasCem_ConstrainedFormFinding/code.py`
38-47) make of a topology diagram, and the methods of topology.py and the two solvers on the
result.

COMPAS writes the keys of nodes and edges with `repr` and reads them with `literal_eval`
(`Network.data`).  The attributes of the diagram (topology.py 41-44) are written as they are, and
JSON turns the integer keys of the dictionaries `_trails` and `_auxiliary_trails` into texts.
Nothing turns them back.  Numbers, the geometric keys and the order of all dictionaries survive.
Tuples become lists, which the model does not distinguish.
-/

namespace CEM

/-- `{f(k): v for k, v in d.items()}` -/
def Dict.rekey {K L V : Type} (f : K → L) (d : Dict K V) : Dict L V := d.map fun p => (f p.1, p.2)

/-- A key of a Python dictionary: an integer or a text. -/
inductive PyKey where
  | int (i : Int)
  | text (cs : List Char)
  deriving DecidableEq, Repr

/-- A topology diagram whose trails may be stored under integers or texts.  The two dictionaries of
trails of `base` are empty. -/
structure KeyedDiagram (R : Type) where
  base : Diagram R
  trails : Dict PyKey (List Int)
  auxTrails : Dict PyKey (Int × Int)
  deriving DecidableEq, Repr

/-- The content of a JSON file of a topology diagram. -/
structure SavedDiagram (R : Type) where
  node : Dict (List Char) (NodeData R)
  edge : Dict (List Char × List Char) (EdgeData R)
  maxNode : Int
  gkeyNode : Dict String Int
  trails : Dict (List Char) (List Int)
  auxTrails : Dict (List Char) (Int × Int)
  auxLength : R
  auxVector : Vec R
  deriving DecidableEq, Repr

/-- `literal_eval` of a text that should denote an integer. -/
def intOfText : List Char → Except PyErr Int
  | '-' :: cs => if cs.all Char.isDigit && !cs.isEmpty then .ok (-(natOfDigits cs : Int)) else .error .valueError
  | cs => if cs.all Char.isDigit && !cs.isEmpty then .ok (natOfDigits cs) else .error .valueError

/-- Reads the keys of a dictionary. -/
def readKeys {K L V : Type} (f : K → Except PyErr L) : Dict K V → Except PyErr (Dict L V)
  | [] => .ok []
  | (k, v) :: d =>
    match f k with
    | .error err => .error err
    | .ok i =>
      match readKeys f d with
      | .error err => .error err
      | .ok d' => .ok ((i, v) :: d')

/-- Reads the two keys of an edge. -/
def edgeOfText (e : List Char × List Char) : Except PyErr (Int × Int) :=
  match intOfText e.1 with
  | .error err => .error err
  | .ok u =>
    match intOfText e.2 with
    | .error err => .error err
    | .ok v => .ok (u, v)

namespace Diagram
variable {R : Type}

/-- The diagram with the trails stored under `f` of their keys. -/
def rekeyed (f : Int → PyKey) (D : Diagram R) : KeyedDiagram R where
  base := { D with trails := [], auxTrails := [] }
  trails := D.trails.rekey f
  auxTrails := D.auxTrails.rekey f

/-- A diagram that was never saved: the keys of the trails are integers. -/
def keyed (D : Diagram R) : KeyedDiagram R := D.rekeyed .int

end Diagram

/-- A key as JSON writes it. -/
def PyKey.json : PyKey → List Char
  | .int i => reprInt i
  | .text cs => cs

/-- `diagram.to_json(filepath)` (CompasCem_JSONExportDiagram/code.py 15). -/
def KeyedDiagram.save {R : Type} (X : KeyedDiagram R) : SavedDiagram R where
  node := X.base.nodes.rekey reprInt
  edge := X.base.edges.rekey fun e => (reprInt e.1, reprInt e.2)
  maxNode := X.base.maxNode
  gkeyNode := X.base.gkeyNode
  trails := X.trails.rekey PyKey.json
  auxTrails := X.auxTrails.rekey PyKey.json
  auxLength := X.base.auxLength
  auxVector := X.base.auxVector

/-- `TopologyDiagram.from_json(filepath)` (CompasCem_JSONImportTopology/code.py 17). -/
def SavedDiagram.load {R : Type} (S : SavedDiagram R) : Except PyErr (KeyedDiagram R) :=
  match readKeys intOfText S.node with
  | .error err => .error err
  | .ok nodes =>
    match readKeys edgeOfText S.edge with
    | .error err => .error err
    | .ok edges => .ok
      { base := ⟨nodes, edges, S.maxNode, S.gkeyNode, [], [], S.auxLength, S.auxVector⟩
        trails := S.trails.rekey .text
        auxTrails := S.auxTrails.rekey .text }

/-- Saving a diagram and reading it again, which the proxy does with its arguments and results. -/
def KeyedDiagram.trip {R : Type} (X : KeyedDiagram R) : Except PyErr (KeyedDiagram R) := X.save.load

namespace KeyedDiagram
variable {R : Type}

/-- topology.py 222 -/
def trail (X : KeyedDiagram R) (key : PyKey) : Except PyErr (List Int) := X.trails.getE key

/-- topology.py 135-144 -/
def numberOfTrails (X : KeyedDiagram R) : Nat := X.trails.vals.length

/-- topology.py 912-930 -/
def trailSequences (X : KeyedDiagram R) (key : PyKey) : Except PyErr (Dict Int Int) :=
  match X.trail key with
  | .error err => .error err
  | .ok tr => X.base.trailSequencesLoop tr []

/-- The loop of topology.py 944-949. -/
def trailsSequencesLoop (X : KeyedDiagram R) :
    List PyKey → Dict PyKey (Dict Int Int) → Except PyErr (Dict PyKey (Dict Int Int))
  | [], acc => .ok acc
  | key :: l, acc =>
    match X.trailSequences key with
    | .error err => .error err
    | .ok s => trailsSequencesLoop X l (acc.set key s)

/-- topology.py 932-949 -/
def trailsSequences (X : KeyedDiagram R) : Except PyErr (Dict PyKey (Dict Int Int)) :=
  X.trailsSequencesLoop X.trails.keys []

/-- `is_node_origin(key)`: no node has a text as its key. -/
def isNodeOrigin (X : KeyedDiagram R) : PyKey → Except PyErr Bool
  | .int n => X.base.isNodeOrigin n
  | .text _ => .error .keyError

/-- topology.py 285-308 -/
def shiftTrail (X : KeyedDiagram R) (key : PyKey) (sequence : Int) :
    KeyedDiagram R × Except PyErr Unit :=
  match X.isNodeOrigin key with
  | .error err => (X, .error err)
  | .ok false => (X, .error .assertionError)
  | .ok true =>
    if X.numberOfTrails = 0 then (X, .error .valueError)
    else
      match X.trail key with
      | .error err => (X, .error err)
      | .ok tr => ({ X with base := X.base.assignSequences tr sequence }, .ok ())

/-- topology.py 310-418 with `auxiliary_trails=False`: the search does not read the old trails, and
the new ones are stored under integers. -/
def buildTrails (X : KeyedDiagram R) : KeyedDiagram R × Except PyErr Unit :=
  match X.base.buildTrails with
  | (D, .error err) => ({ X with base := D }, .error err)
  | (D, .ok ()) =>
    ({ base := { D with trails := [] }, trails := D.trails.rekey .int, auxTrails := X.auxTrails },
      .ok ())

section
variable [Field R] [LinearOrder R] [PySqrt R]

/-- force.py 92-159: looks the trail up, then does with its sequences what `eqStep` does. -/
def eqStep (X : KeyedDiagram R) (tseq : Dict PyKey (Dict Int Int)) (kmax : Option Int)
    (indirect : Bool) (k : Int) (s : EqState R) (key : PyKey) : Except PyErr (EqState R) :=
  match tseq.getE key with
  | .error err => .error err
  | .ok seqs => CEM.eqStep X.base [(0, seqs)] kmax indirect k s 0

/-- force.py 88-163 -/
def sweep (X : KeyedDiagram R) (tseq : Dict PyKey (Dict Int Int)) (kmax : Option Int)
    (indirect : Bool) (n : Int) (s : EqState R) : Except PyErr (EqState R) :=
  forE (fun s k => forE (X.eqStep tseq kmax indirect k) X.trails.keys s) (Diagram.pyRange n) s

/-- force.py 83-177 -/
def eqLoop (X : KeyedDiagram R) (tseq : Dict PyKey (Dict Int Int)) (kmax : Option Int) (eta : R)
    (n : Int) : Nat → Nat → EqState R → Option (LoopInfo R) →
      Except PyErr (EqState R × Option (LoopInfo R))
  | 0, _, s, info => .ok (s, info)
  | fuel + 1, t, s, _ =>
    match X.sweep tseq kmax (t ≠ 0) n s with
    | .error err => .error err
    | .ok s' =>
      if t = 0 then eqLoop X tseq kmax eta n fuel (t + 1) s' (some ⟨0, none⟩)
      else
        let distance := residualDistance s.xyz s'.xyz
        if distance < eta then .ok (s', some ⟨t, some distance⟩)
        else eqLoop X tseq kmax eta n fuel (t + 1) s' (some ⟨t, some distance⟩)

/-- force.py 59-195 -/
def equilibriumState (X : KeyedDiagram R) (kmax : Option Int) (tmax : Nat) (eta : R)
    (verbose : Bool) : Except PyErr (EqState R) :=
  if X.numberOfTrails = 0 then .error .assertionError
  else
    match X.trailsSequences with
    | .error err => .error err
    | .ok tseq =>
      match X.base.numberOfSequences with
      | .error err => .error err
      | .ok n =>
        if kmax.any (· < 0) then .error .assertionError
        else
          match X.eqLoop tseq kmax eta n tmax 0 (initState X.base) none with
          | .error err => .error err
          | .ok r => eqFinish eta verbose r

/-- force.py 18-56; the form has no trails (form.py 39-42). -/
def staticEquilibrium (X : KeyedDiagram R) (kmax : Option Int) (tmax : Nat) (eta : R)
    (verbose : Bool) : Except PyErr (Diagram R) :=
  match X.equilibriumState kmax tmax eta verbose with
  | .error err => .error err
  | .ok s => .ok (formUpdate (formFromTopology X.base) s)

/-- force_numpy.py 97-182: looks the trail up, then does with its sequences what `npStep` does. -/
def npStep (X : KeyedDiagram R) (tab : NTables R) (tseq : Dict PyKey (Dict Int Int))
    (indirect : Bool) (k : Int) (s : NState R) (key : PyKey) : Except PyErr (NState R) :=
  match tseq.getE key with
  | .error err => .error err
  | .ok seqs => CEM.npStep X.base tab [(0, seqs)] indirect k s 0

/-- force_numpy.py 92-182 -/
def npSweep (X : KeyedDiagram R) (tab : NTables R) (tseq : Dict PyKey (Dict Int Int))
    (indirect : Bool) (n : Int) (s : NState R) : Except PyErr (NState R) :=
  forE (fun s k => forE (X.npStep tab tseq indirect k) X.trails.keys s) (Diagram.pyRange n) s

/-- force_numpy.py 87-196 -/
def npLoop (X : KeyedDiagram R) (tab : NTables R) (tseq : Dict PyKey (Dict Int Int)) (eta : R)
    (n : Int) : Nat → Nat → NState R → Option (NLoopInfo R) →
      Except PyErr (NState R × Option (NLoopInfo R))
  | 0, _, s, info => .ok (s, info)
  | fuel + 1, t, s, _ =>
    match X.npSweep tab tseq (t > 0) n s with
    | .error err => .error err
    | .ok s' =>
      if t = 0 then npLoop X tab tseq eta n fuel (t + 1) s' (some ⟨0, none⟩)
      else
        let distance := npDistance s.xyz s'.xyz
        if distance.lt eta then .ok (s', some ⟨t, some distance⟩)
        else npLoop X tab tseq eta n fuel (t + 1) s' (some ⟨t, some distance⟩)

/-- force_numpy.py 45-215 -/
def npEquilibriumState (X : KeyedDiagram R) (tmax : Nat) (eta : R) (verbose : Bool) :
    Except PyErr (NState R) :=
  if X.numberOfTrails = 0 then .error .assertionError
  else
    match X.trailsSequences with
    | .error err => .error err
    | .ok tseq =>
      match npTables X.base with
      | .error err => .error err
      | .ok tab =>
        if tmax = 0 then .error .unboundLocal
        else
          match X.base.numberOfSequences with
          | .error err => .error err
          | .ok n =>
            match X.npLoop tab tseq eta n tmax 0 (npInit X.base) none with
            | .error err => .error err
            | .ok r => npFinish eta verbose r

/-- force_numpy.py 9-42 -/
def staticEquilibriumNumpy (X : KeyedDiagram R) (tmax : Nat) (eta : R) (verbose : Bool) :
    Except PyErr (Diagram (Num R)) :=
  match X.npEquilibriumState tmax eta verbose with
  | .error err => .error err
  | .ok s => .ok (npFormUpdate (formFromTopology X.base).num s)

/-- optimizer.py 352-359: parameters are written into nodes and edges. -/
def optimizeForm (o : Optimizer R) (tmax : Nat) (eta : R) (X : KeyedDiagram R) (x : List R) :
    KeyedDiagram R × Except PyErr (Num R) :=
  match o.updateParameters X.base x with
  | (D, .error err) => ({ X with base := D }, .error err)
  | (D, .ok _) =>
    match KeyedDiagram.npEquilibriumState { X with base := D } tmax eta false with
    | .error err => ({ X with base := D }, .error err)
    | .ok s => ({ X with base := D }, calculatePenalty s o.constraints.vals (some 0))

/-- objective_func.py 7-12, as `Optimizer.exec`. -/
def exec (f : KeyedDiagram R → List R → KeyedDiagram R × Except PyErr (Num R))
    (g : KeyedDiagram R → List R → KeyedDiagram R × Except PyErr (List (Num R))) :
    Run R → KeyedDiagram R → KeyedDiagram R → List (List R) →
      (KeyedDiagram R × KeyedDiagram R × List (List R)) × Ended R
  | .done x v n c, X, C, xs => ((X, C, xs), .done x v n c)
  | .roundoff v n c, X, C, xs => ((X, C, xs), .roundoff v n c)
  | .raised err, X, C, xs => ((X, C, xs), .raised err)
  | .eval x wants next, X, C, xs =>
    match f X x with
    | (X', .error err) => ((X', C, x :: xs), .raised err)
    | (X', .ok v) =>
      if wants then
        match g C x with
        | (C', .error err) => ((X', C', x :: xs), .raised err)
        | (C', .ok dv) => exec f g (next v dv) X' C' (x :: xs)
      else exec f g (next v []) X' C (x :: xs)

end
end KeyedDiagram

/-- What a call of `solve_proxy` leaves behind, as `Solved`. -/
structure KeyedSolved (R : Type) where
  topology : KeyedDiagram R
  attrs : Attrs R
  points : List (List R)
  ended : Option (Ended R)
  form : Except PyErr (Diagram R)

namespace KeyedDiagram
variable {R : Type} [Field R] [LinearOrder R] [PySqrt R]

/-- optimizer.py 204-207: the gradient by automatic differentiation. -/
def gradFunc (ad : KeyedDiagram R → List R → KeyedDiagram R × Except PyErr (List (Num R)))
    (C : KeyedDiagram R) (x : List R) : KeyedDiagram R × Except PyErr (List (Num R)) :=
  match ad C x with
  | (C', .error err) => (C', .error err)
  | (C', .ok v) => (C', gradAutograd (fun _ => .ok v) x (List.replicate x.length (some 0)))

/-- optimizer.py 253-280, as `Optimizer.finish`. -/
def finish (g : KeyedDiagram R → List R → KeyedDiagram R × Except PyErr (List (Num R))) (tol : R)
    (old : Attrs R) (X C : KeyedDiagram R) (points : List (List R)) (ended : Ended R) (x : List R)
    (value : Num R) (evals : Nat) (result : Int) : KeyedSolved R :=
  match nloptStatus result with
  | .error err => ⟨X, old, points, some ended, .error err⟩
  | .ok status =>
    match (g C x).2 with
    | .error err =>
      ⟨X, ⟨some x, some value, some evals, some status, old.gradient⟩, points, some ended,
        .error err⟩
    | .ok dv =>
      ⟨X, ⟨some x, some value, some evals, some status, some dv⟩, points, some ended,
        X.staticEquilibrium none 100 tol false⟩

/-- optimizer.py 238-280, as `Optimizer.optimize`. -/
def optimize (o : Optimizer R) (old : Attrs R)
    (g : KeyedDiagram R → List R → KeyedDiagram R × Except PyErr (List (Num R))) (tol : R)
    (tmax : Nat) (eta : R) (run : Run R) (X : KeyedDiagram R) : KeyedSolved R :=
  match exec (optimizeForm o tmax eta) g run X X [] with
  | ((X', C, xs), .done y v n c) => finish g tol old X' C xs (.done y v n c) y v n c
  | ((X', C, xs), .roundoff v n c) =>
    match o.optimizationParameters X'.base with
    | .error err => ⟨X', old, xs, some (.roundoff v n c), .error err⟩
    | .ok y => finish g tol old X' C xs (.roundoff v n c) y v n c
  | ((X', _, xs), .raised err) =>
    if err = .runtimeError then
      ⟨X', old, xs, some (.raised err), X'.staticEquilibrium none 100 tol false⟩
    else ⟨X', old, xs, some (.raised err), .error err⟩

/-- proxy.py 72-96 on the diagram that arrives at the server, as `Optimizer.solveProxy`. -/
def solveProxy (constraints : List (Constraint R)) (parameters : List (Param R))
    (nlopt : Problem R → Run R)
    (ad : KeyedDiagram R → List R → KeyedDiagram R × Except PyErr (List (Num R))) (tol : R)
    (algorithm : String) (iters : Int) (eps kappa : R) (tmax : Nat) (eta : R)
    (X : KeyedDiagram R) : KeyedSolved R :=
  let o : Optimizer R := Optimizer.ofLists constraints parameters
  let old : Attrs R := ⟨none, none, none, none, none⟩
  match o.checkSanity with
  | .error err => ⟨X, old, [], none, .error err⟩
  | .ok _ =>
    match o.optimizationParameters X.base with
    | .error err => ⟨X, old, [], none, .error err⟩
    | .ok x =>
      match o.optimizationBounds X.base with
      | .error err => ⟨X, old, [], none, .error err⟩
      | .ok bounds =>
        if algorithm ∉ nloptAlgorithms then ⟨X, old, [], none, .error .keyError⟩
        else
          optimize o old (gradFunc ad) tol tmax eta
            (nlopt ⟨algorithm, o.parameters.length, bounds, iters, eps, kappa, x⟩) X

end KeyedDiagram
end CEM
