import Verif.Model.Queries
import Verif.Model.Equilibrium

/-!
# Text labels

Models the text labels of `src/compas_cem/plotters/formartist.py`,
`plotters/topologyartist.py` and `viewers/diagramobject.py`.

How numbers are printed (`"{0:.{1}}".format(x, precision)`) and how coordinates are
(`geometric_key`) are parameters `num` and `geo`.  Drawing the texts is not modelled.
-/

namespace CEM
namespace Labels
open Diagram
variable {R : Type}

/-- `"{}".format(node_attribute(x, "type"))` -/
def nodeTypeText : NodeType → String
  | .free => "None"
  | .support => "support"
  | .origin => "_origin"

/-- `"{}".format(edge_attribute(x, "type"))` -/
def edgeTypeText : EdgeType → String
  | .untyped => "None"
  | .trail => "trail"
  | .deviation => "deviation"

/-- The loops formartist.py 256-258 and 298-300, topologyartist.py 240-242 and 299-301,
diagramobject.py 647-649 and 704-706.  The formatters are closures that can see the loop
variable: `format x k` is the formatter called with argument `k` while the variable is `x`. -/
def labelLoop {K : Type} [DecidableEq K] (format : K → K → Except PyErr String) :
    List K → Dict K String → Except PyErr (Dict K String)
  | [], acc => .ok acc
  | k :: l, acc =>
    match format k k with
    | .error err => .error err
    | .ok t => labelLoop format l (acc.set k t)

/-- `if text_tag not in tags_formatter: return None`, and the loop otherwise. -/
def labels {K : Type} [DecidableEq K] (table : String → Option (K → K → Except PyErr String))
    (tag : String) (keys : List K) : Except PyErr (Option (Dict K String)) :=
  match table tag with
  | none => .ok none
  | some format =>
    match labelLoop format keys [] with
    | .error err => .error err
    | .ok d => .ok (some d)

/-- `f(x)` for a formatter that calls a method of the diagram and prints the answer. -/
def printed {A : Type} (print : A → String) : Except PyErr A → Except PyErr String
  | .error err => .error err
  | .ok a => .ok (print a)

/-- `"{}\n{}".format(x, text)` -/
def keyed (n : Int) (text : String) : String := toString n ++ "\n" ++ text

/-! ## Nodes -/

section
variable (geo : Vec R → String)

/-- `gkey_format` (formartist.py 239-240, topologyartist.py 211-212, diagramobject.py 628-629). -/
def xyzText (D : Diagram R) (n : Int) : Except PyErr String := printed geo (D.nodeXyz n)

/-- `type_format` (topologyartist.py 217-218). -/
def nodeTypeFormat (D : Diagram R) (n : Int) : Except PyErr String :=
  match D.nodes.get? n with
  | some d => .ok (nodeTypeText d.type)
  | none => .error .keyError

/-- formartist.py 239-248 -/
def formNodeTable (D : Diagram R) (tag : String) : Option (Int → Int → Except PyErr String) :=
  if tag = "xyz" then some fun _ n => xyzText geo D n
  else if tag = "keyxyz" then some fun _ n => printed (keyed n) (xyzText geo D n)
  else none

/-- topologyartist.py 211-232 -/
def topologyNodeTable (D : Diagram R) (tag : String) : Option (Int → Int → Except PyErr String) :=
  if tag = "xyz" then some fun _ n => xyzText geo D n
  else if tag = "keyxyz" then some fun _ n => printed (keyed n) (xyzText geo D n)
  else if tag = "type" then some fun _ n => nodeTypeFormat D n
  else if tag = "sequence" then some fun _ n => printed toString (D.nodeSequence n)
  else if tag = "keysequence" then
    some fun _ n => printed (keyed n) (printed toString (D.nodeSequence n))
  else none

/-- diagramobject.py 628-639.  `type_format` reads `self.topology`, which no viewer object has. -/
def viewerNodeTable (D : Diagram R) (tag : String) : Option (Int → Int → Except PyErr String) :=
  if tag = "xyz" then some fun _ n => xyzText geo D n
  else if tag = "keyxyz" then some fun _ n => printed (keyed n) (xyzText geo D n)
  else if tag = "type" then some fun _ _ => .error .attributeError
  else none

end

/-! ## Edges -/

section
variable [Field R] [LinearOrder R] [PySqrt R] (num : R → String)

/-- `"f: {}\nl: {}".format(...)`: the force is formatted first. -/
def forceLength (f l : Except PyErr String) : Except PyErr String :=
  match f with
  | .error err => .error err
  | .ok a =>
    match l with
    | .error err => .error err
    | .ok b => .ok ("f: " ++ a ++ "\nl: " ++ b)

/-- `"f: {}\nl: {}\ns: {}".format(...)` -/
def forceLengthState (f l s : Except PyErr String) : Except PyErr String :=
  match forceLength f l with
  | .error err => .error err
  | .ok a =>
    match s with
    | .error err => .error err
    | .ok b => .ok (a ++ "\ns: " ++ b)

/-- `self.form.edge_length(*x)`: the distance of the ends. -/
def endDistance (D : Diagram R) (e : Int × Int) : Except PyErr R :=
  match D.nodeXyz e.1 with
  | .error err => .error err
  | .ok p =>
    match D.nodeXyz e.2 with
    | .error err => .error err
    | .ok q => .ok (Vec.dist p q)

/-- formartist.py 277-290: the force is printed with its sign. -/
def formEdgeTable (D : Diagram R) (tag : String) :
    Option (Int × Int → Int × Int → Except PyErr String) :=
  let force := fun e => printed num (D.edgeForce e)
  let length := fun e => printed num (endDistance D e)
  if tag = "force" then some fun _ e => force e
  else if tag = "length" then some fun _ e => length e
  else if tag = "forcelength" then some fun _ e => forceLength (force e) (length e)
  else none

/-- `state_format` (topologyartist.py 270-276, diagramobject.py 677-683): the kind is asked of the
argument `e`, the number is read from the loop variable `x`.  A form diagram has no method
`is_trail_edge`. -/
def stateText (isForm : Bool) (D : Diagram R) (x e : Int × Int) : Except PyErr String :=
  if isForm then .error .attributeError
  else
    match D.isTrailEdge e with
    | .error err => .error err
    | .ok true => printed (fun p => num (copysign 1 p)) (D.edgeLength2 x)
    | .ok false => printed (fun p => num (copysign 1 p)) (D.edgeForce x)

/-- `type_format` (topologyartist.py 278-279, diagramobject.py 685-686). -/
def edgeTypeFormat (D : Diagram R) (e : Int × Int) : Except PyErr String :=
  match D.edges.get? e with
  | some d => .ok (edgeTypeText d.type)
  | none => .error .keyError

/-- topologyartist.py 261-291 and diagramobject.py 668-696: force and length are printed without
sign, the length is the stored one. -/
def edgeTable (isForm : Bool) (D : Diagram R) (tag : String) :
    Option (Int × Int → Int × Int → Except PyErr String) :=
  let force := fun e => printed (fun f => num |f|) (D.edgeForce e)
  let length := fun e => printed (fun l => num |l|) (D.edgeLength2 e)
  if tag = "force" then some fun _ e => force e
  else if tag = "length" then some fun _ e => length e
  else if tag = "state" then some fun x e => stateText num isForm D x e
  else if tag = "forcelength" then some fun _ e => forceLength (force e) (length e)
  else if tag = "forcelengthstate" then
    some fun x e => forceLengthState (force e) (length e) (stateText num isForm D x e)
  else if tag = "type" then some fun _ e => edgeTypeFormat D e
  else none

end

/-! ## The viewer -/

/-- What may be assigned to the texts of a viewer object. -/
inductive TextSpec (K : Type) where
  | tag (t : String)
  | dict (d : Dict K String)
  | other

/-- `{node: str(node) for node in self.diagram.nodes()}` and
`{edge: "{}-{}".format(*edge) for edge in self.diagram.edges()}` -/
def keyTexts {K : Type} [DecidableEq K] (show_ : K → String) (all : List K) : Dict K String :=
  all.foldl (fun acc k => acc.set k (show_ k)) []

/-- `"{}-{}".format(*edge)` -/
def edgeKeyText (e : Int × Int) : String := toString e.1 ++ "-" ++ toString e.2

/-- The setters diagramobject.py 268-276 and 284-292, on the text `old` stored before; `all` are
the items of the diagram, `keys` those of the object. -/
def setText {K : Type} [DecidableEq K] (show_ : K → String)
    (table : String → Option (K → K → Except PyErr String)) (all keys : List K)
    (old : Option (Dict K String)) : TextSpec K → Except PyErr (Option (Dict K String))
  | .tag t => if t = "key" then .ok (some (keyTexts show_ all)) else labels table t keys
  | .dict d => .ok (some d)
  | .other => .ok old

/-- The getters diagramobject.py 262-266 and 278-282: an empty dictionary counts as missing. -/
def getText {K : Type} [DecidableEq K] (show_ : K → String) (all : List K) :
    Option (Dict K String) → Dict K String
  | none => keyTexts show_ all
  | some [] => keyTexts show_ all
  | some d => d

/-- What is handed to the drawing library as a label: a text, or by mistake a node key. -/
inductive Label where
  | text (t : String)
  | node (n : Int)
  deriving DecidableEq, Repr

/-- diagramobject.py 550: `self.edge_text.get(edge, self.edge_text.get(v, u))`.  The keys of the
dictionary are edges, so the inner call looks for a node among edges and gives its default. -/
def drawnEdgeText (texts : Dict (Int × Int) String) (e : Int × Int) : Label :=
  match texts.get? e with
  | some t => .text t
  | none => .node e.1

end Labels
end CEM
