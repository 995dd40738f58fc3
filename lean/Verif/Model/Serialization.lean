import Verif.Model.Parameters

/-!
# Serialization of parameters and constraints

Models the `data` properties of `optimization/parameters/node.py`, `edge.py` and
`optimization/constraints/constraint.py` with the Python functions they use, on texts as
lists of characters: `repr`, `ast.literal_eval`, `float`, `int`, `tuple`.
Values are `None`, integers, floats, tuples and lists; texts of other literals (strings,
dictionaries, sets, complex numbers, comments) are outside the modelled part of `literal_eval`.
`Data.from_data(data)` of COMPAS makes an object with no arguments and assigns its `data`.
-/

namespace CEM

/-- A Python value. -/
inductive PyVal (F : Type) where
  | none
  | int (i : Int)
  | float (x : F)
  | tuple (vs : List (PyVal F))
  | list (vs : List (PyVal F))

/-- What the code uses of Python's `float`: `repr(x)`, the value of a number token without sign
(`none` if it is no such token), `-x`, `float(i)` for an integer (`none` for an
`OverflowError`), and `int(x)`. -/
class PyFloat (F : Type) where
  repr : F → List Char
  parse : List Char → Option F
  neg : F → F
  ofInt : Int → Option F
  toInt : F → Except PyErr Int

/-- A decimal digit. -/
def digitChar (d : Nat) : Char := Char.ofNat (48 + d)

/-- `repr` of a natural number. -/
def reprNat (n : Nat) : List Char :=
  if n < 10 then [digitChar n] else reprNat (n / 10) ++ [digitChar (n % 10)]
  decreasing_by omega

/-- `repr` of an integer. -/
def reprInt (i : Int) : List Char :=
  if i < 0 then '-' :: reprNat i.natAbs else reprNat i.natAbs

section
variable {F : Type} [PyFloat F]

mutual
/-- `repr(v)` -/
def reprVal : PyVal F → List Char
  | .none => ['N', 'o', 'n', 'e']
  | .int i => reprInt i
  | .float x => PyFloat.repr x
  | .tuple [v] => '(' :: reprVal v ++ [',', ')']
  | .tuple vs => '(' :: reprItems vs ++ [')']
  | .list vs => '[' :: reprItems vs ++ [']']
/-- The items of a tuple or a list, separated by a comma and a blank. -/
def reprItems : List (PyVal F) → List Char
  | [] => []
  | [v] => reprVal v
  | v :: w :: vs => reprVal v ++ [',', ' '] ++ reprItems (w :: vs)
end

/-- Blanks between tokens. -/
def skipBlanks : List Char → List Char
  | ' ' :: cs => skipBlanks cs
  | cs => cs

/-- Characters of a number token. -/
def isNumChar (c : Char) : Bool :=
  c.isDigit || c == '.' || c == 'e' || c == '+' || c == '-'

/-- The value of a digit. -/
def digitVal (c : Char) : Nat := c.toNat - 48

/-- The number denoted by digits. -/
def natOfDigits (cs : List Char) : Nat := cs.foldl (fun a c => 10 * a + digitVal c) 0

/-- A number token: digits only denote an integer (no leading zero), other ones a float. -/
def numToken (t : List Char) : Option (PyVal F) :=
  if t.all Char.isDigit then
    match t with
    | [] => Option.none
    | [c] => some (.int (digitVal c))
    | c :: cs => if c = '0' then Option.none else some (.int (natOfDigits (c :: cs)))
  else (PyFloat.parse t).map .float

/-- Unary minus on a number. -/
def negVal : PyVal F → PyVal F
  | .int i => .int (-i)
  | .float x => .float (PyFloat.neg x)
  | v => v

/-- A number at the start of a text, with the remaining text. -/
def parseNum (cs : List Char) : Option (PyVal F × List Char) :=
  (numToken (cs.takeWhile isNumChar)).map fun v => (v, cs.dropWhile isNumChar)

mutual
/-- A value at the start of a text, with the remaining text; parentheses around one value
without a comma do not make a tuple. -/
def parseVal : Nat → List Char → Option (PyVal F × List Char)
  | 0, _ => Option.none
  | n + 1, cs =>
    match skipBlanks cs with
    | 'N' :: 'o' :: 'n' :: 'e' :: r => some (.none, r)
    | '(' :: r =>
      match skipBlanks r with
      | ')' :: r' => some (.tuple [], r')
      | r' =>
        match parseVal n r' with
        | Option.none => Option.none
        | some (v, r'') =>
          match skipBlanks r'' with
          | ')' :: q => some (v, q)
          | ',' :: q => (parseTail n ')' q).map fun p => (.tuple (v :: p.1), p.2)
          | _ => Option.none
    | '[' :: r => (parseTail n ']' r).map fun p => (.list p.1, p.2)
    | '-' :: r => (parseNum r).map fun p => (negVal p.1, p.2)
    | r => parseNum r
/-- Items up to the closing bracket; a trailing comma is allowed. -/
def parseTail : Nat → Char → List Char → Option (List (PyVal F) × List Char)
  | 0, _, _ => Option.none
  | n + 1, close, cs =>
    match skipBlanks cs with
    | [] => Option.none
    | c :: r =>
      if c = close then some ([], r)
      else
        match parseVal n (c :: r) with
        | Option.none => Option.none
        | some (v, r') =>
          match skipBlanks r' with
          | ',' :: q => (parseTail n close q).map fun p => (v :: p.1, p.2)
          | d :: q => if d = close then some ([v], q) else Option.none
          | [] => Option.none
end

/-- Whether a text is a name such as `inf`, possibly with a sign: such an expression is no
literal, which is a `ValueError`. -/
def isName : List Char → Bool
  | '-' :: cs => !cs.isEmpty && cs.all Char.isAlpha
  | cs => !cs.isEmpty && cs.all Char.isAlpha

/-- `ast.literal_eval(text)`; other texts outside the modelled literals count as
`SyntaxError`. -/
def literalEval (cs : List Char) : Except PyErr (PyVal F) :=
  match parseVal (2 * cs.length + 1) cs with
  | some (v, r) => if (skipBlanks r).isEmpty then .ok v else .error .syntaxError
  | Option.none => if isName cs then .error .valueError else .error .syntaxError

/-- `float(v)` -/
def pyFloat : PyVal F → Except PyErr F
  | .int i =>
    match PyFloat.ofInt i with
    | some x => .ok x
    | Option.none => .error .overflow
  | .float x => .ok x
  | _ => .error .typeError

/-- `int(v)` -/
def pyInt : PyVal F → Except PyErr Int
  | .int i => .ok i
  | .float x => PyFloat.toInt x
  | _ => .error .typeError

/-- `tuple(v)` -/
def pyTuple : PyVal F → Except PyErr (List (PyVal F))
  | .tuple vs => .ok vs
  | .list vs => .ok vs
  | _ => .error .typeError

end

/-- The classes of parameters. -/
inductive ParamClass where
  | originX | originY | originZ | loadX | loadY | loadZ | trail | deviation
  deriving DecidableEq, Repr

/-- The attribute name a class sets (origin.py 19, 32, 45, load.py 19, 32, 45, trail.py 18,
deviation.py 18). -/
def ParamClass.attrName : ParamClass → String
  | .originX => "x" | .originY => "y" | .originZ => "z"
  | .loadX => "qx" | .loadY => "qy" | .loadZ => "qz"
  | .trail => "length" | .deviation => "force"

/-- Whether the class derives from `EdgeParameter`; the other ones derive from
`NodeParameter`. -/
def ParamClass.onEdge : ParamClass → Bool
  | .trail | .deviation => true
  | _ => false

/-- parameter.py 17-22: a parameter object. -/
structure PyParam (F : Type) where
  cls : ParamClass
  key : PyVal F
  boundLow : PyVal F
  boundUp : PyVal F
  attrName : String

/-- The constructors: `cls(key, bound_low, bound_up)`. -/
def PyParam.make {F : Type} (cls : ParamClass) (key low up : PyVal F) : PyParam F :=
  ⟨cls, key, low, up, cls.attrName⟩

/-- A value in a data dictionary: a Python value, a text, or data of a COMPAS object. -/
inductive DataVal (F D : Type) where
  | val (v : PyVal F)
  | text (cs : List Char)
  | str (s : String)
  | obj (d : D)

namespace DataVal
variable {F D : Type}

/-- Use of a value where a number or `None` is expected; `float` and `int` of a text are not
modelled (the getters store none there). -/
def asVal : DataVal F D → Except PyErr (PyVal F)
  | .val v => .ok v
  | _ => .error .typeError

/-- Use of a value as the argument of `literal_eval`. -/
def asText : DataVal F D → Except PyErr (List Char)
  | .text cs => .ok cs
  | _ => .error .valueError

/-- `str(v)` of a string. -/
def asStr : DataVal F D → Except PyErr String
  | .str s => .ok s
  | _ => .error .typeError

end DataVal

section
variable {F D : Type} [PyFloat F]

/-- `float(bound)` unless it is `None` (node.py 72-76, edge.py 76-80). -/
def loadBound : PyVal F → Except PyErr (PyVal F)
  | .none => .ok .none
  | v => do .ok (.float (← pyFloat v))

namespace PyParam

/-- node.py 30-57, edge.py 32-61: `data`. -/
def data (p : PyParam F) : Dict String (DataVal F D) :=
  [("_key", if p.cls.onEdge then .text (reprVal p.key) else .val p.key),
   ("_bound_up", .val p.boundUp), ("_bound_low", .val p.boundLow),
   ("_attr_name", .str p.attrName)]

/-- node.py 59-76, edge.py 63-80: assigning `data`. -/
def setData (p : PyParam F) (d : Dict String (DataVal F D)) : Except PyErr (PyParam F) := do
  let key : PyVal F ←
    if p.cls.onEdge then do
      .ok (.tuple (← pyTuple (← literalEval (← (← d.getE "_key").asText))))
    else do .ok (.int (← pyInt (← (← d.getE "_key").asVal)))
  let name ← (← d.getE "_attr_name").asStr
  let up ← loadBound (← (← d.getE "_bound_up").asVal)
  let low ← loadBound (← (← d.getE "_bound_low").asVal)
  .ok { p with key := key, attrName := name, boundUp := up, boundLow := low }

/-- `cls.from_data(data)` -/
def fromData (cls : ParamClass) (d : Dict String (DataVal F D)) : Except PyErr (PyParam F) :=
  (make cls .none .none .none).setData d

end PyParam

/-- COMPAS objects with their data: `obj.to_data()`, `obj.dtype` and
`cls_from_dtype(dtype).from_data(data)`. -/
class GeoData (G D : Type) where
  toData : G → D
  dtype : G → String
  fromData : String → D → Except PyErr G

/-- The target of a constraint: a COMPAS object or another Python value. -/
inductive Target (F G : Type) where
  | obj (g : G)
  | plain (v : PyVal F)

/-- The classes of constraints, `onFloat` for the subclasses of `FloatConstraint`. -/
inductive ConClass where
  | point | plane | line | polyline | reaction | direction | trailForce | length
  deriving DecidableEq, Repr

/-- Whether the class derives from `FloatConstraint`; the other ones derive from
`VectorConstraint`. -/
def ConClass.onFloat : ConClass → Bool
  | .trailForce | .length => true
  | _ => false

/-- constraint.py 20-24: a constraint object. -/
structure PyCon (F G : Type) where
  cls : ConClass
  key : PyVal F
  target : Target F G
  weight : PyVal F

namespace PyCon
variable {G : Type} [GeoData G D]

/-- `repr(target)`; `repr` of a COMPAS object is no literal, it is not modelled further. -/
def reprTarget : Target F G → List Char
  | .plain v => reprVal v
  | .obj _ => ['?']

/-- constraint.py 58-80 and 167-187: `data`. -/
def data (c : PyCon F G) : Except PyErr (Dict String (DataVal F D)) :=
  if c.cls.onFloat then
    .ok [("key", .text (reprVal c.key)), ("target", .text (reprTarget c.target)),
      ("weight", .val c.weight)]
  else
    match c.target with
    | .obj g =>
      .ok [("key", .text (reprVal c.key)), ("weight", .val c.weight),
        ("target", .obj (GeoData.toData g)), ("target_dtype", .str (GeoData.dtype D g))]
    | .plain _ => .error .attributeError

/-- constraint.py 82-102 and 189-204: assigning `data`. -/
def setData (c : PyCon F G) (d : Dict String (DataVal F D)) : Except PyErr (PyCon F G) := do
  let key ← literalEval (← (← d.getE "key").asText)
  if c.cls.onFloat then
    let target ← literalEval (← (← d.getE "target").asText)
    let weight ← pyFloat (← (← d.getE "weight").asVal)
    .ok { c with key := key, target := .plain target, weight := .float weight }
  else
    let weight ← pyFloat (← (← d.getE "weight").asVal)
    let dtype ← (← d.getE "target_dtype").asStr
    match ← d.getE "target" with
    | .obj o =>
      let g ← GeoData.fromData dtype o
      .ok { c with key := key, target := .obj g, weight := .float weight }
    | _ => .error .typeError

/-- `cls.from_data(data)`: the default weight is overwritten. -/
def fromData (cls : ConClass) (d : Dict String (DataVal F D)) : Except PyErr (PyCon F G) :=
  PyCon.setData ⟨cls, .none, .plain .none, .int 1⟩ d

end PyCon
end
end CEM
