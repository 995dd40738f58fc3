import Verif.Model.Optimizer

/-!
# Specification of the optimizer's registry and of parameter updates

A history of calls, which parameters it leaves registered, and what may change when
parameters are written.  Nothing here refers to the dictionaries' implementation.
-/

namespace CEM.Spec
open CEM

/-- A call of `add_parameter` or `remove_parameter`. -/
inductive RegOp (P : Type) where
  | add (p : P)
  | remove (k : Int)
  deriving DecidableEq, Repr

variable {P R : Type}

/-- The parameters added, first one first. -/
def added : List (RegOp P) → List P
  | [] => []
  | .add p :: h => p :: added h
  | .remove _ :: h => added h

/-- Some call removed the parameter with number `k` after it had been added. -/
def Removed (h : List (RegOp P)) (k : Int) : Prop :=
  ∃ h1 h2, h = h1 ++ RegOp.remove k :: h2 ∧ 0 ≤ k ∧ k < (added h1).length

/-- The parameter number `k` is `p` and is still registered. -/
def Registered (h : List (RegOp P)) (k : Int) (p : P) : Prop :=
  0 ≤ k ∧ (added h)[k.toNat]? = some p ∧ ¬ Removed h k

/-- The calls of a history one after another; one that raises changes nothing. -/
def runOps (o : Optimizer R) : List (RegOp (Param R)) → Optimizer R
  | [] => o
  | .add p :: h => runOps (o.addParameter p) h
  | .remove k :: h =>
    match o.removeParameter k with
    | .ok o' => runOps o' h
    | .error _ => runOps o h

/-- The same for `add_constraint` and `remove_constraint`. -/
def runConstraintOps (o : Optimizer R) : List (RegOp (Constraint R)) → Optimizer R
  | [] => o
  | .add c :: h => runConstraintOps (o.addConstraint c) h
  | .remove k :: h =>
    match o.removeConstraint k with
    | .ok o' => runConstraintOps o' h
    | .error _ => runConstraintOps o h

/-- The two diagrams agree except for the numbers at the places in `S`. -/
structure SameExcept (S : Slot → Prop) (D D' : Diagram R) : Prop where
  nodeKeys : D'.nodes.keys = D.nodes.keys
  edgeKeys : D'.edges.keys = D.edges.keys
  node : ∀ n d d', D.nodes.get? n = some d → D'.nodes.get? n = some d' →
    d'.reaction = d.reaction ∧ d'.k = d.k ∧ d'.type = d.type ∧
    (¬ S (.node n .x) → d'.pos.x = d.pos.x) ∧ (¬ S (.node n .y) → d'.pos.y = d.pos.y) ∧
    (¬ S (.node n .z) → d'.pos.z = d.pos.z) ∧ (¬ S (.node n .qx) → d'.load.x = d.load.x) ∧
    (¬ S (.node n .qy) → d'.load.y = d.load.y) ∧ (¬ S (.node n .qz) → d'.load.z = d.load.z)
  edge : ∀ e d d', D.edges.get? e = some d → D'.edges.get? e = some d' →
    d'.type = d.type ∧ d'.plane = d.plane ∧
    (¬ S (.edge e .length) → d'.length = d.length) ∧ (¬ S (.edge e .force) → d'.force = d.force)
  rest : D'.maxNode = D.maxNode ∧ D'.gkeyNode = D.gkeyNode ∧ D'.trails = D.trails ∧
    D'.auxTrails = D.auxTrails ∧ D'.auxLength = D.auxLength ∧ D'.auxVector = D.auxVector

/-- The diagram has the node or the edge. -/
def HasSlot (D : Diagram R) : Slot → Prop
  | .node n _ => n ∈ D.nodes.keys
  | .edge e _ => e ∈ D.edges.keys

/-- The number at a place of the diagram, if the diagram has the place. -/
def HoldsAt (D : Diagram R) (s : Slot) (v : R) : Prop :=
  match s with
  | .node n .x => ∃ d, D.nodes.get? n = some d ∧ d.pos.x = v
  | .node n .y => ∃ d, D.nodes.get? n = some d ∧ d.pos.y = v
  | .node n .z => ∃ d, D.nodes.get? n = some d ∧ d.pos.z = v
  | .node n .qx => ∃ d, D.nodes.get? n = some d ∧ d.load.x = v
  | .node n .qy => ∃ d, D.nodes.get? n = some d ∧ d.load.y = v
  | .node n .qz => ∃ d, D.nodes.get? n = some d ∧ d.load.z = v
  | .edge e .length => ∃ d, D.edges.get? e = some d ∧ d.length = v
  | .edge e .force => ∃ d, D.edges.get? e = some d ∧ d.force = v

end CEM.Spec
