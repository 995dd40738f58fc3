import Verif.Spec.Solve
import Verif.Spec.Transform

/-!
# Optimization problems in other coordinates and units

What a user does who describes the same problem in another coordinate system or in other units:
parameters, bounds, targets and weights are rewritten, and a numerical solver is given the
rewritten numbers.
-/

namespace CEM.Spec
open CEM

variable {R : Type}

/-! ## Numbers that belong to parameters -/

/-- Which parameter an entry of a vector belongs to. -/
def slotsOf (parameters : Dict Int (Param R)) (i : Nat) : Option Slot :=
  (parameters.get? (i : Int)).map (·.slot)

/-- Rewrite the entries of a vector, each according to the place that it is a value for. -/
def along {α : Type} (g : Slot → α → α) (slots : Nat → Option Slot) (x : List α) : List α :=
  x.mapIdx fun i v => match slots i with
    | some s => g s v
    | none => v

/-- A shift by `v` adds the coordinates of `v` to origin parameters. -/
def shiftSlot [Add R] (v : Vec R) : Slot → R → R
  | .node _ .x, a => a + v.x
  | .node _ .y, a => a + v.y
  | .node _ .z, a => a + v.z
  | _, a => a

/-- The place holds a force: a component of a load, or the force in an edge. -/
def IsForce : Slot → Bool
  | .node _ .qx | .node _ .qy | .node _ .qz | .edge _ .force => true
  | _ => false

/-- Multiply forces by `c`. -/
def forceSlot [Mul R] (c : R) (s : Slot) (a : R) : R := if IsForce s then c * a else a

/-- Multiply everything that is not a force by `c`. -/
def lengthSlot [Mul R] (c : R) (s : Slot) (a : R) : R := if IsForce s then a else c * a

/-- The derivative with respect to a force is divided by `c`. -/
def forceRate [Div R] (c : R) (s : Slot) (a : R) : R := if IsForce s then a / c else a

/-- The derivative with respect to anything else is divided by `c`. -/
def lengthRate [Div R] (c : R) (s : Slot) (a : R) : R := if IsForce s then a else a / c

/-! ## States of the numpy solver -/

/-- Positions by `p`, force vectors by `r`, directions by `u`, trail forces by `f`; NaN stays. -/
def rewriteState (p r u : Vec R → Vec R) (f : R → R) (s : NState R) : NState R where
  xyz := s.xyz.map fun q => (q.1, q.2.map p)
  residual := s.residual.map fun q => (q.1, q.2.map r)
  trailForces := s.trailForces.map fun q => (q.1, q.2.map f)
  trailDirs := s.trailDirs.map fun q => (q.1, q.2.map u)
  reactions := s.reactions.map fun q => (q.1, q.2.map r)

/-! ## Constraints -/

section
variable [Field R]

/-- The constraint moved by `v`. -/
def moveConstraint (v : Vec R) : Constraint R → Constraint R
  | .point n t w => .point n (t + v) w
  | .plane n t w => .plane n (t.1 + v, t.2) w
  | .line n t w => .line n (t.1 + v, t.2 + v) w
  | .polyline n t w => .polyline n (t.map (· + v)) w
  | c => c

/-- The constraint turned by `A`. -/
def turnConstraint (A : Vec R → Vec R) : Constraint R → Constraint R
  | .point n t w => .point n (A t) w
  | .plane n t w => .plane n (A t.1, A t.2) w
  | .line n t w => .line n (A t.1, A t.2) w
  | .polyline n t w => .polyline n (t.map A) w
  | .reaction n t w => .reaction n (A t) w
  | .direction e t w => .direction e (A t) w
  | c => c

/-- The constraint with forces multiplied by `c`; the weight makes up for the square. -/
def forceConstraint (c : R) : Constraint R → Constraint R
  | .trailForce e t w => .trailForce e (c * t) (w / (c * c))
  | .reaction n t w => .reaction n (c • t) (w / (c * c))
  | con => con

/-- The constraint enlarged by `c`; the weight makes up for the square. -/
def lengthConstraint (c : R) : Constraint R → Constraint R
  | .point n t w => .point n (c • t) (w / (c * c))
  | .plane n t w => .plane n (c • t.1, t.2) (w / (c * c))
  | .line n t w => .line n (c • t.1, c • t.2) (w / (c * c))
  | .polyline n t w => .polyline n (t.map (c • ·)) (w / (c * c))
  | .length e t w => .length e (c * t) (w / (c * c))
  | con => con

end

/-! ## Optimizers and runs -/

/-- The optimizer with the widths of the bounds rewritten by `b` and the constraints by `c`. -/
def rewriteOptimizer (b : Slot → R → R) (c : Constraint R → Constraint R) (o : Optimizer R) : Optimizer R :=
  { o with
    parameters := o.parameters.map fun q =>
      (q.1, ⟨q.2.slot, q.2.low.map (b q.2.slot), q.2.up.map (b q.2.slot)⟩)
    constraints := o.constraints.map fun q => (q.1, c q.2) }

/-- The optimizer with the constraints rewritten by `c`. -/
def reconstrain (c : Constraint R → Constraint R) (o : Optimizer R) : Optimizer R :=
  { o with constraints := o.constraints.map fun q => (q.1, c q.2) }

/-- The problem with bounds and start vector rewritten. -/
def rewriteProblem (g : Slot → R → R) (slots : Nat → Option Slot) (P : Problem R) : Problem R :=
  { P with
    bounds := along (fun s q => (q.1.map (g s), q.2.map (g s))) slots P.bounds
    start := along g slots P.start }

/-- The second run makes the choices of the first one, in other coordinates: points are related
by `m`, gradients by `md`, values are the same. -/
inductive SameChoices (m : List R → List R) (md : List (Num R) → List (Num R)) : Run R → Run R → Prop where
  | eval (x : List R) (grad : Bool) (next next' : Num R → List (Num R) → Run R) :
    (∀ v dv, SameChoices m md (next v dv) (next' v (md dv))) →
    SameChoices m md (.eval x grad next) (.eval (m x) grad next')
  | done (x : List R) (v : Num R) (n : Nat) (c : Int) : SameChoices m md (.done x v n c) (.done (m x) v n c)
  | roundoff (v : Num R) (n : Nat) (c : Int) : SameChoices m md (.roundoff v n c) (.roundoff v n c)
  | raised (err : PyErr) : SameChoices m md (.raised err) (.raised err)

/-- How `optimize` ended, in other coordinates. -/
def rewriteEnded (m : List R → List R) : Ended R → Ended R
  | .done x v n c => .done (m x) v n c
  | .roundoff v n c => .roundoff v n c
  | .raised err => .raised err

/-- The attributes, in other coordinates. -/
def rewriteAttrs (m : List R → List R) (md : List (Num R) → List (Num R)) (a : Attrs R) : Attrs R :=
  ⟨a.xOpt.map m, a.penalty, a.evals, a.status, a.gradient.map md⟩

/-- What `solve` leaves behind, in other coordinates: diagrams are related by `T`. -/
def rewriteSolved (T : Diagram R → Diagram R) (m : List R → List R) (md : List (Num R) → List (Num R))
    (s : Solved R) : Solved R :=
  ⟨T s.topology, rewriteAttrs m md s.attrs, s.points.map m, s.ended.map (rewriteEnded m), s.form.map T⟩

end CEM.Spec
