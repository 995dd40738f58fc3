import Verif.Spec.Locality
import Verif.Spec.Statics
import Verif.Spec.Transform

/-!
# Symmetric problems and forms

A problem that is taken to itself by a motion, every node `n` to a node `f n`.  Nothing here refers to the way in which
a form is found.
-/

namespace CEM
namespace Spec
variable {R : Type} [Field R]

/-- The numbers of an edge that form finding is given are the same. -/
structure SameEdge (d d' : EdgeData R) : Prop where
  type : d'.type = d.type
  trail : d.type = .trail → d'.length = d.length ∧ d'.plane = d.plane
  deviation : d.type = .deviation → d'.force = d.force

/-- `E` is the problem `D` with every node `n` called `f n`.  Trails, nodes and edges may be stored in any order, and the
positions of all nodes but the first ones of the trails may be different. -/
structure ProblemUpToNames (f : Int → Int) (D E : Diagram R) : Prop where
  inj : ∀ a ∈ D.nodes.keys, ∀ b ∈ D.nodes.keys, f a = f b → a = b
  nodes : ∀ m, m ∈ E.nodes.keys ↔ ∃ n ∈ D.nodes.keys, f n = m
  load : ∀ n ∈ D.nodes.keys, loadAt E (f n) = loadAt D n
  sequence : ∀ n ∈ D.nodes.keys, seqOf E (f n) = seqOf D n
  origin : ∀ n tr, (n, tr) ∈ D.trails → posOf E (f n) = posOf D n
  trails : ∀ q, q ∈ E.trails ↔ ∃ p ∈ D.trails, q = (f p.1, p.2.map f)
  edge : ∀ e d, D.edges.get? e = some d → ∃ d', EdgeBetween E (f e.1) (f e.2) d' ∧ SameEdge d d'
  edges : ∀ e' ∈ E.edges.keys, ∃ e ∈ D.edges.keys, e' = (f e.1, f e.2) ∨ e' = (f e.2, f e.1)

/-- The form `G` is the form `F` with every node `n` called `f n`. -/
structure FormUpToNames (f : Int → Int) (F G : Diagram R) : Prop where
  nodes : ∀ m, m ∈ G.nodes.keys ↔ ∃ n ∈ F.nodes.keys, f n = m
  position : ∀ n ∈ F.nodes.keys, posOf G (f n) = posOf F n
  reaction : ∀ n ∈ F.nodes.keys, reactionAt G (f n) = reactionAt F n
  edge : ∀ e d, F.edges.get? e = some d → ∃ d', EdgeBetween G (f e.1) (f e.2) d' ∧ d'.type = d.type ∧
    d'.force = d.force ∧ d'.length = d.length

/-- Turned or reflected by `A` and then carried by `c`. -/
def carried (A : Vec R → Vec R) (c : Vec R) (D : Diagram R) : Diagram R := translate c (turn A D)

/-- The motion takes the problem to itself, every node `n` to the node `f n`. -/
def SymmetricProblem (A : Vec R → Vec R) (c : Vec R) (f : Int → Int) (D : Diagram R) : Prop :=
  ProblemUpToNames f (carried A c D) D

/-- The motion takes the form to itself, every node `n` to the node `f n`. -/
structure SymmetricForm (A : Vec R → Vec R) (c : Vec R) (f : Int → Int) (F : Diagram R) : Prop where
  position : ∀ n ∈ F.nodes.keys, posOf F (f n) = A (posOf F n) + c
  reaction : ∀ n ∈ F.nodes.keys, reactionAt F (f n) = A (reactionAt F n)
  edge : ∀ e d, F.edges.get? e = some d → ∃ d', EdgeBetween F (f e.1) (f e.2) d' ∧ d'.type = d.type ∧
    d'.force = d.force ∧ d'.length = d.length

end Spec
end CEM
