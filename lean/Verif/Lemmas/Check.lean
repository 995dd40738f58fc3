import Verif.Lemmas.Paths

/-!
# Checkable forms of the hypotheses

Used by the non-vacuity examples: the hypotheses of the theorems about trails
reduced to finite checks on a concrete diagram.
-/

set_option linter.unusedSectionVars false

namespace CEM
namespace Diagram
open Spec
variable {R : Type}

/-- The trail neighbours of a node. -/
def trailNbrs (D : Diagram R) (n : Int) : List Int := (D.neighbors n).filter (D.isTrailPair n)

theorem mem_trailNbrs {D : Diagram R} (g : SimpleGraph D) {n x : Int} :
    x ∈ D.trailNbrs n ↔ TrailAdj D n x := by
  unfold trailNbrs
  rw [List.mem_filter, isTrailPair_iff g]
  exact ⟨fun h => h.2, fun h => ⟨adj_mem_neighbors h, h⟩⟩

/-- Finite check for `SimpleGraph`. -/
def SimpleCheck (D : Diagram R) : Prop :=
  ∀ e ∈ D.edges.keys, e.1 ≠ e.2 ∧ (e.2, e.1) ∉ D.edges.keys

instance (D : Diagram R) : Decidable (SimpleCheck D) := by unfold SimpleCheck; infer_instance

theorem SimpleCheck.simple {D : Diagram R} (h : SimpleCheck D) : SimpleGraph D :=
  ⟨fun _ hn => (h _ hn).1 rfl, fun _ _ hab => (h _ hab).2⟩

/-- Finite check for `Regular`. -/
def RegularCheck (D : Diagram R) : Prop :=
  SimpleCheck D ∧ ∀ n ∈ D.nodes.keys, (D.trailNbrs n).length ≤ 2 ∧
    (typeOf D n = some .support → (D.trailNbrs n).length = 1)

instance (D : Diagram R) : Decidable (RegularCheck D) := by unfold RegularCheck; infer_instance

theorem RegularCheck.regular {D : Diagram R} (w : WF D) (h : RegularCheck D) : Regular D := by
  have g := h.1.simple
  refine ⟨g, ?_, ?_⟩
  · intro n a b c ha hb hc
    have hl := (h.2 n (ha.mem_left w)).1
    rw [← mem_trailNbrs g] at ha hb hc
    revert ha hb hc hl
    generalize D.trailNbrs n = l
    intro ha hb hc hl
    match l, hl with
    | [], _ => simp at ha
    | [x], _ => simp at ha hb; left; rw [ha, hb]
    | [x, y], _ =>
      simp at ha hb hc
      rcases ha with rfl | rfl <;> rcases hb with rfl | rfl <;> rcases hc with rfl | rfl <;> simp
    | x :: y :: z :: l, hl => simp at hl
  · intro n hn
    have hl := (h.2 n (typeOf_isSome_mem hn)).2 hn
    obtain ⟨x, hx⟩ := List.length_eq_one_iff.1 hl
    refine ⟨x, (mem_trailNbrs g).1 (by rw [hx]; simp), ?_⟩
    intro b hb
    rw [← mem_trailNbrs g, hx] at hb
    simpa using hb

theorem consecutive_iff_zip {l : List Int} {a b : Int} :
    Consecutive l a b ↔ (a, b) ∈ l.zip l.tail := by
  induction l with
  | nil => simp [Consecutive]
  | cons x l ih =>
    cases l with
    | nil =>
      simp only [List.tail_cons, List.zip_nil_right, List.not_mem_nil, iff_false]
      rintro ⟨p, s, h⟩
      have := congrArg List.length h
      simp at this
      omega
    | cons y l =>
      simp only [List.tail_cons, List.zip_cons_cons, List.mem_cons, Prod.mk.injEq]
      simp only [List.tail_cons] at ih
      rw [← ih]
      constructor
      · rintro ⟨p, s, h⟩
        cases p with
        | nil => simp at h; exact Or.inl ⟨h.1.symm, h.2.1.symm⟩
        | cons z p => simp at h; exact Or.inr ⟨p, s, h.2⟩
      · rintro (⟨rfl, rfl⟩ | ⟨p, s, h⟩)
        · exact ⟨[], l, rfl⟩
        · exact ⟨x :: p, s, by simp [h]⟩

/-- Finite check for `PathSystem`. -/
def PathCheck (D : Diagram R) (P : List (List Int)) : Prop :=
  SimpleCheck D ∧ P ≠ [] ∧ (∀ p ∈ P, 2 ≤ p.length) ∧ P.flatten.Perm D.nodes.keys ∧
  (∀ n ∈ D.nodes.keys, ∀ x ∈ D.trailNbrs n, ∃ p ∈ P, (n, x) ∈ p.zip p.tail ∨ (x, n) ∈ p.zip p.tail) ∧
  (∀ p ∈ P, ∀ e ∈ p.zip p.tail, e.2 ∈ D.trailNbrs e.1) ∧
  (∀ p ∈ P, ∀ n ∈ p, typeOf D n = some .support ↔ p.getLast? = some n)

instance (D : Diagram R) (P : List (List Int)) : Decidable (PathCheck D P) := by
  unfold PathCheck; infer_instance

theorem PathCheck.pathSystem {D : Diagram R} (w : WF D) {P : List (List Int)}
    (h : PathCheck D P) : PathSystem D P := by
  obtain ⟨h0, h1, h2, h3, h4, h5, h6⟩ := h
  have g := h0.simple
  refine ⟨g, h1, h2, h3, ?_, h6⟩
  intro a b
  constructor
  · intro hab
    obtain ⟨p, hp, hc⟩ := h4 a (hab.mem_left w) b ((mem_trailNbrs g).2 hab)
    exact ⟨p, hp, by simpa only [consecutive_iff_zip] using hc⟩
  · rintro ⟨p, hp, hc | hc⟩
    · exact (mem_trailNbrs g).1 (h5 p hp (a, b) (consecutive_iff_zip.1 hc))
    · exact ((mem_trailNbrs g).1 (h5 p hp (b, a) (consecutive_iff_zip.1 hc))).symm

end Diagram
end CEM
