import Verif.Lemmas.Trails2

/-! # Path systems -/

set_option linter.unusedSectionVars false
set_option linter.unusedSimpArgs false

namespace CEM
namespace Diagram
open Spec
variable {R : Type}

theorem nodup_flatten_unique {P : List (List Int)} (h : P.flatten.Nodup) {p q : List Int}
    (hp : p ∈ P) (hq : q ∈ P) {x : Int} (hxp : x ∈ p) (hxq : x ∈ q) : p = q := by
  induction P with
  | nil => simp at hp
  | cons c t ih =>
    simp only [List.flatten_cons, List.nodup_append] at h
    obtain ⟨_, h2, h3⟩ := h
    rcases List.mem_cons.1 hp with rfl | hp' <;> rcases List.mem_cons.1 hq with rfl | hq'
    · rfl
    · exact absurd rfl (h3 x hxp x (List.mem_flatten.2 ⟨q, hq', hxq⟩))
    · exact absurd rfl (h3 x hxq x (List.mem_flatten.2 ⟨p, hp', hxp⟩))
    · exact ih h2 hp' hq'

theorem _root_.CEM.Spec.Consecutive.right_unique {l : List Int} (hn : l.Nodup) {a b c : Int}
    (h : Consecutive l a b) (h' : Consecutive l a c) : b = c := by
  obtain ⟨p, s, hp⟩ := h
  obtain ⟨p', s', hp'⟩ := h'
  have := (split_unique hn hp hp').2
  simpa using (List.cons.inj this).1

theorem _root_.CEM.Spec.Consecutive.left_unique {l : List Int} (hn : l.Nodup) {a b c : Int}
    (h : Consecutive l b a) (h' : Consecutive l c a) : b = c := by
  obtain ⟨p, s, hp⟩ := h
  obtain ⟨p', s', hp'⟩ := h'
  have h1 : l = (p ++ [b]) ++ a :: s := by simp [hp]
  have h2 : l = (p' ++ [c]) ++ a :: s' := by simp [hp']
  have := (split_unique hn h1 h2).1
  simpa using (List.append_inj' this rfl).2

variable {D : Diagram R} {P : List (List Int)}

theorem _root_.CEM.Spec.PathSystem.flat_nodup (w : WF D) (h : PathSystem D P) : P.flatten.Nodup :=
  h.cover.nodup_iff.2 w.nodesNodup

theorem _root_.CEM.Spec.PathSystem.path_nodup (w : WF D) (h : PathSystem D P) {p : List Int}
    (hp : p ∈ P) : p.Nodup := (List.nodup_flatten.1 (h.flat_nodup w)).1 p hp

theorem _root_.CEM.Spec.PathSystem.complete (w : WF D) (h : PathSystem D P) {p : List Int}
    (hp : p ∈ P) : ∀ a ∈ p, ∀ b, TrailAdj D a b → Consecutive p a b ∨ Consecutive p b a := by
  intro a ha b hab
  obtain ⟨q, hq, hc⟩ := (h.adj a b).1 hab
  have : a ∈ q := by rcases hc with hc | hc; exacts [hc.mem_left, hc.mem_right]
  rw [nodup_flatten_unique (h.flat_nodup w) hp hq ha this]
  exact hc

theorem _root_.CEM.Spec.PathSystem.chain (h : PathSystem D P) {p : List Int}
    (hp : p ∈ P) : p.IsChain (TrailAdj D) := by
  rw [isChain_iff_consecutive]
  intro a b hab
  exact (h.adj a b).2 ⟨p, hp, Or.inl hab⟩

theorem _root_.CEM.Spec.PathSystem.mem_path (h : PathSystem D P) {n : Int}
    (hn : n ∈ D.nodes.keys) : ∃ p ∈ P, n ∈ p :=
  List.mem_flatten.1 (h.cover.mem_iff.2 hn)

/-- A path ends in `x, S` with a support `S`. -/
theorem _root_.CEM.Spec.PathSystem.ends (h : PathSystem D P) {p : List Int} (hp : p ∈ P) :
    ∃ q x S, p = q ++ [x, S] ∧ typeOf D S = some .support := by
  have h2 := h.two p hp
  rcases List.eq_nil_or_concat p with rfl | ⟨q, S, rfl⟩
  · simp at h2
  · rcases List.eq_nil_or_concat q with rfl | ⟨q', x, rfl⟩
    · simp at h2
    · refine ⟨q', x, S, by simp, ?_⟩
      exact (h.support _ hp S (by simp)).2 (by simp)

theorem _root_.CEM.Spec.PathSystem.regular (w : WF D) (h : PathSystem D P) : Regular D := by
  refine ⟨h.toSimpleGraph, ?_, ?_⟩
  · intro n a b c ha hb hc
    obtain ⟨p, hp, hn⟩ := h.mem_path (ha.mem_left w)
    have hnd := h.path_nodup w hp
    rcases h.complete w hp n hn a ha with h1 | h1 <;>
    rcases h.complete w hp n hn b hb with h2 | h2 <;>
    rcases h.complete w hp n hn c hc with h3 | h3
    · exact Or.inl (h1.right_unique hnd h2)
    · exact Or.inl (h1.right_unique hnd h2)
    · exact Or.inr (Or.inr (h1.right_unique hnd h3))
    · exact Or.inr (Or.inl (h2.left_unique hnd h3))
    · exact Or.inr (Or.inl (h2.right_unique hnd h3))
    · exact Or.inr (Or.inr (h1.left_unique hnd h3))
    · exact Or.inl (h1.left_unique hnd h2)
    · exact Or.inl (h1.left_unique hnd h2)
  · intro n hn
    obtain ⟨p, hp, hnp⟩ := h.mem_path (typeOf_isSome_mem hn)
    have hnd := h.path_nodup w hp
    have hl := (h.support p hp n hnp).1 hn
    obtain ⟨q, x, S, rfl, hS⟩ := h.ends hp
    simp at hl
    subst hl
    have hx : Consecutive (q ++ [x, S]) x S := ⟨q, [], rfl⟩
    refine ⟨x, (h.adj _ _).2 ⟨_, hp, Or.inr hx⟩, ?_⟩
    intro b hb
    rcases h.complete w hp S hnp b hb with h1 | h1
    · exfalso
      obtain ⟨p', s', h1⟩ := h1
      have h2 : q ++ [x, S] = (q ++ [x]) ++ S :: [] := by simp
      have := (split_unique hnd h2 h1).2
      simp at this
    · exact h1.left_unique hnd hx

theorem _root_.CEM.Spec.PathSystem.success (w : WF D) (h : PathSystem D P) :
    D.buildTrails.2 = .ok () := by
  rw [success_iff w (h.regular w)]
  constructor
  · obtain ⟨p, hp⟩ := List.exists_mem_of_ne_nil P h.nonempty
    obtain ⟨q, x, S, rfl, hS⟩ := h.ends hp
    rcases (h.adj x S).2 ⟨_, hp, Or.inl ⟨q, [], rfl⟩⟩ with h | h
    · exact ⟨_, _, h⟩
    · exact ⟨_, _, h⟩
  · intro n hn
    obtain ⟨p, hp, hnp⟩ := h.mem_path hn
    obtain ⟨q, x, S, rfl, hS⟩ := h.ends hp
    exact ⟨S, hS, chain_reach (h.chain hp) (by simp) hnp⟩

theorem _root_.CEM.Spec.PathSystem.trails (w : WF D) (h : PathSystem D P) (key : Int)
    (tr : List Int) :
    (key, tr) ∈ D.buildTrails.1.trails ↔ tr ∈ P ∧ tr.head? = some key := by
  obtain ⟨s, hs, hD, _, _, hu⟩ := buildTrails_ok (h.success w)
  have g := h.regular w
  have I := SearchInv.search w g hs
  rw [unassigned_length_eq, I.base.keys] at hu
  have hfwd : ∀ key tr, (key, tr) ∈ s.trails → tr ∈ P ∧ tr.head? = some key := by
    intro key tr hm
    have G := I.good _ _ hm
    obtain ⟨m, S, hsh, hS⟩ := G.shape
    obtain ⟨p, hp, hSp⟩ := h.mem_path (typeOf_isSome_mem hS)
    have hl := (h.support p hp S hSp).1 hS
    obtain ⟨q, x, S', rfl, hS'⟩ := h.ends hp
    simp at hl
    subst hl
    have : tr = q ++ [x, S'] := by
      refine path_unique (r := TrailAdj D) (fun _ _ h => h.symm) G.nodup (h.path_nodup w hp) G.chain
        (h.chain hp) G.complete (h.complete w hp) (key :: m) (q ++ [x]) [] S' ?_ ?_
      · simp [hsh]
      · simp
    exact ⟨this ▸ hp, by rw [hsh]; rfl⟩
  rw [hD]
  refine ⟨fun hm => hfwd key tr hm, ?_⟩
  rintro ⟨hP, hk⟩
  obtain ⟨q, x, S, rfl, hS⟩ := h.ends hP
  have hSm := (I.inT S).1 (hu S (typeOf_isSome_mem hS))
  obtain ⟨⟨key', tr'⟩, h1, h2⟩ := List.mem_flatMap.1 hSm
  obtain ⟨h3, h4⟩ := hfwd _ _ h1
  have : tr' = q ++ [x, S] := nodup_flatten_unique (h.flat_nodup w) h3 hP h2 (by simp)
  subst this
  rw [h4] at hk
  obtain rfl := Option.some.inj hk
  exact h1

end Diagram
end CEM
