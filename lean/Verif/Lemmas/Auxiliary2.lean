import Verif.Lemmas.Auxiliary

/-! # Validity of the trails after auxiliary trails were added -/

set_option linter.unusedSectionVars false
set_option linter.unusedSimpArgs false

namespace CEM
namespace Diagram
open Spec
variable {R : Type} [Field R] [DecidableEq R] [PySqrt R]

theorem SearchInv.last_support {D : Diagram R} {done : List Int} {s : BuildState R}
    (I : SearchInv D done s) {key S : Int} {m : List Int}
    (hm : (key, key :: (m ++ [S])) ∈ s.trails) (hS : typeOf D S = some .support) :
    typeOf s.D S = some .support := by
  rw [I.typ, if_neg]
  · exact hS
  · intro hk
    obtain ⟨tr', h'⟩ := Dict.mem_keys_iff.1 hk
    have := nodup_flatMap_unique I.disj hm h' (x := S) (by simp) (I.good _ _ h').key_mem
    obtain ⟨rfl, rfl⟩ := Prod.mk.inj this
    have := (I.good _ _ hm).nodup
    simp at this

/-- Node `b` is the auxiliary node of `a`. -/
def Link (U : List Int) (k a b : Int) : Prop := ∃ (i : Nat) (h : i < U.length), a = U[i] ∧ b = k + i

theorem Link.mem {U : List Int} {k a b : Int} (h : Link U k a b) : a ∈ U := by
  obtain ⟨i, hi, rfl, _⟩ := h; exact List.getElem_mem hi

theorem Link.right_unique {U : List Int} (hU : U.Nodup) {k a b c : Int} (h : Link U k a b)
    (h' : Link U k a c) : b = c := by
  obtain ⟨i, hi, rfl, rfl⟩ := h
  obtain ⟨j, hj, e, rfl⟩ := h'
  have := (List.Nodup.getElem_inj_iff hU).1 e
  subst this; rfl

theorem Link.left_unique {U : List Int} {k a b c : Int} (h : Link U k a c)
    (h' : Link U k b c) : a = b := by
  obtain ⟨i, hi, rfl, rfl⟩ := h
  obtain ⟨j, hj, rfl, e⟩ := h'
  have : i = j := by omega
  subst this; rfl

theorem Link.lt {U : List Int} {k a b : Int} (h : Link U k a b) : k ≤ b := by
  obtain ⟨i, hi, rfl, rfl⟩ := h; omega

theorem exists_link {U : List Int} {k a : Int} (h : a ∈ U) : ∃ b, Link U k a b := by
  obtain ⟨i, hi, rfl⟩ := List.getElem_of_mem h
  exact ⟨k + i, i, hi, rfl, rfl⟩

section
variable {D E : Diagram R} {s : BuildState R} {U : List Int}

/-- `E` is `D` after the trail search `s`, extended by auxiliary trails at `U`. -/
structure Extended (D E : Diagram R) (s : BuildState R) (U : List Int) : Prop where
  nodes : E.nodes = s.D.nodes ++ auxNodes s.D U (D.maxNode + 1)
  edges : E.edges = D.edges ++ auxEdges D U (D.maxNode + 1)
  nodup : U.Nodup
  mem : ∀ n, n ∈ U ↔ n ∈ D.nodes.keys ∧ n ∉ s.inTrails

theorem Extended.old (h : Extended D E s U) (hb : SameBase D s.D) {n : Int}
    (hn : n ∈ D.nodes.keys) : E.nodes.get? n = s.D.nodes.get? n := by
  rw [← hb.keys] at hn
  obtain ⟨d, hd⟩ := (Dict.exists_get?_iff _ _).2 hn
  rw [h.nodes, Dict.get?_append, hd, Option.some_or]

theorem Extended.new (w : WF D) (h : Extended D E s U) (hb : SameBase D s.D) {a n : Int}
    (hl : Link U (D.maxNode + 1) a n) : E.nodes.get? n =
      some (auxNode (((s.D.nodes.get? a).map (·.pos)).getD 0 + s.D.auxOffset)) := by
  have hn : n ∉ s.D.nodes.keys := by
    rw [hb.keys]; intro hk; have := w.le_max n hk; have := hl.lt; omega
  rw [h.nodes, Dict.get?_append, (Dict.get?_eq_none_iff _ _).2 hn, Option.none_or]
  obtain ⟨i, hi, rfl, rfl⟩ := hl
  refine Dict.get?_of_mem ?_ (mem_auxNodes.2 ⟨i, hi, rfl, rfl⟩)
  rw [keys_auxNodes]
  refine List.Nodup.map ?_ List.nodup_range
  intro a b hab
  simpa using hab

theorem Extended.keys_cases (h : Extended D E s U) (hb : SameBase D s.D) {n : Int}
    (hn : n ∈ E.nodes.keys) : n ∈ D.nodes.keys ∨ ∃ a, Link U (D.maxNode + 1) a n := by
  rw [h.nodes, keys_append, List.mem_append, hb.keys] at hn
  refine hn.imp_right fun hk => ?_
  obtain ⟨d, hd⟩ := Dict.mem_keys_iff.1 hk
  obtain ⟨i, hi, rfl, _⟩ := mem_auxNodes.1 hd
  exact ⟨_, i, hi, rfl, rfl⟩

theorem Extended.isTrail (_w : WF D) (wE : WF E) (h : Extended D E s U) (a b : Int) :
    IsTrail E a b ↔ IsTrail D a b ∨ Link U (D.maxNode + 1) a b := by
  unfold IsTrail
  constructor
  · rintro ⟨d, hd, ht⟩
    rw [h.edges, Dict.get?_append] at hd
    cases hc : D.edges.get? (a, b) with
    | some d' => rw [hc, Option.some_or] at hd; exact Or.inl ⟨d', rfl, by simp at hd; rw [hd]; exact ht⟩
    | none =>
      rw [hc, Option.none_or] at hd
      obtain ⟨⟨i, hi, e⟩, _⟩ := mem_auxEdges.1 (Dict.mem_of_get? hd)
      exact Or.inr ⟨i, hi, by simpa using congrArg Prod.fst e, by simpa using congrArg Prod.snd e⟩
  · rintro (⟨d, hd, ht⟩ | ⟨i, hi, rfl, rfl⟩)
    · exact ⟨d, by rw [h.edges, Dict.get?_append, hd, Option.some_or], ht⟩
    · refine ⟨auxEdge D.auxLength, Dict.get?_of_mem wE.edgesNodup ?_, rfl⟩
      rw [h.edges]
      exact List.mem_append_right _ (mem_auxEdges.2 ⟨⟨i, hi, rfl⟩, rfl⟩)

theorem Extended.adj (w : WF D) (wE : WF E) (h : Extended D E s U) (a b : Int) :
    TrailAdj E a b ↔ TrailAdj D a b ∨ Link U (D.maxNode + 1) a b ∨ Link U (D.maxNode + 1) b a := by
  unfold TrailAdj
  rw [h.isTrail w wE, h.isTrail w wE]
  tauto

theorem Extended.edge_cases (h : Extended D E s U) {a b : Int} (he : (a, b) ∈ E.edges.keys) :
    (a, b) ∈ D.edges.keys ∨ Link U (D.maxNode + 1) a b := by
  rw [h.edges, keys_append, List.mem_append] at he
  refine he.imp_right fun hk => ?_
  obtain ⟨d, hd⟩ := Dict.mem_keys_iff.1 hk
  obtain ⟨⟨i, hi, e⟩, _⟩ := mem_auxEdges.1 hd
  exact ⟨i, hi, by simpa using congrArg Prod.fst e, by simpa using congrArg Prod.snd e⟩

variable (w : WF D) (wE : WF E) (g : Regular D) (I : SearchInv D D.nodes.keys s)
  (h : Extended D E s U) (hU : ∀ n ∈ U, ∀ x, ¬ TrailAdj D n x)
include w wE g I h hU

theorem Extended.typ_old {n : Int} (hn : n ∈ D.nodes.keys) : typeOf E n = typeOf s.D n := by
  unfold typeOf; rw [h.old I.base hn]

theorem Extended.support_D {n : Int} (hn : n ∈ D.nodes.keys) (ht : typeOf E n = some .support) :
    typeOf D n = some .support := by
  rw [Extended.typ_old w wE g I h hU hn, I.typ] at ht
  split_ifs at ht
  · simp at ht
  · exact ht

theorem Extended.regular : Regular E := by
  have hfresh : ∀ {a b : Int}, Link U (D.maxNode + 1) a b → b ∉ D.nodes.keys := by
    intro a b hl hk
    have := w.le_max b hk; have := hl.lt; omega
  have hold : ∀ {a b : Int}, Link U (D.maxNode + 1) a b → a ∈ D.nodes.keys :=
    fun hl => ((h.mem _).1 hl.mem).1
  refine ⟨⟨?_, ?_⟩, ?_, ?_⟩
  · intro n hn
    rcases h.edge_cases hn with hn | hn
    · exact g.noLoop n hn
    · exact hfresh hn (hold hn)
  · intro a b hab hba
    rcases h.edge_cases hab with h1 | h1 <;> rcases h.edge_cases hba with h2 | h2
    · exact g.noAnti a b h1 h2
    · exact hfresh h2 (w.edge_left _ h1)
    · exact hfresh h1 (w.edge_left _ h2)
    · exact hfresh h1 (hold h2)
  · intro n a b c ha hb hc
    rw [h.adj w wE] at ha hb hc
    by_cases hn : n ∈ D.nodes.keys
    · have hno : ∀ {x : Int}, ¬ Link U (D.maxNode + 1) x n := fun hl => hfresh hl hn
      by_cases hnU : n ∈ U
      · have hl : ∀ {x : Int}, (TrailAdj D n x ∨ Link U (D.maxNode + 1) n x ∨
            Link U (D.maxNode + 1) x n) → Link U (D.maxNode + 1) n x := by
          rintro x (hx | hx | hx)
          · exact absurd hx (hU n hnU x)
          · exact hx
          · exact absurd hx hno
        exact Or.inl ((hl ha).right_unique h.nodup (hl hb))
      · have hl : ∀ {x : Int}, (TrailAdj D n x ∨ Link U (D.maxNode + 1) n x ∨
            Link U (D.maxNode + 1) x n) → TrailAdj D n x := by
          rintro x (hx | hx | hx)
          · exact hx
          · exact absurd hx.mem hnU
          · exact absurd hx hno
        exact g.deg n a b c (hl ha) (hl hb) (hl hc)
    · have hl : ∀ {x : Int}, (TrailAdj D n x ∨ Link U (D.maxNode + 1) n x ∨
            Link U (D.maxNode + 1) x n) → Link U (D.maxNode + 1) x n := by
        rintro x (hx | hx | hx)
        · exact absurd (hx.mem_left w) hn
        · exact absurd (hold hx) hn
        · exact hx
      exact Or.inl ((hl ha).left_unique (hl hb))
  · intro n ht
    rcases h.keys_cases I.base (typeOf_isSome_mem ht) with hn | ⟨a, hl⟩
    · have hD := Extended.support_D w wE g I h hU hn ht
      obtain ⟨x, hx, hu⟩ := g.supportDeg n hD
      have hnU : n ∉ U := fun hm => ((h.mem n).1 hm).2 (I.cover n hn hD)
      refine ⟨x, (h.adj w wE _ _).2 (Or.inl hx), ?_⟩
      intro b hb
      rcases (h.adj w wE _ _).1 hb with hb | hb | hb
      · exact hu b hb
      · exact absurd hb.mem hnU
      · exact absurd hn (hfresh hb)
    · refine ⟨a, (h.adj w wE _ _).2 (Or.inr (Or.inr hl)), ?_⟩
      intro b hb
      rcases (h.adj w wE _ _).1 hb with hb | hb | hb
      · exact absurd (hb.mem_left w) (hfresh hl)
      · exact absurd (hold hb) (hfresh hl)
      · exact hb.left_unique hl

theorem Extended.success (hne : D.nodes.keys ≠ []) : E.buildTrails.2 = .ok () := by
  rw [success_iff wE (Extended.regular w wE g I h hU)]
  have haux : ∀ {a n}, Link U (D.maxNode + 1) a n → typeOf E n = some .support := by
    intro a n hl
    unfold typeOf
    rw [h.new w I.base hl]; rfl
  have hmono : ∀ {a b}, Relation.ReflTransGen (TrailAdj D) a b →
      Relation.ReflTransGen (TrailAdj E) a b := by
    intro a b
    exact Relation.ReflTransGen.mono (fun a b hab => (h.adj w wE a b).2 (Or.inl hab)) a b
  have hin : ∀ n ∈ D.nodes.keys, n ∉ U → ∃ key m S, (key, key :: (m ++ [S])) ∈ s.trails ∧
      n ∈ key :: (m ++ [S]) ∧ typeOf D S = some .support := by
    intro n hn hnU
    have : n ∈ s.inTrails := by
      by_contra hc; exact hnU ((h.mem n).2 ⟨hn, hc⟩)
    obtain ⟨⟨key, tr⟩, h1, h2⟩ := List.mem_flatMap.1 ((I.inT n).1 this)
    obtain ⟨m, S, rfl, hS⟩ := (I.good _ _ h1).shape
    exact ⟨key, m, S, h1, h2, hS⟩
  constructor
  · obtain ⟨n, hn⟩ := List.exists_mem_of_ne_nil _ hne
    by_cases hnU : n ∈ U
    · obtain ⟨b, hl⟩ := exists_link (k := D.maxNode + 1) hnU
      exact ⟨n, b, (h.isTrail w wE _ _).2 (Or.inr hl)⟩
    · obtain ⟨key, m, S, h1, h2, hS⟩ := hin n hn hnU
      obtain ⟨x, hx, _⟩ := g.supportDeg S hS
      rcases hx with hx | hx
      · exact ⟨_, _, (h.isTrail w wE _ _).2 (Or.inl hx)⟩
      · exact ⟨_, _, (h.isTrail w wE _ _).2 (Or.inl hx)⟩
  · intro n hn
    rcases h.keys_cases I.base hn with hn | ⟨a, hl⟩
    · by_cases hnU : n ∈ U
      · obtain ⟨b, hl⟩ := exists_link (k := D.maxNode + 1) hnU
        exact ⟨b, haux hl, .single ((h.adj w wE _ _).2 (Or.inr (Or.inr hl)))⟩
      · obtain ⟨key, m, S, h1, h2, hS⟩ := hin n hn hnU
        refine ⟨S, ?_, hmono (chain_reach (I.good _ _ h1).chain (by simp) h2)⟩
        rw [Extended.typ_old w wE g I h hU (typeOf_isSome_mem hS)]
        exact I.last_support h1 hS
    · exact ⟨n, haux hl, .refl⟩

/-- The stored auxiliary trail of an unassigned node. -/
theorem Extended.aux_trail (hne : D.nodes.keys ≠ []) {u a : Int}
    (hl : Link U (D.maxNode + 1) u a) : (u, [u, a]) ∈ E.buildTrails.1.trails := by
  have gE := Extended.regular w wE g I h hU
  obtain ⟨s', hs', hD', _, _, hu⟩ := buildTrails_ok (Extended.success w wE g I h hU hne)
  have J := SearchInv.search wE gE hs'
  rw [unassigned_length_eq, J.base.keys] at hu
  have haE : typeOf E a = some .support := by
    unfold typeOf
    rw [h.new w I.base hl]; rfl
  have hfresh : a ∉ D.nodes.keys := by
    intro hk; have := w.le_max a hk; have := hl.lt; omega
  have hold : u ∈ D.nodes.keys := ((h.mem _).1 hl.mem).1
  have huE : typeOf E u ≠ some .support := by
    intro ht
    have := Extended.support_D w wE g I h hU hold ht
    exact ((h.mem u).1 hl.mem).2 (I.cover u hold this)
  obtain ⟨⟨key, tr⟩, h1, h2⟩ := List.mem_flatMap.1 ((J.inT a).1 (hu a (typeOf_isSome_mem haE)))
  have G := J.good _ _ h1
  have hsub : ∀ y ∈ tr, y = u ∨ y = a := by
    refine closed_of_chain (C := fun y => y = u ∨ y = a) (r := TrailAdj E) (fun _ _ h => h.symm) ?_
      G.chain ⟨a, h2, Or.inr rfl⟩
    rintro x y (rfl | rfl) hxy
    · right
      rcases (h.adj w wE _ _).1 hxy with hb | hb | hb
      · exact absurd hb (hU x hl.mem y)
      · exact hb.right_unique h.nodup hl
      · exfalso
        have := w.le_max x hold; have := hb.lt; omega
    · left
      rcases (h.adj w wE _ _).1 hxy with hb | hb | hb
      · exact absurd (hb.mem_left w) hfresh
      · exact absurd ((h.mem _).1 hb.mem).1 hfresh
      · exact hb.left_unique hl
  obtain ⟨m, S, hsh, hS⟩ := G.shape
  have hnd := G.nodup
  subst hsh
  have hSa : S = a := by
    rcases hsub S (by simp) with e | e
    · subst e; exact absurd hS huE
    · exact e
  subst hSa
  have hku : key = u := by
    rcases hsub key (by simp) with e | e
    · exact e
    · subst e; simp at hnd
  subst hku
  have hm : m = [] := by
    rw [List.eq_nil_iff_forall_not_mem]
    intro y hy
    rcases hsub y (by simp [hy]) with e | e
    · subst e; simp [hy] at hnd
    · subst e
      rw [List.nodup_cons] at hnd
      have := (List.nodup_append.1 hnd.2).2.2 y hy y (by simp)
      exact this rfl
  subst hm
  rw [hD']
  exact h1

end
end Diagram
end CEM
