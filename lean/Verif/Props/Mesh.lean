import Verif.Spec.Mesh
import Verif.Lemmas.Construction
import Verif.Props.Construction
import Verif.Lemmas.VecReal
import Verif.Model.Equilibrium

/-!
# Topology diagrams from meshes (C46)
-/

namespace CEM
namespace Props
open Diagram Spec

set_option linter.unusedSimpArgs false
set_option linter.unusedSectionVars false

/-! ## One polyedge -/

theorem pairwise_eq_hops (p : List Int) : pairwise p = hops p := by
  induction p with
  | nil => rfl
  | cons u l ih =>
    cases l with
    | nil => rfl
    | cons v l =>
      rw [hops, ← ih]
      rfl

theorem hops_append (a b : List Int) (u v : Int) :
    hops (a ++ [u] ++ v :: b) = hops (a ++ [u]) ++ (u, v) :: hops (v :: b) := by
  induction a with
  | nil => rfl
  | cons w a ih =>
    cases a with
    | nil => rfl
    | cons x a =>
      simp only [List.cons_append, hops] at ih ⊢
      rw [ih]

/-- A list cut before position `n + 1`, where it has an element. -/
theorem cut {p : List Int} {n : Nat} (h : n + 1 < p.length) :
    ∃ a u v b, p = a ++ [u] ++ v :: b ∧ a.length = n ∧ (p.drop n).take 2 = [u, v] ∧
      p.take (n + 1) = a ++ [u] ∧ p.drop (n + 1) = v :: b := by
  refine ⟨p.take n, p[n], p[n + 1], p.drop (n + 2), ?_, ?_, ?_, ?_, ?_⟩
  · rw [List.take_append_getElem, List.cons_getElem_drop_succ, List.take_append_drop]
  · rw [List.length_take]; omega
  · rw [List.drop_eq_getElem_cons (by omega), List.take_succ_cons,
      List.drop_eq_getElem_cons (by omega), List.take_succ_cons, List.take_zero]
  · rw [List.take_append_getElem]
  · rw [List.drop_eq_getElem_cons (by omega)]

/-- What the code does with a polyedge, by cases. -/
theorem split_cases (supports p : List Int) (hp : p ≠ []) :
    ∃ dev trail, splitPolyedge supports p = .ok (dev, trail) ∧
      ((AlongSupports supports p ∧ dev = [] ∧ trail = []) ∨
       (¬ AlongSupports supports p ∧
        (((p.head? = p.getLast? ∨ ∀ s ∈ supports, p.head? ≠ some s ∧ p.getLast? ≠ some s) ∧
            dev = hops p ∧ trail = []) ∨
         (p.head? ≠ p.getLast? ∧
            ¬ ((∃ s ∈ supports, p.head? = some s) ↔ ∃ s ∈ supports, p.getLast? = some s) ∧
            dev = [] ∧ trail = hops p) ∨
         (p.head? ≠ p.getLast? ∧ (∃ s ∈ supports, p.head? = some s) ∧
            (∃ s ∈ supports, p.getLast? = some s) ∧
            ∃ a u v b, p = a ++ [u] ++ v :: b ∧ a.length + 1 = p.length / 2 ∧ 3 ≤ p.length ∧
              dev = [(u, v)] ∧ trail = hops (a ++ [u]) ++ hops (v :: b))))) := by
  obtain ⟨start, l, rfl⟩ := List.exists_cons_of_ne_nil hp
  obtain ⟨last, hlast⟩ : ∃ last, (start :: l).getLast? = some last :=
    ⟨_, List.getLast?_eq_some_getLast hp⟩
  have hhead : (start :: l).head? = some start := rfl
  unfold splitPolyedge
  rw [hhead, hlast]
  simp only [pairwise_eq_hops]
  by_cases h1 : start = last
  · rw [if_pos h1]
    refine ⟨_, _, rfl, Or.inr ⟨?_, Or.inl ⟨Or.inl (by rw [h1]), rfl, rfl⟩⟩⟩
    rintro ⟨s, t, l', hpl, _, _, e, he, _, hse⟩
    rw [hlast] at he
    simp only [List.cons.injEq] at hpl
    injection he with he
    exact hse (by rw [← hpl.1, ← he, h1])
  rw [if_neg h1]
  by_cases h2 : start ∉ supports ∧ last ∉ supports
  · rw [if_pos h2]
    refine ⟨_, _, rfl, Or.inr ⟨?_, Or.inl ⟨Or.inr ?_, rfl, rfl⟩⟩⟩
    · rintro ⟨s, t, l', hpl, hs, _⟩
      simp only [List.cons.injEq] at hpl
      exact h2.1 (by rw [hpl.1]; exact hs)
    · intro s hs
      constructor
      · intro h; injection h with h; exact h2.1 (h ▸ hs)
      · intro h; injection h with h; exact h2.2 (h ▸ hs)
  rw [if_neg h2]
  by_cases h3 : start ∈ supports ∧ last ∈ supports
  · rw [if_pos h3]
    cases l with
    | nil => simp at hlast; exact absurd hlast h1
    | cons second l =>
      simp only [List.getElem?_cons_succ, List.getElem?_cons_zero]
      by_cases h4 : second ∈ supports
      · simp only [if_pos h4]
        exact ⟨_, _, rfl, Or.inl ⟨⟨start, second, l, rfl, h3.1, h4, last, hlast, h3.2, h1⟩, rfl, rfl⟩⟩
      · simp only [if_neg h4]
        have hlen : 3 ≤ (start :: second :: l).length := by
          cases l with
          | nil => simp at hlast; rw [hlast] at h4; exact absurd h3.2 h4
          | cons _ _ => simp
        obtain ⟨a, u, v, b, hcut, ha, h5, h6, h7⟩ :=
          cut (p := start :: second :: l) (n := (start :: second :: l).length / 2 - 1) (by omega)
        rw [h5, h6, h7]
        refine ⟨_, _, rfl, Or.inr ⟨?_, Or.inr (Or.inr ⟨?_, ⟨start, h3.1, rfl⟩, ⟨last, h3.2, rfl⟩,
          a, u, v, b, hcut, by omega, hlen, rfl, rfl⟩)⟩⟩
        · rintro ⟨s, t, l', hpl, _, ht, _⟩
          simp only [List.cons.injEq] at hpl
          exact h4 (by rw [hpl.2.1]; exact ht)
        · intro h; injection h with h; exact h1 h
  · rw [if_neg h3]
    refine ⟨_, _, rfl, Or.inr ⟨?_, Or.inr (Or.inl ⟨?_, ?_, rfl, rfl⟩)⟩⟩
    · rintro ⟨s, t, l', hpl, hs, _, e, he, hes, _⟩
      simp only [List.cons.injEq] at hpl
      rw [hlast] at he
      injection he with he
      exact h3 ⟨by rw [hpl.1]; exact hs, by rw [he]; exact hes⟩
    · intro h; injection h with h; exact h1 h
    · intro hiff
      have e1 : (∃ s ∈ supports, some start = some s) ↔ start ∈ supports :=
        ⟨by rintro ⟨s, hs, h⟩; injection h with h; rw [h]; exact hs, fun h => ⟨_, h, rfl⟩⟩
      have e2 : (∃ s ∈ supports, some last = some s) ↔ last ∈ supports :=
        ⟨by rintro ⟨s, hs, h⟩; injection h with h; rw [h]; exact hs, fun h => ⟨_, h, rfl⟩⟩
      rw [e1, e2] at hiff
      by_cases hs : start ∈ supports
      · exact h3 ⟨hs, hiff.1 hs⟩
      · exact h2 ⟨hs, fun h => hs (hiff.2 h)⟩

/-- C46: every edge along a polyedge becomes exactly one edge of exactly one kind, except along
the polyedges that are dropped. -/
theorem C46_partition (supports p : List Int) (hp : p ≠ []) :
    ∃ dev trail, splitPolyedge supports p = .ok (dev, trail) ∧
      (AlongSupports supports p → dev = [] ∧ trail = []) ∧
      (¬ AlongSupports supports p → (dev ++ trail).Perm (hops p)) := by
  obtain ⟨dev, trail, h, hc⟩ := split_cases supports p hp
  refine ⟨dev, trail, h, ?_, ?_⟩
  · rintro ha
    rcases hc with ⟨_, h⟩ | ⟨hn, _⟩
    · exact h
    · exact absurd ha hn
  · intro hn
    rcases hc with ⟨ha, _⟩ | ⟨_, ⟨_, rfl, rfl⟩ | ⟨_, _, rfl, rfl⟩ | ⟨_, _, _, a, u, v, b, rfl, _, _, rfl, rfl⟩⟩
    · exact absurd ha hn
    · rw [List.append_nil]
    · rw [List.nil_append]
    · rw [hops_append]
      simp only [List.singleton_append]
      exact List.perm_middle.symm

example : splitPolyedge [0, 5] [0, 1, 2, 3, 4, 5] = .ok ([(2, 3)], [(0, 1), (1, 2), (3, 4), (4, 5)]) ∧
    splitPolyedge [0] [0, 1, 2] = .ok ([], [(0, 1), (1, 2)]) ∧
    splitPolyedge [7] [0, 1, 2] = .ok ([(0, 1), (1, 2)], []) ∧
    splitPolyedge [0, 1, 2] [0, 1, 2] = .ok ([], []) := by decide

/-- C46: which kind the edges have: deviation edges along closed polyedges and polyedges without
supports at their ends, trail edges along polyedges with one support. -/
theorem C46_kinds (supports p : List Int) (hp : p ≠ []) :
    ((p.head? = p.getLast? ∨ ∀ s ∈ supports, p.head? ≠ some s ∧ p.getLast? ≠ some s) →
      splitPolyedge supports p = .ok (hops p, [])) ∧
    (p.head? ≠ p.getLast? →
      ¬ ((∃ s ∈ supports, p.head? = some s) ↔ ∃ s ∈ supports, p.getLast? = some s) →
      splitPolyedge supports p = .ok ([], hops p)) := by
  obtain ⟨dev, trail, h, hc⟩ := split_cases supports p hp
  constructor
  · intro hd
    rcases hc with ⟨⟨s, t, l, rfl, hs, _, e, he, hes, hse⟩, rfl, rfl⟩ |
      ⟨_, ⟨_, rfl, rfl⟩ | ⟨h1, h2, rfl, rfl⟩ | ⟨h1, ⟨s, hs, h2⟩, h3, _⟩⟩
    · exfalso
      rcases hd with hd | hd
      · rw [he] at hd; injection hd with hd; exact hse hd
      · exact (hd s hs).1 rfl
    · exact h
    · exfalso
      rcases hd with hd | hd
      · exact h1 hd
      · refine h2 ⟨?_, ?_⟩ <;> rintro ⟨s, hs, h⟩
        · exact absurd h (hd s hs).1
        · exact absurd h (hd s hs).2
    · exfalso
      rcases hd with hd | hd
      · exact h1 hd
      · exact (hd s hs).1 h2
  · intro hne hx
    rcases hc with ⟨⟨s, t, l, rfl, hs, _, e, he, hes, hse⟩, rfl, rfl⟩ |
      ⟨_, ⟨hd, rfl, rfl⟩ | ⟨h1, h2, rfl, rfl⟩ | ⟨h1, h2, h3, _⟩⟩
    · exact absurd ⟨fun _ => ⟨e, hes, he⟩, fun _ => ⟨s, hs, rfl⟩⟩ hx
    · exfalso
      rcases hd with hd | hd
      · exact hne hd
      · refine hx ⟨?_, ?_⟩ <;> rintro ⟨s, hs, h⟩
        · exact absurd h (hd s hs).1
        · exact absurd h (hd s hs).2
    · exact h
    · exact absurd ⟨fun _ => h3, fun _ => h2⟩ hx

/-- C46 as stated for polyedges between two supports that are not dropped: one deviation edge
joins two trails, each of at least one edge, that end at the supports. -/
def C46_two_claim : Prop :=
  ∀ supports p : List Int, (∃ s ∈ supports, p.head? = some s) →
    (∃ s ∈ supports, p.getLast? = some s) → p.head? ≠ p.getLast? → ¬ AlongSupports supports p →
    ∃ a u v b, p = a ++ [u] ++ v :: b ∧ hops (a ++ [u]) ≠ [] ∧ hops (v :: b) ≠ [] ∧
      splitPolyedge supports p = .ok ([(u, v)], hops (a ++ [u]) ++ hops (v :: b))

/-- C46: a polyedge between two supports that is not dropped gives one deviation edge, next to its
middle, and the two trails beside it; with four or more vertices both trails have edges.  Missing
in comparison with `C46_two_claim`: with three vertices the first support has no trail edge. -/
theorem C46_two_supports_partial (supports p : List Int) (h1 : ∃ s ∈ supports, p.head? = some s)
    (h2 : ∃ s ∈ supports, p.getLast? = some s) (h3 : p.head? ≠ p.getLast?)
    (h4 : ¬ AlongSupports supports p) :
    ∃ a u v b, p = a ++ [u] ++ v :: b ∧ a.length + 1 = p.length / 2 ∧
      splitPolyedge supports p = .ok ([(u, v)], hops (a ++ [u]) ++ hops (v :: b)) ∧
      hops (v :: b) ≠ [] ∧ (4 ≤ p.length → hops (a ++ [u]) ≠ []) ∧
      (p.length = 3 → a = []) := by
  have hp : p ≠ [] := by rintro rfl; exact h3 rfl
  obtain ⟨dev, trail, h, hc⟩ := split_cases supports p hp
  rcases hc with ⟨ha, _⟩ | ⟨_, ⟨hd, _⟩ | ⟨_, hx, _⟩ | ⟨_, _, _, a, u, v, b, hp', hl, h3', rfl, rfl⟩⟩
  · exact absurd ha h4
  · exfalso
    rcases hd with hd | hd
    · exact h3 hd
    · obtain ⟨s, hs, e⟩ := h1; exact (hd s hs).1 e
  · exact absurd ⟨fun _ => h2, fun _ => h1⟩ hx
  · have hlen : p.length = a.length + 1 + (b.length + 1) := by rw [hp']; simp; omega
    refine ⟨a, u, v, b, hp', hl, h, ?_, ?_, ?_⟩
    · cases b with
      | nil => exfalso; simp at hlen; omega
      | cons w b => simp [hops]
    · intro h5
      cases a with
      | nil => exfalso; simp at hl; omega
      | cons w a => cases a <;> simp [hops]
    · intro h5
      cases a with
      | nil => rfl
      | cons w a => exfalso; simp at hl; omega

example : (∃ s ∈ [0, 4], [0, 1, 2, 3, 4].head? = some s) ∧
    (∃ s ∈ [0, 4], ([0, 1, 2, 3, 4] : List Int).getLast? = some s) ∧
    ([0, 1, 2, 3, 4] : List Int).head? ≠ ([0, 1, 2, 3, 4] : List Int).getLast? ∧
    ¬ AlongSupports [0, 4] [0, 1, 2, 3, 4] ∧
    splitPolyedge [0, 4] [0, 1, 2, 3, 4] = .ok ([(1, 2)], [(0, 1), (2, 3), (3, 4)]) := by
  refine ⟨⟨0, by simp, rfl⟩, ⟨4, by simp, rfl⟩, by decide, ?_, by decide⟩
  rintro ⟨s, t, l, h, _, ht, _⟩
  simp only [List.cons.injEq] at h
  rw [← h.2.1] at ht
  simp at ht

/-- C46: with three vertices between two supports the first support gets no trail edge. -/
theorem C46_two_claim_false : ¬ C46_two_claim := by
  intro h
  obtain ⟨a, u, v, b, hp, ha, hb, hs⟩ := h [0, 2] [0, 1, 2] ⟨0, by simp, rfl⟩ ⟨2, by simp, rfl⟩
    (by decide) (by
      rintro ⟨s, t, l, h, _, ht, _⟩
      simp only [List.cons.injEq] at h
      rw [← h.2.1] at ht
      simp at ht)
  have e : splitPolyedge [0, 2] [0, 1, 2] = .ok ([(0, 1)], [(1, 2)]) := by decide
  rw [e] at hs
  injection hs with hs
  simp only [Prod.mk.injEq, List.cons.injEq, and_true] at hs
  have hl := congrArg List.length hs.2
  rw [List.length_append] at hl
  have h1 := List.length_pos_of_ne_nil ha
  have h2 := List.length_pos_of_ne_nil hb
  simp at hl
  omega

/-- C46: what is dropped depends on the direction of the polyedge, and edges at vertices that
are no supports get lost. -/
theorem C46_drop_depends_on_direction :
    splitPolyedge [0, 1, 3] [0, 1, 2, 3] = .ok ([], []) ∧
    splitPolyedge [0, 1, 3] [3, 2, 1, 0] = .ok ([(2, 1)], [(3, 2), (1, 0)]) := by decide

/-! ## All polyedges -/

open Classical in
/-- C46: the lists of deviation and trail edges for all polyedges: all edges along the polyedges
that are not dropped, each once. -/
theorem C46_all (supports : List Int) (ps : List (List Int)) (hp : ∀ p ∈ ps, p ≠ []) :
    ∃ dev trail, splitPolyedges supports ps = .ok (dev, trail) ∧
      (dev ++ trail).Perm ((ps.filter fun p => ¬ AlongSupports supports p).flatMap hops) := by
  induction ps with
  | nil => exact ⟨[], [], rfl, by simp⟩
  | cons p ps ih =>
    obtain ⟨dev, trail, h1, h4⟩ := ih fun q hq => hp q (by simp [hq])
    obtain ⟨d, t, h5, h6, h7⟩ := C46_partition supports p (hp p (by simp))
    have hs : splitPolyedges supports (p :: ps) = .ok (d ++ dev, t ++ trail) := by
      simp [splitPolyedges, h5, h1, bind, Except.bind]
    have hperm : ((d ++ dev) ++ (t ++ trail)).Perm ((d ++ t) ++ (dev ++ trail)) := by
      rw [List.append_assoc, List.append_assoc]
      refine List.Perm.append_left d ?_
      rw [← List.append_assoc, ← List.append_assoc]
      exact List.Perm.append_right trail List.perm_append_comm
    refine ⟨_, _, hs, ?_⟩
    by_cases ha : AlongSupports supports p
    · obtain ⟨rfl, rfl⟩ := h6 ha
      simpa [List.filter_cons, ha] using h4
    · rw [List.filter_cons, if_pos (by simpa using ha), List.flatMap_cons]
      exact hperm.trans ((h7 ha).append h4)

example : splitPolyedges [0, 3] [[0, 1, 2, 3], [1, 4], [2, 5], [0, 6, 3, 0]] =
    .ok ([(1, 2), (1, 4), (2, 5), (0, 6), (6, 3), (3, 0)], [(0, 1), (2, 3)]) := by decide

/-! ## The diagram -/

section
variable {R : Type} [Field R] [DecidableEq R] [PySqrt R] (gkey : Vec R → String)

theorem addVertices_spec (vs : List (Int × Vec R)) : ∀ D : Diagram R,
    (D.nodes.keys ++ vs.map Prod.fst).Nodup →
    (D.addVertices gkey vs).nodes = D.nodes ++ vs.map (fun v => (v.1, freshNode v.2)) ∧
      (D.addVertices gkey vs).edges = D.edges := by
  induction vs with
  | nil => intro D _; simp [addVertices]
  | cons v vs ih =>
    intro D hn
    have hv : v.1 ∉ D.nodes.keys := by
      intro h
      rw [List.nodup_append] at hn
      exact hn.2.2 v.1 h v.1 (by simp) rfl
    have hget : D.nodes.get? v.1 = none := (Dict.get?_eq_none_iff _ _).2 hv
    have h1 : (D.addNode gkey (some v.1) v.2).1.nodes = D.nodes ++ [(v.1, freshNode v.2)] := by
      simp only [addNode, newKey, placedNode, hget]
      exact Dict.set_of_not_mem _ hv
    have h2 := ih (D.addNode gkey (some v.1) v.2).1 (by
      rw [h1]
      simpa [Dict.keys] using hn)
    have e : D.addVertices gkey (v :: vs) = (D.addNode gkey (some v.1) v.2).1.addVertices gkey vs := rfl
    rw [e, h2.1, h2.2, h1]
    simp [addNode]

theorem addSupports_spec (ns : List Int) : ∀ D : Diagram R, (∀ n ∈ ns, n ∈ D.nodes.keys) →
    ∃ D', D.addSupports gkey ns = .ok D' ∧ D'.nodes.keys = D.nodes.keys ∧ D'.edges = D.edges ∧
      ∀ n, D'.nodes.get? n = (D.nodes.get? n).map fun d =>
        if n ∈ ns then { d with type := .support } else d := by
  induction ns with
  | nil => intro D _; exact ⟨D, rfl, rfl, rfl, fun n => by simp⟩
  | cons m ns ih =>
    intro D h
    obtain ⟨d, hd⟩ := (Dict.exists_get?_iff D.nodes m).2 (h m (by simp))
    have e : D.addSupport gkey (.key m) =
        ({ D with nodes := D.nodes.set m { d with type := .support } }, .ok ()) := by
      simp [addSupport, nodeKey, hd]
    have hk : (D.nodes.set m { d with type := .support }).keys = D.nodes.keys :=
      Dict.keys_set_of_mem _ (h m (by simp))
    obtain ⟨D', h1, h2, h3, h4⟩ := ih { D with nodes := D.nodes.set m { d with type := .support } }
      (fun n hn => by simp only [hk]; exact h n (by simp [hn]))
    refine ⟨D', by simp [addSupports, e, h1], by rw [h2]; exact hk, h3, fun n => ?_⟩
    rw [h4 n]
    simp only [Dict.get?_set]
    by_cases hn : m = n
    · subst hn
      simp [hd]
    · simp [hn, Ne.symm hn]

/-- The edge data after adding deviation edges. -/
theorem addDeviations_spec (f : R) (es : List (Int × Int)) : ∀ D : Diagram R,
    (∀ e ∈ es, e.1 ∈ D.nodes.keys ∧ e.2 ∈ D.nodes.keys) →
    ∃ D', D.addDeviations gkey f es = .ok D' ∧ D'.nodes = D.nodes ∧
      ∀ e, D'.edges.get? e = if e ∈ es then
        some { (D.edges.get? e).getD freshEdge with force := f, type := .deviation }
        else D.edges.get? e := by
  induction es with
  | nil => intro D _; exact ⟨D, rfl, rfl, fun e => by simp⟩
  | cons a es ih =>
    intro D h
    have ha := h a (by simp)
    have e : D.addEdge gkey (.deviation (.key a.1) (.key a.2) f) =
        ({ D with edges := D.edges.set a { (D.edges.get? a).getD freshEdge with
            force := f, type := .deviation } }, .ok a) := by
      have hh : (D.nodes.has a.1 && D.nodes.has a.2) = true := by
        simp [Dict.has_iff, ha.1, ha.2]
      simp [addEdge, EdgeElem.u, EdgeElem.v, endKey, nodeKey, hh, EdgeData.update]
    obtain ⟨D', h1, h2, h3⟩ := ih { D with edges := (D.edges.set a
      { (D.edges.get? a).getD freshEdge with force := f, type := .deviation }) }
      (fun b hb => h b (by simp [hb]))
    refine ⟨D', by simp [addDeviations, e, h1], h2, fun b => ?_⟩
    rw [h3 b]
    simp only [Dict.get?_set]
    by_cases hb : a = b
    · subst hb; simp
    · simp [hb, Ne.symm hb]

theorem meshLength_congr {D D' : Diagram R} (h : D'.nodes = D.nodes) (tl : Option R) (ts : R)
    (e : Int × Int) : D'.meshLength tl ts e = D.meshLength tl ts e := by
  simp [meshLength, meshLength.measured, nodeXyz, h]

theorem meshLength_ok (D : Diagram R) (tl : Option R) (ts : R) (e : Int × Int)
    (he : e.1 ∈ D.nodes.keys ∧ e.2 ∈ D.nodes.keys) :
    ∃ d₁ d₂, D.nodes.get? e.1 = some d₁ ∧ D.nodes.get? e.2 = some d₂ ∧
      D.meshLength tl ts e = .ok ((if tl.getD 0 = 0 then Vec.dist d₁.pos d₂.pos else tl.getD 0) * ts) := by
  obtain ⟨d₁, h₁⟩ := (Dict.exists_get?_iff D.nodes e.1).2 he.1
  obtain ⟨d₂, h₂⟩ := (Dict.exists_get?_iff D.nodes e.2).2 he.2
  refine ⟨d₁, d₂, h₁, h₂, ?_⟩
  cases tl with
  | none => simp [meshLength, meshLength.measured, nodeXyz, Dict.getE, h₁, h₂, bind, Except.bind]
  | some l =>
    by_cases hl : l = 0
    · simp [meshLength, meshLength.measured, nodeXyz, Dict.getE, h₁, h₂, bind, Except.bind, hl]
    · simp [meshLength, hl]

/-- The edge data after adding trail edges. -/
theorem addTrailEdges_spec (tl : Option R) (ts : R) (es : List (Int × Int)) : ∀ D : Diagram R,
    (∀ e ∈ es, e.1 ∈ D.nodes.keys ∧ e.2 ∈ D.nodes.keys) →
    ∃ D', D.addTrailEdges gkey tl ts es = .ok D' ∧ D'.nodes = D.nodes ∧
      (∀ e ∉ es, D'.edges.get? e = D.edges.get? e) ∧
      ∀ e ∈ es, ∃ l, D.meshLength tl ts e = .ok l ∧ D'.edges.get? e =
        some { (D.edges.get? e).getD freshEdge with length := l, type := .trail, plane := none } := by
  induction es with
  | nil => intro D _; exact ⟨D, rfl, rfl, fun e _ => rfl, by simp⟩
  | cons a es ih =>
    intro D h
    have ha := h a (by simp)
    obtain ⟨_, _, _, _, hl⟩ := meshLength_ok D tl ts a ha
    generalize hL : ((if tl.getD 0 = 0 then _ else tl.getD 0) * ts) = L at hl
    have e : D.addEdge gkey (.trail (.key a.1) (.key a.2) L none) =
        ({ D with edges := D.edges.set a { (D.edges.get? a).getD freshEdge with
            length := L, type := .trail, plane := none } }, .ok a) := by
      have hh : (D.nodes.has a.1 && D.nodes.has a.2) = true := by
        simp [Dict.has_iff, ha.1, ha.2]
      simp [addEdge, EdgeElem.u, EdgeElem.v, endKey, nodeKey, hh, EdgeData.update]
    obtain ⟨D', h1, h2, h3, h4⟩ := ih { D with edges := (D.edges.set a
      { (D.edges.get? a).getD freshEdge with length := L, type := .trail, plane := none }) }
      (fun b hb => h b (by simp [hb]))
    have hc : ∀ b, ({ D with edges := D.edges.set a { (D.edges.get? a).getD freshEdge with
        length := L, type := .trail, plane := none } } : Diagram R).meshLength tl ts b =
        D.meshLength tl ts b := fun b => meshLength_congr rfl tl ts b
    refine ⟨D', by simp [addTrailEdges, hl, e, h1], h2, fun b hb => ?_, fun b hb => ?_⟩
    · rw [h3 b (fun hb' => hb (by simp [hb']))]
      exact Dict.get?_set_ne _ _ (fun hab => hb (by simp [hab]))
    · by_cases hbs : b ∈ es
      · obtain ⟨l, hl', hg⟩ := h4 b hbs
        rw [hc b] at hl'
        refine ⟨l, hl', ?_⟩
        rw [hg]
        simp only [Dict.get?_set]
        by_cases hab : a = b
        · subst hab; simp
        · simp [hab]
      · have hab : b = a := by
          rcases List.mem_cons.1 hb with h | h
          · exact h
          · exact absurd h hbs
        subst hab
        refine ⟨L, hl, ?_⟩
        rw [h3 b hbs]
        exact Dict.get?_set_self _ _ _

theorem hops_mem {p : List Int} {e : Int × Int} (h : e ∈ hops p) : e.1 ∈ p ∧ e.2 ∈ p := by
  induction p with
  | nil => simp [hops] at h
  | cons u l ih =>
    cases l with
    | nil => simp [hops] at h
    | cons v l =>
      rw [hops] at h
      rcases List.mem_cons.1 h with rfl | h
      · simp
      · have := ih h
        exact ⟨List.mem_cons_of_mem _ this.1, List.mem_cons_of_mem _ this.2⟩

/-- The signed length of a trail edge between two positions: the given length, if it is not zero,
or the distance. -/
def signedLength (tl : Option R) (ts : R) (p q : Vec R) : R :=
  (if tl.getD 0 = 0 then Vec.dist p q else tl.getD 0) * ts

/-- C46: the diagram has the vertices of the mesh as nodes, at their positions; the given
supports are its support nodes; its edges are the deviation and trail edges of the polyedges
(`C46_all`); deviation edges have the signed force, trail edges the signed length. -/
theorem C46_diagram (order : List Int → List Int) (mesh : QuadMesh R) (supports : List Int)
    (trailLength : Option R) (trailState force devState : R) (I : MeshInput mesh supports)
    (ho : (order supports.dedup).Perm supports.dedup) :
    ∃ D dev trail,
      fromDualQuadMesh gkey order mesh supports trailLength trailState force devState = .ok D ∧
      splitPolyedges supports mesh.polyedges = .ok (dev, trail) ∧
      D.nodes.keys = mesh.vertices.map Prod.fst ∧
      (∀ v ∈ mesh.vertices, D.nodes.get? v.1 =
        some ⟨v.2, 0, 0, none, if v.1 ∈ supports then .support else .free⟩) ∧
      (∀ e, e ∉ trail → D.edges.get? e =
        if e ∈ dev then some { freshEdge with force := devState * force, type := .deviation }
        else none) ∧
      (∀ p ∈ mesh.vertices, ∀ q ∈ mesh.vertices, (p.1, q.1) ∈ trail →
        D.edges.get? (p.1, q.1) = some
          { freshEdge with type := .trail
                           length := signedLength trailLength trailState p.2 q.2
                           force := if (p.1, q.1) ∈ dev then devState * force else 0 }) := by
  obtain ⟨dev, trail, hs, hperm⟩ := C46_all supports mesh.polyedges I.nonempty
  have hmem : ∀ e ∈ dev ++ trail, e.1 ∈ mesh.vertices.map Prod.fst ∧ e.2 ∈ mesh.vertices.map Prod.fst := by
    intro e he
    have he' := hperm.subset he
    rw [List.mem_flatMap] at he'
    obtain ⟨p, hp, hep⟩ := he'
    have hp' := (List.mem_filter.1 hp).1
    exact ⟨I.onVertices p hp' _ (hops_mem hep).1, I.onVertices p hp' _ (hops_mem hep).2⟩
  obtain ⟨hn0, he0⟩ := addVertices_spec gkey mesh.vertices Diagram.empty (by
    simpa [Diagram.empty, Dict.keys] using I.nodup)
  generalize hD0 : Diagram.empty.addVertices gkey mesh.vertices = D0 at hn0 he0
  have hk0 : D0.nodes.keys = mesh.vertices.map Prod.fst := by
    rw [hn0]; simp [Diagram.empty, Dict.keys, Function.comp_def]
  have hnd : D0.nodes.keys.Nodup := by rw [hk0]; exact I.nodup
  obtain ⟨D1, h1, hk1, he1, hg1⟩ := addSupports_spec gkey (order supports.dedup) D0 (by
    intro n hn
    rw [hk0]
    exact I.supported n (List.mem_dedup.1 (ho.subset hn)))
  obtain ⟨D2, h2, hn2, hg2⟩ := addDeviations_spec gkey (devState * force) dev D1 (by
    intro e he
    rw [hk1, hk0]; exact hmem e (by simp [he]))
  obtain ⟨D3, h3, hn3, hg3, hg3'⟩ := addTrailEdges_spec gkey trailLength trailState trail D2 (by
    intro e he
    rw [hn2, hk1, hk0]; exact hmem e (by simp [he]))
  have hedge0 : ∀ e, D1.edges.get? e = none := by
    intro e; rw [he1, he0]; rfl
  have hpos : ∀ v ∈ mesh.vertices, D3.nodes.get? v.1 =
        some ⟨v.2, 0, 0, none, if v.1 ∈ supports then .support else .free⟩ := by
    intro v hv
    have hv0 : D0.nodes.get? v.1 = some (freshNode v.2) := by
      refine Dict.get?_of_mem hnd ?_
      rw [hn0]
      exact List.mem_append_right _ (List.mem_map.2 ⟨v, hv, rfl⟩)
    have hsup : v.1 ∈ order supports.dedup ↔ v.1 ∈ supports := by
      rw [ho.mem_iff, List.mem_dedup]
    rw [hn3, hn2, hg1, hv0]
    by_cases hvs : v.1 ∈ supports
    · simp [hsup, hvs, freshNode]
    · simp [hsup, hvs, freshNode]
  refine ⟨D3, dev, trail, ?_, hs, by rw [hn3, hn2, hk1, hk0], hpos, ?_, ?_⟩
  · simp [fromDualQuadMesh, hs, hD0, h1, h2, h3, bind, Except.bind]
  · intro e he
    rw [hg3 e he, hg2 e, hedge0 e]
    rfl
  · intro p hp q hq he
    obtain ⟨l, hl, hg⟩ := hg3' _ he
    obtain ⟨d₁, d₂, hd₁, hd₂, hl'⟩ := meshLength_ok D2 trailLength trailState (p.1, q.1)
      (by rw [hn2, hk1, hk0]; exact hmem _ (by simp [he]))
    rw [hl'] at hl
    injection hl with hl
    have e₁ := hpos p hp
    have e₂ := hpos q hq
    rw [hn3] at e₁ e₂
    simp only at hd₁ hd₂
    rw [hd₁] at e₁
    rw [hd₂] at e₂
    injection e₁ with e₁
    injection e₂ with e₂
    rw [hg, hg2, hedge0]
    rw [e₁, e₂] at hl
    have hl2 : l = signedLength trailLength trailState p.2 q.2 := hl.symm
    rw [hl2]
    by_cases hd : (p.1, q.1) ∈ dev
    · simp [hd, freshEdge]
    · simp [hd, freshEdge]

open Classical in
/-- C46: if no edge lies on two polyedges (or twice on one), every edge along every polyedge that
is not dropped is stored in the diagram, as a trail edge without force or as a deviation edge
without length, and the diagram has no other edges. -/
theorem C46_each_edge (order : List Int → List Int) (mesh : QuadMesh R) (supports : List Int)
    (trailLength : Option R) (trailState force devState : R) (I : MeshInput mesh supports)
    (ho : (order supports.dedup).Perm supports.dedup) (hd : (mesh.polyedges.flatMap hops).Nodup) :
    ∃ D, fromDualQuadMesh gkey order mesh supports trailLength trailState force devState = .ok D ∧
      (∀ e, e ∈ D.edges.keys ↔ ∃ p ∈ mesh.polyedges, ¬ AlongSupports supports p ∧ e ∈ hops p) ∧
      ∀ e d, D.edges.get? e = some d →
        (d.type = .trail ∧ d.force = 0) ∨
        (d.type = .deviation ∧ d.force = devState * force ∧ d.length = 0) := by
  obtain ⟨D, dev, trail, h1, h2, hk, _, h3, h4⟩ :=
    C46_diagram gkey order mesh supports trailLength trailState force devState I ho
  obtain ⟨dev', trail', h2', hperm⟩ := C46_all supports mesh.polyedges I.nonempty
  rw [h2] at h2'
  injection h2' with h2'
  obtain ⟨rfl, rfl⟩ := Prod.mk.inj h2'
  have hnd : (dev ++ trail).Nodup := by
    rw [hperm.nodup_iff]
    exact hd.sublist (List.Sublist.flatMap List.filter_sublist _)
  have hdisj : ∀ e ∈ trail, e ∉ dev := fun e he hed =>
    (List.nodup_append.1 hnd).2.2 e hed e he rfl
  have hmem : ∀ e, e ∈ dev ++ trail ↔
      ∃ p ∈ mesh.polyedges, ¬ AlongSupports supports p ∧ e ∈ hops p := by
    intro e
    rw [hperm.mem_iff, List.mem_flatMap]
    constructor
    · rintro ⟨p, hp, he⟩
      have := List.mem_filter.1 hp
      exact ⟨p, this.1, by simpa using this.2, he⟩
    · rintro ⟨p, hp, hn, he⟩
      exact ⟨p, List.mem_filter.2 ⟨hp, by simpa using hn⟩, he⟩
  have htrail : ∀ e ∈ trail, ∃ l, D.edges.get? e =
      some { freshEdge with type := .trail, length := l, force := 0 } := by
    intro e he
    obtain ⟨p, hp, _, hep⟩ := (hmem e).1 (by simp [he])
    obtain ⟨a, ha, ha'⟩ := List.mem_map.1 (I.onVertices p hp _ (hops_mem hep).1)
    obtain ⟨b, hb, hb'⟩ := List.mem_map.1 (I.onVertices p hp _ (hops_mem hep).2)
    have hab : (a.1, b.1) = e := by rw [ha', hb']
    have := h4 a ha b hb (by rw [hab]; exact he)
    rw [hab, if_neg (hdisj e he)] at this
    exact ⟨_, this⟩
  refine ⟨D, h1, fun e => ?_, fun e d hed => ?_⟩
  · rw [← hmem, ← Dict.exists_get?_iff]
    constructor
    · rintro ⟨d, hd⟩
      by_contra hn
      simp only [List.mem_append, not_or] at hn
      rw [h3 e hn.2, if_neg hn.1] at hd
      cases hd
    · intro he
      by_cases ht : e ∈ trail
      · obtain ⟨l, hl⟩ := htrail e ht
        exact ⟨_, hl⟩
      · rcases List.mem_append.1 he with he | he
        · exact ⟨_, by rw [h3 e ht, if_pos he]⟩
        · exact absurd he ht
  · by_cases ht : e ∈ trail
    · obtain ⟨l, hl⟩ := htrail e ht
      rw [hl] at hed
      injection hed with hed
      subst hed
      exact Or.inl ⟨rfl, rfl⟩
    · rw [h3 e ht] at hed
      split at hed
      · injection hed with hed
        subst hed
        exact Or.inr ⟨rfl, rfl, rfl⟩
      · cases hed

theorem run_append (D : Diagram R) (a b : List (Op R)) :
    Spec.run gkey D (a ++ b) = Spec.run gkey (Spec.run gkey D a) b := by
  simp [Spec.run, List.foldl_append]

theorem addSupports_run (ns : List Int) : ∀ D D' : Diagram R, D.addSupports gkey ns = .ok D' →
    D' = Spec.run gkey D (ns.map fun n => .addSupport (.key n)) := by
  induction ns with
  | nil => intro D D' h; injection h with h; exact h.symm
  | cons n ns ih =>
    intro D D' h
    simp only [addSupports] at h
    split at h
    · next E _ heq =>
      rw [ih E D' h]
      simp [Spec.run, Spec.step, heq]
    · cases h

theorem addDeviations_run (f : R) (es : List (Int × Int)) : ∀ D D' : Diagram R,
    D.addDeviations gkey f es = .ok D' →
    D' = Spec.run gkey D (es.map fun e => .addEdge (.deviation (.key e.1) (.key e.2) f)) := by
  induction es with
  | nil => intro D D' h; injection h with h; exact h.symm
  | cons e es ih =>
    intro D D' h
    simp only [addDeviations] at h
    split at h
    · next E _ heq =>
      rw [ih E D' h]
      simp [Spec.run, Spec.step, heq]
    · cases h

theorem addTrailEdges_run (tl : Option R) (ts : R) (es : List (Int × Int)) : ∀ D D' : Diagram R,
    D.addTrailEdges gkey tl ts es = .ok D' → ∃ ops, D' = Spec.run gkey D ops := by
  induction es with
  | nil => intro D D' h; injection h with h; exact ⟨[], h.symm⟩
  | cons e es ih =>
    intro D D' h
    simp only [addTrailEdges] at h
    split at h
    · cases h
    · next l _ =>
      split at h
      · next E _ heq =>
        obtain ⟨ops, hops⟩ := ih E D' h
        refine ⟨.addEdge (.trail (.key e.1) (.key e.2) l none) :: ops, ?_⟩
        rw [hops]
        simp [Spec.run, Spec.step, heq]
      · cases h

/-- C46: every diagram made from a mesh is one that a history of API calls makes, so all theorems
about such diagrams apply to it. -/
theorem C46_history (order : List Int → List Int) (mesh : QuadMesh R) (supports : List Int)
    (trailLength : Option R) (trailState force devState : R) (D : Diagram R)
    (h : fromDualQuadMesh gkey order mesh supports trailLength trailState force devState = .ok D) :
    ∃ ops, D = after gkey ops := by
  simp only [fromDualQuadMesh, bind, Except.bind] at h
  split at h
  · cases h
  split at h
  · cases h
  next D1 h1 =>
  split at h
  · cases h
  next D2 h2 =>
  have e1 := addSupports_run gkey _ _ _ h1
  have e2 := addDeviations_run gkey _ _ _ _ h2
  obtain ⟨ops, e3⟩ := addTrailEdges_run gkey _ _ _ _ _ h
  have e0 : ∀ (vs : List (Int × Vec R)) (E : Diagram R), E.addVertices gkey vs =
      Spec.run gkey E (vs.map fun v => .addNode (some v.1) v.2) := by
    intro vs
    induction vs with
    | nil => intro E; rfl
    | cons v vs ih => intro E; exact ih _
  rw [e0] at e1
  rw [e1] at e2
  rw [e2] at e3
  rw [← run_append, ← run_append, ← run_append] at e3
  exact ⟨_, e3⟩

end

namespace MeshEx

local instance meshSqrt : PySqrt ℚ := ⟨id⟩

/-- Geometric keys for the examples. -/
def key (v : Vec ℚ) : String := toString v.x ++ "," ++ toString v.y ++ "," ++ toString v.z

/-- Two polyedges between supports, joined by two others. -/
def ladder : QuadMesh ℚ where
  vertices := [(0, ⟨0, 0, 0⟩), (1, ⟨1, 0, 0⟩), (2, ⟨2, 0, 0⟩), (3, ⟨3, 0, 0⟩),
    (4, ⟨0, 1, 0⟩), (5, ⟨1, 1, 0⟩), (6, ⟨2, 1, 0⟩), (7, ⟨3, 1, 0⟩)]
  polyedges := [[0, 1, 2, 3], [4, 5, 6, 7], [0, 4], [1, 5], [2, 6], [3, 7]]

/-- Its supports. -/
def ends : List Int := [0, 3, 4, 7]

theorem input_ladder : MeshInput ladder ends := by
  constructor <;> decide

example : (ladder.polyedges.flatMap hops).Nodup ∧ (id ends.dedup).Perm ends.dedup :=
  ⟨by decide, List.Perm.refl _⟩

/-- The diagram of the ladder, ready for form finding: the polyedges along the supports are
dropped. -/
example : ∃ D, fromDualQuadMesh key id ladder ends (some 2) (-1) 3 1 = .ok D ∧
    D.edges = [((1, 2), ⟨.deviation, 0, 3, none⟩), ((5, 6), ⟨.deviation, 0, 3, none⟩),
      ((1, 5), ⟨.deviation, 0, 3, none⟩), ((2, 6), ⟨.deviation, 0, 3, none⟩),
      ((0, 1), ⟨.trail, -2, 0, none⟩), ((2, 3), ⟨.trail, -2, 0, none⟩),
      ((4, 5), ⟨.trail, -2, 0, none⟩), ((6, 7), ⟨.trail, -2, 0, none⟩)] ∧
    D.buildTrails.2 = .ok () ∧
    D.buildTrails.1.trails = [(1, [1, 0]), (2, [2, 3]), (5, [5, 4]), (6, [6, 7])] := by
  refine ⟨_, rfl, ?_, ?_, ?_⟩ <;> decide +kernel

/-- One polyedge of three vertices between two supports. -/
def short : QuadMesh ℚ where
  vertices := [(0, ⟨0, 0, 0⟩), (1, ⟨1, 0, 0⟩), (2, ⟨2, 0, 0⟩)]
  polyedges := [[0, 1, 2]]

end MeshEx

/-- C46: from a polyedge of three vertices between two supports comes a diagram for which
`build_trails` succeeds with a trail of one node only, and form finding raises `KeyError`. -/
theorem C46_three_vertices :
    letI : PySqrt ℚ := MeshEx.meshSqrt
    MeshInput MeshEx.short [0, 2] ∧
    ∃ D, fromDualQuadMesh MeshEx.key id MeshEx.short [0, 2] none (-1) 1 (-1) = .ok D ∧
      D.buildTrails.2 = .ok () ∧ D.buildTrails.1.trails = [(0, [0]), (1, [1, 2])] ∧
      staticEquilibrium D.buildTrails.1 none 100 (1 / 100) false = .error .keyError := by
  refine ⟨by constructor <;> decide, _, rfl, ?_, ?_, ?_⟩ <;> decide +kernel

/-! ## Signs -/

/-- C46: signs follow the states: with a positive force and given length (or a mesh length
between distinct positions) the sign of the force is the one of the deviation state and the sign
of the length is the one of the trail state. -/
theorem C46_signs (trailLength : Option ℝ) (trailState force devState : ℝ) (p q : Vec ℝ)
    (hl : ∀ l, trailLength = some l → 0 ≤ l) (hpq : p ≠ q) (hf : 0 < force) :
    (0 < signedLength trailLength trailState p q ↔ 0 < trailState) ∧
    (signedLength trailLength trailState p q < 0 ↔ trailState < 0) ∧
    (0 < devState * force ↔ 0 < devState) ∧ (devState * force < 0 ↔ devState < 0) := by
  have hpos : 0 < (if trailLength.getD 0 = 0 then Vec.dist p q else trailLength.getD 0) := by
    split
    · refine lt_of_le_of_ne (Vec.length_nonneg _) fun h => hpq ?_
      exact sub_eq_zero.1 (Vec.length_eq_zero.1 h.symm)
    · next h =>
      cases trailLength with
      | none => exact absurd rfl h
      | some l => exact lt_of_le_of_ne (hl l rfl) (Ne.symm h)
  refine ⟨mul_pos_iff_of_pos_left hpos, ?_, mul_pos_iff_of_pos_right hf, ?_⟩
  · exact ⟨fun h => by by_contra hn; exact absurd h (not_lt.2 (mul_nonneg hpos.le (not_lt.1 hn))),
      fun h => mul_neg_of_pos_of_neg hpos h⟩
  · exact ⟨fun h => by by_contra hn; exact absurd h (not_lt.2 (mul_nonneg (not_lt.1 hn) hf.le)),
      fun h => mul_neg_of_neg_of_pos h hf⟩

example : (∀ l, (none : Option ℝ) = some l → 0 ≤ l) ∧ (⟨0, 0, 0⟩ : Vec ℝ) ≠ ⟨1, 0, 0⟩ ∧
    (0 : ℝ) < 1 := ⟨by simp, by simp, one_pos⟩

end Props
end CEM
