import Verif.Props.Components
import Verif.Props.Returned
import Verif.Props.Solve
import Verif.Lemmas.Queries

/-!
# Property C57: components that change, solve and read diagrams
-/

set_option linter.unusedSectionVars false
set_option linter.unusedSimpArgs false

namespace CEM
namespace Props
open Diagram Spec TrailEx Component

local instance componentResultSqrt : PySqrt ℚ := ⟨id⟩

variable {R : Type}

/-! ## Lists as long as others -/

private theorem length_zipLike {α : Type} (ks : List Int) (a : α) (l : List α) :
    (zipLike ks a l).length = ks.length := by
  induction ks generalizing l with
  | nil => rfl
  | cons k ks ih => cases l <;> simp [zipLike, ih]

private theorem zipLike_get {α : Type} (ks : List Int) (a : α) (l : List α) (i : Nat) :
    (zipLike ks a l)[i]? = ks[i]?.map fun k => (k, (l[i]?).getD a) := by
  induction ks generalizing l i with
  | nil => simp [zipLike]
  | cons k ks ih =>
    cases l with
    | nil => cases i <;> simp [zipLike, ih]
    | cons b l => cases i <;> simp [zipLike, ih]

/-- The item a key gets: the one with its index, or the last one. -/
private theorem padded {α : Type} {l : List α} {last : α} (h : l.getLast? = some last) (i : Nat) :
    l[i]?.getD last = l[min i (l.length - 1)]'(by
      have : l ≠ [] := by rintro rfl; simp at h
      have := List.length_pos_iff.2 this
      omega) := by
  have hne : l ≠ [] := by rintro rfl; simp at h
  have hpos := List.length_pos_iff.2 hne
  by_cases hi : i < l.length
  · simp [hi, show min i (l.length - 1) = i by omega]
  · have : l[i]? = none := by simp; omega
    rw [this, Option.getD_none]
    simp only [show min i (l.length - 1) = l.length - 1 by omega]
    rw [List.getLast?_eq_getElem?] at h
    rw [List.getElem?_eq_getElem (by omega)] at h
    exact (Option.some.inj h).symm

/-! ## Shifting trails -/

private theorem shiftAll_ok {D E : Diagram R} (w : WF D) (V : ValidTrails D) (hb : SameBase D E)
    (ht : ∀ n, typeOf E n = typeOf D n) (l : List (Int × Int)) :
    ((∀ p ∈ l, p.1 ∈ D.trails.keys) → shiftAll E l = .ok (shifts E l)) ∧
    ((∃ p ∈ l, p.1 ∉ D.trails.keys) → ∃ err, shiftAll E l = .error err) ∧
    SameBase D (shifts E l) ∧ ∀ n, typeOf (shifts E l) n = typeOf D n := by
  induction l generalizing E with
  | nil => exact ⟨fun _ => rfl, by simp, hb, ht⟩
  | cons p l ih =>
    obtain ⟨k, s⟩ := p
    by_cases hk : k ∈ D.trails.keys
    · obtain ⟨t, htr⟩ := Dict.mem_keys_iff.1 hk
      have hE : E.shiftTrail k s = (E.assignSequences t s, .ok ()) := by
        apply shiftTrail_of
        · rw [ht]; exact V.origin _ _ htr
        · rw [hb.trails]; exact V.get? w htr
      obtain ⟨i1, i2, i3, i4⟩ := ih (E := E.assignSequences t s)
        (hb.trans (sameBase_assignSequences E t s))
        (fun n => by rw [typeOf_assignSequences]; exact ht n)
      have hsh : shifts E ((k, s) :: l) = shifts (E.assignSequences t s) l := by simp [shifts, hE]
      rw [hsh]
      refine ⟨fun h => ?_, fun h => ?_, i3, i4⟩
      · simp only [shiftAll, hE]; exact i1 fun p hp => h p (List.mem_cons_of_mem _ hp)
      · simp only [shiftAll, hE]
        obtain ⟨p, hp, hn⟩ := h
        refine i2 ⟨p, ?_, hn⟩
        rcases List.mem_cons.1 hp with rfl | hp
        · exact absurd hk hn
        · exact hp
    · have hE : (E.shiftTrail k s).1 = E := (shiftTrail_not_trail (by rw [hb.trails]; exact hk) s).1
      have hE2 := (shiftTrail_not_trail (D := E) (key := k) (by rw [hb.trails]; exact hk) s).2
      have hsh : shifts E ((k, s) :: l) = shifts E l := by simp [shifts, hE]
      obtain ⟨_, _, i3, i4⟩ := ih hb ht
      rw [hsh]
      refine ⟨fun h => absurd (h _ List.mem_cons_self) hk, fun _ => ?_, i3, i4⟩
      cases hx : E.shiftTrail k s with
      | mk E' r =>
        cases r with
        | error err => exact ⟨err, by simp [shiftAll, hx]⟩
        | ok u => rw [hx] at hE2; simp at hE2

private theorem lastShift_at {k : Int} {l : List (Int × Int)} {i : Nat} {s : Int}
    (h : l[i]? = some (k, s)) (hlast : ∀ j s', i < j → l[j]? ≠ some (k, s')) :
    lastShift k l = some s := by
  have none_of : ∀ (l : List (Int × Int)), (∀ (j : Nat) s', l[j]? ≠ some (k, s')) → lastShift k l = none := by
    intro l
    induction l with
    | nil => intro _; rfl
    | cons p l ih =>
      intro hn
      obtain ⟨k', s'⟩ := p
      have h1 := ih fun j s' => by simpa using hn (j + 1) s'
      have h2 : k' ≠ k := by
        rintro rfl; exact hn 0 s' (by simp)
      simp [lastShift, h1, h2]
  induction l generalizing i with
  | nil => simp at h
  | cons p l ih =>
    obtain ⟨k', s'⟩ := p
    cases i with
    | zero =>
      simp only [List.getElem?_cons_zero, Option.some.injEq, Prod.mk.injEq] at h
      obtain ⟨rfl, rfl⟩ := h
      rw [lastShift, none_of l fun j s'' => by simpa using hlast (j + 1) s'' (by omega)]
      simp
    | succ i =>
      have h1 := ih (i := i) (by simpa using h) fun j s'' hj => by
        simpa using hlast (j + 1) s'' (by omega)
      simp [lastShift, h1]

private theorem lastShift_none {k : Int} {l : List (Int × Int)} (h : ∀ p ∈ l, p.1 ≠ k) :
    lastShift k l = none := by
  induction l with
  | nil => rfl
  | cons p l ih =>
    obtain ⟨k', s'⟩ := p
    have h1 := ih fun p hp => h p (List.mem_cons_of_mem _ hp)
    have h2 : k' ≠ k := h _ List.mem_cons_self
    simp [lastShift, h1, h2]

/-- C57. The component that shifts trails, given origins of trails and at least one sequence,
returns a diagram with the trail of the `i`-th key shifted to the `i`-th sequence, or to the last one
if there are less sequences than keys (of equal keys the last one counts); sequences that are left
over are ignored, other trails and all other data are kept.  Any key that is not the origin of a trail
makes it raise.  Without keys or sequences it returns nothing. -/
theorem C57_shift {D : Diagram R} (w : WF D) (V : ValidTrails D) (keys seqs : List Int) :
    ((keys = [] ∨ seqs = []) → trailsShift D keys seqs = .ok none) ∧
    (keys ≠ [] → seqs ≠ [] → (∃ k ∈ keys, k ∉ D.trails.keys) →
      ∃ err, trailsShift D keys seqs = .error err) ∧
    (∀ (_ : keys ≠ []) (hs : 0 < seqs.length), (∀ k ∈ keys, k ∈ D.trails.keys) →
      ∃ E, trailsShift D keys seqs = .ok (some E) ∧
        (∀ (i : Nat) (hi : i < keys.length) tr, (keys[i], tr) ∈ D.trails →
          (∀ (j : Nat) (hj : j < keys.length), i < j → keys[j] ≠ keys[i]) →
          ∀ (m : Nat) (hm : m < tr.length),
            seqOf E tr[m] = some (seqs[min i (seqs.length - 1)]'(by omega) + m)) ∧
        (∀ k tr, (k, tr) ∈ D.trails → k ∉ keys → ∀ n ∈ tr, seqOf E n = seqOf D n) ∧
        E.nodes.keys = D.nodes.keys ∧ E.edges = D.edges ∧ E.trails = D.trails ∧
        E.gkeyNode = D.gkeyNode ∧ (∀ n, typeOf E n = typeOf D n) ∧
        (∀ n, (E.nodes.get? n).map (fun d => (d.pos, d.load, d.reaction)) =
          (D.nodes.get? n).map (fun d => (d.pos, d.load, d.reaction)))) := by
  refine ⟨?_, ?_, ?_⟩
  · rintro (rfl | rfl)
    · unfold trailsShift; cases seqs.getLast? <;> simp
    · rfl
  · intro hk hs ⟨k, hkm, hkt⟩
    obtain ⟨last, hlast⟩ : ∃ a, seqs.getLast? = some a := ⟨_, List.getLast?_eq_some_getLast hs⟩
    obtain ⟨i, hi, rfl⟩ := List.getElem_of_mem hkm
    have hz := zipLike_get keys last seqs i
    rw [List.getElem?_eq_getElem hi, Option.map_some] at hz
    obtain ⟨err, he⟩ := (shiftAll_ok w V (SameBase.refl D) (fun _ => rfl)
      (zipLike keys last seqs)).2.1 ⟨_, List.mem_of_getElem? hz, hkt⟩
    exact ⟨err, by simp [trailsShift, hlast, hk, he]⟩
  · intro hk hs hall
    have hne : seqs ≠ [] := by rintro rfl; simp at hs
    obtain ⟨last, hlast⟩ : ∃ a, seqs.getLast? = some a := ⟨_, List.getLast?_eq_some_getLast hne⟩
    obtain ⟨a1, -, a3, a4⟩ := shiftAll_ok w V (SameBase.refl D) (fun _ => rfl) (zipLike keys last seqs)
    have hmem : ∀ p ∈ zipLike keys last seqs, p.1 ∈ keys := by
      intro p hp
      obtain ⟨i, hi, rfl⟩ := List.getElem_of_mem hp
      rw [length_zipLike] at hi
      have hz := zipLike_get keys last seqs i
      rw [List.getElem?_eq_getElem hi, List.getElem?_eq_getElem (by rw [length_zipLike]; exact hi),
        Option.map_some] at hz
      rw [Option.some.inj hz]; exact List.getElem_mem hi
    refine ⟨shifts D (zipLike keys last seqs), ?_, ?_, ?_, a3.keys, a3.edges, a3.trails, a3.gkeyNode,
      a4, a3.attrs⟩
    · simp [trailsShift, hlast, hk, a1 fun p hp => hall _ (hmem p hp)]
    · intro i hi tr htr hlater m hm
      rw [C16_history w V _ htr m hm]
      have hz := zipLike_get keys last seqs i
      rw [List.getElem?_eq_getElem hi, Option.map_some] at hz
      rw [lastShift_at hz, padded hlast i]
      intro j s' hj hc
      rw [zipLike_get] at hc
      cases hkj : keys[j]? with
      | none => simp [hkj] at hc
      | some k' =>
        obtain ⟨hj', hkj'⟩ := List.getElem?_eq_some_iff.1 hkj
        simp only [hkj, Option.map_some, Option.some.injEq, Prod.mk.injEq] at hc
        exact hlater j hj' hj (hkj'.trans hc.1)
    · intro k tr htr hkn n hn
      obtain ⟨m, hm, rfl⟩ := List.getElem_of_mem hn
      rw [C16_history w V _ htr m hm, lastShift_none]
      rintro p hp rfl
      exact hkn (hmem p hp)

/-- Two keys and one sequence: both trails get it. -/
example : ∃ E, trailsShift EqEx.directQ [4, 0] [3] = .ok (some E) ∧ seqOf E 1 = some 4 ∧
    seqOf E 3 = some 4 ∧ (4 : Int) ∈ EqEx.directQ.trails.keys ∧ (0 : Int) ∈ EqEx.directQ.trails.keys ∧
    trailsShift EqEx.directQ [4, 1] [3] = .error .assertionError :=
  ⟨shifts EqEx.directQ [(4, 3), (0, 3)], by decide +kernel, by decide +kernel, by decide +kernel,
    by decide +kernel, by decide +kernel, by decide +kernel⟩

/-! ## Moving origin nodes -/

private theorem moveAll_spec {D : Diagram R} (l : List (Int × Vec R)) :
    ((∀ p ∈ l, p.1 ∈ D.nodes.keys) → ∃ E, moveAll D l = .ok E ∧ E = { D with nodes := E.nodes } ∧
      E.nodes.keys = D.nodes.keys ∧
      ∀ n d, D.nodes.get? n = some d →
        E.nodes.get? n = some { d with pos := ((l.reverse.find? fun p => p.1 = n).map (·.2)).getD d.pos }) ∧
    ((∃ p ∈ l, p.1 ∉ D.nodes.keys) → moveAll D l = .error .keyError) := by
  induction l generalizing D with
  | nil =>
    refine ⟨fun _ => ⟨D, rfl, rfl, rfl, fun n d h => by simpa using h⟩, by simp⟩
  | cons p l ih =>
    obtain ⟨k, q⟩ := p
    cases hd : D.nodes.get? k with
    | none =>
      have hk := (Dict.get?_eq_none_iff _ _).1 hd
      refine ⟨fun h => absurd (h _ List.mem_cons_self) hk, fun _ => by simp [moveAll, setXyz, hd]⟩
    | some d =>
      have hk := Dict.mem_keys_of_get? hd
      obtain ⟨i1, i2⟩ := ih (D := { D with nodes := D.nodes.set k { d with pos := q } })
      have hkeys : (D.nodes.set k { d with pos := q }).keys = D.nodes.keys := Dict.keys_set_of_mem _ hk
      simp only [moveAll, setXyz, hd]
      refine ⟨fun h => ?_, fun h => ?_⟩
      · obtain ⟨E, e1, e2, e3, e4⟩ := i1 fun p hp => by
          dsimp only; rw [hkeys]; exact h p (List.mem_cons_of_mem _ hp)
        refine ⟨E, e1, e2, e3.trans hkeys, fun n d' hd' => ?_⟩
        by_cases he : k = n
        · subst he
          rw [hd] at hd'; obtain rfl := Option.some.inj hd'
          rw [e4 k _ (Dict.get?_set_self _ _ _)]
          rw [List.reverse_cons, List.find?_append]
          cases l.reverse.find? (fun p => decide (p.1 = k)) <;> simp
        · rw [e4 n d' (by rw [Dict.get?_set_ne _ _ he]; exact hd')]
          rw [List.reverse_cons, List.find?_append]
          cases l.reverse.find? (fun p => decide (p.1 = n)) <;> simp [he]
      · obtain ⟨p, hp, hn⟩ := h
        refine i2 ⟨p, ?_, by dsimp only; rw [hkeys]; exact hn⟩
        rcases List.mem_cons.1 hp with rfl | hp
        · exact absurd hk hn
        · exact hp

/-- C57. The component that moves origin nodes places the node of the `i`-th key at the `i`-th
point, or at the last one (of equal keys the last one counts); nothing else changes.  It does not ask
whether the nodes are origins.  An unknown node makes it raise `KeyError`.  The lookup of points is
not updated: every search gives what it gave before. -/
theorem C57_move (D : Diagram R) (keys : List Int) (points : List (Vec R)) :
    ((keys = [] ∨ points = []) → originNodesMove D keys points = .ok none) ∧
    (keys ≠ [] → points ≠ [] → (∃ k ∈ keys, k ∉ D.nodes.keys) →
      originNodesMove D keys points = .error .keyError) ∧
    (∀ (_ : keys ≠ []) (hp : 0 < points.length), (∀ k ∈ keys, k ∈ D.nodes.keys) →
      ∃ E, originNodesMove D keys points = .ok (some E) ∧
        E = { D with nodes := E.nodes } ∧ E.nodes.keys = D.nodes.keys ∧
        (∀ (i : Nat) (hi : i < keys.length) d, D.nodes.get? keys[i] = some d →
          (∀ (j : Nat) (hj : j < keys.length), i < j → keys[j] ≠ keys[i]) →
          E.nodes.get? keys[i] =
            some { d with pos := points[min i (points.length - 1)]'(by omega) }) ∧
        (∀ n, n ∉ keys → E.nodes.get? n = D.nodes.get? n) ∧
        (∀ (gkey : Vec R → String) p, searchNode gkey E p = searchNode gkey D p)) := by
  have hmem : ∀ last, ∀ p ∈ zipLike keys last points, p.1 ∈ keys := by
    intro last p hp
    obtain ⟨i, hi, rfl⟩ := List.getElem_of_mem hp
    rw [length_zipLike] at hi
    have hz := zipLike_get keys last points i
    rw [List.getElem?_eq_getElem hi, List.getElem?_eq_getElem (by rw [length_zipLike]; exact hi),
      Option.map_some] at hz
    rw [Option.some.inj hz]; exact List.getElem_mem hi
  refine ⟨?_, ?_, ?_⟩
  · rintro (rfl | rfl)
    · unfold originNodesMove; cases points.getLast? <;> simp
    · rfl
  · intro hk hs ⟨k, hkm, hkt⟩
    obtain ⟨last, hlast⟩ : ∃ a, points.getLast? = some a := ⟨_, List.getLast?_eq_some_getLast hs⟩
    obtain ⟨i, hi, rfl⟩ := List.getElem_of_mem hkm
    have hz := zipLike_get keys last points i
    rw [List.getElem?_eq_getElem hi, Option.map_some] at hz
    have he := (moveAll_spec (D := D) (zipLike keys last points)).2 ⟨_, List.mem_of_getElem? hz, hkt⟩
    simp [originNodesMove, hlast, hk, he]
  · intro hk hs hall
    have hne : points ≠ [] := by rintro rfl; simp at hs
    obtain ⟨last, hlast⟩ : ∃ a, points.getLast? = some a := ⟨_, List.getLast?_eq_some_getLast hne⟩
    obtain ⟨E, e1, e2, e3, e4⟩ := (moveAll_spec (D := D) (zipLike keys last points)).1
      fun p hp => hall _ (hmem last p hp)
    refine ⟨E, by simp [originNodesMove, hlast, hk, e1], e2, e3, ?_, ?_, ?_⟩
    · intro i hi d hd hlater
      rw [e4 _ d hd, ← padded hlast i]
      have hz := zipLike_get keys last points i
      rw [List.getElem?_eq_getElem hi, Option.map_some] at hz
      have hfind : (zipLike keys last points).reverse.find? (fun p => decide (p.1 = keys[i])) =
          some (keys[i], points[i]?.getD last) := by
        obtain ⟨hi', hz'⟩ := List.getElem?_eq_some_iff.1 hz
        have hsplit : zipLike keys last points = (zipLike keys last points).take i ++
            (keys[i], points[i]?.getD last) :: (zipLike keys last points).drop (i + 1) := by
          rw [← hz', ← List.drop_eq_getElem_cons hi', List.take_append_drop]
        rw [hsplit, List.reverse_append, List.reverse_cons, List.append_assoc, List.find?_append,
          List.find?_eq_none.2, Option.none_or]
        · simp
        · intro p hp
          rw [List.mem_reverse] at hp
          obtain ⟨j, hj, rfl⟩ := List.getElem_of_mem hp
          rw [List.length_drop, length_zipLike] at hj
          have hzj := zipLike_get keys last points (i + 1 + j)
          rw [List.getElem?_eq_getElem (show i + 1 + j < keys.length by omega), Option.map_some] at hzj
          obtain ⟨_, hzj'⟩ := List.getElem?_eq_some_iff.1 hzj
          rw [List.getElem_drop, hzj']
          simpa using hlater (i + 1 + j) (by omega) (by omega)
      rw [hfind]; rfl
    · intro n hn
      cases hd : D.nodes.get? n with
      | none =>
        rw [Dict.get?_eq_none_iff, e3]; exact (Dict.get?_eq_none_iff _ _).1 hd
      | some d =>
        rw [e4 n d hd, List.find?_eq_none.2]
        · rfl
        · intro p hp
          rw [List.mem_reverse] at hp
          have := hmem last p hp
          simp only [decide_eq_true_eq]
          rintro rfl
          exact hn this
    · intro gkey p
      rw [e2]; rfl

/-- C57. After moving the node found at `p`, the new position may be unknown although a node is
there, and the old position still leads to it: a load given at the new position is refused. -/
theorem C57_move_not_found : ∃ E, originNodesMove CompEx.made [0] [CompEx.pt 4] = .ok (some E) ∧
    E.nodeXyz 0 = .ok (CompEx.pt 4) ∧ searchNode CompEx.key E (CompEx.pt 4) = .error .keyError ∧
    searchNode CompEx.key E (CompEx.pt 0) = .ok 0 ∧
    (E.addLoad CompEx.key (.point (CompEx.pt 4)) ⟨0, 0, -1⟩).2 = .error .valueError :=
  ⟨{ CompEx.made with nodes := CompEx.made.nodes.modify 0 fun d => { d with pos := CompEx.pt 4 } },
    by decide +kernel, by decide +kernel, by decide +kernel, by decide +kernel, by decide +kernel⟩

/-! ## Reading results -/

/-- C57. The two lists of edge results are aligned with the given keys, or with the list of edges
that the component for disassembling forms returns if no keys are given, which has every edge once;
a key that is no edge makes the component raise `KeyError`. -/
theorem C57_edge_results {F : Diagram R} (w : WF F) (keys : List (Int × Int)) :
    let es := if keys = [] then F.edgeList else keys
    F.edgeList.Perm F.edges.keys ∧
    ((∀ e ∈ keys, e ∈ F.edges.keys) → ∃ ls fs, resultsEdges F keys = .ok (ls, fs) ∧
      ls.length = es.length ∧ fs.length = es.length ∧
      ∀ (i : Nat) e d, es[i]? = some e → F.edges.get? e = some d →
        ls[i]? = some d.length ∧ fs[i]? = some d.force) ∧
    ((∃ e ∈ keys, e ∉ F.edges.keys) → resultsEdges F keys = .error .keyError) := by
  intro es
  refine ⟨edgeList_perm w, fun h => ?_, fun h => ?_⟩
  · have hmem : ∀ e ∈ es, e ∈ F.edges.keys := by
      intro e he
      by_cases hk : keys = []
      · simp only [es, hk, if_true] at he
        exact (edgeList_perm w).mem_iff.1 he
      · simp only [es, hk, if_false] at he
        exact h e he
    have h1 : ∀ l : List (Int × Int), (∀ e ∈ l, e ∈ F.edges.keys) →
        ∃ r, mapE F.edgeLength2 l = .ok r ∧ r.length = l.length ∧
          ∀ (i : Nat) e d, l[i]? = some e → F.edges.get? e = some d → r[i]? = some d.length := by
      intro l
      induction l with
      | nil => intro _; exact ⟨[], rfl, rfl, by simp⟩
      | cons a l ih =>
        intro hl
        obtain ⟨r, r1, r2, r3⟩ := ih fun e he => hl e (List.mem_cons_of_mem _ he)
        obtain ⟨d, hd⟩ := (Dict.exists_get?_iff _ _).2 (hl a List.mem_cons_self)
        refine ⟨d.length :: r, by simp [mapE, edgeLength2, hd, r1], by simp [r2], ?_⟩
        intro i e d' hi hd'
        cases i with
        | zero =>
          simp only [List.getElem?_cons_zero, Option.some.injEq] at hi
          subst hi; rw [hd] at hd'; cases hd'; rfl
        | succ i => simpa using r3 i e d' (by simpa using hi) hd'
    have h2 : ∀ l : List (Int × Int), (∀ e ∈ l, e ∈ F.edges.keys) →
        ∃ r, mapE F.edgeForce l = .ok r ∧ r.length = l.length ∧
          ∀ (i : Nat) e d, l[i]? = some e → F.edges.get? e = some d → r[i]? = some d.force := by
      intro l
      induction l with
      | nil => intro _; exact ⟨[], rfl, rfl, by simp⟩
      | cons a l ih =>
        intro hl
        obtain ⟨r, r1, r2, r3⟩ := ih fun e he => hl e (List.mem_cons_of_mem _ he)
        obtain ⟨d, hd⟩ := (Dict.exists_get?_iff _ _).2 (hl a List.mem_cons_self)
        refine ⟨d.force :: r, by simp [mapE, edgeForce, hd, r1], by simp [r2], ?_⟩
        intro i e d' hi hd'
        cases i with
        | zero =>
          simp only [List.getElem?_cons_zero, Option.some.injEq] at hi
          subst hi; rw [hd] at hd'; cases hd'; rfl
        | succ i => simpa using r3 i e d' (by simpa using hi) hd'
    obtain ⟨ls, l1, l2, l3⟩ := h1 es hmem
    obtain ⟨fs, f1, f2, f3⟩ := h2 es hmem
    refine ⟨ls, fs, ?_, l2, f2, fun i e d hi hd => ⟨l3 i e d hi hd, f3 i e d hi hd⟩⟩
    show (match mapE F.edgeLength2 es with
      | .error err => .error err
      | .ok lengths => match mapE F.edgeForce es with
        | .error err => .error err
        | .ok forces => .ok (lengths, forces)) = Except.ok (ls, fs)
    rw [l1, f1]
  · have hk : keys ≠ [] := by rintro rfl; simp at h
    have : ∀ l : List (Int × Int), (∃ e ∈ l, e ∉ F.edges.keys) →
        mapE F.edgeLength2 l = .error .keyError := by
      intro l
      induction l with
      | nil => simp
      | cons a l ih =>
        rintro ⟨e, he, hn⟩
        cases hd : F.edges.get? a with
        | none => simp [mapE, edgeLength2, hd]
        | some d =>
          have : mapE F.edgeLength2 l = .error .keyError := by
            refine ih ⟨e, ?_, hn⟩
            rcases List.mem_cons.1 he with rfl | he
            · exact absurd (Dict.mem_keys_of_get? hd) hn
            · exact he
          simp [mapE, edgeLength2, hd, this]
    simp [resultsEdges, hk, this keys h]

example : resultsEdges EqEx.directQ [] = .ok ([-1, 0, -1, -1], [0, 1, 0, 0]) ∧
    resultsEdges EqEx.directQ [(3, 4), (0, 4)] = .ok ([-1, 0], [0, 1]) ∧
    resultsEdges EqEx.directQ [(4, 3)] = .error .keyError := by decide +kernel

/-! ## Form finding -/

/-- C57. A largest sequence `kmax` that is connected takes effect: the nodes of the next sequence and
the origins stay in place, and edges into the next sequence keep their force. -/
theorem C57_kmax [Field R] [LinearOrder R] [PySqrt R] {D : Diagram R} (I : ValidInput D) {k : Int}
    (hk : 0 ≤ k) {tmax : Option Nat} {eta : Option R} {F : Diagram R}
    (h : formFinding D (some k) tmax eta = .ok F) :
    (∀ m, seqOf D m = some (k + 1) → posOf F m = posOf D m) ∧
    (∀ m tr, (m, tr) ∈ D.trails → posOf F m = posOf D m) ∧
    (∀ a b d0 d, D.edges.get? (a, b) = some d0 → F.edges.get? (a, b) = some d →
      (seqOf D a = some k ∧ seqOf D b = some (k + 1) ∨
        seqOf D b = some k ∧ seqOf D a = some (k + 1)) → d.force = d0.force) :=
  C31_kmax_partial I hk h

open KEx in
/-- With one round and `kmax = 0` a form of a chain of three nodes is returned. -/
example : ∃ F, formFinding chain (some 0) (some 1) none = .ok F ∧
    (∀ m, seqOf chain m = some 1 → posOf F m = posOf chain m) := by
  obtain ⟨L, _, _, h1, _⟩ := equilibriumState_cases valid_chain (kmax := some 0)
    (by rintro _ ⟨⟩; norm_num) 1 (1 / 1000000) false
  have : ∃ F, formFinding chain (some 0) (some 1) none = .ok F := by
    unfold formFinding
    simp only [orElse, one_ne_zero, if_false]
    unfold staticEquilibrium
    rw [h1 rfl]
    exact ⟨_, rfl⟩
  obtain ⟨F, hF⟩ := this
  exact ⟨F, hF, (C57_kmax valid_chain le_rfl hF).1⟩

/-- C57. On a diagram that is ready for form finding and has direct deviation edges only, the form
finding component returns a form for all `tmax` (zero means 100) and all `eta` that are not negative,
every node of the form is in equilibrium, and the reactions that the results component reports
without keys balance the loads. -/
theorem C57_form_finding {D : Diagram ℝ} (I : ValidInput D) (hl : NonzeroTrails D)
    (hd : DirectOnly D) (tmax : Option Nat) (eta : Option ℝ) (he : ∀ x, eta = some x → 0 ≤ x) :
    ∃ F rs, formFinding D none tmax eta = .ok F ∧ (∀ n ∈ F.nodes.keys, imbalance F n = 0) ∧
      resultsSupports F [] = .ok rs ∧ rs.length = F.supportNodes.length ∧
      rs.sum = -(D.nodes.keys.map (loadAt D)).sum := by
  have ht : 1 ≤ orElse tmax 100 := by
    unfold orElse
    split
    · omega
    · split_ifs with h
      · omega
      · omega
  have hη : (0 : ℝ) ≤ orElse eta (1 / 1000000) := by
    unfold orElse
    split
    · norm_num
    · rename_i x
      split_ifs with h
      · norm_num
      · exact he x rfl
  obtain ⟨F, hF⟩ := C20_returns_without_indirect I hd ht hη
  obtain ⟨k1, k2, k3, -⟩ := C25_keeps_data I hF
  have htot := C23_global_force I hd hF
  have hres : resultsSupports F [] = .ok (F.supportNodes.map (reactionAt F)) := by
    unfold resultsSupports
    simp only [if_true]
    refine mapE_pure fun n hn => ?_
    have := mem_supportNodes.1 hn
    unfold typeOf at this
    cases hx : F.nodes.get? n with
    | none => simp [hx] at this
    | some d => simp [reactionForce, reactionAt, hx]
  refine ⟨F, _, hF, C22_exact_equilibrium I hl hd hF, hres, by simp, ?_⟩
  have hload : ∀ n ∈ D.nodes.keys, loadAt F n = loadAt D n := by
    intro n hn
    obtain ⟨d, hd⟩ := (Dict.exists_get?_iff _ _).2 hn
    obtain ⟨d', hd', e1, -⟩ := k3 n d hd
    simp [loadAt, hd, hd', e1]
  have hsum : (F.supportNodes.map (reactionAt F)).sum = (F.nodes.keys.map (reactionAt F)).sum := by
    unfold supportNodes
    have : ∀ l : List Int, l ⊆ D.nodes.keys →
        ((l.filter fun n => (F.nodes.get? n).map (·.type) = some .support).map (reactionAt F)).sum =
          (l.map (reactionAt F)).sum := by
      intro l
      induction l with
      | nil => intro _; rfl
      | cons n l ih =>
        intro hsub
        have ih := ih fun x hx => hsub (List.mem_cons_of_mem _ hx)
        obtain ⟨d, hd⟩ := (Dict.exists_get?_iff _ _).2 (hsub List.mem_cons_self)
        obtain ⟨d', hd', -, e2, -, -, e5⟩ := k3 n d hd
        by_cases hs : (F.nodes.get? n).map (·.type) = some .support
        · rw [List.filter_cons_of_pos (by simpa using hs), List.map_cons, List.map_cons,
            List.sum_cons, List.sum_cons, ih]
        · rw [List.filter_cons_of_neg (by simpa using hs), List.map_cons, List.sum_cons, ih]
          have : reactionAt F n = 0 := by
            have hne : d.type ≠ .support := by
              rw [hd', Option.map_some, e2] at hs
              simpa using hs
            simp [reactionAt, hd', e5 hne]
          rw [this, zero_add]
    exact this _ (by rw [k1]; exact List.Subset.refl _)
  rw [hsum]
  unfold totalForce at htot
  have hsplit : ∀ l : List Int, (l.map fun n => loadAt F n + reactionAt F n).sum =
      (l.map (loadAt F)).sum + (l.map (reactionAt F)).sum := by
    intro l
    induction l with
    | nil => simp
    | cons n l ih => simp only [List.map_cons, List.sum_cons, ih]; abel
  rw [hsplit, k1, List.map_congr_left hload] at htot
  rw [k1]
  exact eq_neg_of_add_eq_zero_right htot

example : ∃ F rs, formFinding EqEx.direct none (some 0) none = .ok F ∧
    (∀ n ∈ F.nodes.keys, imbalance F n = 0) ∧ resultsSupports F [] = .ok rs ∧
    rs.length = F.supportNodes.length ∧ rs.sum = -(EqEx.direct.nodes.keys.map (loadAt EqEx.direct)).sum :=
  C57_form_finding EqEx.valid_direct EqEx.nonzero_direct EqEx.directOnly_direct _ _ (by simp)

/-! ## Constrained form finding -/

/-- The registries that `solve_proxy` fills come from adding the parameters one by one. -/
theorem ofLists_history (cs : List (Constraint R)) (ps : List (Param R)) :
    HasHistory (Optimizer.ofLists cs ps) (ps.map .add) := by
  have key : ∀ (ps : List (Param R)) (o o' : Optimizer R), o.parameters = o'.parameters →
      o.pkey = o'.pkey → (ps.foldl Optimizer.addParameter o).parameters =
        (runOps o' (ps.map .add)).parameters := by
    intro ps
    induction ps with
    | nil => exact fun _ _ h _ => h
    | cons p ps ih =>
      intro o o' h1 h2
      exact ih _ _ (by simp [Optimizer.addParameter, h1, h2]) (by simp [Optimizer.addParameter, h2])
  have hc : ∀ (cs : List (Constraint R)) (o : Optimizer R),
      (cs.foldl Optimizer.addConstraint o).parameters = o.parameters ∧
        (cs.foldl Optimizer.addConstraint o).pkey = o.pkey := by
    intro cs
    induction cs with
    | nil => exact fun _ => ⟨rfl, rfl⟩
    | cons c cs ih => exact fun o => ih _
  exact key ps _ _ (hc cs _).1 (hc cs _).2

private theorem ofLists_nil_parameters (cs : List (Constraint R)) :
    (Optimizer.ofLists cs []).parameters = [] := ofLists_history cs []

private theorem ofLists_nil_constraints (ps : List (Param R)) :
    (Optimizer.ofLists [] ps).constraints = [] := by
  have : ∀ (ps : List (Param R)) (o : Optimizer R),
      (ps.foldl Optimizer.addParameter o).constraints = o.constraints := by
    intro ps
    induction ps with
    | nil => exact fun _ => rfl
    | cons p ps ih => exact fun o => ih _
  exact this ps _

/-- C57. The component for constrained form finding does nothing exactly if it is switched off or a
list is missing or empty. -/
theorem C57_idle [Field R] [LinearOrder R] [PySqrt R] (nlopt : Problem R → Run R) (ad : GradFunc R)
    (tol step : R) (switch : Bool) (D : Diagram R)
    (constraints : Option (List (Option (Constraint R))))
    (parameters : Option (List (Option (Param R)))) (s : Settings R) :
    constrainedFormFinding nlopt ad tol step switch D constraints parameters s = none ↔
      switch = false ∨ constraints = none ∨ constraints = some [] ∨ parameters = none ∨
        parameters = some [] := by
  unfold constrainedFormFinding given
  rcases constraints with _ | _ | ⟨c, cs⟩ <;> rcases parameters with _ | _ | ⟨p, ps⟩ <;>
    cases switch <;> simp

/-- C57. Otherwise nothing of the diagram changes except the numbers at the places of the given
parameters, it stays ready for form finding, and a returned form is its equilibrium, found with the
default settings and not with those of the component.  Lists of `None` items count as given, and
make the component raise `ValueError` with the diagram unchanged. -/
theorem C57_constrained [Field R] [LinearOrder R] [PySqrt R] (nlopt : Problem R → Run R)
    (ad : GradFunc R) (tol step : R) {D : Diagram R} (I : ValidInput D)
    (cs : List (Option (Constraint R))) (ps : List (Option (Param R))) (s : Settings R)
    (hc : cs ≠ []) (hp : ps ≠ []) :
    ∃ S, constrainedFormFinding nlopt ad tol step true D (some cs) (some ps) s = some S ∧
      SameExcept (fun slot => ∃ p, some p ∈ ps ∧ p.slot = slot) D S.topology ∧
      ValidInput S.topology ∧
      (∀ F, S.form = .ok F → staticEquilibrium S.topology none 100 tol false = .ok F) ∧
      ((∀ c, some c ∉ cs) ∨ (∀ p, some p ∉ ps) →
        S.form = .error .valueError ∧ S.topology = D ∧ S.ended = none) := by
  have hg : ∀ {α : Type} (l : List α), l ≠ [] → given (some l) = true := by
    intro α l hl
    cases l with
    | nil => exact absurd rfl hl
    | cons a l => rfl
  refine ⟨_, by rw [constrainedFormFinding, if_pos (by rw [hg cs hc, hg ps hp]; rfl)], ?_⟩
  simp only [Option.getD_some, Optimizer.solveProxy]
  have hh := ofLists_history (cs.filterMap id) (ps.filterMap id)
  refine ⟨(C49_frame hh _ nlopt ad tol _ D).mono ?_, (C49_ready hh _ nlopt ad tol _ I).1,
    (C49_ready hh _ nlopt ad tol _ I).2, fun hnone => ?_⟩
  · rintro slot ⟨k, p, hr, e⟩
    refine ⟨p, ?_, e⟩
    have := (registered_map_add _ _ _).1 hr
    have := List.mem_of_getElem? this.2
    simpa using this
  · have hbad : (Optimizer.ofLists (cs.filterMap id) (ps.filterMap id)).parameters = [] ∨
        (Optimizer.ofLists (cs.filterMap id) (ps.filterMap id)).constraints = [] := by
      rcases hnone with h | h
      · right
        have : cs.filterMap id = [] := by
          rw [List.filterMap_eq_nil_iff]
          rintro (_ | c) hc
          · rfl
          · exact absurd hc (h c)
        rw [this, ofLists_nil_constraints]
      · left
        have : ps.filterMap id = [] := by
          rw [List.filterMap_eq_nil_iff]
          rintro (_ | c) hc
          · rfl
          · exact absurd hc (h c)
        rw [this, ofLists_nil_parameters]
    have h := fun a => C44_value_error (Optimizer.ofLists (cs.filterMap id) (ps.filterMap id))
      ⟨none, none, none, none, none⟩ nlopt ad tol a D (hbad.imp_right Or.inl)
    exact ⟨(h _).2, (C44_not_started _ _ _ _ _ _ _ (h _).1).1, (h _).1⟩

/-- C57. A missing setting, an empty algorithm and a zero mean the default: no number of iterations
and no tolerance can be set to zero. -/
theorem C57_defaults [Field R] [LinearOrder R] [PySqrt R] (nlopt : Problem R → Run R)
    (ad : GradFunc R) (tol step : R) (switch : Bool) (D : Diagram R)
    (constraints : Option (List (Option (Constraint R))))
    (parameters : Option (List (Option (Param R)))) (s : Settings R)
    (ha : s.algorithm = none ∨ s.algorithm = some "") (hi : s.iters = none ∨ s.iters = some 0)
    (he : s.eps = none ∨ s.eps = some 0) (hk : s.kappa = none ∨ s.kappa = some 0)
    (ht : s.tmax = none ∨ s.tmax = some 0) (hη : s.eta = none ∨ s.eta = some 0) :
    constrainedFormFinding nlopt ad tol step switch D constraints parameters s =
      constrainedFormFinding nlopt ad tol step switch D constraints parameters
        ⟨some "SLSQP", some 100, some (1 / 1000000), some (1 / 100000000), some 100,
          some (1 / 1000000)⟩ := by
  obtain ⟨a, i, e, k, t, η⟩ := s
  simp only at ha hi he hk ht hη
  have o1 : ∀ {α : Type} [Zero α] [DecidableEq α] (v : Option α) (x : α), (v = none ∨ v = some 0) →
      orElse v x = x := by
    intro α _ _ v x h
    rcases h with rfl | rfl <;> simp [orElse]
  have o2 : ∀ {α : Type} [Zero α] [DecidableEq α] (x : α), orElse (some x) x = x := by
    intro α _ _ x
    simp [orElse]
  unfold constrainedFormFinding
  simp only [o1 i 100 hi, o1 e _ he, o1 k _ hk, o1 t 100 ht, o1 η _ hη, o2]
  rcases ha with rfl | rfl <;> simp

example (nlopt : Problem ℝ → Run ℝ) (ad : GradFunc ℝ) (s : Settings ℝ) :
    ∃ S, constrainedFormFinding nlopt ad 1 1 true EqEx.direct (some [none])
      (some [none, some (originNodeXParameter 0 none none)]) s = some S ∧
      S.form = .error .valueError ∧ S.topology = EqEx.direct := by
  obtain ⟨S, h, -, -, -, h5⟩ := C57_constrained nlopt ad 1 1 EqEx.valid_direct [none]
    [none, some (originNodeXParameter 0 none none)] s (by simp) (by simp)
  exact ⟨S, h, (h5 (Or.inl (by simp))).1, (h5 (Or.inl (by simp))).2.1⟩

end Props
end CEM
