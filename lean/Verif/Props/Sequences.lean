import Verif.Props.Trails

/-!
# C16-C19: shifts, sequences, direct and indirect deviation edges
-/

set_option linter.unusedSectionVars false
set_option linter.unusedSimpArgs false

namespace CEM
namespace Props
open Diagram Spec TrailEx

variable {R : Type}

/-! ## C16 -/

theorem shiftTrail_of {D : Diagram R} {key : Int} {tr : List Int}
    (ho : typeOf D key = some .origin) (hg : D.trails.get? key = some tr) (s : Int) :
    D.shiftTrail key s = (D.assignSequences tr s, .ok ()) := by
  have h1 : D.isNodeOrigin key = .ok true := by
    unfold isNodeOrigin
    unfold typeOf at ho
    cases hc : D.nodes.get? key with
    | none => simp [hc] at ho
    | some d => simp [hc] at ho; simp [ho]
  have h2 : D.hasTrails = true := by
    unfold hasTrails numberOfTrails Dict.vals
    simp only [List.length_map, decide_eq_true_eq]
    exact List.length_pos_of_mem (Dict.mem_of_get? hg)
  unfold shiftTrail
  simp [h1, h2, hg]

theorem shiftTrail_not_trail {D : Diagram R} {key : Int} (hk : key ∉ D.trails.keys) (s : Int) :
    (D.shiftTrail key s).1 = D ∧ (D.shiftTrail key s).2 ≠ .ok () := by
  have hg : D.trails.get? key = none := by
    cases h : D.trails.get? key with
    | none => rfl
    | some v => exact absurd ((Dict.exists_get?_iff _ _).1 ⟨v, h⟩) hk
  unfold shiftTrail
  cases D.isNodeOrigin key with
  | error e => simp
  | ok b => cases b <;> simp [hg]; split_ifs <;> simp

/-- C16. On a diagram with valid trails `shift_trail(key, s)` gives the `i`-th node of
that trail the sequence `s + i` and changes nothing else: no other node, no other
attribute of the trail's nodes, no edge, no other attribute of the diagram.  For
`s ≥ 0` the trails stay valid. -/
theorem C16_shift {D : Diagram R} (w : WF D) (V : ValidTrails D) {key : Int} {tr : List Int}
    (h : (key, tr) ∈ D.trails) (s : Int) :
    (D.shiftTrail key s).2 = .ok () ∧
    (∀ (i : Nat) (hi : i < tr.length), seqOf (D.shiftTrail key s).1 tr[i] = some (s + i)) ∧
    (∀ n, n ∉ tr → (D.shiftTrail key s).1.nodes.get? n = D.nodes.get? n) ∧
    (∀ n, ((D.shiftTrail key s).1.nodes.get? n).map (fun d => { d with k := none }) =
      (D.nodes.get? n).map (fun d => { d with k := none })) ∧
    (D.shiftTrail key s).1.nodes.keys = D.nodes.keys ∧
    (D.shiftTrail key s).1 = { D with nodes := (D.shiftTrail key s).1.nodes } ∧
    (0 ≤ s → ValidTrails (D.shiftTrail key s).1) := by
  have hnd := V.trail_nodup w h
  rw [shiftTrail_valid w V h s]
  refine ⟨rfl, fun i hi => seqOf_assign D tr s hnd (fun x hx => V.mem_keys h hx) i hi, ?_, ?_,
    keys_assign _ _ _, assign_eq _ _, ?_⟩
  · intro n hn
    simp [assign_get? _ _ _ hnd, hn]
  · intro n
    simp only [assign_get? _ _ _ hnd, Option.map_map]
    congr 1
    funext d
    by_cases hn : n ∈ tr <;> simp [hn]
  · intro hs
    obtain ⟨k, rfl⟩ := Int.eq_ofNat_of_zero_le hs
    exact assign_valid w V h k

/-- C16. The last of two shifts of the same trail wins. -/
theorem C16_last_wins {D : Diagram R} (w : WF D) (V : ValidTrails D) {key : Int} {tr : List Int}
    (h : (key, tr) ∈ D.trails) (s s' : Int) :
    (D.shiftTrail key s).1.shiftTrail key s' = D.shiftTrail key s' := by
  rw [shiftTrail_valid w V h s, shiftTrail_valid w V h s']
  have hb := sameBase_assignSequences D tr s
  rw [shiftTrail_of (tr := tr), assign_assign w.nodesNodup (V.trail_nodup w h)]
  · rw [typeOf_assignSequences]; exact V.origin _ _ h
  · rw [hb.trails]; exact V.get? w h

/-- C16. Shifts of different trails commute. -/
theorem C16_commute {D : Diagram R} (w : WF D) (V : ValidTrails D) {key key' : Int}
    {tr tr' : List Int} (h : (key, tr) ∈ D.trails) (h' : (key', tr') ∈ D.trails)
    (hne : key ≠ key') (s s' : Int) :
    ((D.shiftTrail key s).1.shiftTrail key' s').1 = ((D.shiftTrail key' s').1.shiftTrail key s).1 := by
  rw [shiftTrail_valid w V h s, shiftTrail_valid w V h' s']
  have hb := sameBase_assignSequences D tr s
  have hb' := sameBase_assignSequences D tr' s'
  rw [shiftTrail_of (tr := tr'), shiftTrail_of (tr := tr)]
  · refine assign_comm w.nodesNodup (V.trail_nodup w h) (V.trail_nodup w h') ?_ s s'
    intro x hx hx'
    exact hne (congrArg Prod.fst (V.unique w h h' hx hx'))
  · rw [typeOf_assignSequences]; exact V.origin _ _ h
  · rw [hb'.trails]; exact V.get? w h
  · rw [typeOf_assignSequences]; exact V.origin _ _ h'
  · rw [hb.trails]; exact V.get? w h'

/-- The last shift of trail `key` in a history of shifts. -/
def lastShift (key : Int) : List (Int × Int) → Option Int
  | [] => none
  | (k, s) :: l => (lastShift key l).or (if k = key then some s else none)

/-- A history of `shift_trail` calls, failing ones included. -/
def shifts (D : Diagram R) (l : List (Int × Int)) : Diagram R :=
  l.foldl (fun D p => (D.shiftTrail p.1 p.2).1) D

private theorem shifts_spec {D E : Diagram R} (w : WF D) (V : ValidTrails D) (hb : SameBase D E)
    (ht : ∀ n, typeOf E n = typeOf D n) (l : List (Int × Int)) :
    SameBase D (shifts E l) ∧ (∀ n, typeOf (shifts E l) n = typeOf D n) ∧
    ∀ key tr, (key, tr) ∈ D.trails → ∀ (i : Nat) (hi : i < tr.length),
      seqOf (shifts E l) tr[i] = ((lastShift key l).map (· + (i : Int))).or (seqOf E tr[i]) := by
  induction l generalizing E with
  | nil => exact ⟨hb, ht, fun _ _ _ i hi => by simp [shifts, lastShift]⟩
  | cons p l ih =>
    obtain ⟨k, s⟩ := p
    by_cases hk : k ∈ D.trails.keys
    · obtain ⟨t, htr⟩ := Dict.mem_keys_iff.1 hk
      have hE : E.shiftTrail k s = (E.assignSequences t s, .ok ()) := by
        apply shiftTrail_of
        · rw [ht]; exact V.origin _ _ htr
        · rw [hb.trails]; exact V.get? w htr
      have hnd := V.trail_nodup w htr
      have hmem : ∀ x ∈ t, x ∈ E.nodes.keys := by
        intro x hx; rw [hb.keys]; exact V.mem_keys htr hx
      obtain ⟨h1, h2, h3⟩ := ih (E := E.assignSequences t s)
        (hb.trans (sameBase_assignSequences E t s))
        (fun n => by rw [typeOf_assignSequences]; exact ht n)
      have hsh : shifts E ((k, s) :: l) = shifts (E.assignSequences t s) l := by
        simp [shifts, hE]
      rw [hsh]
      refine ⟨h1, h2, ?_⟩
      intro key tr hm i hi
      rw [h3 key tr hm i hi]
      by_cases he : k = key
      · subst he
        have : tr = t := by
          have a := V.get? w hm
          have b := V.get? w htr
          rw [a] at b; exact Option.some.inj b
        subst this
        rw [seqOf_assign E tr s hnd hmem i hi]
        simp only [lastShift, if_pos]
        cases lastShift k l <;> simp
      · have : tr[i] ∉ t := by
          intro hc
          exact he (congrArg Prod.fst (V.unique w htr hm hc (List.getElem_mem hi)))
        rw [seqOf_assign_not_mem _ _ _ _ this]
        simp only [lastShift, if_neg he]
        cases lastShift key l <;> simp
    · have hE : (E.shiftTrail k s).1 = E := (shiftTrail_not_trail (by rw [hb.trails]; exact hk) s).1
      have hsh : shifts E ((k, s) :: l) = shifts E l := by simp [shifts, hE]
      rw [hsh]
      obtain ⟨h1, h2, h3⟩ := ih hb ht
      refine ⟨h1, h2, ?_⟩
      intro key tr hm i hi
      rw [h3 key tr hm i hi]
      have : k ≠ key := by rintro rfl; exact hk (Dict.mem_keys_iff.2 ⟨_, hm⟩)
      simp only [lastShift, if_neg this]
      cases lastShift key l <;> simp

/-- C16, all histories. After any sequence of `shift_trail` calls (including failing
ones) the `i`-th node of a trail has the sequence `s + i` where `s` is the argument of
the last shift of that trail, or its original sequence if it was never shifted. -/
theorem C16_history {D : Diagram R} (w : WF D) (V : ValidTrails D) (l : List (Int × Int))
    {key : Int} {tr : List Int} (h : (key, tr) ∈ D.trails) (i : Nat) (hi : i < tr.length) :
    seqOf (shifts D l) tr[i] =
      match lastShift key l with
      | some s => some (s + i)
      | none => seqOf D tr[i] := by
  rw [(shifts_spec w V (SameBase.refl D) (fun _ => rfl) l).2.2 key tr h i hi]
  cases lastShift key l <;> simp

/-- C16. A shift fails, and leaves the diagram unchanged, if the key is no node
(`KeyError`), no origin (`AssertionError`), if there are no trails (`ValueError`), or if
the origin has no trail (`KeyError`). -/
theorem C16_errors (D : Diagram R) (key s : Int) :
    (typeOf D key = none → D.shiftTrail key s = (D, .error .keyError)) ∧
    (∀ t, typeOf D key = some t → t ≠ .origin → D.shiftTrail key s = (D, .error .assertionError)) ∧
    (typeOf D key = some .origin → D.trails = [] → D.shiftTrail key s = (D, .error .valueError)) ∧
    (typeOf D key = some .origin → D.trails ≠ [] → key ∉ D.trails.keys →
      D.shiftTrail key s = (D, .error .keyError)) := by
  refine ⟨?_, ?_, ?_, ?_⟩
  · intro h
    unfold typeOf at h
    cases hc : D.nodes.get? key with
    | some d => simp [hc] at h
    | none => simp [shiftTrail, isNodeOrigin, hc]
  · intro t h ht
    unfold typeOf at h
    cases hc : D.nodes.get? key with
    | none => simp [hc] at h
    | some d =>
      simp only [hc, Option.map_some, Option.some.injEq] at h
      simp [shiftTrail, isNodeOrigin, hc, h, ht]
  · intro h ht
    unfold typeOf at h
    cases hc : D.nodes.get? key with
    | none => simp [hc] at h
    | some d =>
      simp only [hc, Option.map_some, Option.some.injEq] at h
      simp [shiftTrail, isNodeOrigin, hc, h, hasTrails, numberOfTrails, Dict.vals, ht]
  · intro h ht hk
    unfold typeOf at h
    have hg : D.trails.get? key = none := by
      cases h : D.trails.get? key with
      | none => rfl
      | some v => exact absurd ((Dict.exists_get?_iff _ _).1 ⟨v, h⟩) hk
    cases hc : D.nodes.get? key with
    | none => simp [hc] at h
    | some d =>
      simp only [hc, Option.map_some, Option.some.injEq] at h
      have hl : D.hasTrails = true := by
        unfold hasTrails numberOfTrails Dict.vals
        simp only [List.length_map, decide_eq_true_eq]
        exact List.length_pos_iff.2 ht
      simp [shiftTrail, isNodeOrigin, hc, h, hg, hl]

section
local instance seqSqrt : PySqrt ℚ := ⟨id⟩

/-- The example diagram with its trails `0-1-2` and `4-3`. -/
def TrailEx.twoBuilt : Diagram ℚ := two.buildTrails.1

theorem TrailEx.valid_twoBuilt : WF twoBuilt ∧ ValidTrails twoBuilt :=
  have h := C10_trails_partition wf_two regular_two (by decide +kernel)
  have hw : twoBuilt = after key
      (nodes 5 ++ [trail 0 1, trail 2 1, sup 2, trail 3 4, sup 3, dev 0 4, dev 1 4] ++ [.buildTrails]) := by
    simp only [twoBuilt, two, after, run, List.foldl_append, List.foldl_cons, List.foldl_nil, step]
  ⟨hw ▸ WF.after _ _, h.1⟩

/-- Shifting both trails of the example, one of them twice and once with a bad key. -/
example : (0, [0, 1, 2]) ∈ twoBuilt.trails ∧ (4, [4, 3]) ∈ twoBuilt.trails ∧
    lastShift 4 [(4, 7), (0, 3), (4, 2), (1, 9)] = some 2 ∧
    [0, 1, 2, 3, 4].map (seqOf (shifts twoBuilt [(4, 7), (0, 3), (4, 2), (1, 9)])) =
      [some 3, some 4, some 5, some 3, some 2] := by decide +kernel

end

/-! ## C17 -/

/-- Every node has a sequence. -/
def AllSequenced (D : Diagram R) : Prop := ∀ n ∈ D.nodes.keys, ∃ k, seqOf D n = some k

private theorem isDirect_of {D : Diagram R} {e : Int × Int} {d : EdgeData R} {i j : Int}
    (hd : D.edges.get? e = some d) (hi : seqOf D e.1 = some i) (hj : seqOf D e.2 = some j) :
    D.isDirectDeviationEdge e = .ok (decide (d.type = .deviation ∧ i = j)) ∧
    D.isIndirectDeviationEdge e = .ok (decide (d.type = .deviation ∧ i ≠ j)) := by
  unfold isDirectDeviationEdge isIndirectDeviationEdge isDeviationEdgePredicate isDeviationEdge
  have he : D.edgeSequence e = .ok (i, j) := edgeSequence_of hi hj
  by_cases ht : d.type = .deviation <;> simp [hd, ht, he]

/-- C17, one edge. On a diagram with all sequences assigned every stored edge is direct
exactly if it is a deviation edge between nodes of equal sequence, indirect exactly if
it is one between nodes of different sequence. -/
theorem C17_classification {D : Diagram R} {a b i j : Int} {d : EdgeData R}
    (hd : D.edges.get? (a, b) = some d) (hi : seqOf D a = some i) (hj : seqOf D b = some j) :
    (D.isDirectDeviationEdge (a, b) = .ok true ↔ d.type = .deviation ∧ i = j) ∧
    (D.isIndirectDeviationEdge (a, b) = .ok true ↔ d.type = .deviation ∧ i ≠ j) ∧
    (d.type ≠ .deviation → D.isDirectDeviationEdge (a, b) = .ok false ∧
      D.isIndirectDeviationEdge (a, b) = .ok false) := by
  obtain ⟨h1, h2⟩ := isDirect_of (e := (a, b)) hd hi hj
  rw [h1, h2]
  refine ⟨by simp, by simp, fun h => by simp [h]⟩

/-- C17. The direct and the indirect deviation edges are a partition of the deviation
edges, without repetitions: the counts add up.  Membership is characterised by the
stored type and the sequences of the two ends. -/
theorem C17_partition {D : Diagram R} (w : WF D) (hs : AllSequenced D) :
    ∃ dir ind, D.directDeviationEdges = .ok dir ∧ D.indirectDeviationEdges = .ok ind ∧
      (dir ++ ind).Perm D.deviationEdges ∧ (dir ++ ind).Nodup ∧
      D.deviationEdges.length = dir.length + ind.length ∧
      (∀ a b, (a, b) ∈ D.deviationEdges ↔ ∃ d, D.edges.get? (a, b) = some d ∧ d.type = .deviation) ∧
      (∀ a b, (a, b) ∈ dir ↔ ∃ d, D.edges.get? (a, b) = some d ∧ d.type = .deviation ∧
        seqOf D a = seqOf D b) ∧
      (∀ a b, (a, b) ∈ ind ↔ ∃ d, D.edges.get? (a, b) = some d ∧ d.type = .deviation ∧
        seqOf D a ≠ seqOf D b) := by
  have hnd : D.edgeList.Nodup := by
    unfold edgeList
    rw [List.nodup_flatMap]
    refine ⟨fun u _ => w.edgesNodup.filter _, ?_⟩
    refine w.nodesNodup.imp ?_
    intro a b hab
    rw [Function.onFun, List.disjoint_left]
    intro e h1 h2
    simp only [List.mem_filter, decide_eq_true_eq] at h1 h2
    exact hab (h1.2.symm.trans h2.2)
  have key : ∀ e ∈ D.edgeList, ∃ d i j, D.edges.get? e = some d ∧ seqOf D e.1 = some i ∧
      seqOf D e.2 = some j := by
    intro e he
    rw [mem_edgeList w] at he
    obtain ⟨d, hd⟩ := (Dict.exists_get?_iff _ _).2 he
    obtain ⟨i, hi⟩ := hs _ (w.edge_left e he)
    obtain ⟨j, hj⟩ := hs _ (w.edge_right e he)
    exact ⟨d, i, j, hd, hi, hj⟩
  let isDev : Int × Int → Bool := fun e => (D.edges.get? e).map (·.type) = some .deviation
  let same : Int × Int → Bool := fun e => seqOf D e.1 = seqOf D e.2
  have h1 : D.directDeviationEdges = .ok ((D.edgeList.filter isDev).filter same) := by
    unfold directDeviationEdges
    rw [filterE_pure (q := fun e => same e && isDev e), List.filter_filter]
    intro e he
    obtain ⟨d, i, j, hd, hi, hj⟩ := key e he
    rw [(isDirect_of hd hi hj).1]
    simp only [same, isDev, hd, hi, hj]
    by_cases h : d.type = .deviation <;> by_cases h' : i = j <;> simp [h, h']
  have h2 : D.indirectDeviationEdges = .ok ((D.edgeList.filter isDev).filter (fun e => !same e)) := by
    unfold indirectDeviationEdges
    rw [filterE_pure (q := fun e => !same e && isDev e), List.filter_filter]
    intro e he
    obtain ⟨d, i, j, hd, hi, hj⟩ := key e he
    rw [(isDirect_of hd hi hj).2]
    simp only [same, isDev, hd, hi, hj]
    by_cases h : d.type = .deviation <;> by_cases h' : i = j <;> simp [h, h']
  have hdev : D.deviationEdges = D.edgeList.filter isDev := rfl
  have hp : ((D.edgeList.filter isDev).filter same ++
      (D.edgeList.filter isDev).filter (fun e => !same e)).Perm (D.edgeList.filter isDev) :=
    List.filter_append_perm _ _
  have hmem : ∀ a b, (a, b) ∈ D.edgeList.filter isDev ↔
      ∃ d, D.edges.get? (a, b) = some d ∧ d.type = .deviation := by
    intro a b
    rw [List.mem_filter, mem_edgeList w]
    simp only [isDev, decide_eq_true_eq, Option.map_eq_some_iff]
    exact ⟨fun h => h.2, fun h => ⟨(Dict.exists_get?_iff _ _).1 ⟨_, h.choose_spec.1⟩, h⟩⟩
  refine ⟨_, _, h1, h2, ?_, hp.nodup_iff.2 (hnd.filter _), ?_, ?_, ?_, ?_⟩
  · rw [hdev]; exact hp
  · rw [hdev, ← hp.length_eq, List.length_append]
  · rw [hdev]; exact hmem
  · intro a b
    rw [List.mem_filter, hmem]
    simp only [same, decide_eq_true_eq]
    exact ⟨fun ⟨⟨d, h, h'⟩, h''⟩ => ⟨d, h, h', h''⟩, fun ⟨d, h, h', h''⟩ => ⟨⟨d, h, h'⟩, h''⟩⟩
  · intro a b
    rw [List.mem_filter, hmem]
    simp only [same, Bool.not_eq_true', decide_eq_false_iff_not]
    exact ⟨fun ⟨⟨d, h, h'⟩, h''⟩ => ⟨d, h, h', h''⟩, fun ⟨d, h, h', h''⟩ => ⟨⟨d, h, h'⟩, h''⟩⟩

/-- C17. A deviation edge with an end that has no sequence makes both tests raise
`ValueError`, and so do the listings of direct and indirect edges. -/
theorem C17_missing_sequence {D : Diagram R} (w : WF D) {a b : Int} {d : EdgeData R}
    (hd : D.edges.get? (a, b) = some d) (ht : d.type = .deviation)
    (hm : seqOf D a = none ∨ seqOf D b = none) :
    D.isDirectDeviationEdge (a, b) = .error .valueError ∧
    D.isIndirectDeviationEdge (a, b) = .error .valueError ∧
    D.directDeviationEdges = .error .valueError ∧
    D.indirectDeviationEdges = .error .valueError := by
  have hk : ∀ {e : Int × Int} {d : EdgeData R}, D.edges.get? e = some d → e ∈ D.edges.keys :=
    fun h => (Dict.exists_get?_iff _ _).1 ⟨_, h⟩
  have hns : ∀ n ∈ D.nodes.keys, D.nodeSequence n = .error .valueError ∨ ∃ k, D.nodeSequence n = .ok k := by
    intro n hn
    cases h : seqOf D n with
    | none => exact Or.inl (nodeSequence_none hn h)
    | some k => exact Or.inr ⟨k, nodeSequence_of h⟩
  have hseq : D.edgeSequence (a, b) = .error .valueError := by
    unfold edgeSequence
    have ha := w.edge_left _ (hk hd)
    have hb := w.edge_right _ (hk hd)
    rcases hm with h | h
    · simp [nodeSequence_none ha h]
    · rcases hns a ha with h' | ⟨k, h'⟩
      · simp [h']
      · simp [h', nodeSequence_none hb h]
  have hall : ∀ e ∈ D.edges.keys, ∀ err, D.edgeSequence e = .error err → err = .valueError := by
    intro e he err h
    unfold edgeSequence at h
    rcases hns e.1 (w.edge_left e he) with h1 | ⟨k, h1⟩
    · simp [h1] at h; exact h.symm
    · rcases hns e.2 (w.edge_right e he) with h2 | ⟨k', h2⟩
      · simp [h1, h2] at h; exact h.symm
      · simp [h1, h2] at h
  have hdir : D.isDirectDeviationEdge (a, b) = .error .valueError := by
    simp [isDirectDeviationEdge, isDeviationEdgePredicate, isDeviationEdge, hd, ht, hseq]
  have hind : D.isIndirectDeviationEdge (a, b) = .error .valueError := by
    simp [isIndirectDeviationEdge, isDeviationEdgePredicate, isDeviationEdge, hd, ht, hseq]
  refine ⟨hdir, hind, ?_, ?_⟩
  · refine filterE_error ((mem_edgeList w).2 (hk hd)) hdir ?_
    intro e he err h
    rw [mem_edgeList w] at he
    obtain ⟨d', hd'⟩ := (Dict.exists_get?_iff _ _).2 he
    simp only [isDirectDeviationEdge, isDeviationEdgePredicate, isDeviationEdge, hd'] at h
    by_cases ht' : d'.type = .deviation
    · simp only [ht', decide_true] at h
      cases hc : D.edgeSequence e with
      | error e' => simp [hc] at h; subst h; exact hall e he _ hc
      | ok v => simp [hc] at h
    · simp [ht'] at h
  · refine filterE_error ((mem_edgeList w).2 (hk hd)) hind ?_
    intro e he err h
    rw [mem_edgeList w] at he
    obtain ⟨d', hd'⟩ := (Dict.exists_get?_iff _ _).2 he
    simp only [isIndirectDeviationEdge, isDeviationEdgePredicate, isDeviationEdge, hd'] at h
    by_cases ht' : d'.type = .deviation
    · simp only [ht', decide_true] at h
      cases hc : D.edgeSequence e with
      | error e' => simp [hc] at h; subst h; exact hall e he _ hc
      | ok v => simp [hc] at h
    · simp [ht'] at h

/-- The example diagram has one direct and one indirect deviation edge; shifting a
trail turns both indirect; before `build_trails` the test raises. -/
example : (∀ n ∈ twoBuilt.nodes.keys, (seqOf twoBuilt n).isSome) ∧
    twoBuilt.directDeviationEdges.toOption = some [(0, 4)] ∧
    twoBuilt.indirectDeviationEdges.toOption = some [(1, 4)] ∧
    (twoBuilt.shiftTrail 4 5).1.indirectDeviationEdges.toOption = some [(0, 4), (1, 4)] ∧
    two.directDeviationEdges.toOption = none ∧ seqOf two 0 = none := by decide +kernel

/-! ## C18 -/

/-- C18. A diagram without nodes has no sequences: `max` of nothing is a `ValueError`. -/
theorem C18_no_nodes {D : Diagram R} (h : D.nodes.keys = []) :
    D.sequences = .error .valueError ∧ D.numberOfSequences = .error .valueError := by
  have h0 : D.nodes = [] := by simpa [Dict.keys] using h
  have h1 : D.numberOfSequences = .error .valueError := by
    simp [numberOfSequences, sequenceLast, h0, allSequences]
  exact ⟨by simp [sequences, h1], h1⟩

example : (Diagram.empty : Diagram ℚ).numberOfSequences = .error .valueError := (C18_no_nodes rfl).2

/-- C18. With a non-negative sequence on every node of a non-empty diagram,
`sequences()` yields `number_of_sequences()` tuples, the `k`-th holding exactly the
nodes of sequence `k`; every node occurs in exactly one tuple exactly once, and the
last tuple is not empty. -/
theorem C18_sequences {D : Diagram R} (w : WF D) (hne : D.nodes.keys ≠ [])
    (hs : ∀ n ∈ D.nodes.keys, ∃ k, seqOf D n = some k ∧ 0 ≤ k) :
    ∃ L, D.sequences = .ok L ∧ D.numberOfSequences = .ok (L.length : Int) ∧
      (∀ (k : Nat) (hk : k < L.length) (n : Int), n ∈ L[k] ↔ seqOf D n = some (k : Int)) ∧
      L.flatten.Perm D.nodes.keys ∧ (∀ hl : L ≠ [], L.getLast hl ≠ []) ∧ L ≠ [] := by
  have hs' : ∀ n ∈ D.nodes.keys, ∃ k, seqOf D n = some k := fun n hn =>
    let ⟨k, h, _⟩ := hs n hn; ⟨k, h⟩
  obtain ⟨m, hm, hle, n0, hn0, hn0m⟩ := sequenceLast_spec w.nodesNodup hne hs'
  have hm0 : 0 ≤ m := by
    obtain ⟨k, h1, h2⟩ := hs n0 hn0
    rw [hn0m] at h1; obtain rfl := Option.some.inj h1; exact h2
  have hnum : D.numberOfSequences = .ok (m + 1) := by simp [numberOfSequences, hm]
  let f : Int → List Int := fun k => D.nodes.keys.filter fun n => seqOf D n = some k
  have hseq : D.sequences = .ok ((pyRange (m + 1)).map f) := by
    unfold sequences
    rw [hnum]
    exact mapE_pure fun k _ => sequenceAt_of hs' k
  have hlen : ((pyRange (m + 1)).map f).length = (m + 1).toNat := by simp [pyRange]
  have hget : ∀ (k : Nat) (hk : k < ((pyRange (m + 1)).map f).length),
      ((pyRange (m + 1)).map f)[k] = f k := by
    intro k hk; simp [pyRange]
  have hmem : ∀ (k : Int) n, n ∈ f k ↔ seqOf D n = some k := by
    intro k n
    simp only [f, List.mem_filter, decide_eq_true_eq]
    refine ⟨fun h => h.2, fun h => ⟨?_, h⟩⟩
    rw [← Dict.exists_get?_iff]
    unfold seqOf at h
    cases hc : D.nodes.get? n with
    | none => simp [hc] at h
    | some d => exact ⟨d, rfl⟩
  have hne' : (pyRange (m + 1)).map f ≠ [] := by
    rw [← List.length_pos_iff, hlen]; omega
  refine ⟨_, hseq, ?_, ?_, ?_, ?_, hne'⟩
  · rw [hnum, hlen]; congr 1; omega
  · intro k hk n
    rw [hget k hk, hmem]
  · rw [List.perm_ext_iff_of_nodup _ w.nodesNodup]
    · intro n
      rw [List.mem_flatten]
      constructor
      · rintro ⟨l, hl, hn⟩
        obtain ⟨k, _, rfl⟩ := List.mem_map.1 hl
        exact (List.mem_filter.1 hn).1
      · intro hn
        obtain ⟨k, h1, h2⟩ := hs n hn
        exact ⟨f k, List.mem_map.2 ⟨k, mem_pyRange.2 ⟨h2, by have := hle n hn k h1; omega⟩, rfl⟩,
          (hmem k n).2 h1⟩
    · rw [List.nodup_flatten]
      refine ⟨?_, ?_⟩
      · intro l hl
        obtain ⟨k, _, rfl⟩ := List.mem_map.1 hl
        exact w.nodesNodup.filter _
      · rw [List.pairwise_map]
        have : (pyRange (m + 1)).Nodup := by
          unfold pyRange
          exact List.nodup_range.map (fun a b h => by simpa using h)
        refine this.imp ?_
        intro a b hab
        rw [List.disjoint_left]
        intro n h1 h2
        rw [hmem] at h1 h2
        rw [h1] at h2
        exact hab (Option.some.inj h2)
  · intro hl
    rw [List.getLast_eq_getElem, hget _ (by rw [hlen]; omega)]
    have : n0 ∈ f m := (hmem m n0).2 hn0m
    rw [show (((((pyRange (m + 1)).map f).length - 1 : Nat)) : Int) = m by rw [hlen]; omega]
    exact List.ne_nil_of_mem this

/-- The sequences of the example after shifting a trail; tuple 0 holds one node. -/
example : (∀ n ∈ (twoBuilt.shiftTrail 4 2).1.nodes.keys,
      (seqOf (twoBuilt.shiftTrail 4 2).1 n).any (0 ≤ ·) = true) ∧
    (twoBuilt.shiftTrail 4 2).1.sequences.toOption = some [[0], [1], [2, 4], [3]] := by
  decide +kernel

/-! ## C19 -/

theorem seq_injective {D : Diagram R} (V : ValidTrails D) {key : Int} {tr : List Int}
    (h : (key, tr) ∈ D.trails) : ∀ a ∈ tr, ∀ b ∈ tr, seqOf D a = seqOf D b → a = b := by
  obtain ⟨s, hs⟩ := V.seq key tr h
  intro a ha b hb hab
  obtain ⟨i, hi, rfl⟩ := List.getElem_of_mem ha
  obtain ⟨j, hj, rfl⟩ := List.getElem_of_mem hb
  rw [hs i hi, hs j hj] at hab
  have : i = j := by simpa using hab
  subst this; rfl

/-- C19. On a diagram with valid trails `trails_sequences()` has exactly the keys of the
trails, and `trails_sequences()[key][k]` is `n` exactly if `n` is a node of the trail
keyed by `key` whose sequence is `k`. -/
theorem C19_inverse {D : Diagram R} (w : WF D) (V : ValidTrails D) :
    ∃ T, D.trailsSequences = .ok T ∧ (∀ key, (T.get? key).isSome ↔ key ∈ D.trails.keys) ∧
      ∀ key tr, (key, tr) ∈ D.trails → ∃ m, T.get? key = some m ∧
        D.trailSequences key = .ok m ∧
        ∀ k n, m.get? k = some n ↔ n ∈ tr ∧ seqOf D n = some k := by
  have h1 : ∀ key tr, (key, tr) ∈ D.trails → ∃ m, D.trailSequences key = .ok m ∧
      ∀ k n, m.get? k = some n ↔ n ∈ tr ∧ seqOf D n = some k := by
    intro key tr h
    obtain ⟨s, hs⟩ := V.seq key tr h
    obtain ⟨m, hm, hspec⟩ := trailSequencesLoop_spec (D := D) tr [] (by
      intro n hn
      obtain ⟨i, hi, rfl⟩ := List.getElem_of_mem hn
      exact ⟨_, hs i hi⟩) (seq_injective V h)
    refine ⟨m, by simp [trailSequences, V.get? w h, hm], ?_⟩
    intro k n
    rw [hspec]
    simp [Dict.get?]
  let f : Int → Dict Int Int := fun key => (D.trailSequences key).toOption.getD []
  obtain ⟨T, hT, hspec⟩ := trailsSequencesLoop_spec (D := D) D.trails.keys [] f (by
    intro key hk
    obtain ⟨tr, htr⟩ := Dict.mem_keys_iff.1 hk
    obtain ⟨m, hm, _⟩ := h1 key tr htr
    simp [f, hm, Except.toOption])
  refine ⟨T, hT, ?_, ?_⟩
  · intro key
    rw [hspec]
    by_cases h : key ∈ D.trails.keys <;> simp [h, Dict.get?]
  · intro key tr h
    obtain ⟨m, hm, hms⟩ := h1 key tr h
    refine ⟨m, ?_, hm, hms⟩
    rw [hspec, if_pos (Dict.mem_keys_iff.2 ⟨_, h⟩)]
    simp [f, hm, Except.toOption]

/-- On the example, after a shift. -/
example : ((twoBuilt.shiftTrail 4 2).1.trailsSequences).toOption =
    some [(0, [(0, 0), (1, 1), (2, 2)]), (4, [(2, 4), (3, 3)])] := by decide +kernel

end Props
end CEM
