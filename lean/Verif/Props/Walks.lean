import Verif.Lemmas.Walks
import Verif.Props.Trails

/-!
# C12, C14, C15: `build_trails` on every diagram

The theorems of `Props/Trails.lean` assume the degree condition in places.  Here the
outcome is described for every diagram, in terms of the walks that the specification
`Spec/Walks.lean` prescribes.
-/

set_option linter.unusedSectionVars false
set_option linter.unusedSimpArgs false

namespace CEM
namespace Props
open Diagram Spec TrailEx

variable {R : Type}

/-! ## C12 -/

/-- C12. On every diagram, whatever its trail edges look like, the walks of
`build_trails` are determined, and they decide the outcome.  The call succeeds exactly
if there is a trail edge, some support does not begin a trail, and every node is on a
walk; otherwise it raises `AssertionError`. -/
theorem C12_exact {D : Diagram R} (w : WF D) :
    ∃ ws, Walks D ws ∧ (∀ ws', Walks D ws' → ws' = ws) ∧
      let success := (∃ a b, IsTrail D a b) ∧
        (∃ n, typeOf D n = some .support ∧ ∀ tr ∈ ws, tr.head? ≠ some n) ∧
        ∀ n ∈ D.nodes.keys, ∃ tr ∈ ws, n ∈ tr
      (D.buildTrails.2 = .ok () ↔ success) ∧
      (D.buildTrails.2 = .error .assertionError ↔ ¬ success) := by
  obtain ⟨s, hs⟩ := searchTrails_terminates w
  obtain ⟨ws, hw, L⟩ := searchTrails_walks w hs
  have hb := (GenInv.search w hs).base
  refine ⟨ws, hw, fun ws' h => walks_unique h hw, ?_⟩
  intro success
  have h : D.buildTrails.2 = .ok () ↔ success := by
    rw [buildTrails_ok_iff hs, trailEdges_length_ne (w.of_sameBase hb), supportNodes_length_ne,
      unassigned_length_eq, hb.keys]
    have h1 : (∃ a b, IsTrail s.D a b) ↔ ∃ a b, IsTrail D a b := by simp [IsTrail, hb.edges]
    have h2 : (∃ n, typeOf s.D n = some .support) ↔
        ∃ n, typeOf D n = some .support ∧ ∀ tr ∈ ws, tr.head? ≠ some n := by
      refine exists_congr fun n => ?_
      rw [L.typ]
      split
      · rename_i hc
        obtain ⟨tr, h1, h2⟩ := hc
        constructor
        · intro h; simp at h
        · rintro ⟨_, h⟩; exact absurd h2 (h tr h1)
      · rename_i hc
        push Not at hc
        exact ⟨fun h => ⟨h, hc⟩, fun h => h.1⟩
    have h3 : (∀ n ∈ D.nodes.keys, n ∈ s.inTrails) ↔
        ∀ n ∈ D.nodes.keys, ∃ tr ∈ ws, n ∈ tr := by
      simp [L.inT]
    rw [h1, h2, h3]
  refine ⟨h, ?_⟩
  rw [← h]
  rcases C08_build_trails_terminates w with e | e <;> simp [e]

/-- C12. What the call writes, on every diagram and in terms of its walks.  Whether it
succeeds or not, exactly the first nodes of walks become origins; a node on a walk gets
as sequence its last position in the last walk through it, and other nodes keep their
sequences.  If the call succeeds, the stored trails are the walks keyed by their first
nodes, a later walk replacing an earlier one with the same first node. -/
theorem C12_writes {D : Diagram R} (w : WF D) {ws : List (List Int)} (hw : Walks D ws) :
    let D' := D.buildTrails.1
    (∀ n, (∃ tr ∈ ws, tr.head? = some n) → typeOf D' n = some .origin) ∧
    (∀ n, (∀ tr ∈ ws, tr.head? ≠ some n) → typeOf D' n = typeOf D n) ∧
    (∀ n tr, LastWith ws (n ∈ ·) tr → ∃ i, LastPosition tr n i ∧ seqOf D' n = some (i : Int)) ∧
    (∀ n, (∀ tr ∈ ws, n ∉ tr) → seqOf D' n = seqOf D n) ∧
    (D.buildTrails.2 = .ok () → ∀ key tr, D'.trails.get? key = some tr ↔
      LastWith ws (fun t => t.head? = some key) tr) := by
  intro D'
  obtain ⟨s, hs⟩ := searchTrails_terminates w
  obtain ⟨ws', hw', L⟩ := searchTrails_walks w hs
  obtain rfl := walks_unique hw hw'
  have hn : D'.nodes = s.D.nodes := by
    show D.buildTrails.1.nodes = _
    unfold buildTrails
    simp only [hs]
    split_ifs <;> rfl
  have hty : ∀ n, typeOf D' n = typeOf s.D n := fun n => by simp only [typeOf, hn]
  have hsq : ∀ n, seqOf D' n = seqOf s.D n := fun n => by simp only [seqOf, hn]
  refine ⟨?_, ?_, ?_, ?_, ?_⟩
  · intro n h; rw [hty, L.typ, if_pos h]
  · intro n h
    rw [hty, L.typ, if_neg]
    rintro ⟨tr, h1, h2⟩; exact h tr h1 h2
  · intro n tr h; rw [hsq]; exact L.seq n tr h
  · intro n h; rw [hsq, L.seq_none n h]
  · intro hok key tr
    obtain ⟨s', hs', hD, _⟩ := buildTrails_ok hok
    obtain rfl : s = s' := Option.some.inj (hs.symm.trans hs')
    have ht : D'.trails = s.trails := by show D.buildTrails.1.trails = _; rw [hD]
    rw [ht]
    refine ⟨fun h => ?_, fun h => L.trails key tr h⟩
    by_cases hc : ∃ t ∈ ws, t.head? = some key
    · obtain ⟨t, hlt⟩ := LastWith.exists hc
      rw [L.trails key t hlt] at h
      rw [← Option.some.inj h]; exact hlt
    · push Not at hc
      rw [L.trails_none key hc] at h
      simp [Dict.get?] at h

local instance walkSqrt : PySqrt ℚ := ⟨id⟩

/-- The branching diagram `star` violates the degree condition: the two walks from the
supports 0 and 2 both end in 3. -/
theorem walks_star : Walks star [[3, 1, 0], [3, 1, 2]] := by
  have k : star.nodes.keys = [0, 1, 2, 3] := by decide +kernel
  unfold Walks
  rw [k]
  refine .walk (by decide +kernel) (by simp)
    (walkFrom_of_walk (fuel := 5) (by decide +kernel)) ?_
  refine .skip (Or.inl (by decide +kernel)) ?_
  refine .walk (by decide +kernel) (by simp)
    (walkFrom_of_walk (fuel := 5) (by decide +kernel)) ?_
  exact .skip (Or.inl (by decide +kernel)) .done

/-- The second walk replaces the first: node 0 is in no stored trail. -/
example : WF star ∧ ¬ Regular star ∧ star.buildTrails.2 = .ok () ∧
    star.buildTrails.1.trails = [(3, [3, 1, 2])] ∧
    LastWith [[3, 1, 0], [3, 1, 2]] (fun t => t.head? = some 3) [3, 1, 2] ∧
    LastWith [[3, 1, 0], [3, 1, 2]] (0 ∈ ·) [3, 1, 0] := by
  refine ⟨WF.after _ _, ?_, by decide +kernel, by decide +kernel,
    ⟨[[3, 1, 0]], [], rfl, rfl, by simp⟩, ⟨[], [[3, 1, 2]], rfl, by simp, by simp⟩⟩
  intro g
  have h : ∀ x, x = 0 ∨ x = 2 ∨ x = 3 → TrailAdj star 1 x := by
    rintro x (rfl | rfl | rfl)
    · exact Or.inr ⟨_, rfl, by decide +kernel⟩
    · exact Or.inl ⟨_, rfl, by decide +kernel⟩
    · exact Or.inl ⟨_, rfl, by decide +kernel⟩
  have := g.deg 1 0 2 3 (h 0 (by simp)) (h 2 (by simp)) (h 3 (by simp))
  simp at this

/-- A cycle with an edge from a node to itself: the walk ends by visiting 2 twice, and
the node keeps the second of its two sequences. -/
example : WF TrailEx.loop ∧ Walks TrailEx.loop [[2, 2, 3, 1, 0]] ∧
    TrailEx.loop.buildTrails.2 = .ok () ∧
    LastPosition [2, 2, 3, 1, 0] 2 1 ∧ seqOf TrailEx.loop.buildTrails.1 2 = some 1 := by
  refine ⟨WF.after _ _, ?_, by decide +kernel, ⟨[2], [3, 1, 0], rfl, rfl, by simp⟩,
    by decide +kernel⟩
  have k : TrailEx.loop.nodes.keys = [0, 1, 2, 3] := by decide +kernel
  unfold Walks
  rw [k]
  refine .walk (by decide +kernel) (by simp)
    (walkFrom_of_walk (fuel := 5) (by decide +kernel)) ?_
  refine .skip (Or.inl (by decide +kernel)) (.skip (Or.inl (by decide +kernel))
    (.skip (Or.inl (by decide +kernel)) .done))

/-! ## C14 -/

section
variable [Field R] [DecidableEq R] [PySqrt R] (gkey : Vec R → String)

/-- C14. On every diagram the nodes that get an auxiliary trail are exactly those on no
walk. -/
theorem C14_unvisited {D : Diagram R} (w : WF D) {ws : List (List Int)} (hw : Walks D ws)
    (order : List Int → List Int) (ho : ∀ l, (order l).Perm l) (n : Int) :
    n ∈ (D.buildTrailsAux gkey order).1.auxTrails.keys ↔
      n ∈ D.nodes.keys ∧ ∀ tr ∈ ws, n ∉ tr := by
  obtain ⟨s, hs⟩ := searchTrails_terminates w
  obtain ⟨ws', hw', L⟩ := searchTrails_walks w hs
  obtain rfl := walks_unique hw hw'
  have hb := (GenInv.search w hs).base
  obtain ⟨E, hE, wE, _, _, ha, _⟩ := buildTrailsAux_extended gkey w hs order ho
  obtain ⟨_, _, _, _, _, _, _, f7, _, _⟩ := C12_frame wE
  rw [hE, f7, ha]
  have hk : ∀ (l : List Int) (k : Int), (auxDict l k).keys = l := by
    intro l
    induction l with
    | nil => intro k; rfl
    | cons x l ih =>
      intro k
      show x :: (auxDict l (k + 1)).keys = _
      rw [ih]
  rw [hk, (ho _).mem_iff]
  unfold unassigned
  rw [List.mem_filter, hb.keys]
  simp [L.inT]

/-! ## C15 -/

/-- C15, exactly: after a first call a second `build_trails(auxiliary_trails=True)`
reports the same auxiliary trails if and only if both calls report none. -/
theorem C15_same_iff {D : Diagram R} (w : WF D) (order order' : List Int → List Int)
    (ho : ∀ l, (order l).Perm l) (ho' : ∀ l, (order' l).Perm l) :
    let D1 := (D.buildTrailsAux gkey order).1
    let D2 := (D1.buildTrailsAux gkey order').1
    D2.auxTrails = D1.auxTrails ↔ D1.auxTrails = [] ∧ D2.auxTrails = [] := by
  intro D1 D2
  refine ⟨fun h => ?_, fun ⟨h1, h2⟩ => h2.trans h1.symm⟩
  suffices h0 : D1.auxTrails = [] from ⟨h0, h.trans h0⟩
  by_contra hne
  have w1 : WF D1 := w.buildTrailsAux gkey order
  obtain ⟨U, _, _, _, _, hk, _, _, _, hA⟩ := C14_aux_adds gkey w order ho
  obtain ⟨U', _, _, _, _, _, _, _, _, hA'⟩ := C14_aux_adds gkey w1 order' ho'
  obtain ⟨⟨n, e⟩, rest, hc⟩ := List.exists_cons_of_ne_nil hne
  have hg : D1.auxTrails.get? n = some e := by rw [hc]; simp [Dict.get?]
  obtain ⟨i, hi, _, he⟩ := (hA n e).1 hg
  obtain ⟨j, _, _, he'⟩ := (hA' n e).1 (by rw [← hg]; exact congrArg (fun d => Dict.get? d n) h)
  have hmem : e.2 ∈ D1.nodes.keys := by
    show e.2 ∈ (D.buildTrailsAux gkey order).1.nodes.keys
    rw [hk, List.mem_append]
    refine Or.inr (List.mem_map.2 ⟨i, List.mem_range.2 hi, ?_⟩)
    rw [he]
  have := w1.le_max _ hmem
  rw [he'] at this
  simp only at this
  omega

end

/-- Nodes 2 and 3 of `partialD` are on no walk. -/
example : WF partialD ∧ Walks partialD [[0, 1]] ∧
    (partialD.buildTrailsAux key id).1.auxTrails = [(2, (2, 4)), (3, (3, 5))] := by
  refine ⟨wf_partial, ?_, by decide +kernel⟩
  have k : partialD.nodes.keys = [0, 1, 2, 3] := by decide +kernel
  unfold Walks
  rw [k]
  refine .skip (Or.inl (by decide +kernel)) ?_
  refine .walk (by decide +kernel) (by simp)
    (walkFrom_of_walk (fuel := 5) (by decide +kernel)) ?_
  exact .skip (Or.inl (by decide +kernel)) (.skip (Or.inl (by decide +kernel)) .done)

/-- Without the degree condition the call may raise although every node is on a walk: in
`isolated` the walk from the support 2 has no edge, the support becomes an origin, and
the second search, which the call makes after adding nothing, does not reach it.  The
next call gives it an auxiliary trail. -/
theorem C14_isolated_support_raises :
    isolated.buildTrails.2 = .ok () ∧
    (isolated.buildTrailsAux key id).1.auxTrails = [] ∧
    (isolated.buildTrailsAux key id).2 = .error .assertionError ∧
    ((isolated.buildTrailsAux key id).1.buildTrailsAux key id).1.auxTrails = [(2, (2, 3))] := by
  decide +kernel

/-- Both calls may report none: the diagram `two`. -/
example : (two.buildTrailsAux key id).1.auxTrails = [] ∧
    ((two.buildTrailsAux key id).1.buildTrailsAux key id).1.auxTrails = [] := by
  decide +kernel

end Props
end CEM
