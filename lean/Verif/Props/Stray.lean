import Verif.Lemmas.Stray
import Verif.Props.Returned

/-! # Property C74: form finding changes nothing away from the stored trails -/

set_option linter.unusedSectionVars false
set_option linter.unusedSimpArgs false

namespace CEM
namespace Props
open Diagram Spec TrailEx

section
variable {R : Type} [Field R] [LinearOrder R] [PySqrt R]

theorem returned_state {D : Diagram R} (w : WF D) {kmax : Option Int} {tmax : Nat} {eta : R}
    {verbose : Bool} {F : Diagram R} (h : staticEquilibrium D kmax tmax eta verbose = .ok F) :
    ∃ s, F = formUpdate (formFromTopology D) s ∧ StraySpec D kmax s ∧
      (∃ N, D.numberOfSequences = .ok N) ∧ D.trails ≠ [] := by
  obtain ⟨s, hs, rfl⟩ := staticEquilibrium_ok h
  have hne : D.trails ≠ [] := by
    intro hc
    unfold equilibriumState at hs
    rw [if_pos (by simp [numberOfTrails, hc, Dict.vals])] at hs
    simp at hs
  obtain ⟨T, N, r, hT, hN, hr, hfin⟩ := equilibriumState_ok hs
  obtain ⟨m, S, _⟩ := eqLoop_ok tmax 0 _ _ rfl hr
  have hst : r.1 = s := by
    unfold eqFinish at hfin
    split at hfin
    · simp at hfin
    · split_ifs at hfin
      · split at hfin
        · simp at hfin
        · split_ifs at hfin
          exact Except.ok.inj hfin
      · split at hfin
        · simp at hfin
        · exact Except.ok.inj hfin
      · exact Except.ok.inj hfin
  refine ⟨s, rfl, ?_, ⟨N, hN⟩, hne⟩
  rw [← hst]
  exact sweepsN_stray w hT _ S.state

/-- C74. Form finding has the nodes and edges of the diagram, and changes only
the position of nodes that are on a stored trail after its first sequence, the reaction
of supports on a stored trail (and of its nodes in sequence `kmax`), and the force of
edges that join consecutive nodes of a stored trail; for every well-formed diagram,
valid or not, and all settings. -/
theorem C74_frame {D : Diagram R} (w : WF D) {kmax : Option Int} {tmax : Nat} {eta : R}
    {verbose : Bool} {F : Diagram R} (h : staticEquilibrium D kmax tmax eta verbose = .ok F) :
    F.nodes.keys = D.nodes.keys ∧ F.edges.keys = D.edges.keys ∧
    (∀ n d, D.nodes.get? n = some d → ∃ d', F.nodes.get? n = some d' ∧
      d'.load = d.load ∧ d'.type = d.type ∧ d'.k = d.k ∧
      (¬ Movable D n → d'.pos = d.pos) ∧ (¬ Reacting D kmax n → d'.reaction = d.reaction)) ∧
    (∀ e d, D.edges.get? e = some d → ∃ d', F.edges.get? e = some d' ∧
      d'.type = d.type ∧ d'.plane = d.plane ∧ (¬ Stretched D e → d'.force = d.force)) := by
  obtain ⟨s, rfl, S, _, _⟩ := returned_state w h
  refine ⟨formNodes_keys _ _, formEdges_keys _ _, ?_, ?_⟩
  · intro n d hd
    have hg := formNodes_get? (formFromTopology D) s S.keys w.nodesNodup S.reactionsNodup n
    have hd' : (formFromTopology D).nodes.get? n = some d := hd
    rw [hd', Option.map_some] at hg
    refine ⟨_, hg, rfl, rfl, rfl, fun hm => ?_, fun hm => ?_⟩
    · show s.pos n = d.pos
      unfold EqState.pos
      rw [S.pos n hm, hd]; rfl
    · show (s.reactions.get? n).getD d.reaction = d.reaction
      rw [S.reaction n hm]; rfl
  · intro e d hd
    have hg := formEdges_get? (formFromTopology D) s S.forcesNodup e
    have hd' : (formFromTopology D).edges.get? e = some d := hd
    rw [hd', Option.map_some] at hg
    obtain ⟨h1, h2, h3⟩ := signedLength_force (formUpdate (formFromTopology D) s).nodes e
      { d with force := (s.trailForces.get? e).getD d.force }
    refine ⟨_, hg, h2, h3, fun hm => ?_⟩
    rw [h1, S.force e hm]; rfl

/-- C74. A node that is on no stored trail gets no equilibrium: if it has neither a
reaction nor edges with a force, its load is left over. -/
theorem C74_unbalanced {D : Diagram R} (w : WF D) {kmax : Option Int} {tmax : Nat} {eta : R}
    {verbose : Bool} {F : Diagram R} (h : staticEquilibrium D kmax tmax eta verbose = .ok F)
    {n : Int} (hn : n ∈ D.nodes.keys) (hoff : ∀ key tr, (key, tr) ∈ D.trails → n ∉ tr)
    (hr : reactionAt D n = 0)
    (he : ∀ e d, D.edges.get? e = some d → e.1 = n ∨ e.2 = n → d.force = 0) :
    imbalance F n = loadAt D n := by
  obtain ⟨hk, hke, hN, hE⟩ := C74_frame w h
  obtain ⟨d, hd⟩ := (Dict.exists_get?_iff _ _).2 hn
  obtain ⟨d', hd', hl, _, _, _, hre⟩ := hN n d hd
  have hr' : d'.reaction = 0 := by
    rw [hre]
    · simpa [reactionAt, hd] using hr
    · rintro ⟨tr, k, ⟨⟨key, hkey⟩, hm, _⟩, _⟩
      exact hoff key tr hkey hm
  have hsum : (F.edges.map (pull F n)).sum = 0 := by
    apply List.sum_eq_zero
    intro x hx
    obtain ⟨⟨e, de⟩, hmem, rfl⟩ := List.mem_map.1 hx
    have hnd : F.edges.keys.Nodup := by rw [hke]; exact w.edgesNodup
    have hg := Dict.get?_of_mem hnd hmem
    by_cases hc : e.1 = n ∨ e.2 = n
    · obtain ⟨d0, hd0⟩ := (Dict.exists_get?_iff D.edges e).2
        (by rw [← hke]; exact Dict.mem_keys_of_get? hg)
      obtain ⟨d1, hd1, _, _, hf⟩ := hE e d0 hd0
      rw [hg] at hd1
      have : de.force = 0 := by
        rw [Option.some.inj hd1, hf, he e d0 hd0 hc]
        rintro ⟨tr, k, ⟨h1, h2⟩ | ⟨h1, h2⟩⟩
        · obtain ⟨⟨key, hkey⟩, hm, _⟩ := h1
          obtain ⟨_, hm2, _⟩ := h2
          rcases hc with hc | hc
          · exact hoff key tr hkey (hc ▸ hm)
          · exact hoff key tr hkey (hc ▸ hm2)
        · obtain ⟨⟨key, hkey⟩, hm, _⟩ := h1
          obtain ⟨_, hm2, _⟩ := h2
          rcases hc with hc | hc
          · exact hoff key tr hkey (hc ▸ hm2)
          · exact hoff key tr hkey (hc ▸ hm)
      simp [pull, this]
    · push Not at hc
      simp [pull, hc.1, hc.2]
  unfold imbalance
  rw [hsum]
  simp [loadAt, reactionAt, hd, hd', hl, hr']

/-- C74. Form finding returns only if there is a trail and every node has a sequence. -/
theorem C74_needs_sequences {D : Diagram R} (w : WF D) {kmax : Option Int} {tmax : Nat} {eta : R}
    {verbose : Bool} {F : Diagram R} (h : staticEquilibrium D kmax tmax eta verbose = .ok F) :
    D.trails ≠ [] ∧ ∀ n ∈ D.nodes.keys, ∃ k, seqOf D n = some k := by
  obtain ⟨s, _, _, ⟨N, hN⟩, hne⟩ := returned_state w h
  refine ⟨hne, fun n hn => ?_⟩
  unfold numberOfSequences sequenceLast at hN
  cases hA : allSequences D.nodes with
  | error e => simp [hA] at hN
  | ok ks =>
    obtain ⟨d, hd⟩ := (Dict.exists_get?_iff _ _).2 hn
    obtain ⟨k, hk⟩ := allSequences_some hA _ (Dict.mem_of_get? hd)
    exact ⟨k, by unfold seqOf; rw [hd]; exact hk⟩

end

/-! ## Witness -/

namespace StrayEx

/-- Three trail edges meet at node 1; supports 0 and 2; a load at the support 0. -/
noncomputable def star : Diagram ℝ := after (fun _ => "")
  [.addNode (some 0) ⟨0, 0, 0⟩, .addNode (some 1) ⟨1, 0, 0⟩, .addNode (some 2) ⟨2, 0, 0⟩,
   .addNode (some 3) ⟨3, 0, 0⟩,
   .addEdge (.trail (.key 0) (.key 1) (-1) none), .addEdge (.trail (.key 1) (.key 2) (-1) none),
   .addEdge (.trail (.key 1) (.key 3) (-1) none), .addSupport (.key 0), .addSupport (.key 2),
   .addLoad (.key 0) ⟨0, 0, 1⟩, .buildTrails]

theorem trails_star : star.trails = [(3, [3, 1, 2])] := by rfl

theorem wf_stray : WF star := WF.after _ _

theorem returned_star (eta : ℝ) : ∃ F, staticEquilibrium star none 1 eta false = .ok F := by
  have hT : star.trailsSequences = .ok [(3, [(0, 3), (1, 1), (2, 2)])] := rfl
  have hN : star.numberOfSequences = .ok 3 := rfl
  have hS : ∃ s, sweep star [(3, [(0, 3), (1, 1), (2, 2)])] none false 3 (initState star) =
    .ok s := ⟨_, rfl⟩
  obtain ⟨s, hs⟩ := hS
  refine ⟨formUpdate (formFromTopology star) s, ?_⟩
  have : equilibriumState star none 1 eta false = .ok s := by
    unfold equilibriumState
    rw [if_neg (by rw [numberOfTrails, trails_star]; simp [Dict.vals]), hT, hN]
    simp only [Option.any_none, Bool.false_eq_true, if_false, eqLoop, ne_eq, not_true_eq_false,
      decide_false, hs, if_true, eqFinish, gt_iff_lt, lt_self_iff_false]
  unfold staticEquilibrium
  rw [this]

end StrayEx

open StrayEx in
/-- C74, witness: `build_trails` accepts a diagram in which three trail edges meet at a
node; every node has a sequence, and form finding returns a form in which the loaded
support 0 is not in equilibrium. -/
theorem C74_branching (eta : ℝ) :
    WF StrayEx.star ∧ (∀ n ∈ StrayEx.star.nodes.keys, ∃ k, seqOf StrayEx.star n = some k) ∧
    ∃ F, staticEquilibrium StrayEx.star none 1 eta false = .ok F ∧
      typeOf F 0 = some .support ∧ imbalance F 0 = ⟨0, 0, 1⟩ := by
  obtain ⟨F, hF⟩ := returned_star eta
  refine ⟨wf_stray, (C74_needs_sequences wf_stray hF).2, F, hF, ?_, ?_⟩
  · obtain ⟨d', hd', _, ht, _⟩ := (C74_frame wf_stray hF).2.2.1 0
      ⟨⟨0, 0, 0⟩, ⟨0, 0, 1⟩, 0, some 2, .support⟩ rfl
    unfold typeOf
    rw [hd', Option.map_some, ht]
  · rw [C74_unbalanced wf_stray hF (n := 0)]
    · rfl
    · exact Dict.mem_keys_of_get? (v := ⟨⟨0, 0, 0⟩, ⟨0, 0, 1⟩, 0, some 2, .support⟩) rfl
    · intro key tr hm
      rw [trails_star] at hm
      simp only [List.mem_singleton, Prod.mk.injEq] at hm
      rw [hm.2]; decide
    · rfl
    · have hE : StrayEx.star.edges = [((0, 1), ⟨.trail, -1, 0, none⟩),
        ((1, 2), ⟨.trail, -1, 0, none⟩), ((1, 3), ⟨.trail, -1, 0, none⟩)] := rfl
      intro e d hd _
      have := Dict.mem_of_get? hd
      rw [hE] at this
      simp only [List.mem_cons, Prod.mk.injEq, List.not_mem_nil, or_false] at this
      rcases this with h | h | h <;> rw [h.2]

end Props
end CEM
