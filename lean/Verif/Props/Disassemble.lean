import Verif.Model.Disassemble
import Verif.Props.Queries
import Verif.Props.Equilibrium

/-!
# C64: taking diagrams apart in Grasshopper
-/

set_option linter.unusedSectionVars false
set_option linter.unusedSimpArgs false

namespace CEM
namespace Props
open Diagram Spec TrailEx EqEx Component

variable {R : Type}

/-- Sequences are known for all nodes of a diagram with valid trails. -/
private theorem sequenced_valid {D : Diagram R} (V : ValidTrails D) :
    ∀ n ∈ D.nodes.keys, ∃ k, seqOf D n = some k ∧ 0 ≤ k := by
  intro n hn
  obtain ⟨⟨key, tr⟩, h, hnt⟩ := List.mem_flatMap.1 (V.partition.mem_iff.2 hn)
  obtain ⟨s, hs⟩ := V.seq key tr h
  obtain ⟨i, hi, rfl⟩ := List.getElem_of_mem hnt
  exact ⟨_, hs i hi, by omega⟩

/-- C64. A topology diagram that is ready for form finding is taken apart without loss:
the parts are nodes and edges of the diagram, each once; every edge is given as a trail
edge or as a deviation edge; every node is in exactly one sequence, that of its own
number, and in exactly one trail; trails start at listed origins, and the supports are
the last nodes of the trails. -/
theorem C64_topology [Field R] {D : Diagram R} (I : ValidInput D) :
    ∃ p, disassembleTopology D = .ok p ∧
      (∀ n, n ∈ p.nodes ↔ ∃ d, D.nodes.get? n = some d) ∧ p.nodes.Nodup ∧
      (∀ e, e ∈ p.edges ↔ ∃ d, D.edges.get? e = some d) ∧ p.edges.Nodup ∧
      (p.trailEdges ++ p.deviationEdges).Perm p.edges ∧
      (∀ e, e ∈ p.trailEdges ↔ ∃ d, D.edges.get? e = some d ∧ d.type = .trail) ∧
      (∀ e, e ∈ p.deviationEdges ↔ ∃ d, D.edges.get? e = some d ∧ d.type = .deviation) ∧
      p.sequences.flatten.Perm p.nodes ∧
      (∀ (k : Nat) (hk : k < p.sequences.length) (n : Int),
        n ∈ p.sequences[k] ↔ seqOf D n = some (k : Int)) ∧
      p.trails.flatten.Perm p.nodes ∧
      (∀ tr ∈ p.trails, ∃ o ∈ p.origins, tr.head? = some o) ∧
      (∀ n, n ∈ p.origins ↔ typeOf D n = some .origin) ∧
      (p.trails.filterMap List.getLast?).Perm p.supports ∧
      p.trailEdges.length + p.trails.length = p.nodes.length ∧
      (∀ a, a ∈ p.auxiliary ↔ ∃ k, (k, a) ∈ D.auxTrails) := by
  have w := I.wf
  have V := I.trails
  have hne : D.nodes.keys ≠ [] := by
    obtain ⟨⟨key, tr⟩, h⟩ := List.exists_mem_of_ne_nil _ I.nonempty
    obtain ⟨rest, rfl⟩ := V.head key tr h
    exact List.ne_nil_of_mem (a := key)
      (V.partition.mem_iff.1 (List.mem_flatMap.2 ⟨_, h, List.mem_cons_self⟩))
  obtain ⟨L, hL, -, hk, hp, -⟩ := C18_sequences w hne (sequenced_valid V)
  have hmem : ∀ (t : EdgeType) (e : Int × Int),
      e ∈ D.edgeList.filter (fun e => ((D.edges.get? e).map (·.type)) = some t) ↔
      ∃ d, D.edges.get? e = some d ∧ d.type = t := by
    intro t e
    rw [List.mem_filter, mem_edgeList w, ← Dict.exists_get?_iff]
    constructor
    · rintro ⟨⟨d, hd⟩, h⟩
      exact ⟨d, hd, by simpa [hd] using h⟩
    · rintro ⟨d, hd, h⟩
      exact ⟨⟨d, hd⟩, by simp [hd, h]⟩
  have hty : ∀ e ∈ D.edgeList, ∃ d, D.edges.get? e = some d ∧ d.type ≠ .untyped := by
    intro e he
    rw [mem_edgeList w, ← Dict.exists_get?_iff] at he
    obtain ⟨d, hd⟩ := he
    exact ⟨d, hd, I.typed e d hd⟩
  refine ⟨_, by simp only [disassembleTopology, hL]; rfl, ?_, w.nodesNodup, ?_, nodup_edgeList w, ?_,
    hmem .trail, hmem .deviation, hp, hk, ?_, ?_, ?_, ?_, ?_, ?_⟩
  · intro n; exact (Dict.exists_get?_iff _ _).symm
  · intro e; exact (mem_edgeList w).trans (Dict.exists_get?_iff _ _).symm
  · have hdev : D.deviationEdges = D.edgeList.filter fun e =>
        ! decide (((D.edges.get? e).map (·.type)) = some .trail) := by
      unfold deviationEdges
      refine List.filter_congr ?_
      intro e he
      obtain ⟨d, hd, h⟩ := hty e he
      cases ht : d.type <;> simp_all
    rw [show (D.trailEdges ++ D.deviationEdges) = _ from congrArg (D.trailEdges ++ ·) hdev]
    exact List.filter_append_perm _ _
  · have : D.trails.vals.flatten = D.trails.flatMap (·.2) := by
      simp [Dict.vals, List.flatMap_def]
    exact this ▸ V.partition
  · intro tr htr
    obtain ⟨⟨key, tr'⟩, h, rfl⟩ := List.mem_map.1 htr
    obtain ⟨rest, rfl⟩ := V.head key tr' h
    refine ⟨key, ?_, rfl⟩
    have := V.origin key _ h
    exact List.mem_filter.2 ⟨typeOf_isSome_mem this, by simpa [typeOf] using this⟩
  · intro n
    refine ⟨fun h => by simpa [typeOf] using (List.mem_filter.1 h).2, fun h =>
      List.mem_filter.2 ⟨typeOf_isSome_mem h, by simpa [typeOf] using h⟩⟩
  · have : D.trails.vals.filterMap List.getLast? =
        D.trails.filterMap fun t => t.2.getLast? := by
      simp only [Dict.vals, List.filterMap_map]; rfl
    exact this ▸ supportNodes_perm w V
  · have := (C50_trails w V I.simple).1
    simpa [numberOfTrailEdges, numberOfTrails, numberOfNodes] using this
  · intro a
    constructor
    · intro h
      obtain ⟨⟨k, a'⟩, hm, rfl⟩ := List.mem_map.1 h
      exact ⟨k, hm⟩
    · rintro ⟨k, h⟩
      exact List.mem_map.2 ⟨_, h, rfl⟩

/-- The parts of the example with a direct and an indirect deviation edge. -/
example : ValidInput indirectQ ∧ ∃ p, disassembleTopology indirectQ = .ok p ∧
    p.trailEdges ≠ [] ∧ p.deviationEdges ≠ [] ∧ 2 ≤ p.trails.length :=
  ⟨valid_indirectQ, by
    obtain ⟨p, hp, -⟩ := C64_topology valid_indirectQ
    refine ⟨p, hp, ?_⟩
    have : (disassembleTopology indirectQ).toOption.all (fun p =>
      p.trailEdges ≠ [] ∧ p.deviationEdges ≠ [] ∧ 2 ≤ p.trails.length) = true := by decide +kernel
    rw [hp] at this
    simpa [Except.toOption] using this⟩

/-- C64. The form component lists the same nodes, supports and edges, in the same order, as
the topology component does for the diagram the form was found from. -/
theorem C64_form [Field R] [LinearOrder R] [PySqrt R] {D F : Diagram R} (I : ValidInput D)
    {tmax : Nat} {eta : R} {verbose : Bool}
    (h : staticEquilibrium D none tmax eta verbose = .ok F) :
    ∃ p, disassembleTopology D = .ok p ∧ disassembleForm F = (p.nodes, p.supports, p.edges) := by
  obtain ⟨kn, ke, hn, -⟩ := C25_keeps_data I h
  obtain ⟨p, hp, -⟩ := C64_topology I
  refine ⟨p, hp, ?_⟩
  unfold disassembleTopology at hp
  split at hp
  · cases hp
  · cases hp
    have hs : F.supportNodes = D.supportNodes := by
      unfold supportNodes
      rw [kn]
      refine List.filter_congr ?_
      intro n hm
      obtain ⟨d, hd⟩ := (Dict.exists_get?_iff _ _).2 hm
      obtain ⟨d', hd', -, ht, -⟩ := hn n d hd
      simp [hd, hd', ht]
    have he : F.edgeList = D.edgeList := by
      unfold edgeList
      rw [kn, ke]
    simp only [disassembleForm, kn, hs, he]

example : ∃ F p, staticEquilibrium direct none 100 0 false = .ok F ∧
    disassembleTopology direct = .ok p ∧ disassembleForm F = (p.nodes, p.supports, p.edges) := by
  obtain ⟨F, hF⟩ := C20_returns_without_indirect valid_direct directOnly_direct
    (tmax := 100) (eta := 0) (by norm_num) le_rfl
  obtain ⟨p, hp, h⟩ := C64_form valid_direct hF
  exact ⟨F, p, hF, hp, h⟩

/-- Sequences of a node list, `TypeError` if one is missing. -/
private theorem allSequences_missing {n : Int} {d : NodeData R} (hd : d.k = none) :
    ∀ l : Dict Int (NodeData R), (n, d) ∈ l → allSequences l = .error .typeError := by
  intro l
  induction l with
  | nil => intro h; cases h
  | cons q l ih =>
    intro h
    obtain ⟨m, c⟩ := q
    unfold allSequences
    cases hc : c.k with
    | none => rfl
    | some k =>
      rcases List.mem_cons.1 h with h | h
      · cases h; rw [hd] at hc; cases hc
      · simp [ih h]

/-- C64. A single node without sequence keeps the component from giving any part, also the
nodes and edges: so nothing is given before the trails are built. An empty diagram cannot
be taken apart either. -/
theorem C64_missing {D : Diagram R} :
    ((∃ n d, D.nodes.get? n = some d ∧ d.k = none) →
      disassembleTopology D = .error .typeError) ∧
    (D.nodes = [] → disassembleTopology D = .error .valueError) := by
  constructor
  · rintro ⟨n, d, hd, hk⟩
    have := allSequences_missing hk D.nodes (Dict.mem_of_get? hd)
    simp [disassembleTopology, sequences, numberOfSequences, sequenceLast, this]
  · intro h
    simp [disassembleTopology, sequences, numberOfSequences, sequenceLast, allSequences, h]

/-- Two trails and their edges, before the trails are built. -/
example : (∃ n d, two.nodes.get? n = some d ∧ d.k = none) ∧
    two.edgeList.length = 5 :=
  ⟨⟨0, (two.nodes.get? 0).get (by decide +kernel), by simp, by decide +kernel⟩, by decide +kernel⟩

/-- C64. If all nodes have sequences, of any sign, exactly the nodes of non-negative
sequence are listed in the sequences, while all are listed as nodes. -/
theorem C64_negative {D : Diagram R} (w : WF D) (hne : D.nodes.keys ≠ [])
    (hs : ∀ n ∈ D.nodes.keys, ∃ k, seqOf D n = some k) :
    ∃ p, disassembleTopology D = .ok p ∧ p.nodes = D.nodes.keys ∧
      ∀ n ∈ p.nodes, n ∈ p.sequences.flatten ↔ ∃ k, seqOf D n = some k ∧ 0 ≤ k := by
  obtain ⟨m, hm, hle, -⟩ := sequenceLast_spec w.nodesNodup hne hs
  have hnum : D.numberOfSequences = .ok (m + 1) := by simp [numberOfSequences, hm]
  have hseq : D.sequences = .ok ((pyRange (m + 1)).map fun k =>
      D.nodes.keys.filter fun n => seqOf D n = some k) := by
    unfold sequences
    rw [hnum]
    exact mapE_pure fun k _ => sequenceAt_of hs k
  refine ⟨_, by simp only [disassembleTopology, hseq]; rfl, rfl, ?_⟩
  intro n hn
  rw [List.mem_flatten]
  constructor
  · rintro ⟨l, hl, hnl⟩
    obtain ⟨k, hk, rfl⟩ := List.mem_map.1 hl
    exact ⟨k, by simpa using (List.mem_filter.1 hnl).2, (mem_pyRange.1 hk).1⟩
  · rintro ⟨k, h1, h2⟩
    exact ⟨_, List.mem_map.2 ⟨k, mem_pyRange.2 ⟨h2, by have := hle n hn k h1; omega⟩, rfl⟩,
      List.mem_filter.2 ⟨hn, by simpa using h1⟩⟩

/-- The claim that the sequences hold all nodes once every node has one. -/
def C64_claim : Prop :=
  ∀ D : Diagram ℚ, WF D → D.nodes.keys ≠ [] → (∀ n ∈ D.nodes.keys, ∃ k, seqOf D n = some k) →
    ∃ p, disassembleTopology D = .ok p ∧ p.sequences.flatten.Perm p.nodes

/-- `shift_trail` accepts negative sequences, after which nodes are missing. -/
theorem C64_claim_false : ¬ C64_claim := by
  intro h
  have w : WF (twoBuilt.shiftTrail 4 (-1)).1 := valid_twoBuilt.1.shiftTrail _ _
  obtain ⟨p, hp, hperm⟩ := h (twoBuilt.shiftTrail 4 (-1)).1 w (by decide +kernel) (by
    have : ∀ n ∈ (twoBuilt.shiftTrail 4 (-1)).1.nodes.keys,
        (seqOf (twoBuilt.shiftTrail 4 (-1)).1 n).isSome = true := by decide +kernel
    exact fun n hn => Option.isSome_iff_exists.1 (this n hn))
  have hl := hperm.length_eq
  have : (disassembleTopology (twoBuilt.shiftTrail 4 (-1)).1).toOption.all (fun p =>
      p.sequences.flatten.length ≠ p.nodes.length) = true := by decide +kernel
  rw [hp] at this
  simp [Except.toOption] at this
  exact this (by simpa using hl)

end Props
end CEM
