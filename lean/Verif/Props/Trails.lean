import Verif.Lemmas.Check
import Verif.Lemmas.Auxiliary3
import Verif.Lemmas.Sequences

/-!
# C08-C15: `build_trails`

`WF D` holds for every diagram reachable through the API (`WF.after`).
-/

set_option linter.unusedSectionVars false
set_option linter.unusedSimpArgs false

namespace CEM
namespace Props
open Diagram Spec

variable {R : Type}

/-! ## Concrete diagrams for the examples -/

namespace TrailEx

local instance : PySqrt ℚ := ⟨id⟩

/-- A geometric key that separates points of different integer x (0 to 5). -/
def key (p : Vec ℚ) : String :=
  if p.x = 0 then "0" else if p.x = 1 then "1" else if p.x = 2 then "2" else
  if p.x = 3 then "3" else if p.x = 4 then "4" else "5"

def nodes (n : Nat) : List (Op ℚ) := (List.range n).map fun (i : Nat) => .addNode none ⟨(i : ℚ), 0, 0⟩

def trail (u v : Int) : Op ℚ := .addEdge (.trail (.key u) (.key v) (-1) none)
def dev (u v : Int) : Op ℚ := .addEdge (.deviation (.key u) (.key v) 1)
def sup (n : Int) : Op ℚ := .addSupport (.key n)

/-- Two trails `0-1-2` and `4-3`, joined by deviation edges. -/
def two : Diagram ℚ := after key
  (nodes 5 ++ [trail 0 1, trail 2 1, sup 2, trail 3 4, sup 3, dev 0 4, dev 1 4])

/-- A path `0-1-2` with supports at both ends. -/
def both : Diagram ℚ := after key (nodes 3 ++ [trail 0 1, trail 1 2, sup 0, sup 2])

/-- A trail edge joining three trails at node 1, with supports 0 and 2. -/
def star : Diagram ℚ := after key
  (nodes 4 ++ [trail 0 1, trail 1 2, trail 1 3, sup 0, sup 2])

/-- A cycle of trail edges with a self-loop, reached from the support 0. -/
def loop : Diagram ℚ := after key
  (nodes 4 ++ [trail 0 1, trail 1 2, trail 2 3, trail 3 1, trail 2 2, sup 0])

/-- The trail `0-1` and the unassigned nodes 2, 3. -/
def partialD : Diagram ℚ := after key
  (nodes 4 ++ [trail 0 1, sup 1, dev 0 2, dev 2 3])

/-- The trail `0-1` and the isolated support 2. -/
def isolated : Diagram ℚ := after key (nodes 3 ++ [trail 0 1, sup 1, sup 2])

/-- An unsupported path `0-1-2`. -/
def unsupported : Diagram ℚ := after key (nodes 3 ++ [trail 0 1, trail 1 2])

theorem wf_unsupported : WF unsupported := WF.after _ _
theorem wf_two : WF two := WF.after _ _
theorem wf_both : WF both := WF.after _ _
theorem wf_star : WF star := WF.after _ _
theorem wf_loop : WF loop := WF.after _ _
theorem wf_partial : WF partialD := WF.after _ _
theorem wf_isolated : WF isolated := WF.after _ _

theorem regular_two : Regular two := RegularCheck.regular wf_two (by decide +kernel)
theorem regular_both : Regular both := RegularCheck.regular wf_both (by decide +kernel)
theorem regular_partial : Regular partialD := RegularCheck.regular wf_partial (by decide +kernel)

end TrailEx

open TrailEx

/-! ## C08 -/

theorem walk_more_fuel {D : Diagram R} {fuel : Nat} {acc : List Int} {n : Int} {tr : List Int}
    (h : D.walk fuel acc n = some tr) (fuel' : Nat) (hf : fuel ≤ fuel') :
    D.walk fuel' acc n = some tr := by
  induction fuel generalizing acc n fuel' with
  | zero => simp [walk] at h
  | succ fuel ih =>
    cases fuel' with
    | zero => omega
    | succ fuel' =>
      simp only [walk] at h ⊢
      revert h
      split
      · exact id
      · split_ifs
        · exact id
        · exact fun h => ih h fuel' (by omega)

/-- C08. The walk from any node of any diagram ends: after at most as many rounds
as there are nodes (plus one) its result no longer depends on the number of rounds
allowed.  It ends in its start node, and visits no node twice unless a self-loop
made it stop. -/
theorem C08_walk_terminates {D : Diagram R} (w : WF D) {S : Int} (hS : S ∈ D.nodes.keys) :
    ∃ tr, (∀ rounds, D.nodes.length + 1 ≤ rounds → D.walk rounds [] S = some tr) ∧
      tr.getLast? = some S ∧
      (tr.Nodup ∨ ∃ x rest, tr = x :: x :: rest ∧ (x :: rest).Nodup ∧ IsTrail D x x) := by
  obtain ⟨tr, htr⟩ := walk_terminates w (D.nodes.length + 1) [] S (by simp)
    (by simpa using hS) (by simp)
  obtain ⟨_, ⟨pre, hpre⟩, hshape⟩ :=
    walk_shape_general _ [] S tr htr (by simp) (List.isChain_singleton S)
  exact ⟨tr, fun r hr => walk_more_fuel htr r hr, by rw [hpre]; simp, hshape⟩

/-- C08. `build_trails` always returns or raises: it never runs forever. -/
theorem C08_build_trails_terminates {D : Diagram R} (w : WF D) :
    D.buildTrails.2 = .ok () ∨ D.buildTrails.2 = .error .assertionError := by
  obtain ⟨s, hs⟩ := searchTrails_terminates w
  unfold buildTrails
  simp only [hs]
  split_ifs <;> simp

/-- C08. The same for `build_trails(auxiliary_trails=True)`. -/
theorem C08_build_trails_aux_terminates [Field R] [DecidableEq R] [PySqrt R]
    (gkey : Vec R → String) {D : Diagram R} (w : WF D) (order : List Int → List Int)
    (ho : ∀ l, (order l).Perm l) :
    (D.buildTrailsAux gkey order).2 = .ok () ∨
    (D.buildTrailsAux gkey order).2 = .error .assertionError := by
  obtain ⟨s, hs⟩ := searchTrails_terminates w
  obtain ⟨E, hE, wE, _⟩ := buildTrailsAux_extended gkey w hs order ho
  rw [hE]
  exact C08_build_trails_terminates wE

/-- The walk from node 0 goes around the cycle `1-3-2` and stops at the self-loop of 2. -/
example : loop.walk 5 [] 0 = some [2, 2, 3, 1, 0] ∧ (0 : Int) ∈ loop.nodes.keys := by decide +kernel

/-! ## C09 -/

/-- C09. After a successful `build_trails` every trail is keyed by its first node,
which is an origin; consecutive nodes are joined by trail edges; and the trail ends
in a node that was a support before the call. -/
theorem C09_trails_are_chains {D : Diagram R} (w : WF D) (h : D.buildTrails.2 = .ok ()) :
    let D' := D.buildTrails.1
    ∀ key tr, (key, tr) ∈ D'.trails →
      (∃ rest, tr = key :: rest) ∧ typeOf D' key = some .origin ∧
      tr.IsChain (TrailAdj D) ∧ ∃ S, tr.getLast? = some S ∧ typeOf D S = some .support := by
  intro D' key tr hm
  obtain ⟨s, hs, hD, _⟩ := buildTrails_ok h
  have I := GenInv.search w hs
  have hm' : (key, tr) ∈ s.trails := by
    have : D'.trails = s.trails := by simp [D', hD]
    rwa [this] at hm
  have ht : typeOf D' key = typeOf s.D key := by simp [D', hD, typeOf]
  rw [ht]
  exact I.good _ _ hm'

example : star.buildTrails.2 = .ok () ∧ star.buildTrails.1.trails = [(3, [3, 1, 2])] := by
  decide +kernel

/-! ## C10 -/

/-- C10. On a diagram in which no node has more than two trail neighbours and every
support exactly one, the trails stored by a successful `build_trails` are valid:
they partition the nodes, use every trail edge, end in the supports, and the
sequence of a node is its index in its trail. -/
theorem C10_trails_partition {D : Diagram R} (w : WF D) (g : Regular D)
    (h : D.buildTrails.2 = .ok ()) :
    let D' := D.buildTrails.1
    ValidTrails D' ∧
    ∀ key tr, (key, tr) ∈ D'.trails → ∀ (i : Nat) (hi : i < tr.length),
      seqOf D' tr[i] = some (i : Int) := by
  intro D'
  refine ⟨buildTrails_valid w g h, ?_⟩
  obtain ⟨s, hs, hD, _, _, hu⟩ := buildTrails_ok h
  have I := SearchInv.search w g hs
  intro key tr hm i hi
  have hm' : (key, tr) ∈ s.trails := by
    have : D'.trails = s.trails := by simp [D', hD]
    rwa [this] at hm
  have : seqOf D' tr[i] = seqOf s.D tr[i] := by simp [D', hD, seqOf]
  rw [this]
  exact I.seq _ _ hm' i hi

example : WF two ∧ Regular two ∧ two.buildTrails.2 = .ok () ∧
    two.buildTrails.1.trails = [(0, [0, 1, 2]), (4, [4, 3])] :=
  ⟨wf_two, regular_two, by decide +kernel, by decide +kernel⟩

example : WF both ∧ Regular both ∧ both.buildTrails.2 = .ok () ∧
    both.buildTrails.1.trails = [(2, [2, 1, 0])] :=
  ⟨wf_both, regular_both, by decide +kernel, by decide +kernel⟩

/-- The claim without the degree condition: after a successful `build_trails` every
node lies in a stored trail. -/
def C10_claim : Prop :=
  ∀ (ops : List (Op ℚ)) (g : Vec ℚ → String), let _ : PySqrt ℚ := ⟨id⟩
    (after g ops).buildTrails.2 = .ok () →
    ∀ n ∈ (after g ops).nodes.keys, ∃ p ∈ (after g ops).buildTrails.1.trails, n ∈ p.2

/-- C10. Without the degree condition the claim is false: two supported paths that
run into the same end overwrite each other's trail, and node 0 is left in no trail
although `build_trails` succeeds. -/
theorem C10_claim_false : ¬ C10_claim := by
  intro h
  have := h (nodes 4 ++ [trail 0 1, trail 1 2, trail 1 3, sup 0, sup 2]) key (by decide +kernel) 0
    (by decide +kernel)
  revert this
  decide +kernel

/-! ## C11 -/

/-- C11. If the trail edges form disjoint paths covering all nodes, each with at
least two nodes, a support at its end and no other support, then `build_trails`
succeeds and stores exactly these paths, keyed by their first nodes. -/
theorem C11_path_systems {D : Diagram R} (w : WF D) {P : List (List Int)} (h : PathSystem D P) :
    D.buildTrails.2 = .ok () ∧
    (∀ key tr, (key, tr) ∈ D.buildTrails.1.trails ↔ tr ∈ P ∧ tr.head? = some key) ∧
    D.buildTrails.1.trails.length = P.length := by
  refine ⟨h.success w, h.trails w, ?_⟩
  have V := buildTrails_valid w (h.regular w) (h.success w)
  have hperm : (D.buildTrails.1.trails.map (·.2)).Perm P := by
    rw [List.perm_ext_iff_of_nodup]
    · intro tr
      simp only [List.mem_map, Prod.exists, exists_eq_right]
      constructor
      · rintro ⟨key, hk⟩; exact ((h.trails w key tr).1 hk).1
      · intro hP
        obtain ⟨q, x, S, hq, _⟩ := h.ends hP
        cases tr with
        | nil => simp at hq
        | cons a t => exact ⟨a, (h.trails w a _).2 ⟨hP, rfl⟩⟩
    · have hk := V.keys_nodup (WF.buildTrails w)
      have hnd : D.buildTrails.1.trails.Nodup := List.Nodup.of_map _ hk
      refine hnd.map_on ?_
      rintro ⟨k1, t1⟩ h1 ⟨k2, t2⟩ h2 e
      simp only at e
      subst e
      have e1 := ((h.trails w _ _).1 h1).2
      have e2 := ((h.trails w _ _).1 h2).2
      rw [e1] at e2
      rw [Option.some.inj e2]
    · have hf := h.flat_nodup w
      have := List.nodup_flatten.1 hf
      refine List.Pairwise.imp_of_mem ?_ this.2
      intro a b ha hb hdis hab
      subst hab
      obtain ⟨q, x, S, hq, _⟩ := h.ends ha
      exact hdis (a := x) (by simp [hq]) (by simp [hq])
  simpa using hperm.length_eq

example : WF two ∧ PathSystem two [[4, 3], [0, 1, 2]] :=
  ⟨wf_two, PathCheck.pathSystem wf_two (by decide +kernel)⟩

/-! ## C12 -/

/-- C12. What `build_trails` may change.  If it fails, the stored trails are the
old ones.  In all cases keys, coordinates, loads, reactions, edges and all other
attributes are the same; node types change only to `_origin`. -/
theorem C12_frame {D : Diagram R} (w : WF D) :
    let D' := D.buildTrails.1
    (D.buildTrails.2 ≠ .ok () → D'.trails = D.trails) ∧
    D'.nodes.keys = D.nodes.keys ∧
    (∀ n, (D'.nodes.get? n).map (fun d => (d.pos, d.load, d.reaction)) =
      (D.nodes.get? n).map (fun d => (d.pos, d.load, d.reaction))) ∧
    (∀ n, typeOf D' n = typeOf D n ∨ typeOf D' n = some .origin) ∧
    D'.edges = D.edges ∧ D'.gkeyNode = D.gkeyNode ∧ D'.maxNode = D.maxNode ∧
    D'.auxTrails = D.auxTrails ∧ D'.auxLength = D.auxLength ∧ D'.auxVector = D.auxVector := by
  intro D'
  obtain ⟨s, hs⟩ := searchTrails_terminates w
  have I := GenInv.search w hs
  have hb := I.base
  have key : (D' = s.D ∧ D.buildTrails.2 ≠ .ok ()) ∨
      (D' = { s.D with trails := s.trails } ∧ D.buildTrails.2 = .ok ()) := by
    show (D.buildTrails.1 = _ ∧ _) ∨ (D.buildTrails.1 = _ ∧ _)
    unfold buildTrails
    simp only [hs]
    split_ifs <;> simp
  rcases key with ⟨e, he⟩ | ⟨e, he⟩
  · rw [e]
    exact ⟨fun _ => hb.trails, hb.keys, hb.attrs, I.typ, hb.edges, hb.gkeyNode, hb.maxNode,
      hb.auxTrails, hb.auxLength, hb.auxVector⟩
  · rw [e]
    exact ⟨fun h => absurd he h, hb.keys, hb.attrs, I.typ, hb.edges, hb.gkeyNode, hb.maxNode,
      hb.auxTrails, hb.auxLength, hb.auxVector⟩

/-- C12. `build_trails` succeeds only if there is a trail edge, a support is left,
and every node is connected to a support by trail edges. -/
theorem C12_success_only_if {D : Diagram R} (w : WF D) (h : D.buildTrails.2 = .ok ()) :
    (∃ a b, IsTrail D a b) ∧ (∃ n, typeOf D.buildTrails.1 n = some .support) ∧
    ∀ n ∈ D.nodes.keys, Reached D n := by
  obtain ⟨s, hs, hD, h1, h2, h3⟩ := buildTrails_ok h
  have I := GenInv.search w hs
  rw [trailEdges_length_ne (w.of_sameBase I.base)] at h1
  rw [supportNodes_length_ne] at h2
  rw [unassigned_length_eq, I.base.keys] at h3
  refine ⟨by simpa [IsTrail, I.base.edges] using h1, ?_, fun n hn => I.reach n (h3 n hn)⟩
  obtain ⟨n, hn⟩ := h2
  exact ⟨n, by rw [hD]; exact hn⟩

/-- C12. On diagrams satisfying the degree condition, `build_trails` succeeds exactly
when there is a trail edge and every node is connected to a support by trail edges;
otherwise it raises `AssertionError`. -/
theorem C12_success_iff {D : Diagram R} (w : WF D) (g : Regular D) :
    (D.buildTrails.2 = .ok () ↔ (∃ a b, IsTrail D a b) ∧ ∀ n ∈ D.nodes.keys, Reached D n) ∧
    (D.buildTrails.2 = .error .assertionError ↔
      ¬ ((∃ a b, IsTrail D a b) ∧ ∀ n ∈ D.nodes.keys, Reached D n)) := by
  have h := success_iff w g
  refine ⟨h, ?_⟩
  unfold Reached
  rw [← h]
  rcases C08_build_trails_terminates w with e | e <;> simp [e]

/-- A failing call: nodes 2 and 3 are unreached; the types were modified. -/
example : WF partialD ∧ Regular partialD ∧
    partialD.buildTrails.2 = .error .assertionError ∧ partialD.buildTrails.1.trails = [] ∧
    partialD.buildTrails.1 ≠ partialD :=
  ⟨wf_partial, regular_partial, by decide +kernel, by decide +kernel, by decide +kernel⟩

/-! ## C13 -/

/-- C13. Running `build_trails` again after a success changes nothing and succeeds. -/
theorem C13_idempotent {D : Diagram R} (w : WF D) (g : Regular D)
    (h : D.buildTrails.2 = .ok ()) : D.buildTrails.1.buildTrails = (D.buildTrails.1, .ok ()) :=
  buildTrails_idem w g h

example : two.buildTrails.1 ≠ two ∧ two.buildTrails.2 = .ok () := by decide +kernel

/-- Without the degree condition this fails: a support without trail edges is turned
into an origin by the first call, and the second call raises. -/
theorem C13_isolated_support_rebuild_fails :
    isolated.buildTrails.2 = .ok () ∧
    isolated.buildTrails.1.buildTrails.2 = .error .assertionError := by decide +kernel

/-! ## C14 -/

section Aux
variable [Field R] [DecidableEq R] [PySqrt R] (gkey : Vec R → String)

/-- The set of unassigned nodes on regular diagrams: not connected to any support. -/
theorem unassigned_iff {D : Diagram R} (w : WF D) (g : Regular D) {s : BuildState R}
    (hs : D.searchTrails = some s) {n : Int} :
    n ∈ unassigned s ↔ n ∈ D.nodes.keys ∧ ¬ Reached D n := by
  have I := SearchInv.search w g hs
  have J := GenInv.search w hs
  unfold unassigned
  rw [List.mem_filter, I.base.keys]
  simp only [decide_eq_true_eq]
  refine and_congr_right fun hn => not_congr ⟨fun h => J.reach n h, ?_⟩
  rintro ⟨S, hS, hr⟩
  have hSt := (I.inT S).1 (I.cover S (typeOf_isSome_mem hS) hS)
  obtain ⟨⟨key, tr⟩, h3, h4⟩ := List.mem_flatMap.1 hSt
  rw [I.inT]
  refine List.mem_flatMap.2 ⟨_, h3, ?_⟩
  have G := I.good _ _ h3
  clear hn
  induction hr with
  | refl => exact h4
  | tail _ hbc ih => exact G.closed ih hbc

/-- C14. What `build_trails(auxiliary_trails=True)` adds, for any diagram and any
iteration order of the set of unassigned nodes.  There is a duplicate-free list `U`
of nodes, containing every node not connected to a support, such that: the keys are
the old ones followed by one new key for each member of `U`; the new node of `U[i]`
lies at the auxiliary offset from it and carries no load; it is joined to it by a
trail edge of the auxiliary length; these edges are reported as auxiliary trails;
old nodes keep coordinates and loads, old edges keep their attributes, and there
are no other edges. -/
theorem C14_aux_adds {D : Diagram R} (w : WF D) (order : List Int → List Int)
    (ho : ∀ l, (order l).Perm l) :
    let D' := (D.buildTrailsAux gkey order).1
    let k := D.maxNode + 1
    ∃ U : List Int, U.Nodup ∧ (∀ n ∈ U, n ∈ D.nodes.keys) ∧
      (∀ n ∈ D.nodes.keys, ¬ Reached D n → n ∈ U) ∧
      (Regular D → ∀ n ∈ U, ¬ Reached D n) ∧
      D'.nodes.keys = D.nodes.keys ++ (List.range U.length).map (fun (i : Nat) => k + (i : Int)) ∧
      (∀ n ∈ D.nodes.keys, (D'.nodes.get? n).map (fun d => (d.pos, d.load, d.reaction)) =
        (D.nodes.get? n).map (fun d => (d.pos, d.load, d.reaction))) ∧
      (∀ (i : Nat) (hi : i < U.length), ∃ d, D.nodes.get? U[i] = some d ∧
        (D'.nodes.get? (k + i)).map (fun d => (d.pos, d.load, d.reaction)) =
          some (d.pos + D.auxLength • Vec.normalize D.auxVector, 0, 0)) ∧
      (∀ e d, D'.edges.get? e = some d ↔ D.edges.get? e = some d ∨
        ((∃ (i : Nat) (hi : i < U.length), e = (U[i], k + i)) ∧
          d = ⟨.trail, D.auxLength, 0, none⟩)) ∧
      (∀ n e, D'.auxTrails.get? n = some e ↔
        ∃ (i : Nat) (hi : i < U.length), n = U[i] ∧ e = (U[i], k + i)) := by
  intro D' k
  obtain ⟨s, hs⟩ := searchTrails_terminates w
  have J := GenInv.search w hs
  have hb := J.base
  obtain ⟨E, hE, wE, hn, he, ha, _⟩ := buildTrailsAux_extended gkey w hs order ho
  set U := order (unassigned s) with hU
  have hmem : ∀ n, n ∈ U ↔ n ∈ D.nodes.keys ∧ n ∉ s.inTrails := by
    intro n
    rw [hU, (ho _).mem_iff]
    unfold unassigned
    rw [List.mem_filter, hb.keys]
    simp
  have hnd : U.Nodup := (ho _).nodup_iff.2 ((hb.keys ▸ w.nodesNodup : s.D.nodes.keys.Nodup).filter _)
  have X : Extended D E s U := ⟨hn, he, hnd, hmem⟩
  have hD' : D' = E.buildTrails.1 := by simp only [D', hE]
  obtain ⟨_, f1, f2, _, f4, _, _, f7, _, _⟩ := C12_frame wE
  rw [← hD'] at f1 f2 f4 f7
  refine ⟨U, hnd, fun n h => ((hmem n).1 h).1, ?_, ?_, ?_, ?_, ?_, ?_, ?_⟩
  · intro n hk hr
    exact (hmem n).2 ⟨hk, fun h => hr (J.reach n h)⟩
  · intro g n hnU
    exact ((unassigned_iff w g hs).1 ((ho _).mem_iff.1 hnU)).2
  · rw [f1, hn, keys_append, hb.keys, keys_auxNodes]
  · intro n hk
    rw [f2, X.old hb hk, hb.attrs]
  · intro i hi
    have hk := ((hmem _).1 (List.getElem_mem hi)).1
    obtain ⟨d, hd⟩ := (Dict.exists_get?_iff _ _).2 hk
    refine ⟨d, hd, ?_⟩
    rw [f2, X.new w hb ⟨i, hi, rfl, rfl⟩]
    have := hb.attrs U[i]
    rw [hd] at this
    cases hc : s.D.nodes.get? U[i] with
    | none => simp [hc] at this
    | some d' =>
      simp only [hc, Option.map_some, Option.some.injEq, Prod.mk.injEq] at this
      simp [auxNode, auxOffset, this.1, hb.auxLength, hb.auxVector]
  · intro e d
    rw [f4, he, Dict.get?_append]
    constructor
    · intro h
      cases hc : D.edges.get? e with
      | some d' => rw [hc, Option.some_or] at h; exact Or.inl h
      | none =>
        rw [hc, Option.none_or] at h
        exact Or.inr (mem_auxEdges.1 (Dict.mem_of_get? h))
    · rintro (h | h)
      · rw [h, Option.some_or]
      · rw [← Dict.get?_append, ← he]
        refine Dict.get?_of_mem wE.edgesNodup ?_
        rw [he]
        exact List.mem_append_right _ (mem_auxEdges.2 h)
  · intro n e
    rw [f7, ha, Dict.get?_eq_some_iff (by rw [keys_auxDict]; exact hnd), mem_auxDict]

/-- C14. Under the degree condition `build_trails(auxiliary_trails=True)` succeeds on
every non-empty diagram: no node is left unassigned. -/
theorem C14_aux_succeeds {D : Diagram R} (w : WF D) (g : Regular D) (hne : D.nodes ≠ [])
    (order : List Int → List Int) (ho : ∀ l, (order l).Perm l) :
    (D.buildTrailsAux gkey order).2 = .ok () := by
  obtain ⟨s, hs⟩ := searchTrails_terminates w
  have I := SearchInv.search w g hs
  have hb := I.base
  obtain ⟨E, hE, wE, hn, he, ha, _⟩ := buildTrailsAux_extended gkey w hs order ho
  have hmem : ∀ n, n ∈ order (unassigned s) ↔ n ∈ D.nodes.keys ∧ n ∉ s.inTrails := by
    intro n
    rw [(ho _).mem_iff]
    unfold unassigned
    rw [List.mem_filter, hb.keys]
    simp
  have hnd : (order (unassigned s)).Nodup :=
    (ho _).nodup_iff.2 ((hb.keys ▸ w.nodesNodup : s.D.nodes.keys.Nodup).filter _)
  have hne' : D.nodes.keys ≠ [] := by
    intro h; apply hne; rw [← List.length_eq_zero_iff, ← Dict.length_keys, h]; rfl
  rw [hE]
  exact Extended.success_general w wE g I ⟨hn, he, hnd, hmem⟩ hne'

/-- C14. If the degree condition holds and no unreached node has trail edges of its
own, then `build_trails(auxiliary_trails=True)` succeeds on every non-empty diagram,
its trails are valid (so no node is unassigned), and every unreached node got its
own auxiliary trail. -/
theorem C14_aux_valid {D : Diagram R} (w : WF D) (g : Regular D) (hne : D.nodes ≠ [])
    (hU : ∀ n ∈ D.nodes.keys, ¬ Reached D n → ∀ x, ¬ TrailAdj D n x)
    (order : List Int → List Int) (ho : ∀ l, (order l).Perm l) :
    let D' := (D.buildTrailsAux gkey order).1
    (D.buildTrailsAux gkey order).2 = .ok () ∧ ValidTrails D' ∧
    ∀ n ∈ D.nodes.keys, ¬ Reached D n → ∃ a, D'.auxTrails.get? n = some (n, a) ∧
      (n, [n, a]) ∈ D'.trails := by
  intro D'
  obtain ⟨s, hs⟩ := searchTrails_terminates w
  have I := SearchInv.search w g hs
  have hb := I.base
  obtain ⟨E, hE, wE, hn, he, ha, _⟩ := buildTrailsAux_extended gkey w hs order ho
  set U := order (unassigned s) with hUdef
  have hmemU : ∀ n, n ∈ U ↔ n ∈ D.nodes.keys ∧ ¬ Reached D n := by
    intro n
    rw [hUdef, (ho _).mem_iff, unassigned_iff w g hs]
  have hmem : ∀ n, n ∈ U ↔ n ∈ D.nodes.keys ∧ n ∉ s.inTrails := by
    intro n
    rw [hUdef, (ho _).mem_iff]
    unfold unassigned
    rw [List.mem_filter, hb.keys]
    simp
  have hnd : U.Nodup := (ho _).nodup_iff.2 ((hb.keys ▸ w.nodesNodup : s.D.nodes.keys.Nodup).filter _)
  have X : Extended D E s U := ⟨hn, he, hnd, hmem⟩
  have hUadj : ∀ n ∈ U, ∀ x, ¬ TrailAdj D n x :=
    fun n h => hU n ((hmemU n).1 h).1 ((hmemU n).1 h).2
  have hne' : D.nodes.keys ≠ [] := by
    intro h; apply hne; rw [← List.length_eq_zero_iff, ← Dict.length_keys, h]; rfl
  have hok := X.success w wE g I hUadj hne'
  have hD' : D' = E.buildTrails.1 := by simp only [D', hE]
  refine ⟨by rw [hE]; exact hok, by rw [hD']; exact buildTrails_valid wE (X.regular w wE g I hUadj) hok, ?_⟩
  intro n hk hr
  have hnU : n ∈ U := (hmemU n).2 ⟨hk, hr⟩
  obtain ⟨a, hl⟩ := exists_link (k := D.maxNode + 1) hnU
  refine ⟨a, ?_, by rw [hD']; exact X.aux_trail w wE g I hUadj hne' hl⟩
  obtain ⟨_, _, _, _, _, _, _, f7, _, _⟩ := C12_frame wE
  rw [hD', f7, ha, Dict.get?_eq_some_iff (by rw [keys_auxDict]; exact hnd), mem_auxDict]
  obtain ⟨i, hi, h1, h2⟩ := hl
  exact ⟨i, hi, h1, by rw [← h1, ← h2]⟩

end Aux

/-- Nodes 2 and 3 of `partialD` have no trail edges and are unreached: the search finds
the trail `0-1` only, and auxiliary nodes 4 and 5 are added. -/
example : let _ : PySqrt ℚ := ⟨id⟩
    WF partialD ∧ Regular partialD ∧ partialD.nodes ≠ [] ∧
    (∀ n ∈ partialD.nodes.keys, ¬ Reached partialD n → ∀ x, ¬ TrailAdj partialD n x) ∧
    ¬ Reached partialD 2 ∧
    (partialD.buildTrailsAux key List.reverse).1.trails = [(0, [0, 1]), (3, [3, 4]), (2, [2, 5])] := by
  intro _
  have g := regular_partial
  have hadj : ∀ n ∈ partialD.nodes.keys, n = 0 ∨ n = 1 ∨ partialD.trailNbrs n = [] := by
    decide +kernel
  have hno : ∀ n ∈ partialD.nodes.keys, (n = 0 ∨ n = 1) ∨ ∀ x, ¬ TrailAdj partialD n x := by
    intro n hn
    rcases hadj n hn with h | h | h
    · exact Or.inl (Or.inl h)
    · exact Or.inl (Or.inr h)
    · refine Or.inr fun x hx => ?_
      rw [← mem_trailNbrs g.toSimpleGraph, h] at hx
      simp at hx
  have h1 : typeOf partialD 1 = some .support := by decide +kernel
  have h10 : TrailAdj partialD 1 0 := (mem_trailNbrs g.toSimpleGraph).1 (by decide +kernel)
  refine ⟨wf_partial, g, by decide +kernel, ?_, ?_, by decide +kernel⟩
  · intro n hn hr x
    rcases hno n hn with (rfl | rfl) | h
    · exact absurd ⟨1, h1, .single h10⟩ hr
    · exact absurd ⟨1, h1, .refl⟩ hr
    · exact h x
  · rintro ⟨S, hS, hr⟩
    rcases hr.cases_tail with e | ⟨y, _, hy⟩
    · rw [← e] at hS; revert hS; decide +kernel
    · rcases hno 2 (by decide +kernel) with h | h
      · simp at h
      · exact h y hy.symm

/-- The condition on trail edges of unreached nodes is needed for validity: on the
unsupported path `0-1-2` the call succeeds, but node 0 is in no stored trail. -/
theorem C14_unsupported_path_loses_nodes : let _ : PySqrt ℚ := ⟨id⟩
    WF unsupported ∧ Regular unsupported ∧
    (unsupported.buildTrailsAux key id).2 = .ok () ∧
    (unsupported.buildTrailsAux key id).1.trails = [(4, [4, 1, 2, 5])] :=
  ⟨wf_unsupported, RegularCheck.regular wf_unsupported (by decide +kernel), by decide +kernel,
    by decide +kernel⟩

/-! ## C15 -/

/-- The claim: a second `build_trails(auxiliary_trails=True)` reports the same
auxiliary trails. -/
def C15_claim : Prop :=
  ∀ (ops : List (Op ℚ)) (g : Vec ℚ → String), let _ : PySqrt ℚ := ⟨id⟩
    let D1 := ((after g ops).buildTrailsAux g id).1
    (D1.buildTrailsAux g id).1.auxTrails = D1.auxTrails

/-- C15. The claim is false: the second call forgets all auxiliary trails. -/
theorem C15_claim_false : ¬ C15_claim := by
  intro h
  have := h (nodes 4 ++ [trail 0 1, sup 1, dev 0 2, dev 2 3]) key
  revert this
  decide +kernel

/-- C15, in general: whenever all nodes are connected to supports,
`build_trails(auxiliary_trails=True)` empties the table of auxiliary trails. -/
theorem C15_rebuild_forgets [Field R] [DecidableEq R] [PySqrt R] (gkey : Vec R → String)
    {D : Diagram R} (w : WF D) (g : Regular D) (hr : ∀ n ∈ D.nodes.keys, Reached D n)
    (order : List Int → List Int) (ho : ∀ l, (order l).Perm l) :
    (D.buildTrailsAux gkey order).1.auxTrails = [] := by
  obtain ⟨s, hs⟩ := searchTrails_terminates w
  obtain ⟨E, hE, wE, _, _, ha, _⟩ := buildTrailsAux_extended gkey w hs order ho
  obtain ⟨_, _, _, _, _, _, _, f7, _, _⟩ := C12_frame wE
  rw [hE, f7, ha]
  have : unassigned s = [] := by
    rw [List.eq_nil_iff_forall_not_mem]
    intro n hn
    obtain ⟨h1, h2⟩ := (unassigned_iff w g hs).1 hn
    exact h2 (hr n h1)
  have h0 := ho (unassigned s)
  rw [this] at h0 ⊢
  rw [h0.eq_nil]
  rfl

/-- Such a diagram with a non-empty table: the result of the first call. -/
example : let _ : PySqrt ℚ := ⟨id⟩
    let D1 := (partialD.buildTrailsAux key id).1
    RegularCheck D1 ∧ D1.buildTrails.2 = .ok () ∧ D1.auxTrails = [(2, (2, 4)), (3, (3, 5))] := by
  decide +kernel

end Props
end CEM
