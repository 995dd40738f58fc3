import Verif.Spec.PlacementAux
import Verif.Lemmas.Placement
import Verif.Props.Walks

/-! # C02 for histories with auxiliary trails -/

set_option linter.unusedSectionVars false
set_option linter.unusedSimpArgs false

namespace CEM
namespace Props
open Diagram Spec

variable {R : Type} [Field R] [DecidableEq R] [PySqrt R] (gkey : Vec R → String)

theorem agrees_addAuxTrail {D : Diagram R} {l : Log R} (h : Agrees gkey D l) {n : Int}
    {d : NodeData R} (hn : D.nodes.get? n = some d) :
    Agrees gkey (D.addAuxTrail gkey n).1
      (((l.lastOf n).getD 0 + D.auxLength • D.auxVector.normalize, l.maxKey + 1) :: l) := by
  have hp : (l.lastOf n).getD 0 = d.pos := by rw [← h.pos, hn]; rfl
  have h1 := h.addNode gkey none (d.pos + D.auxLength • D.auxVector.normalize)
  rw [newKey, h.max] at h1
  simp only [addAuxTrail, hn, hp]
  have h2 := h1.addSupport gkey (.key (D.addNode gkey none
    (d.pos + D.auxLength • D.auxVector.normalize)).2)
  split
  · rename_i D2 e he; rw [he] at h2; exact h2
  · rename_i D2 he
    rw [he] at h2
    exact h2.addEdge gkey (.trail (.key n) (.key _) D.auxLength none)

theorem agrees_addAuxTrails {D : Diagram R} (w : WF D) {l : Log R} (h : Agrees gkey D l)
    (aux : Dict Int (Int × Int)) (U : List Int) (hU : ∀ n ∈ U, n ∈ D.nodes.keys) :
    Agrees gkey (D.addAuxTrails gkey aux U).1
      (l.placeNext (D.auxLength • D.auxVector.normalize) U) := by
  induction U generalizing D l aux with
  | nil => exact h
  | cons n U ih =>
    obtain ⟨d, hd⟩ := (Dict.exists_get?_iff _ _).2 (hU n (by simp))
    have h1 := agrees_addAuxTrail gkey h hd
    have w1 := w.addAuxTrail gkey n
    obtain ⟨gk, hg⟩ := addAuxTrail_eq gkey w hd
    rw [hg] at h1 w1
    simp only [addAuxTrails, hg, Log.placeNext]
    refine ih w1 h1 _ ?_
    intro x hx
    obtain ⟨v, hv⟩ := Dict.mem_keys_iff.1 (hU x (by simp [hx]))
    exact Dict.mem_keys_iff.2 ⟨v, List.mem_append_left _ hv⟩

theorem agrees_buildTrailsAux {D : Diagram R} (w : WF D) {l : Log R} (h : Agrees gkey D l)
    (order : List Int → List Int) (ho : ∀ l, (order l).Perm l) :
    ∃ ws U, Walks D ws ∧ U.Nodup ∧ (∀ n, n ∈ U ↔ n ∈ D.nodes.keys ∧ ∀ tr ∈ ws, n ∉ tr) ∧
      Agrees gkey (D.buildTrailsAux gkey order).1
        (l.placeNext (D.auxLength • D.auxVector.normalize) U) := by
  obtain ⟨s, hs⟩ := searchTrails_terminates w
  obtain ⟨ws, hw, L⟩ := searchTrails_walks w hs
  have hb := (GenInv.search w hs).base
  have w' := w.of_sameBase hb
  have hmem : ∀ n, n ∈ order (unassigned s) ↔ n ∈ D.nodes.keys ∧ ∀ tr ∈ ws, n ∉ tr := by
    intro n
    rw [(ho _).mem_iff]
    unfold unassigned
    rw [List.mem_filter, hb.keys]
    simp [L.inT]
  refine ⟨ws, order (unassigned s), hw, (ho _).nodup_iff.2 (w'.nodesNodup.filter _), hmem, ?_⟩
  have h1 := agrees_addAuxTrails gkey w' (h.of_sameBase gkey hb) [] (order (unassigned s))
    (fun n hn => by rw [hb.keys]; exact ((hmem n).1 hn).1)
  rw [hb.auxLength, hb.auxVector] at h1
  simp only [buildTrailsAux, hs]
  split
  · rename_i D' e he; rw [he] at h1; exact h1
  · rename_i D' aux he
    rw [he] at h1
    exact Agrees.buildTrails gkey (D := { D' with auxTrails := aux }) ⟨h1.lookup, h1.pos, h1.max⟩

theorem placed_agrees (ops : List (Op R))
    (ho : ∀ op ∈ ops, ∀ order, op = .buildTrailsAux order → ∀ l, (order l).Perm l) :
    ∃ l, Placed gkey ops l ∧ Agrees gkey (after gkey ops) l := by
  induction ops using List.reverseRecOn with
  | nil => exact ⟨[], .new, Agrees.empty gkey⟩
  | append_singleton ops op ih =>
    obtain ⟨l, hl, ha⟩ := ih fun o h => ho o (by simp [h])
    have hstep : after gkey (ops ++ [op]) = Spec.step gkey (after gkey ops) op := by
      simp [after, run, List.foldl_append]
    have w := WF.after gkey ops
    rw [hstep]
    by_cases hn : op.noAux
    · exact ⟨_, .op hl hn, ha.step gkey w op hn⟩
    · cases op with
      | buildTrailsAux order =>
        obtain ⟨ws, U, h1, h2, h3, h4⟩ :=
          agrees_buildTrailsAux gkey w ha order (ho _ (by simp) order rfl)
        exact ⟨_, .aux hl h1 h2 h3, h4⟩
      | _ => exact absurd trivial hn

/-- C02. After any history, also with auxiliary trails, looking up a point returns the
node most recently placed at that geometric key, and the coordinates of a node are those
of its most recent placement; an auxiliary trail places a node at the offset from the
node it is made for.  A lookup never returns a missing node. -/
theorem C02_lookup_every_history (ops : List (Op R))
    (ho : ∀ op ∈ ops, ∀ order, op = .buildTrailsAux order → ∀ l, (order l).Perm l) :
    let D := after gkey ops
    ∃ log, Placed gkey ops log ∧
    (∀ p, D.nodeKey gkey (.point p) = log.lastAt gkey (gkey p)) ∧
    (∀ n, D.nodeXyz n = match log.lastOf n with
      | some p => .ok p
      | none => .error .keyError) ∧
    (∀ p n, D.nodeKey gkey (.point p) = some n → n ∈ D.nodes.keys) := by
  intro D
  obtain ⟨log, hl, h⟩ := placed_agrees gkey ops ho
  refine ⟨log, hl, fun p => h.lookup _, ?_, fun p n hp => (WF.after gkey ops).lookup_mem _ n hp⟩
  intro n
  rw [← h.pos n]
  unfold nodeXyz Dict.getE
  cases D.nodes.get? n <;> rfl

namespace PlaceAuxEx
local instance placeAuxSqrt : PySqrt ℚ := ⟨id⟩

/-- A trail `0-1`, a node 2 without trail, and a later node at the place of the
auxiliary one. -/
def hist : List (Op ℚ) := TrailEx.nodes 3 ++
  [TrailEx.trail 0 1, TrailEx.sup 1, .buildTrailsAux id, .addNode none ⟨5, 5, 5⟩]

/-- The lookup at the place of the auxiliary node 3 returns this node until the last
call, which puts node 4 there. -/
example : (∀ op ∈ hist, ∀ order, op = .buildTrailsAux order → ∀ l, (order l).Perm l) ∧
    (after TrailEx.key hist).nodes.keys = [0, 1, 2, 3, 4] ∧
    (after TrailEx.key hist.dropLast).nodeKey TrailEx.key (.point ⟨5 / 3, 0, 0⟩) = some 3 ∧
    (after TrailEx.key hist).nodeKey TrailEx.key (.point ⟨5 / 3, 0, 0⟩) = some 4 := by
  refine ⟨?_, by decide +kernel, by decide +kernel, by decide +kernel⟩
  intro op hop order he l
  subst he
  simp [hist, TrailEx.nodes, TrailEx.trail, TrailEx.sup] at hop
  subst hop
  exact List.Perm.refl l

end PlaceAuxEx

end Props
end CEM
