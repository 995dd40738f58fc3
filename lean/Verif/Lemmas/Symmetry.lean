import Verif.Lemmas.Staged
import Verif.Spec.Symmetry

/-!
# The same problem with other names
-/

set_option linter.unusedSectionVars false

namespace CEM
open Diagram Spec

namespace Symmetry
section
variable {R : Type} [Field R] [LinearOrder R] [PySqrt R] {f : Int → Int} {D E : Diagram R}

/-- Names for what is not in the diagram. -/
theorem extend_names (f : Int → Int) (D E : Diagram R) : ∃ f' : Int → Int, (∀ n ∈ D.nodes.keys, f' n = f n) ∧
    (∀ n, n ∉ D.nodes.keys → f' n ∉ E.nodes.keys) := by
  obtain ⟨x, hx⟩ := Infinite.exists_notMem_finset E.nodes.keys.toFinset
  refine ⟨fun n => if n ∈ D.nodes.keys then f n else x, fun n hn => if_pos hn, fun n hn => ?_⟩
  simp only [if_neg hn]
  simpa using hx

theorem consecutive_of_map {l : List Int} (hi : ∀ a ∈ l, ∀ b ∈ l, f a = f b → a = b) {a b : Int} (ha : a ∈ l) (hb : b ∈ l)
    (h : Consecutive (l.map f) (f a) (f b)) : Consecutive l a b := by
  obtain ⟨p, q, h⟩ := h
  obtain ⟨l1, l2, rfl, -, h2⟩ := List.map_eq_append_iff.1 h
  obtain ⟨a', l3, rfl, e1, h3⟩ := List.map_eq_cons_iff.1 h2
  obtain ⟨b', l4, rfl, e2, -⟩ := List.map_eq_cons_iff.1 h3
  rw [hi a ha a' (by simp) e1.symm, hi b hb b' (by simp) e2.symm]
  exact ⟨l1, l4, rfl⟩

theorem follows_names (I : ValidInput D) (h : ProblemUpToNames f D E) {a b : Int} (ha : a ∈ D.nodes.keys)
    (hb : b ∈ D.nodes.keys) : Follows E (f a) (f b) ↔ Follows D a b := by
  constructor
  · rintro ⟨key, tr, htr, hc⟩
    obtain ⟨⟨k, l⟩, hp, e⟩ := (h.trails _).1 htr
    obtain ⟨-, rfl⟩ := Prod.mk.inj e
    have mem : ∀ x ∈ l, x ∈ D.nodes.keys := fun x hx => I.trails.mem_keys hp hx
    have back : ∀ x ∈ D.nodes.keys, f x ∈ l.map f → x ∈ l := by
      intro x hx hxl
      obtain ⟨y, hy, e⟩ := List.mem_map.1 hxl
      rw [← h.inj y (mem y hy) x hx e]
      exact hy
    exact ⟨k, l, hp, consecutive_of_map (fun x hx y hy => h.inj x (mem x hx) y (mem y hy)) (back a ha hc.mem_left)
      (back b hb hc.mem_right) hc⟩
  · rintro ⟨key, tr, htr, p, q, rfl⟩
    exact ⟨f key, _, (h.trails _).2 ⟨_, htr, rfl⟩, p.map f, q.map f, by simp⟩

theorem edge_names (h : ProblemUpToNames f D E) {a b : Int} {d : EdgeData R} (hd : EdgeBetween D a b d) :
    ∃ d', EdgeBetween E (f a) (f b) d' ∧ SameEdge d d' := by
  rcases hd with hd | hd
  · exact h.edge _ _ hd
  · obtain ⟨d', h1, h2⟩ := h.edge _ _ hd
    exact ⟨d', h1.symm, h2⟩

theorem edge_back (I : ValidInput D) (h : ProblemUpToNames f D E) {a b : Int} (ha : a ∈ D.nodes.keys)
    (hb : b ∈ D.nodes.keys) {d' : EdgeData R} (hd : EdgeBetween E (f a) (f b) d') : ∃ d, EdgeBetween D a b d := by
  have go : ∀ x y, x ∈ D.nodes.keys → y ∈ D.nodes.keys → (f x, f y) ∈ E.edges.keys → ∃ d, EdgeBetween D x y d := by
    intro x y hx hy hm
    obtain ⟨⟨u, v⟩, he, e⟩ := h.edges _ hm
    obtain ⟨d, hd⟩ := (Dict.exists_get?_iff D.edges (u, v)).2 he
    have hu := I.wf.edge_left _ he
    have hv := I.wf.edge_right _ he
    rcases e with e | e <;> obtain ⟨e1, e2⟩ := Prod.mk.inj e
    · obtain rfl := h.inj x hx u hu e1
      obtain rfl := h.inj y hy v hv e2
      exact ⟨d, Or.inl hd⟩
    · obtain rfl := h.inj x hx v hv e1
      obtain rfl := h.inj y hy u hu e2
      exact ⟨d, Or.inr hd⟩
  rcases hd with hd | hd
  · exact go a b ha hb (Dict.mem_keys_of_get? hd)
  · obtain ⟨d, hd⟩ := go b a hb ha (Dict.mem_keys_of_get? hd)
    exact ⟨d, hd.symm⟩

theorem nbr_iff (I : ValidInput D) (J : ValidInput E) (h : ProblemUpToNames f D E) {n m : Int} (hn : n ∈ D.nodes.keys)
    (hm : m ∈ D.nodes.keys) : f m ∈ E.neighbors (f n) ↔ m ∈ D.neighbors n := by
  constructor
  · intro hx
    obtain ⟨d, hd⟩ := edge_back I h hn hm ((edgeBetween_iff J.simple).2 ⟨hx, rfl⟩)
    exact ((edgeBetween_iff I.simple).1 hd).1
  · intro hx
    obtain ⟨d, hd, -⟩ := edge_names h ((edgeBetween_iff I.simple).2 ⟨hx, rfl⟩)
    exact ((edgeBetween_iff J.simple).1 hd).1

theorem same_edge (I : ValidInput D) (J : ValidInput E) (h : ProblemUpToNames f D E) {n m : Int}
    (hm : m ∈ D.neighbors n) : SameEdge (edgeData D n m) (edgeData E (f n) (f m)) := by
  obtain ⟨d, hd, hs⟩ := edge_names h ((edgeBetween_iff I.simple).2 ⟨hm, rfl⟩)
  rw [((edgeBetween_iff J.simple).1 hd).2]
  exact hs

theorem nbrs_perm (I : ValidInput D) (J : ValidInput E) (h : ProblemUpToNames f D E) {n : Int} (hn : n ∈ D.nodes.keys)
    (p : Int → Bool) (q : Int → Bool) (hpq : ∀ m ∈ D.neighbors n, q (f m) = p m) :
    ((E.neighbors (f n)).filter q).Perm (((D.neighbors n).filter p).map f) := by
  have key : ∀ m ∈ D.neighbors n, m ∈ D.nodes.keys := fun m hm => (mem_keys_of_nbr I.wf hm).1
  refine (List.perm_ext_iff_of_nodup ((nodup_neighbors E (f n)).filter _) ?_).2 fun m' => ?_
  · refine List.Nodup.map_on ?_ ((nodup_neighbors D n).filter _)
    intro a ha b hb hab
    exact h.inj a (key a (List.mem_filter.1 ha).1) b (key b (List.mem_filter.1 hb).1) hab
  · simp only [List.mem_filter, List.mem_map]
    constructor
    · rintro ⟨h1, h2⟩
      obtain ⟨m, hm, rfl⟩ := (h.nodes m').1 (mem_keys_of_nbr J.wf h1).1
      have := (nbr_iff I J h hn hm).1 h1
      exact ⟨m, ⟨this, by rw [← hpq m this]; exact h2⟩, rfl⟩
    · rintro ⟨m, ⟨h1, h2⟩, rfl⟩
      exact ⟨(nbr_iff I J h hn (key m h1)).2 h1, by rw [hpq m h1]; exact h2⟩

theorem devSum_perm (I : ValidInput D) (J : ValidInput E) (h : ProblemUpToNames f D E) {n : Int} (P : Int → Vec R)
    {l l' : List Int} (hp : l'.Perm (l.map f)) (hl : ∀ m ∈ l, m ∈ D.neighbors n ∧ (edgeData D n m).type = .deviation) :
    devSum E P (f n) l' = devSum D (fun m => P (f m)) n l := by
  unfold devSum
  rw [(hp.map _).sum_eq, List.map_map]
  congr 1
  refine List.map_congr_left fun m hm => ?_
  obtain ⟨h1, h2⟩ := hl m hm
  show devTerm E P (f n) (f m) = _
  unfold devTerm
  rw [(same_edge I J h h1).deviation h2]

theorem outVec_names (I : ValidInput D) (J : ValidInput E) (h : ProblemUpToNames f D E) {n : Int}
    (hn : n ∈ D.nodes.keys) (ind : Bool) (P : Int → Vec R) (t : Vec R) :
    outVec E ind P t (f n) = outVec D ind (fun m => P (f m)) t n := by
  have key : ∀ m ∈ D.neighbors n, m ∈ D.nodes.keys := fun m hm => (mem_keys_of_nbr I.wf hm).1
  have hl : loadOf E (f n) = loadOf D n := h.load n hn
  unfold outVec
  rw [hl, devSum_perm I J h P (l := dirNbrs D n) (l' := dirNbrs E (f n)), devSum_perm I J h P (l := indNbrs D n) (l' := indNbrs E (f n))]
  · refine nbrs_perm I J h hn _ _ fun m hm => ?_
    rw [(same_edge I J h hm).type, h.sequence n hn, h.sequence m (key m hm)]
  · intro m hm
    have := List.mem_filter.1 hm
    simp only [decide_eq_true_eq] at this
    exact ⟨this.1, this.2.1⟩
  · refine nbrs_perm I J h hn _ _ fun m hm => ?_
    rw [(same_edge I J h hm).type, h.sequence n hn, h.sequence m (key m hm)]
  · intro m hm
    have := List.mem_filter.1 hm
    simp only [decide_eq_true_eq] at this
    exact ⟨this.1, this.2.1⟩

theorem trailNext_names (I : ValidInput D) (J : ValidInput E) (h : ProblemUpToNames f D E) {n m : Int}
    (hn : n ∈ D.nodes.keys) (hm : m ∈ D.nodes.keys) : trailNext E (f n) = some (f m) ↔ trailNext D n = some m := by
  rw [trailNext_iff J.wf J.trails, trailNext_iff I.wf I.trails]
  exact follows_names I h hn hm

theorem effective_same {d d' : EdgeData R} (h : SameEdge d d') (ht : d.type = .trail) (p r : Vec R) :
    effectiveLength d' p r = effectiveLength d p r := by
  unfold effectiveLength
  rw [(h.trail ht).1, (h.trail ht).2]

theorem next_facts (I : ValidInput D) {n m : Int} (h : trailNext D n = some m) :
    n ∈ D.nodes.keys ∧ m ∈ D.nodes.keys ∧ m ∈ D.neighbors n ∧ (edgeData D n m).type = .trail := by
  have hf : Follows D n m := (trailNext_iff I.wf I.trails).1 h
  obtain ⟨h1, h2⟩ := Follows.mem I.trails hf
  have hadj := adj_mem_neighbors (trailNext_adj I.wf I.trails h)
  exact ⟨h1, h2, hadj, Follows.typed I hf ((edgeBetween_iff I.simple).2 ⟨hadj, rfl⟩)⟩

/-- Rounds of the renamed problem, read with the old names. -/
theorem rounds_names (I : ValidInput D) (J : ValidInput E) (h : ProblemUpToNames f D E)
    (hout : ∀ n, n ∉ D.nodes.keys → f n ∉ E.nodes.keys) {ind : Nat → Bool} {P T r : Nat → Int → Vec R}
    {Q : Nat → Int → Int → Vec R} (B : Rounds E ind P T r Q) :
    Rounds D ind (fun j n => P j (f n)) (fun j n => T j (f n)) (fun j n => r j (f n)) (fun j n m => Q j (f n) (f m)) := by
  have key : ∀ n ∈ D.nodes.keys, f n ∈ E.nodes.keys := fun n hn => (h.nodes _).2 ⟨n, hn, rfl⟩
  have rank : ∀ n, rankOf E (f n) = rankOf D n := by
    intro n
    unfold rankOf
    by_cases hn : n ∈ D.nodes.keys
    · rw [h.sequence n hn]
    · have h1 := (Dict.get?_eq_none_iff _ _).2 hn
      have h2 := (Dict.get?_eq_none_iff _ _).2 (hout n hn)
      unfold seqOf
      rw [h1, h2]
  refine ⟨B.ind_pos, ?_, ?_, ?_, ?_, ?_⟩
  · intro j n hn m hm
    exact B.seen j (f n) (key n hn) (f m) (by rw [rank, rank]; exact hm)
  · intro j n hn m
    exact B.seen_any j (f n) (key n hn) (f m)
  · intro j n hn
    show r j (f n) = _
    rw [B.out j (f n) (key n hn), outVec_names I J h hn]
  · intro j n hn m hm
    obtain ⟨h1, h2, h3, h4⟩ := next_facts I hm
    have := B.next j (f n) (key n hn) (f m) ((trailNext_names I J h h1 h2).2 hm)
    rw [effective_same (same_edge I J h h3) h4] at this
    exact this
  · intro j m hm hx
    obtain ⟨tr, htr⟩ := head_of_no_prev I.wf I.trails hm hx
    obtain ⟨h1, h2⟩ := B.start j (f m) (key m hm) (by
      intro a ha
      obtain ⟨a1, -, -, -⟩ := next_facts J ha
      obtain ⟨a, ha', rfl⟩ := (h.nodes a).1 a1
      exact hx a ((trailNext_names I J h ha' hm).1 ha))
    exact ⟨by show P (j + 1) (f m) = _; rw [h1, h.origin m tr htr], h2⟩

theorem direct_names (I : ValidInput D) (J : ValidInput E) (h : ProblemUpToNames f D E) (hd : DirectOnly D) :
    DirectOnly E := by
  intro a b d' he ht
  obtain ⟨⟨u, v⟩, hm, e⟩ := h.edges _ (Dict.mem_keys_of_get? he)
  obtain ⟨d, hdd⟩ := (Dict.exists_get?_iff D.edges (u, v)).2 hm
  have hu := I.wf.edge_left _ hm
  have hv := I.wf.edge_right _ hm
  obtain ⟨d2, h1, h2⟩ := h.edge _ _ hdd
  have h3 : EdgeBetween E (f u) (f v) d' := by
    rcases e with e | e <;> obtain ⟨rfl, rfl⟩ := Prod.mk.inj e
    · exact Or.inl he
    · exact Or.inr he
  have : d' = d2 := ((edgeBetween_iff J.simple).1 h3).2.symm.trans ((edgeBetween_iff J.simple).1 h1).2
  have hs := hd u v d hdd (by rw [← h2.type, ← this]; exact ht)
  rcases e with e | e <;> obtain ⟨rfl, rfl⟩ := Prod.mk.inj e
  · rw [h.sequence u hu, h.sequence v hv, hs]
  · rw [h.sequence u hu, h.sequence v hv, hs]

end
end Symmetry
end CEM
