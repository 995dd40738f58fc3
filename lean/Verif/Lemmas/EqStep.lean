import Verif.Props.Sequences
import Verif.Lemmas.Schedule
import Verif.Spec.ValidInput

/-!
# The sweeps of form finding on valid diagrams
-/

set_option linter.unusedSectionVars false
set_option linter.unusedSimpArgs false

namespace CEM
open Diagram Spec

variable {R : Type} [Field R] [LinearOrder R] [PySqrt R]

/-! ## The next node of a trail -/

/-- The element after the first occurrence of `n`. -/
def nextIn : List Int → Int → Option Int
  | a :: b :: l, n => if a = n then some b else nextIn (b :: l) n
  | _, _ => none

theorem nextIn_iff {l : List Int} (hn : l.Nodup) {a b : Int} :
    nextIn l a = some b ↔ Consecutive l a b := by
  induction l with
  | nil => simp [nextIn, Consecutive]
  | cons x l ih =>
    cases l with
    | nil =>
      simp only [nextIn, Consecutive, reduceCtorEq, false_iff, not_exists]
      intro p q h
      have := congrArg List.length h
      simp at this
      omega
    | cons y l =>
      rw [List.nodup_cons] at hn
      unfold nextIn
      split_ifs with h
      · subst h
        constructor
        · intro h; obtain rfl := Option.some.inj h; exact ⟨[], l, rfl⟩
        · rintro ⟨p, s, hp⟩
          cases p with
          | nil => simp at hp; simp [hp.1]
          | cons z p =>
            exfalso
            simp only [List.cons_append, List.cons.injEq] at hp
            apply hn.1; rw [hp.2]; simp
      · rw [ih hn.2]
        constructor
        · rintro ⟨p, s, hp⟩; exact ⟨x :: p, s, by simp [hp]⟩
        · rintro ⟨p, s, hp⟩
          cases p with
          | nil => simp at hp; exact absurd hp.1 h
          | cons z p =>
            simp only [List.cons_append, List.cons.injEq] at hp
            exact ⟨p, s, hp.2⟩

/-- The next node in the trail of `n`. -/
def trailNext (D : Diagram R) (n : Int) : Option Int := D.trails.findSome? fun p => nextIn p.2 n

/-- The next node in the trail of `n`, unless the computation stops at `n`. -/
def nxtK (D : Diagram R) (kmax : Option Int) (n : Int) : Option Int :=
  if typeOf D n = some .support ∨ (kmax.isSome ∧ kmax = seqOf D n) then none else trailNext D n

def rankOf (D : Diagram R) (n : Int) : Int := (seqOf D n).getD 0

theorem trailNext_iff {D : Diagram R} (w : WF D) (V : ValidTrails D) {a b : Int} :
    trailNext D a = some b ↔ ∃ key tr, (key, tr) ∈ D.trails ∧ Consecutive tr a b := by
  unfold trailNext
  rw [List.findSome?_eq_some_iff]
  constructor
  · rintro ⟨l1, p, l2, h1, h2, _⟩
    have hp : (p.1, p.2) ∈ D.trails := by rw [h1]; simp
    exact ⟨p.1, p.2, hp, (nextIn_iff (V.trail_nodup w hp)).1 h2⟩
  · rintro ⟨key, tr, h, hc⟩
    obtain ⟨l1, l2, hl⟩ := List.append_of_mem h
    refine ⟨l1, (key, tr), l2, hl, (nextIn_iff (V.trail_nodup w h)).2 hc, ?_⟩
    intro x hx
    cases hq : nextIn x.2 a with
    | none => rfl
    | some c =>
      exfalso
      have hx' : (x.1, x.2) ∈ D.trails := by rw [hl]; exact List.mem_append_left _ hx
      have hcx := (nextIn_iff (V.trail_nodup w hx')).1 hq
      have := V.unique w hx' h hcx.mem_left hc.mem_left
      have hnd := V.keys_nodup w
      rw [hl] at hnd
      unfold Dict.keys at hnd
      rw [List.map_append, List.nodup_append] at hnd
      exact hnd.2.2 x.1 (List.mem_map.2 ⟨x, hx, rfl⟩) key (by simp) (congrArg Prod.fst this)

/-- On valid trails a node that is no support has a next node. -/
theorem trailNext_isSome {D : Diagram R} (w : WF D) (V : ValidTrails D) {n : Int}
    (hn : n ∈ D.nodes.keys) (hs : typeOf D n ≠ some .support) : ∃ m, trailNext D n = some m := by
  obtain ⟨⟨key, tr⟩, h, hm⟩ := List.mem_flatMap.1 (V.partition.mem_iff.2 hn)
  obtain ⟨p, q, hpq⟩ := List.append_of_mem hm
  simp only at hpq
  cases q with
  | nil =>
    exfalso
    exact hs ((V.support key tr h n hm).2 (by rw [hpq]; simp))
  | cons m q => exact ⟨m, (trailNext_iff w V).2 ⟨key, tr, h, p, q, hpq⟩⟩

theorem trailNext_support {D : Diagram R} (w : WF D) (V : ValidTrails D) {n m : Int}
    (h : trailNext D n = some m) : typeOf D n ≠ some .support := by
  obtain ⟨key, tr, ht, p, q, hpq⟩ := (trailNext_iff w V).1 h
  intro hs
  have hm : n ∈ tr := by rw [hpq]; simp
  have := (V.support key tr ht n hm).1 hs
  have hnd := V.trail_nodup w ht
  obtain ⟨l, hl⟩ := List.getLast?_eq_some_iff.1 this
  have hu := (split_unique hnd hpq hl).2
  simp at hu

theorem seqOf_next {D : Diagram R} {key : Int} {tr : List Int} (V : ValidTrails D)
    (h : (key, tr) ∈ D.trails) {a b : Int} (hc : Consecutive tr a b) :
    ∃ k : Int, 0 ≤ k ∧ seqOf D a = some k ∧ seqOf D b = some (k + 1) := by
  obtain ⟨s, hs⟩ := V.seq key tr h
  obtain ⟨p, q, rfl⟩ := hc
  have h1 := hs p.length (by simp)
  have h2 := hs (p.length + 1) (by simp)
  refine ⟨(s : Int) + p.length, by omega, ?_, ?_⟩
  · simpa using h1
  · rw [List.getElem_append_right (by omega)] at h2
    simp only [Nat.add_sub_cancel_left, List.getElem_cons_succ, List.getElem_cons_zero] at h2
    rw [h2]; congr 1

theorem allSequenced_of_valid {D : Diagram R} (V : ValidTrails D) :
    ∀ n ∈ D.nodes.keys, ∃ k, seqOf D n = some k ∧ 0 ≤ k := by
  intro n hn
  obtain ⟨⟨key, tr⟩, h, hm⟩ := List.mem_flatMap.1 (V.partition.mem_iff.2 hn)
  obtain ⟨s, hs⟩ := V.seq key tr h
  obtain ⟨i, hi, rfl⟩ := List.getElem_of_mem hm
  exact ⟨_, hs i hi, by omega⟩

theorem nodes_ne_nil {D : Diagram R} (V : ValidTrails D) (hne : D.trails ≠ []) :
    D.nodes.keys ≠ [] := by
  obtain ⟨⟨key, tr⟩, h⟩ := List.exists_mem_of_ne_nil _ hne
  have := V.mem_keys h (V.key_mem h)
  exact List.ne_nil_of_mem this

/-! ## One node -/

theorem connectedEdges_eq (D : Diagram R) (n : Int) :
    D.connectedEdges n = (D.neighbors n).map (edgeKey D n) := rfl

theorem edgeKey_mem {D : Diagram R} {n m : Int} (h : m ∈ D.neighbors n) :
    D.edges.get? (edgeKey D n m) = some (edgeData D n m) := by
  have : edgeKey D n m ∈ D.edges.keys := by
    unfold edgeKey
    split_ifs with hc
    · exact (Dict.has_iff _ _).1 hc
    · rw [mem_neighbors] at h
      rcases h with h | h
      · exact absurd ((Dict.has_iff _ _).2 h) hc
      · exact h
  obtain ⟨d, hd⟩ := (Dict.exists_get?_iff _ _).2 this
  unfold edgeData
  rw [hd]; rfl

theorem edgeKey_ends (D : Diagram R) (n m : Int) :
    edgeKey D n m = (n, m) ∨ edgeKey D n m = (m, n) := by
  unfold edgeKey; split_ifs <;> simp

theorem mem_keys_of_nbr {D : Diagram R} (w : WF D) {n m : Int} (h : m ∈ D.neighbors n) :
    m ∈ D.nodes.keys ∧ n ∈ D.nodes.keys := by
  rw [mem_neighbors] at h
  rcases h with h | h
  · exact ⟨w.edge_right _ h, w.edge_left _ h⟩
  · exact ⟨w.edge_left _ h, w.edge_right _ h⟩

theorem isDir_edgeKey {D : Diagram R} (w : WF D) (hs : ∀ n ∈ D.nodes.keys, ∃ k, seqOf D n = some k)
    {n m : Int} (h : m ∈ D.neighbors n) :
    D.isDirectDeviationEdge (edgeKey D n m) =
      .ok (decide ((edgeData D n m).type = .deviation ∧ seqOf D n = seqOf D m)) ∧
    D.isIndirectDeviationEdge (edgeKey D n m) =
      .ok (decide ((edgeData D n m).type = .deviation ∧ seqOf D n ≠ seqOf D m)) := by
  have hd := edgeKey_mem h
  obtain ⟨hm, hn⟩ := mem_keys_of_nbr w h
  obtain ⟨i, hi⟩ := hs n hn
  obtain ⟨j, hj⟩ := hs m hm
  rw [hi, hj]
  unfold isDirectDeviationEdge isIndirectDeviationEdge isDeviationEdgePredicate isDeviationEdge
  rw [hd]
  by_cases ht : (edgeData D n m).type = .deviation
  · rcases edgeKey_ends D n m with e | e
    · simp [ht, e, edgeSequence_of hi hj]
    · simp [ht, e, edgeSequence_of hj hi, eq_comm]
  · simp [ht]

theorem connectedDirect_eq {D : Diagram R} (w : WF D)
    (hs : ∀ n ∈ D.nodes.keys, ∃ k, seqOf D n = some k) (n : Int) :
    D.connectedDirectDeviationEdges n = .ok ((dirNbrs D n).map (edgeKey D n)) ∧
    D.connectedIndirectDeviationEdges n = .ok ((indNbrs D n).map (edgeKey D n)) := by
  have key : ∀ (p : Int × Int → Except PyErr Bool) (q : Int → Bool) (l : List Int),
      (∀ m ∈ l, p (edgeKey D n m) = .ok (q m)) →
      filterE p (l.map (edgeKey D n)) = .ok ((l.filter q).map (edgeKey D n)) := by
    intro p q l
    induction l with
    | nil => intro _; rfl
    | cons m l ih =>
      intro h
      simp only [List.map_cons, filterE, h m (by simp), ih fun x hx => h x (by simp [hx])]
      by_cases hq : q m <;> simp [hq]
  constructor
  · exact key _ _ _ fun m hm => (isDir_edgeKey w hs hm).1
  · exact key _ _ _ fun m hm => (isDir_edgeKey w hs hm).2

theorem incoming_edgeKey {D : Diagram R} {xyz : Dict Int (Vec R)} {n m : Int}
    (hn : n ∈ xyz.keys) (hm : m ∈ xyz.keys) :
    incomingEdgeVector n xyz (edgeKey D n m) =
      .ok (Vec.normalize ((xyz.get? m).getD 0 - (xyz.get? n).getD 0)) := by
  obtain ⟨a, ha⟩ := (Dict.exists_get?_iff _ _).2 hn
  obtain ⟨b, hb⟩ := (Dict.exists_get?_iff _ _).2 hm
  have ho : (if (edgeKey D n m).1 ≠ n then (edgeKey D n m).1 else (edgeKey D n m).2) = m := by
    rcases edgeKey_ends D n m with e | e
    · rw [e]; simp
    · rw [e]; simp only [ne_eq, ite_not]; split_ifs with h
      · exact h.symm
      · rfl
  unfold incomingEdgeVector
  simp only [ho, Dict.getE, ha, hb, Option.getD_some]

theorem deviationLoop_eq {D : Diagram R} (w : WF D) {s : EqState R} {n : Int}
    (hk : s.xyz.keys = D.nodes.keys) (hn : n ∈ D.nodes.keys) (l : List Int)
    (hl : ∀ m ∈ l, m ∈ D.neighbors n) (acc : Vec R) :
    deviationResultantLoop D n s.xyz (l.map (edgeKey D n)) acc =
      .ok (acc + devSum D s.pos n l) := by
  induction l generalizing acc with
  | nil => simp [deviationResultantLoop, devSum]
  | cons m l ih =>
    have hm := hl m (by simp)
    rw [List.map_cons, deviationResultantLoop,
      incoming_edgeKey (by rw [hk]; exact hn) (by rw [hk]; exact (mem_keys_of_nbr w hm).1)]
    simp only [Dict.getE, edgeKey_mem hm]
    rw [ih fun x hx => hl x (by simp [hx])]
    simp only [devSum, List.map_cons, List.sum_cons, devTerm, EqState.pos, add_assoc]

theorem nodeEquilibrium_eq {D : Diagram R} (w : WF D)
    (hs : ∀ n ∈ D.nodes.keys, ∃ k, seqOf D n = some k) {s : EqState R} {n : Int} (ind : Bool)
    (hk : s.xyz.keys = D.nodes.keys) (hn : n ∈ D.nodes.keys) (t : Vec R) :
    nodeEquilibrium D n t s.xyz ind = .ok (outVec D ind s.pos t n) := by
  obtain ⟨d, hd⟩ := (Dict.exists_get?_iff _ _).2 hn
  obtain ⟨h1, h2⟩ := connectedDirect_eq w hs n
  have hq : loadOf D n = d.load := by simp [loadOf, hd]
  unfold nodeEquilibrium directResultant indirectResultant
  simp only [Dict.getE, hd, h1, h2]
  rw [deviationLoop_eq w hk hn (dirNbrs D n) (fun m hm => (List.mem_filter.1 hm).1),
    deviationLoop_eq w hk hn (indNbrs D n) (fun m hm => (List.mem_filter.1 hm).1)]
  cases ind
  · simp only [Bool.false_eq_true, if_false, trailVectorOut, outVec, hq]
    congr 1; abel
  · simp only [if_true, trailVectorOut, outVec, hq]
    congr 1; abel

/-! ## A step on a valid diagram -/

/-- The dictionaries of the state have the nodes of the diagram as keys. -/
def GoodState (D : Diagram R) (s : EqState R) : Prop :=
  s.xyz.keys = D.nodes.keys ∧ s.residual.keys = D.nodes.keys

/-- `trails_sequences()` of a valid diagram. -/
def GoodSeqs (D : Diagram R) (T : Dict Int (Dict Int Int)) : Prop :=
  ∀ key tr, (key, tr) ∈ D.trails → ∃ m, T.get? key = some m ∧
    ∀ k n, m.get? k = some n ↔ n ∈ tr ∧ seqOf D n = some k

theorem nxtK_mem {D : Diagram R} (w : WF D) (V : ValidTrails D) {kmax : Option Int} {n m : Int}
    (h : nxtK D kmax n = some m) : m ∈ D.nodes.keys ∧ n ∈ D.nodes.keys := by
  unfold nxtK at h
  split_ifs at h
  obtain ⟨key, tr, ht, hc⟩ := (trailNext_iff w V).1 h
  exact ⟨V.mem_keys ht hc.mem_right, V.mem_keys ht hc.mem_left⟩

theorem nxtK_trail {D : Diagram R} {kmax : Option Int} {n m : Int}
    (h : nxtK D kmax n = some m) : trailNext D n = some m := by
  unfold nxtK at h
  split_ifs at h
  exact h

theorem trailNext_adj {D : Diagram R} (w : WF D) (V : ValidTrails D) {n m : Int}
    (h : trailNext D n = some m) : TrailAdj D n m := by
  obtain ⟨key, tr, ht, hc⟩ := (trailNext_iff w V).1 h
  exact (isChain_iff_consecutive tr).1 (V.chain key tr ht) n m hc

theorem GoodState.proc {D : Diagram R} (w : WF D) (V : ValidTrails D) {kmax : Option Int}
    {ind : Bool} {s : EqState R} (h : GoodState D s) (n : Int) :
    GoodState D (proc D (nxtK D kmax) ind s n) := by
  obtain ⟨h1, h2⟩ := proc_keys (D := D) (nxt := nxtK D kmax) (ind := ind) s n (by
    intro m hm; rw [h.1, h.2]; exact ⟨(nxtK_mem w V hm).1, (nxtK_mem w V hm).1⟩)
  exact ⟨h1.trans h.1, h2.trans h.2⟩

theorem eqStep_eq {D : Diagram R} (w : WF D) (V : ValidTrails D) {T : Dict Int (Dict Int Int)}
    (hT : GoodSeqs D T) (kmax : Option Int) (ind : Bool) (k : Int) {s : EqState R}
    (hg : GoodState D s) {key : Int} (hkey : key ∈ D.trails.keys) :
    eqStep D T kmax ind k s key = .ok (match (T.get? key).bind (·.get? k) with
      | none => s
      | some n => proc D (nxtK D kmax) ind s n) := by
  obtain ⟨tr, ht⟩ := Dict.mem_keys_iff.1 hkey
  obtain ⟨m, hm, hspec⟩ := hT key tr ht
  have hs : ∀ n ∈ D.nodes.keys, ∃ k, seqOf D n = some k := fun n hn =>
    let ⟨k, h, _⟩ := allSequenced_of_valid V n hn; ⟨k, h⟩
  unfold eqStep
  simp only [Dict.getE, hm, Option.bind_some]
  cases hn : m.get? k with
  | none => rfl
  | some n =>
    obtain ⟨hntr, hseq⟩ := (hspec k n).1 hn
    have hnk := V.mem_keys ht hntr
    obtain ⟨p, hp⟩ := (Dict.exists_get?_iff s.xyz n).2 (by rw [hg.1]; exact hnk)
    obtain ⟨r, hr⟩ := (Dict.exists_get?_iff s.residual n).2 (by rw [hg.2]; exact hnk)
    have hpos : s.pos n = p := by simp [EqState.pos, hp]
    have hres : s.res n = r := by simp [EqState.res, hr]
    simp only [hp, hr]
    rw [nodeEquilibrium_eq w hs ind hg.1 hnk]
    have hsup : D.isNodeSupport n = .ok (decide (typeOf D n = some .support)) := by
      obtain ⟨d, hd⟩ := (Dict.exists_get?_iff _ _).2 hnk
      simp [isNodeSupport, typeOf, hd]
    simp only [hsup, decide_eq_true_eq]
    by_cases hstop : typeOf D n = some .support ∨ kmax = some k
    · have hx : nxtK D kmax n = none := by
        unfold nxtK
        rw [if_pos]
        rcases hstop with h | h
        · exact Or.inl h
        · exact Or.inr ⟨by simp [h], by rw [h, hseq]⟩
      rw [if_pos hstop, proc_none hx, hres]
    · rw [if_neg hstop]
      push Not at hstop
      obtain ⟨n', hn'⟩ := trailNext_isSome w V hnk hstop.1
      have hx : nxtK D kmax n = some n' := by
        unfold nxtK
        rw [if_neg, hn']
        rintro (h | ⟨h1, h2⟩)
        · exact hstop.1 h
        · rw [hseq] at h2; exact hstop.2 h2
      obtain ⟨key', tr', ht', hc⟩ := (trailNext_iff w V).1 hn'
      have he := V.unique w ht ht' hntr hc.mem_left
      obtain ⟨rfl, rfl⟩ := Prod.mk.inj he
      obtain ⟨j, _, hj1, hj2⟩ := seqOf_next V ht hc
      rw [hseq] at hj1
      obtain rfl := Option.some.inj hj1
      have hnext : m.get? (k + 1) = some n' := (hspec _ _).2 ⟨hc.mem_right, hj2⟩
      have hadj := trailNext_adj w V hn'
      have hed := edgeKey_mem (adj_mem_neighbors hadj)
      unfold edgeKey at hed
      simp only [hnext, hed]
      rw [proc_some hx, hres, hpos]
      rfl

theorem forE_ok {α σ : Type} {f : σ → α → Except PyErr σ} {g : σ → α → σ} {Inv : σ → Prop}
    {l : List α} {s : σ} (h0 : Inv s)
    (hf : ∀ s a, Inv s → a ∈ l → f s a = .ok (g s a)) (hi : ∀ s a, Inv s → a ∈ l → Inv (g s a)) :
    forE f l s = .ok (l.foldl g s) ∧ Inv (l.foldl g s) := by
  induction l generalizing s with
  | nil => exact ⟨rfl, h0⟩
  | cons a l ih =>
    simp only [forE, hf s a h0 (by simp), List.foldl_cons]
    exact ih (hi s a h0 (by simp)) (fun s a h ha => hf s a h (by simp [ha]))
      (fun s a h ha => hi s a h (by simp [ha]))

/-- The nodes of sequence `k` in the order of the trails. -/
def level (D : Diagram R) (T : Dict Int (Dict Int Int)) (k : Int) : List Int :=
  D.trails.keys.filterMap fun key => (T.get? key).bind (·.get? k)

/-- The order in which a sweep processes the nodes. -/
def sched (D : Diagram R) (T : Dict Int (Dict Int Int)) (N : Int) : List Int :=
  (pyRange N).flatMap (level D T)

theorem GoodState.fold {D : Diagram R} (w : WF D) (V : ValidTrails D) {kmax : Option Int}
    {ind : Bool} {s : EqState R} (h : GoodState D s) (l : List Int) :
    GoodState D (l.foldl (CEM.proc D (nxtK D kmax) ind) s) := by
  induction l generalizing s with
  | nil => exact h
  | cons n l ih => exact ih (h.proc w V n)

theorem sweep_eq {D : Diagram R} (w : WF D) (V : ValidTrails D) {T : Dict Int (Dict Int Int)}
    (hT : GoodSeqs D T) (kmax : Option Int) (ind : Bool) (N : Int) {s : EqState R}
    (hg : GoodState D s) :
    sweep D T kmax ind N s = .ok ((sched D T N).foldl (proc D (nxtK D kmax) ind) s) := by
  have inner : ∀ (k : Int) (s : EqState R), GoodState D s →
      forE (eqStep D T kmax ind k) D.trails.keys s =
        .ok ((level D T k).foldl (proc D (nxtK D kmax) ind) s) := by
    intro k s hs
    have := (forE_ok (f := eqStep D T kmax ind k) (l := D.trails.keys)
      (g := fun s key => match (T.get? key).bind (·.get? k) with
        | none => s
        | some n => proc D (nxtK D kmax) ind s n) (Inv := GoodState D) hs
      (fun s key h hk => eqStep_eq w V hT kmax ind k h hk)
      (by
        intro s key h _
        split
        · exact h
        · exact h.proc w V _)).1
    rw [this, level, List.foldl_filterMap]
    congr 2
    funext s key
    cases (T.get? key).bind (·.get? k) <;> rfl
  unfold sweep
  have := (forE_ok (f := fun s k => forE (eqStep D T kmax ind k) D.trails.keys s) (l := pyRange N)
    (g := fun s k => (level D T k).foldl (proc D (nxtK D kmax) ind) s) (Inv := GoodState D) hg
    (fun s k h _ => inner k s h) (fun s k h _ => h.fold w V _)).1
  rw [this, sched, List.foldl_flatMap]

/-! ## The schedule -/

theorem mem_level {D : Diagram R} (V : ValidTrails D) {T : Dict Int (Dict Int Int)}
    (hT : GoodSeqs D T) {k n : Int} :
    n ∈ level D T k ↔ n ∈ D.nodes.keys ∧ seqOf D n = some k := by
  unfold level
  rw [List.mem_filterMap]
  constructor
  · rintro ⟨key, hk, h⟩
    obtain ⟨tr, ht⟩ := Dict.mem_keys_iff.1 hk
    obtain ⟨m, hm, hs⟩ := hT key tr ht
    rw [hm, Option.bind_some, hs] at h
    exact ⟨V.mem_keys ht h.1, h.2⟩
  · rintro ⟨hn, hk⟩
    obtain ⟨⟨key, tr⟩, h, hm⟩ := List.mem_flatMap.1 (V.partition.mem_iff.2 hn)
    obtain ⟨m, hm', hs⟩ := hT key tr h
    exact ⟨key, Dict.mem_keys_iff.2 ⟨_, h⟩, by rw [hm', Option.bind_some, hs]; exact ⟨hm, hk⟩⟩

theorem nodup_level {D : Diagram R} (w : WF D) (V : ValidTrails D) {T : Dict Int (Dict Int Int)}
    (hT : GoodSeqs D T) (k : Int) : (level D T k).Nodup := by
  unfold level
  have hpw : D.trails.keys.Pairwise fun a b => a ∈ D.trails.keys ∧ b ∈ D.trails.keys ∧ a ≠ b := by
    have := V.keys_nodup w
    rw [List.Nodup, List.pairwise_iff_forall_sublist] at this
    rw [List.pairwise_iff_forall_sublist]
    intro a b hab
    exact ⟨hab.subset (by simp), hab.subset (by simp), this hab⟩
  rw [List.Nodup, List.pairwise_filterMap]
  refine hpw.imp ?_
  rintro a b ⟨ha, hb, hab⟩ x hx y hy rfl
  obtain ⟨ta, hta⟩ := Dict.mem_keys_iff.1 ha
  obtain ⟨tb, htb⟩ := Dict.mem_keys_iff.1 hb
  obtain ⟨ma, hma, hsa⟩ := hT a ta hta
  obtain ⟨mb, hmb, hsb⟩ := hT b tb htb
  rw [hma, Option.bind_some, hsa] at hx
  rw [hmb, Option.bind_some, hsb] at hy
  exact hab (congrArg Prod.fst (V.unique w hta htb hx.1 hy.1))

theorem pyRange_sorted (N : Int) : (pyRange N).Pairwise (· < ·) := by
  unfold pyRange
  rw [List.pairwise_map]
  exact List.pairwise_lt_range.imp fun h => by simpa using h

theorem mem_sched {D : Diagram R} (V : ValidTrails D) {T : Dict Int (Dict Int Int)}
    (hT : GoodSeqs D T) {N : Int}
    (hN : ∀ n ∈ D.nodes.keys, ∀ k, seqOf D n = some k → k < N) {n : Int} :
    n ∈ sched D T N ↔ n ∈ D.nodes.keys := by
  unfold sched
  rw [List.mem_flatMap]
  constructor
  · rintro ⟨k, _, h⟩; exact ((mem_level V hT).1 h).1
  · intro hn
    obtain ⟨k, hk, h0⟩ := allSequenced_of_valid V n hn
    exact ⟨k, mem_pyRange.2 ⟨h0, hN n hn k hk⟩, (mem_level V hT).2 ⟨hn, hk⟩⟩

theorem sched_sched {D : Diagram R} (w : WF D) (V : ValidTrails D) {T : Dict Int (Dict Int Int)}
    (hT : GoodSeqs D T) (kmax : Option Int) (N : Int) :
    Sched (nxtK D kmax) (rankOf D) (sched D T N) := by
  refine ⟨?_, ?_, ?_, ?_⟩
  · unfold sched
    rw [List.nodup_flatMap]
    refine ⟨fun k _ => nodup_level w V hT k, ?_⟩
    refine (pyRange_sorted N).imp ?_
    intro a b hab
    rw [Function.onFun, List.disjoint_left]
    intro n h1 h2
    have e1 := ((mem_level V hT).1 h1).2
    have e2 := ((mem_level V hT).1 h2).2
    rw [e1] at e2
    have := Option.some.inj e2
    omega
  · intro a b m ha hb
    obtain ⟨k1, t1, h1, c1⟩ := (trailNext_iff w V).1 (nxtK_trail ha)
    obtain ⟨k2, t2, h2, c2⟩ := (trailNext_iff w V).1 (nxtK_trail hb)
    have he := V.unique w h1 h2 c1.mem_right c2.mem_right
    obtain ⟨rfl, rfl⟩ := Prod.mk.inj he
    exact c1.left_unique (V.trail_nodup w h1) c2
  · intro a m ha
    obtain ⟨k1, t1, h1, c1⟩ := (trailNext_iff w V).1 (nxtK_trail ha)
    obtain ⟨k, _, e1, e2⟩ := seqOf_next V h1 c1
    simp [rankOf, e1, e2]
  · unfold sched
    rw [List.pairwise_flatMap]
    refine ⟨?_, ?_⟩
    · intro k _
      rw [List.pairwise_iff_forall_sublist]
      intro a b hab
      have ha := ((mem_level V hT).1 (hab.subset (by simp : a ∈ [a, b]))).2
      have hb := ((mem_level V hT).1 (hab.subset (by simp : b ∈ [a, b]))).2
      simp [rankOf, ha, hb]
    · refine (pyRange_sorted N).imp ?_
      intro i j hij x hx y hy
      have ha := ((mem_level V hT).1 hx).2
      have hb := ((mem_level V hT).1 hy).2
      simp only [rankOf, ha, hb, Option.getD_some]
      omega

end CEM
