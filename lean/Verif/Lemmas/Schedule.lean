import Verif.Lemmas.Sequences
import Verif.Model.Equilibrium

/-!
# One sweep of form finding as a fold

The nodes are processed one after the other (`proc`).  `SweepSpec` describes the
state after all nodes of a schedule were processed.
-/

set_option linter.unusedSectionVars false
set_option linter.unusedSimpArgs false

namespace CEM
open Diagram Spec

variable {R : Type} [Field R] [LinearOrder R] [PySqrt R]

namespace EqState
/-- Current position of a node. -/
def pos (s : EqState R) (n : Int) : Vec R := (s.xyz.get? n).getD 0
/-- Current residual vector that arrives at a node. -/
def res (s : EqState R) (n : Int) : Vec R := (s.residual.get? n).getD 0
end EqState

/-- The stored key of an edge between `n` and `m`. -/
def edgeKey (D : Diagram R) (n m : Int) : Int × Int := if D.edges.has (n, m) then (n, m) else (m, n)

def edgeData (D : Diagram R) (n m : Int) : EdgeData R := (D.edges.get? (edgeKey D n m)).getD freshEdge

def loadOf (D : Diagram R) (n : Int) : Vec R := ((D.nodes.get? n).map (·.load)).getD 0

/-- Force vector of the deviation edge from `n` to `m` at `n` for the positions `P`. -/
def devTerm (D : Diagram R) (P : Int → Vec R) (n m : Int) : Vec R :=
  (edgeData D n m).force • Vec.normalize (P m - P n)

/-- Neighbours of `n` through direct deviation edges. -/
def dirNbrs (D : Diagram R) (n : Int) : List Int :=
  (D.neighbors n).filter fun m => (edgeData D n m).type = .deviation ∧ seqOf D n = seqOf D m

/-- Neighbours of `n` through indirect deviation edges. -/
def indNbrs (D : Diagram R) (n : Int) : List Int :=
  (D.neighbors n).filter fun m => (edgeData D n m).type = .deviation ∧ seqOf D n ≠ seqOf D m

def devSum (D : Diagram R) (P : Int → Vec R) (n : Int) (l : List Int) : Vec R :=
  (l.map (devTerm D P n)).sum

/-- The outgoing trail vector of node `n`. -/
def outVec (D : Diagram R) (ind : Bool) (P : Int → Vec R) (t : Vec R) (n : Int) : Vec R :=
  t - loadOf D n - devSum D P n (dirNbrs D n) - if ind then devSum D P n (indNbrs D n) else 0

/-- Processing one node; `nxt` is the next node of its trail. -/
def proc (D : Diagram R) (nxt : Int → Option Int) (ind : Bool) (s : EqState R) (n : Int) : EqState R :=
  let r := outVec D ind s.pos (s.res n) n
  match nxt n with
  | none => { s with reactions := s.reactions.set n r }
  | some m =>
    let l := effectiveLength (edgeData D n m) (s.pos n) r
    { s with
      xyz := s.xyz.set m (s.pos n + l • Vec.normalize r)
      trailForces := s.trailForces.set (edgeKey D n m) (copysign (Vec.length r) l)
      trailDirs := s.trailDirs.set (edgeKey D n m) (Vec.normalize r)
      residual := s.residual.set m r }

theorem proc_none {D : Diagram R} {nxt : Int → Option Int} {ind : Bool} {s : EqState R} {n : Int}
    (h : nxt n = none) : proc D nxt ind s n =
      { s with reactions := s.reactions.set n (outVec D ind s.pos (s.res n) n) } := by
  simp only [proc, h]

theorem proc_some {D : Diagram R} {nxt : Int → Option Int} {ind : Bool} {s : EqState R} {n m : Int}
    (h : nxt n = some m) : proc D nxt ind s n =
      { s with
        xyz := s.xyz.set m (s.pos n + effectiveLength (edgeData D n m) (s.pos n)
          (outVec D ind s.pos (s.res n) n) • Vec.normalize (outVec D ind s.pos (s.res n) n))
        trailForces := s.trailForces.set (edgeKey D n m)
          (copysign (Vec.length (outVec D ind s.pos (s.res n) n))
            (effectiveLength (edgeData D n m) (s.pos n) (outVec D ind s.pos (s.res n) n)))
        trailDirs := s.trailDirs.set (edgeKey D n m) (Vec.normalize (outVec D ind s.pos (s.res n) n))
        residual := s.residual.set m (outVec D ind s.pos (s.res n) n) } := by
  simp only [proc, h]

/-- Properties of the order in which the nodes are processed. -/
structure Sched (nxt : Int → Option Int) (rank : Int → Int) (L : List Int) : Prop where
  nodup : L.Nodup
  inj : ∀ a b m, nxt a = some m → nxt b = some m → a = b
  rank_succ : ∀ a m, nxt a = some m → rank m = rank a + 1
  sorted : L.Pairwise fun a b => rank a ≤ rank b

variable {D : Diagram R} {nxt : Int → Option Int} {rank : Int → Int} {ind : Bool} {L : List Int}

theorem edgeKey_inj (S : Sched nxt rank L) {a b m m' : Int} (ha : nxt a = some m)
    (hb : nxt b = some m') (h : edgeKey D a m = edgeKey D b m') : a = b ∧ m = m' := by
  have h1 := S.rank_succ _ _ ha
  have h2 := S.rank_succ _ _ hb
  unfold edgeKey at h
  split_ifs at h <;> simp only [Prod.mk.injEq] at h
  · exact h
  · obtain ⟨rfl, rfl⟩ := h; omega
  · obtain ⟨rfl, rfl⟩ := h; omega
  · exact ⟨h.2, h.1⟩

/-- The state when `n` is about to be processed. -/
def stateAt (D : Diagram R) (nxt : Int → Option Int) (ind : Bool) (L : List Int) (s : EqState R)
    (n : Int) : EqState R := (L.takeWhile (· ≠ n)).foldl (proc D nxt ind) s

def rAt (D : Diagram R) (nxt : Int → Option Int) (ind : Bool) (L : List Int) (s : EqState R)
    (n : Int) : Vec R :=
  outVec D ind (stateAt D nxt ind L s n).pos ((stateAt D nxt ind L s n).res n) n

/-- The signed length used for the trail edge leaving `n` when it is processed. -/
def lenAt (D : Diagram R) (nxt : Int → Option Int) (ind : Bool) (L : List Int) (s : EqState R)
    (n m : Int) : R :=
  effectiveLength (edgeData D n m) ((stateAt D nxt ind L s n).pos n) (rAt D nxt ind L s n)

theorem takeWhile_of_split {L L1 L2 : List Int} {n : Int} (hn : L.Nodup) (h : L = L1 ++ n :: L2) :
    L.takeWhile (· ≠ n) = L1 := by
  subst h
  rw [List.takeWhile_append_of_pos]
  · simp
  · intro a ha
    have := (List.nodup_append.1 hn).2.2 a ha n (by simp)
    simpa using this

/-- The state after a prefix of the schedule. -/
structure PrefixSpec (D : Diagram R) (nxt : Int → Option Int) (ind : Bool) (L : List Int)
    (s : EqState R) (L1 : List Int) (s1 : EqState R) : Prop where
  moved : ∀ a ∈ L1, ∀ m, nxt a = some m →
    s1.xyz.get? m = some ((stateAt D nxt ind L s a).pos a +
      lenAt D nxt ind L s a m • Vec.normalize (rAt D nxt ind L s a)) ∧
    s1.residual.get? m = some (rAt D nxt ind L s a) ∧
    s1.trailForces.get? (edgeKey D a m) =
      some (copysign (Vec.length (rAt D nxt ind L s a)) (lenAt D nxt ind L s a m)) ∧
    s1.trailDirs.get? (edgeKey D a m) = some (Vec.normalize (rAt D nxt ind L s a))
  kept : ∀ m, (∀ a ∈ L1, nxt a ≠ some m) →
    s1.xyz.get? m = s.xyz.get? m ∧ s1.residual.get? m = s.residual.get? m
  react : ∀ n, s1.reactions.get? n =
    if n ∈ L1 ∧ nxt n = none then some (rAt D nxt ind L s n) else s.reactions.get? n
  force : ∀ e, (∀ a ∈ L1, ∀ m, nxt a = some m → edgeKey D a m ≠ e) →
    s1.trailForces.get? e = s.trailForces.get? e ∧ s1.trailDirs.get? e = s.trailDirs.get? e

theorem prefixSpec (S : Sched nxt rank L) (s : EqState R) (L1 L2 : List Int) (h : L = L1 ++ L2) :
    PrefixSpec D nxt ind L s L1 (L1.foldl (proc D nxt ind) s) := by
  induction L1 using List.reverseRecOn generalizing L2 with
  | nil => exact ⟨by simp, by simp, by simp, by simp⟩
  | append_singleton L1 n ih =>
    have hsplit : L = L1 ++ n :: L2 := by simpa using h
    have I := ih (n :: L2) hsplit
    have hst : stateAt D nxt ind L s n = L1.foldl (proc D nxt ind) s := by
      unfold stateAt; rw [takeWhile_of_split S.nodup hsplit]
    have hnL : n ∉ L1 := by
      have := S.nodup
      rw [hsplit] at this
      intro hc
      exact (List.nodup_append.1 this).2.2 n hc n (by simp) rfl
    rw [List.foldl_append, List.foldl_cons, List.foldl_nil]
    have hr : outVec D ind (L1.foldl (proc D nxt ind) s).pos
        ((L1.foldl (proc D nxt ind) s).res n) n = rAt D nxt ind L s n := by
      unfold rAt; rw [hst]
    cases hn : nxt n with
    | none =>
      have hp : proc D nxt ind (L1.foldl (proc D nxt ind) s) n =
          { L1.foldl (proc D nxt ind) s with
            reactions := (L1.foldl (proc D nxt ind) s).reactions.set n (rAt D nxt ind L s n) } := by
        rw [proc_none hn, hr]
      rw [hp]
      refine ⟨?_, ?_, ?_, ?_⟩
      · intro a ha m hm
        rcases List.mem_append.1 ha with ha | ha
        · exact I.moved a ha m hm
        · simp only [List.mem_singleton] at ha; subst ha; rw [hn] at hm; simp at hm
      · intro m hm
        exact I.kept m fun a ha => hm a (List.mem_append_left _ ha)
      · intro m
        rw [Dict.get?_set, I.react]
        by_cases e : n = m
        · subst e; simp [hn]
        · simp [e, Ne.symm e]
      · intro e he
        exact I.force e fun a ha => he a (List.mem_append_left _ ha)
    | some m0 =>
      have hl : effectiveLength (edgeData D n m0) ((L1.foldl (proc D nxt ind) s).pos n)
          (rAt D nxt ind L s n) = lenAt D nxt ind L s n m0 := by unfold lenAt; rw [hst]
      have hp : proc D nxt ind (L1.foldl (proc D nxt ind) s) n =
          { L1.foldl (proc D nxt ind) s with
            xyz := (L1.foldl (proc D nxt ind) s).xyz.set m0 ((stateAt D nxt ind L s n).pos n +
              lenAt D nxt ind L s n m0 • Vec.normalize (rAt D nxt ind L s n))
            trailForces := (L1.foldl (proc D nxt ind) s).trailForces.set (edgeKey D n m0)
              (copysign (Vec.length (rAt D nxt ind L s n)) (lenAt D nxt ind L s n m0))
            trailDirs := (L1.foldl (proc D nxt ind) s).trailDirs.set (edgeKey D n m0)
              (Vec.normalize (rAt D nxt ind L s n))
            residual := (L1.foldl (proc D nxt ind) s).residual.set m0 (rAt D nxt ind L s n) } := by
        rw [proc_some hn, hr, hl, hst]
      rw [hp]
      refine ⟨?_, ?_, ?_, ?_⟩
      · intro a ha m hm
        by_cases han : a = n
        · subst han
          rw [hn] at hm
          obtain rfl := Option.some.inj hm
          simp
        · have ha' : a ∈ L1 := by simpa [han] using ha
          have hmm : m0 ≠ m := by
            rintro rfl; exact han (S.inj a n m0 hm hn)
          have hee : edgeKey D n m0 ≠ edgeKey D a m := by
            intro e; exact han (edgeKey_inj (D := D) S hn hm e).1.symm
          simp only [Dict.get?_set, if_neg hmm, if_neg hee]
          exact I.moved a ha' m hm
      · intro m hm
        have hmm : m0 ≠ m := by rintro rfl; exact hm n (by simp) hn
        simp only [Dict.get?_set, if_neg hmm]
        exact I.kept m fun a ha => hm a (List.mem_append_left _ ha)
      · intro m
        rw [I.react]
        by_cases e : m = n
        · subst e; simp [hn]
        · simp [e]
      · intro e he
        have hee : edgeKey D n m0 ≠ e := he n (by simp) m0 hn
        simp only [Dict.get?_set, if_neg hee]
        exact I.force e fun a ha => he a (List.mem_append_left _ ha)

/-- The state after a sweep over the schedule `L`, in terms of the outgoing vectors
`r` and the positions `Q n` seen when node `n` was processed. -/
structure SweepSpec (D : Diagram R) (nxt : Int → Option Int) (rank : Int → Int) (ind : Bool)
    (L : List Int) (s s' : EqState R) (r : Int → Vec R) (Q : Int → Int → Vec R) : Prop where
  /-- positions of nodes that are not later are final -/
  seen : ∀ n ∈ L, ∀ m, rank m ≤ rank n → Q n m = s'.pos m
  /-- other positions are final or those before the sweep -/
  seen_any : ∀ n ∈ L, ∀ m, Q n m = s.pos m ∨ Q n m = s'.pos m
  out : ∀ n ∈ L, r n = outVec D ind (Q n) (s'.res n) n
  next : ∀ n ∈ L, ∀ m, nxt n = some m →
    s'.pos m = s'.pos n + effectiveLength (edgeData D n m) (s'.pos n) (r n) • Vec.normalize (r n) ∧
    s'.res m = r n ∧
    s'.trailForces.get? (edgeKey D n m) =
      some (copysign (Vec.length (r n)) (effectiveLength (edgeData D n m) (s'.pos n) (r n))) ∧
    s'.trailDirs.get? (edgeKey D n m) = some (Vec.normalize (r n))
  start : ∀ m, (∀ a ∈ L, nxt a ≠ some m) → s'.pos m = s.pos m ∧ s'.res m = s.res m
  react : ∀ n, s'.reactions.get? n =
    if n ∈ L ∧ nxt n = none then some (r n) else s.reactions.get? n
  force : ∀ e, (∀ a ∈ L, ∀ m, nxt a = some m → edgeKey D a m ≠ e) →
    s'.trailForces.get? e = s.trailForces.get? e ∧ s'.trailDirs.get? e = s.trailDirs.get? e

theorem sweepSpec (S : Sched nxt rank L) (s : EqState R) :
    SweepSpec D nxt rank ind L s (L.foldl (proc D nxt ind) s) (rAt D nxt ind L s)
      (fun n => (stateAt D nxt ind L s n).pos) := by
  have I := prefixSpec (D := D) (ind := ind) S s L [] (by simp)
  have hpre : ∀ n ∈ L, ∃ L1 L2, L = L1 ++ n :: L2 ∧
      stateAt D nxt ind L s n = L1.foldl (proc D nxt ind) s := by
    intro n hn
    obtain ⟨L1, L2, h⟩ := List.append_of_mem hn
    exact ⟨L1, L2, h, by unfold stateAt; rw [takeWhile_of_split S.nodup h]⟩
  have hbefore : ∀ {n L1 L2}, L = L1 ++ n :: L2 → ∀ a ∈ L, rank a < rank n → a ∈ L1 := by
    intro n L1 L2 h a ha hlt
    have hs := S.sorted
    rw [h] at ha hs
    rcases List.mem_append.1 ha with h1 | h1
    · exact h1
    · exfalso
      have h2 := (List.pairwise_append.1 hs).2.1
      rcases List.mem_cons.1 h1 with rfl | h1
      · omega
      · have := (List.pairwise_cons.1 h2).1 a h1; omega
  have seen : ∀ n ∈ L, ∀ m, rank m ≤ rank n →
      (stateAt D nxt ind L s n).xyz.get? m = (L.foldl (proc D nxt ind) s).xyz.get? m ∧
      (stateAt D nxt ind L s n).residual.get? m = (L.foldl (proc D nxt ind) s).residual.get? m := by
    intro n hn m hr
    obtain ⟨L1, L2, h, hst⟩ := hpre n hn
    rw [hst]
    have J := prefixSpec (D := D) (ind := ind) S s L1 (n :: L2) h
    by_cases hex : ∃ a ∈ L, nxt a = some m
    · obtain ⟨a, ha, ham⟩ := hex
      have ha1 : a ∈ L1 := hbefore h a ha (by have := S.rank_succ a m ham; omega)
      have j := J.moved a ha1 m ham
      have i := I.moved a ha m ham
      exact ⟨by rw [j.1, i.1], by rw [j.2.1, i.2.1]⟩
    · push Not at hex
      have j := J.kept m fun a ha => hex a (by rw [h]; exact List.mem_append_left _ ha)
      have i := I.kept m hex
      exact ⟨by rw [j.1, i.1], by rw [j.2, i.2]⟩
  have seenP : ∀ n ∈ L, ∀ m, rank m ≤ rank n →
      (stateAt D nxt ind L s n).pos m = (L.foldl (proc D nxt ind) s).pos m := by
    intro n hn m hr; unfold EqState.pos; rw [(seen n hn m hr).1]
  have hlen : ∀ n ∈ L, ∀ m, lenAt D nxt ind L s n m = effectiveLength (edgeData D n m)
      ((L.foldl (proc D nxt ind) s).pos n) (rAt D nxt ind L s n) := by
    intro n hn m; unfold lenAt; rw [seenP n hn n le_rfl]
  refine ⟨seenP, ?_, ?_, ?_, ?_, I.react, I.force⟩
  · intro n hn m
    obtain ⟨L1, L2, h, hst⟩ := hpre n hn
    simp only [hst]
    have J := prefixSpec (D := D) (ind := ind) S s L1 (n :: L2) h
    by_cases hex : ∃ a ∈ L1, nxt a = some m
    · obtain ⟨a, ha, ham⟩ := hex
      right
      have haL : a ∈ L := by rw [h]; exact List.mem_append_left _ ha
      unfold EqState.pos
      rw [(J.moved a ha m ham).1, (I.moved a haL m ham).1]
    · push Not at hex
      left
      unfold EqState.pos
      rw [(J.kept m hex).1]
  · intro n hn
    unfold rAt
    have : (stateAt D nxt ind L s n).res n = (L.foldl (proc D nxt ind) s).res n := by
      unfold EqState.res; rw [(seen n hn n le_rfl).2]
    rw [this]
  · intro n hn m hm
    obtain ⟨i1, i2, i3, i4⟩ := I.moved n hn m hm
    rw [hlen n hn m] at i1 i3
    rw [seenP n hn n le_rfl] at i1
    refine ⟨?_, ?_, i3, i4⟩
    · rw [EqState.pos, i1]; rfl
    · rw [EqState.res, i2]; rfl
  · intro m hm
    unfold EqState.pos EqState.res
    rw [(I.kept m hm).1, (I.kept m hm).2]
    exact ⟨rfl, rfl⟩

theorem proc_keys (s : EqState R) (n : Int) (h : ∀ m, nxt n = some m → m ∈ s.xyz.keys ∧ m ∈ s.residual.keys) :
    (proc D nxt ind s n).xyz.keys = s.xyz.keys ∧ (proc D nxt ind s n).residual.keys = s.residual.keys := by
  unfold proc
  cases hn : nxt n with
  | none => simp
  | some m =>
    simp only
    exact ⟨Dict.keys_set_of_mem _ (h m hn).1, Dict.keys_set_of_mem _ (h m hn).2⟩

theorem fold_keys (l : List Int) (s : EqState R)
    (h : ∀ n ∈ l, ∀ m, nxt n = some m → m ∈ s.xyz.keys ∧ m ∈ s.residual.keys) :
    (l.foldl (proc D nxt ind) s).xyz.keys = s.xyz.keys ∧
    (l.foldl (proc D nxt ind) s).residual.keys = s.residual.keys := by
  induction l generalizing s with
  | nil => simp
  | cons n l ih =>
    rw [List.foldl_cons]
    obtain ⟨h1, h2⟩ := proc_keys (D := D) (ind := ind) s n (h n (by simp))
    obtain ⟨h3, h4⟩ := ih (proc D nxt ind s n) (by
      rw [h1, h2]; exact fun n hn => h n (by simp [hn]))
    exact ⟨h3.trans h1, h4.trans h2⟩

end CEM
