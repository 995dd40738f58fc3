import Verif.Spec.Idle
import Verif.Lemmas.Solve
import Verif.Lemmas.Numpy
import Verif.Lemmas.Returned

/-! # Form finding does not use idle numbers -/

set_option linter.unusedSectionVars false
set_option linter.unusedSimpArgs false

namespace CEM
open Diagram Spec

variable {R : Type}

/-! ## Combinatorial data -/

section
variable {S : Slot → Prop} {D E : Diagram R} (h : SameExcept S D E)
include h

theorem nodeSequence_same (n : Int) : E.nodeSequence n = D.nodeSequence n := by
  unfold nodeSequence
  by_cases hm : n ∈ D.nodes.keys
  · obtain ⟨d, hd⟩ := (Dict.exists_get?_iff _ _).2 hm
    obtain ⟨d1, h1⟩ := (Dict.exists_get?_iff E.nodes n).2 (by rw [h.nodeKeys]; exact hm)
    simp [hd, h1, (h.node n d d1 hd h1).2.1]
  · rw [(Dict.get?_eq_none_iff _ _).2 hm,
      (Dict.get?_eq_none_iff _ _).2 (by rw [h.nodeKeys]; exact hm)]

theorem trailsSequences_same : E.trailsSequences = D.trailsSequences := by
  have h1 : ∀ l acc, E.trailSequencesLoop l acc = D.trailSequencesLoop l acc := by
    intro l
    induction l with
    | nil => intro acc; rfl
    | cons n l ih =>
      intro acc
      simp only [trailSequencesLoop, nodeSequence_same h]
      cases D.nodeSequence n with
      | error e => rfl
      | ok k => exact ih _
  have ht : E.trails = D.trails := h.rest.2.2.1
  have h2 : ∀ key, E.trailSequences key = D.trailSequences key := by
    intro key
    simp only [trailSequences, ht]
    cases D.trails.get? key with
    | none => rfl
    | some tr => exact h1 _ _
  have h3 : ∀ l acc, E.trailsSequencesLoop l acc = D.trailsSequencesLoop l acc := by
    intro l
    induction l with
    | nil => intro acc; rfl
    | cons n l ih =>
      intro acc
      simp only [trailsSequencesLoop, h2]
      cases D.trailSequences n with
      | error e => rfl
      | ok k => exact ih _
  simp only [trailsSequences, ht, h3]

theorem nxtK_same (kmax : Option Int) : nxtK E kmax = nxtK D kmax := by
  funext n
  unfold nxtK trailNext
  rw [typeOf_same h, seqOf_same h, h.rest.2.2.1]

theorem sched_same (T : Dict Int (Dict Int Int)) (N : Int) : sched E T N = sched D T N := by
  unfold sched level
  rw [h.rest.2.2.1]

theorem goodSeqs_same {T : Dict Int (Dict Int Int)} (hT : GoodSeqs D T) : GoodSeqs E T := by
  intro key tr hk
  rw [h.rest.2.2.1] at hk
  obtain ⟨m, h1, h2⟩ := hT key tr hk
  exact ⟨m, h1, fun k n => by rw [seqOf_same h]; exact h2 k n⟩

theorem edgeKey_same (n m : Int) : edgeKey E n m = edgeKey D n m := by
  have : E.edges.has (n, m) = D.edges.has (n, m) := by
    rw [Bool.eq_iff_iff, Dict.has_iff, Dict.has_iff, h.edgeKeys]
  unfold edgeKey; rw [this]

theorem neighbors_same (n : Int) : E.neighbors n = D.neighbors n := by
  unfold neighbors; rw [h.edgeKeys]

end

theorem allSequences_same {l l' : Dict Int (NodeData R)} (hk : l'.map (·.1) = l.map (·.1))
    (hn : (l.map (·.1)).Nodup)
    (hd : ∀ n d d', Dict.get? l n = some d → Dict.get? l' n = some d' → d'.k = d.k) :
    allSequences l' = allSequences l := by
  induction l generalizing l' with
  | nil => cases l' with
    | nil => rfl
    | cons p l' => simp at hk
  | cons p l ih =>
    cases l' with
    | nil => simp at hk
    | cons p' l' =>
      obtain ⟨n, d⟩ := p
      obtain ⟨n', d'⟩ := p'
      simp only [List.map_cons, List.cons.injEq] at hk hn
      obtain ⟨rfl, hk⟩ := hk
      have h0 := hd n' d d' (by simp [Dict.get?]) (by simp [Dict.get?])
      obtain ⟨hnm, hnd⟩ := List.nodup_cons.1 hn
      have hih := ih hk hnd (by
        intro m e e' he he'
        have hm : n' ≠ m := by
          rintro rfl
          exact hnm (Dict.mem_keys_of_get? he)
        exact hd m e e' (by simp [Dict.get?, hm, he]) (by simp [Dict.get?, hm, he']))
      simp only [allSequences, h0, hih]

theorem numberOfSequences_same {S : Slot → Prop} {D E : Diagram R} (h : SameExcept S D E)
    (w : WF D) : E.numberOfSequences = D.numberOfSequences := by
  unfold numberOfSequences sequenceLast
  rw [allSequences_same (l := D.nodes) (l' := E.nodes) h.nodeKeys w.nodesNodup
    fun n d d' h1 h2 => (h.node n d d' h1 h2).2.1]

/-! ## Data that are used -/

section
variable [Field R] [LinearOrder R] [PySqrt R] {D E : Diagram R} (h : SameExcept (Idle D) D E)
include h

theorem edgeData_same (n m : Int) :
    (edgeData E n m).type = (edgeData D n m).type ∧
    (edgeData E n m).plane = (edgeData D n m).plane ∧
    ((edgeData D n m).type = .deviation → (edgeData E n m).force = (edgeData D n m).force) ∧
    ((edgeData D n m).type = .trail → (edgeData E n m).length = (edgeData D n m).length) := by
  unfold edgeData
  rw [edgeKey_same h]
  by_cases hm : edgeKey D n m ∈ D.edges.keys
  · obtain ⟨d, hd⟩ := (Dict.exists_get?_iff _ _).2 hm
    obtain ⟨d1, h1⟩ := (Dict.exists_get?_iff E.edges _).2 (by rw [h.edgeKeys]; exact hm)
    obtain ⟨e1, e2, e3, e4⟩ := h.edge _ d d1 hd h1
    simp only [hd, h1, Option.getD_some]
    refine ⟨e1, e2, fun ht => e4 ?_, fun ht => e3 ?_⟩
    · rintro ⟨d', hd', ht'⟩
      rw [hd] at hd'; cases hd'; simp [ht] at ht'
    · rintro ⟨d', hd', ht'⟩
      rw [hd] at hd'; cases hd'; simp [ht] at ht'
  · rw [(Dict.get?_eq_none_iff _ _).2 hm,
      (Dict.get?_eq_none_iff _ _).2 (by rw [h.edgeKeys]; exact hm)]
    simp

theorem dirNbrs_same (n : Int) : dirNbrs E n = dirNbrs D n := by
  unfold dirNbrs
  simp only [neighbors_same h, seqOf_same h, (edgeData_same h n _).1]

theorem indNbrs_same (n : Int) : indNbrs E n = indNbrs D n := by
  unfold indNbrs
  simp only [neighbors_same h, seqOf_same h, (edgeData_same h n _).1]

theorem loadOf_same (n : Int) : loadOf E n = loadOf D n := by
  unfold loadOf
  by_cases hm : n ∈ D.nodes.keys
  · obtain ⟨d, hd⟩ := (Dict.exists_get?_iff _ _).2 hm
    obtain ⟨d1, h1⟩ := (Dict.exists_get?_iff E.nodes n).2 (by rw [h.nodeKeys]; exact hm)
    obtain ⟨_, _, _, _, _, _, e1, e2, e3⟩ := h.node n d d1 hd h1
    simp only [hd, h1, Option.map_some, Option.getD_some]
    ext
    · exact e1 id
    · exact e2 id
    · exact e3 id
  · rw [(Dict.get?_eq_none_iff _ _).2 hm,
      (Dict.get?_eq_none_iff _ _).2 (by rw [h.nodeKeys]; exact hm)]

theorem devSum_same {P : Int → Vec R} {n : Int} {l : List Int}
    (hl : ∀ m ∈ l, (edgeData D n m).type = .deviation) : devSum E P n l = devSum D P n l := by
  unfold devSum
  congr 1
  refine List.map_congr_left fun m hm => ?_
  unfold devTerm
  rw [(edgeData_same h n m).2.2.1 (hl m hm)]

theorem devSumN_same {P : Int → NVec R} {n : Int} {l : List Int} (acc : NVec R)
    (hl : ∀ m ∈ l, (edgeData D n m).type = .deviation) : devSumN E P n l acc = devSumN D P n l acc := by
  unfold devSumN
  induction l generalizing acc with
  | nil => rfl
  | cons m l ih =>
    simp only [List.foldl_cons]
    have : devTermN E P n m = devTermN D P n m := by
      unfold devTermN
      rw [(edgeData_same h n m).2.2.1 (hl m (by simp))]
    rw [this]
    exact ih _ fun m hm => hl m (by simp [hm])

theorem dirNbrs_deviation (n m : Int) (hm : m ∈ dirNbrs D n) :
    (edgeData D n m).type = .deviation ∧ seqOf D m = seqOf D n := by
  unfold dirNbrs at hm
  simp only [List.mem_filter, decide_eq_true_eq] at hm
  exact ⟨hm.2.1, hm.2.2.symm⟩

theorem outVec_same (ind : Bool) (P : Int → Vec R) (t : Vec R) (n : Int) :
    outVec E ind P t n = outVec D ind P t n := by
  unfold outVec
  rw [loadOf_same h, dirNbrs_same h, indNbrs_same h,
    devSum_same h fun m hm => (dirNbrs_deviation h n m hm).1,
    devSum_same h fun m hm => by
      unfold indNbrs at hm
      simp only [List.mem_filter, decide_eq_true_eq] at hm
      exact hm.2.1]

theorem outVecN_same (ind : Bool) (P : Int → NVec R) (t : NVec R) (n : Int) :
    outVecN E ind P t n = outVecN D ind P t n := by
  unfold outVecN
  rw [loadOf_same h, dirNbrs_same h, indNbrs_same h,
    devSumN_same h _ fun m hm => (dirNbrs_deviation h n m hm).1,
    devSumN_same h _ fun m hm => by
      unfold indNbrs at hm
      simp only [List.mem_filter, decide_eq_true_eq] at hm
      exact hm.2.1]

variable (I : ValidInput D)
include I

theorem proc_same (ind : Bool) (s : EqState R) (n : Int) :
    proc E (nxtK D none) ind s n = proc D (nxtK D none) ind s n := by
  unfold proc
  rw [outVec_same h]
  cases hn : nxtK D none n with
  | none => rfl
  | some m =>
    have ht := edgeData_trail' I.wf I.trails I.simple (nxtK_trail hn)
    have hl : ∀ p r, effectiveLength (edgeData E n m) p r = effectiveLength (edgeData D n m) p r := by
      intro p r
      unfold effectiveLength
      rw [(edgeData_same h n m).2.1, (edgeData_same h n m).2.2.2 ht]
    simp only [edgeKey_same h, hl]

theorem nproc_same (ind : Bool) (s : NState R) (n : Int) :
    nproc E (nxtK D none) ind s n = nproc D (nxtK D none) ind s n := by
  unfold nproc
  rw [outVecN_same h]
  cases hn : nxtK D none n with
  | none => rfl
  | some m =>
    have ht := edgeData_trail' I.wf I.trails I.simple (nxtK_trail hn)
    simp only [edgeKey_same h, lenN, (edgeData_same h n m).2.1, (edgeData_same h n m).2.2.2 ht]

end

/-! ## The first sweep -/

section
variable [Field R] [LinearOrder R] [PySqrt R] {D : Diagram R}

/-- The node is the first one of its trail, or the one before it was processed. -/
def SetBefore (nxt : Int → Option Int) (L L1 : List Int) (n : Int) : Prop :=
  (∀ a ∈ L, nxt a ≠ some n) ∨ ∃ a ∈ L1, nxt a = some n

theorem placed_of_rank {nxt : Int → Option Int} {rank : Int → Int} {L L1 L2 : List Int} {n m : Int}
    (S : Sched nxt rank L) (hL : L = L1 ++ n :: L2) (hr : rank m = rank n) : SetBefore nxt L L1 m := by
  by_cases hx : ∀ a ∈ L, nxt a ≠ some m
  · exact Or.inl hx
  · push Not at hx
    obtain ⟨a, ha, he⟩ := hx
    have h1 := S.rank_succ _ _ he
    rw [hL] at ha
    rcases List.mem_append.1 ha with ha | ha
    · exact Or.inr ⟨a, ha, he⟩
    · exfalso
      have hs := S.sorted
      rw [hL, List.pairwise_append] at hs
      rcases List.mem_cons.1 ha with rfl | ha
      · omega
      · have := (List.pairwise_cons.1 hs.2.1).1 a ha
        omega

/-- Two states of the first sweep agree on the nodes that are placed. -/
structure Agree (A : Int → Prop) (s s' : EqState R) : Prop where
  keys : s'.xyz.keys = s.xyz.keys
  xyz : ∀ n, A n → s'.xyz.get? n = s.xyz.get? n
  residual : s'.residual = s.residual
  trailForces : s'.trailForces = s.trailForces
  trailDirs : s'.trailDirs = s.trailDirs
  reactions : s'.reactions = s.reactions

theorem seq_rank {n m : Int} (hs : seqOf D m = seqOf D n) : rankOf D m = rankOf D n := by
  unfold rankOf; rw [hs]

theorem devSum_pos {P Q : Int → Vec R} {n : Int} {l : List Int} (hn : Q n = P n)
    (hl : ∀ m ∈ l, Q m = P m) : devSum D Q n l = devSum D P n l := by
  unfold devSum
  congr 1
  refine List.map_congr_left fun m hm => ?_
  unfold devTerm
  rw [hn, hl m hm]

theorem agree_first {L : List Int} (S : Sched (nxtK D none) (rankOf D) L) {s s' : EqState R}
    (hs : Agree (fun n => ∀ a ∈ L, nxtK D none a ≠ some n) s s')
    (L1 L2 : List Int) (hL : L = L1 ++ L2) :
    Agree (SetBefore (nxtK D none) L L1) (L1.foldl (proc D (nxtK D none) false) s)
      (L1.foldl (proc D (nxtK D none) false) s') := by
  induction L1 using List.reverseRecOn generalizing L2 with
  | nil =>
    refine ⟨hs.1, fun n hn => hs.2 n ?_, hs.3, hs.4, hs.5, hs.6⟩
    rcases hn with hn | ⟨a, ha, _⟩
    · exact hn
    · simp at ha
  | append_singleton L1 n ih =>
    have hsplit : L = L1 ++ n :: L2 := by simpa using hL
    have I := ih (n :: L2) hsplit
    rw [List.foldl_append, List.foldl_append, List.foldl_cons, List.foldl_cons, List.foldl_nil,
      List.foldl_nil]
    generalize L1.foldl (proc D (nxtK D none) false) s = t at I ⊢
    generalize L1.foldl (proc D (nxtK D none) false) s' = t' at I ⊢
    have hp : ∀ m, rankOf D m = rankOf D n → t'.pos m = t.pos m := by
      intro m hm
      unfold EqState.pos
      rw [I.xyz m (placed_of_rank S hsplit hm)]
    have hout : outVec D false t'.pos (t'.res n) n = outVec D false t.pos (t.res n) n := by
      unfold outVec
      have hres : t'.res n = t.res n := by unfold EqState.res; rw [I.residual]
      rw [hres, devSum_pos (hp n rfl) fun m hm => hp m (by
        unfold dirNbrs at hm
        simp only [List.mem_filter, decide_eq_true_eq] at hm
        exact seq_rank hm.2.2.symm)]
      simp
    cases hn : nxtK D none n with
    | none =>
      rw [proc_none hn, proc_none hn, hout]
      refine ⟨I.keys, fun m hm => I.xyz m ?_, I.residual, I.trailForces, I.trailDirs, by
        rw [I.reactions]⟩
      rcases hm with hm | ⟨a, ha, he⟩
      · exact Or.inl hm
      · rcases List.mem_append.1 ha with ha | ha
        · exact Or.inr ⟨a, ha, he⟩
        · simp only [List.mem_singleton] at ha
          subst ha; rw [hn] at he; cases he
    | some m0 =>
      rw [proc_some hn, proc_some hn, hout, hp n rfl]
      refine ⟨?_, fun m hm => ?_, by rw [I.residual], by rw [I.trailForces], by rw [I.trailDirs],
        I.reactions⟩
      · simp only [Dict.keys_set, I.keys]
      · simp only [Dict.get?_set]
        split_ifs with hc
        · rfl
        · refine I.xyz m ?_
          rcases hm with hm | ⟨a, ha, he⟩
          · exact Or.inl hm
          · rcases List.mem_append.1 ha with ha | ha
            · exact Or.inr ⟨a, ha, he⟩
            · simp only [List.mem_singleton] at ha
              subst ha; rw [hn] at he; cases he; exact absurd rfl hc

theorem agree_all {A : Int → Prop} {s s' : EqState R} (h : Agree A s s') (hA : ∀ n, A n)
    (hn : s.xyz.keys.Nodup) : s' = s := by
  obtain ⟨k, x, r1, r2, r3, r4⟩ := h
  have : s'.xyz = s.xyz := (Dict.ext_get? hn k.symm fun n _ => (x n (hA n)).symm).symm
  cases s; cases s'; simp_all

/-- The same for the numpy solver. -/
structure AgreeN (A : Int → Prop) (s s' : NState R) : Prop where
  keys : s'.xyz.keys = s.xyz.keys
  xyz : ∀ n, A n → s'.xyz.get? n = s.xyz.get? n
  residual : s'.residual = s.residual
  trailForces : s'.trailForces = s.trailForces
  trailDirs : s'.trailDirs = s.trailDirs
  reactions : s'.reactions = s.reactions

theorem devSumN_pos {P Q : Int → NVec R} {n : Int} {l : List Int} (acc : NVec R) (hn : Q n = P n)
    (hl : ∀ m ∈ l, Q m = P m) : devSumN D Q n l acc = devSumN D P n l acc := by
  unfold devSumN
  induction l generalizing acc with
  | nil => rfl
  | cons m l ih =>
    simp only [List.foldl_cons]
    have : devTermN D Q n m = devTermN D P n m := by
      unfold devTermN
      rw [hn, hl m (by simp)]
    rw [this]
    exact ih _ fun m hm => hl m (by simp [hm])

theorem agreeN_first {L : List Int} (S : Sched (nxtK D none) (rankOf D) L) {s s' : NState R}
    (hs : AgreeN (fun n => ∀ a ∈ L, nxtK D none a ≠ some n) s s')
    (L1 L2 : List Int) (hL : L = L1 ++ L2) :
    AgreeN (SetBefore (nxtK D none) L L1) (L1.foldl (nproc D (nxtK D none) false) s)
      (L1.foldl (nproc D (nxtK D none) false) s') := by
  induction L1 using List.reverseRecOn generalizing L2 with
  | nil =>
    refine ⟨hs.1, fun n hn => hs.2 n ?_, hs.3, hs.4, hs.5, hs.6⟩
    rcases hn with hn | ⟨a, ha, _⟩
    · exact hn
    · simp at ha
  | append_singleton L1 n ih =>
    have hsplit : L = L1 ++ n :: L2 := by simpa using hL
    have I := ih (n :: L2) hsplit
    rw [List.foldl_append, List.foldl_append, List.foldl_cons, List.foldl_cons, List.foldl_nil,
      List.foldl_nil]
    generalize L1.foldl (nproc D (nxtK D none) false) s = t at I ⊢
    generalize L1.foldl (nproc D (nxtK D none) false) s' = t' at I ⊢
    have hp : ∀ m, rankOf D m = rankOf D n → t'.pos m = t.pos m := by
      intro m hm
      unfold NState.pos
      rw [I.xyz m (placed_of_rank S hsplit hm)]
    have hout : outVecN D false t'.pos (t'.res n) n = outVecN D false t.pos (t.res n) n := by
      unfold outVecN
      have hres : t'.res n = t.res n := by unfold NState.res; rw [I.residual]
      rw [hres, devSumN_pos _ (hp n rfl) fun m hm => hp m (by
        unfold dirNbrs at hm
        simp only [List.mem_filter, decide_eq_true_eq] at hm
        exact seq_rank hm.2.2.symm)]
      simp
    unfold nproc
    rw [hout, hp n rfl]
    cases hn : nxtK D none n with
    | none =>
      refine ⟨I.keys, fun m hm => I.xyz m ?_, I.residual, I.trailForces, I.trailDirs, by
        simp only [I.reactions]⟩
      rcases hm with hm | ⟨a, ha, he⟩
      · exact Or.inl hm
      · rcases List.mem_append.1 ha with ha | ha
        · exact Or.inr ⟨a, ha, he⟩
        · simp only [List.mem_singleton] at ha
          subst ha; rw [hn] at he; cases he
    | some m0 =>
      refine ⟨?_, fun m hm => ?_, by simp only [I.residual], by simp only [I.trailForces],
        by simp only [I.trailDirs], I.reactions⟩
      · simp only [Dict.keys_set, I.keys]
      · simp only [Dict.get?_set]
        split_ifs with hc
        · rfl
        · refine I.xyz m ?_
          rcases hm with hm | ⟨a, ha, he⟩
          · exact Or.inl hm
          · rcases List.mem_append.1 ha with ha | ha
            · exact Or.inr ⟨a, ha, he⟩
            · simp only [List.mem_singleton] at ha
              subst ha; rw [hn] at he; cases he; exact absurd rfl hc

theorem agreeN_all {A : Int → Prop} {s s' : NState R} (h : AgreeN A s s') (hA : ∀ n, A n)
    (hn : s.xyz.keys.Nodup) : s' = s := by
  obtain ⟨k, x, r1, r2, r3, r4⟩ := h
  have : s'.xyz = s.xyz := (Dict.ext_get? hn k.symm fun n _ => (x n (hA n)).symm).symm
  cases s; cases s'; simp_all

theorem setBefore_all {nxt : Int → Option Int} (L : List Int) (n : Int) : SetBefore nxt L L n := by
  by_cases hx : ∀ a ∈ L, nxt a ≠ some n
  · exact Or.inl hx
  · push Not at hx; exact Or.inr hx

end

/-! ## The iterates -/

section
variable [Field R] [LinearOrder R] [PySqrt R] {D E : Diagram R} (h : SameExcept (Idle D) D E)
  (I : ValidInput D)
include h I

/-- Nodes that follow no node are at the same place in both diagrams. -/
theorem start_same {L : List Int} (G : GoodSched D none L) {n : Int}
    (hn : ∀ a ∈ L, nxtK D none a ≠ some n) :
    (E.nodes.get? n).map (·.pos) = (D.nodes.get? n).map (·.pos) := by
  by_cases hm : n ∈ D.nodes.keys
  · obtain ⟨d, hd⟩ := (Dict.exists_get?_iff _ _).2 hm
    obtain ⟨d1, h1⟩ := (Dict.exists_get?_iff E.nodes n).2 (by rw [h.nodeKeys]; exact hm)
    obtain ⟨⟨key, tr⟩, htr, hmem⟩ := List.mem_flatMap.1 (I.trails.partition.mem_iff.2 hm)
    have hkey : n ∈ D.trails.keys := by
      obtain ⟨rest, rfl⟩ := I.trails.head key tr htr
      rcases List.mem_cons.1 hmem with rfl | hrest
      · exact List.mem_map.2 ⟨_, htr, rfl⟩
      · exfalso
        obtain ⟨l1, l2, hl⟩ := List.append_of_mem hrest
        rcases List.eq_nil_or_concat (key :: l1) with hc | ⟨l3, a, hc⟩
        · cases hc
        · have hcon : Consecutive (key :: rest) a n :=
            ⟨l3, l2, by rw [hl, ← List.cons_append, hc]; simp⟩
          have hnext := (trailNext_iff I.wf I.trails).2 ⟨key, _, htr, hcon⟩
          refine hn a ((G.mem a).2 (I.trails.mem_keys htr hcon.mem_left)) ?_
          unfold nxtK
          rw [if_neg, hnext]
          rintro (hc | hc)
          · exact trailNext_support I.wf I.trails hnext hc
          · simp at hc
    obtain ⟨_, _, _, e1, e2, e3, _⟩ := h.node n d d1 hd h1
    simp only [hd, h1, Option.map_some, Option.some.injEq]
    ext
    · exact e1 fun hc => hc hkey
    · exact e2 fun hc => hc hkey
    · exact e3 fun hc => hc hkey
  · rw [(Dict.get?_eq_none_iff _ _).2 hm,
      (Dict.get?_eq_none_iff _ _).2 (by rw [h.nodeKeys]; exact hm)]

theorem reaction_same {V : Type} (f : Vec R → V) :
    (E.nodes.map fun p => (p.1, f p.2.reaction)) = D.nodes.map fun p => (p.1, f p.2.reaction) := by
  have hk : Dict.keys (E.nodes.map fun p => (p.1, f p.2.reaction) : Dict Int V) =
      Dict.keys (D.nodes.map fun p => (p.1, f p.2.reaction) : Dict Int V) := by
    rw [keys_map_val E.nodes fun d => f d.reaction, keys_map_val D.nodes fun d => f d.reaction,
      h.nodeKeys]
  refine Dict.ext_get? ?_ hk fun n hn => ?_
  · rw [hk, keys_map_val D.nodes fun d => f d.reaction]; exact I.wf.nodesNodup
  · rw [get?_map_val E.nodes (fun d => f d.reaction), get?_map_val D.nodes (fun d => f d.reaction)]
    rw [keys_map_val E.nodes fun d => f d.reaction] at hn
    obtain ⟨d1, h1⟩ := (Dict.exists_get?_iff _ _).2 hn
    obtain ⟨d, hd⟩ := (Dict.exists_get?_iff D.nodes n).2 (by rw [← h.nodeKeys]; exact hn)
    rw [hd, h1, Option.map_some, Option.map_some, (h.node n d d1 hd h1).1]

theorem iter_same {L : List Int} (G : GoodSched D none L) (m : Nat) :
    iter E none L (m + 1) = iter D none L (m + 1) := by
  have hstep : ∀ ind, proc E (nxtK E none) ind = proc D (nxtK D none) ind := by
    intro ind
    funext s n
    rw [nxtK_same h, proc_same h I]
  induction m with
  | zero =>
    simp only [iter, hstep]
    have hA : Agree (fun n => ∀ a ∈ L, nxtK D none a ≠ some n) (initState D) (initState E) := by
      refine ⟨?_, fun n hn => ?_, reaction_same h I id, rfl, rfl, rfl⟩
      · show Dict.keys (E.nodes.map fun p => (p.1, p.2.pos) : Dict Int (Vec R)) =
          Dict.keys (D.nodes.map fun p => (p.1, p.2.pos) : Dict Int (Vec R))
        rw [keys_map_val E.nodes fun d => d.pos, keys_map_val D.nodes fun d => d.pos, h.nodeKeys]
      · show Dict.get? (E.nodes.map fun p => (p.1, p.2.pos) : Dict Int (Vec R)) n =
          Dict.get? (D.nodes.map fun p => (p.1, p.2.pos) : Dict Int (Vec R)) n
        rw [get?_map_val E.nodes (fun d => d.pos), get?_map_val D.nodes (fun d => d.pos)]
        exact start_same h I G hn
    have hf := agree_first G.sched hA L [] (by simp)
    have hnd : (L.foldl (proc D (nxtK D none) false) (initState D)).xyz.keys.Nodup := by
      rw [((goodState_init D).fold I.wf I.trails L).1]; exact I.wf.nodesNodup
    have := agree_all hf (setBefore_all L) hnd
    simpa using this
  | succ m ih =>
    rw [iter, ih, hstep]
    rfl

theorem nIter_same {L : List Int} (G : GoodSched D none L) (m : Nat) :
    nIter E L (m + 1) = nIter D L (m + 1) := by
  have hstep : ∀ ind, nproc E (nxtK E none) ind = nproc D (nxtK D none) ind := by
    intro ind
    funext s n
    rw [nxtK_same h, nproc_same h I]
  induction m with
  | zero =>
    simp only [nIter, hstep]
    have hA : AgreeN (fun n => ∀ a ∈ L, nxtK D none a ≠ some n) (npInit D) (npInit E) := by
      refine ⟨?_, fun n hn => ?_, reaction_same h I some, rfl, rfl, rfl⟩
      · show Dict.keys (E.nodes.map fun p => (p.1, some p.2.pos) : Dict Int (NVec R)) =
          Dict.keys (D.nodes.map fun p => (p.1, some p.2.pos) : Dict Int (NVec R))
        rw [keys_map_val E.nodes fun d => some d.pos, keys_map_val D.nodes fun d => some d.pos,
          h.nodeKeys]
      · show Dict.get? (E.nodes.map fun p => (p.1, some p.2.pos) : Dict Int (NVec R)) n =
          Dict.get? (D.nodes.map fun p => (p.1, some p.2.pos) : Dict Int (NVec R)) n
        rw [get?_map_val E.nodes (fun d => some d.pos), get?_map_val D.nodes (fun d => some d.pos)]
        have := congrArg (Option.map some) (start_same h I G hn)
        simpa [Option.map_map, Function.comp_def] using this
    have hf := agreeN_first G.sched hA L [] (by simp)
    have h0 : GoodNState D (npInit D) := ⟨keys_map_val D.nodes (fun d => some d.pos),
      keys_map_val D.nodes (fun d => some d.reaction)⟩
    have hnd : (L.foldl (nproc D (nxtK D none) false) (npInit D)).xyz.keys.Nodup := by
      rw [(h0.fold I.wf I.trails L).1]; exact I.wf.nodesNodup
    have := agreeN_all hf (setBefore_all L) hnd
    simpa using this
  | succ m ih =>
    rw [nIter, ih, hstep]
    rfl

/-- Idle numbers do not change the final state of the plain solver. -/
theorem equilibriumState_idle (tmax : Nat) (eta : R) (verbose : Bool) :
    equilibriumState E none tmax eta verbose = equilibriumState D none tmax eta verbose := by
  have J := validInput_same h I
  obtain ⟨T, N, hT, hN, hg, hlt⟩ := goodSeqs_of_valid I.wf I.trails I.nonempty
  have G := goodSched I.wf I.trails hg none hlt
  obtain ⟨a0, a1, a2⟩ := equilibriumState_sched I (kmax := none) (by simp) hT hN hg tmax eta verbose
  obtain ⟨b0, b1, b2⟩ := equilibriumState_sched J (kmax := none) (by simp)
    (by rw [trailsSequences_same h]; exact hT) (by rw [numberOfSequences_same h I.wf]; exact hN)
    (goodSeqs_same h hg) tmax eta verbose
  rw [sched_same h] at b1 b2
  have hi : ∀ j, 1 ≤ j → iter E none (sched D T N) j = iter D none (sched D T N) j := by
    intro j hj
    obtain ⟨j, rfl⟩ : ∃ i, j = i + 1 := ⟨j - 1, by omega⟩
    exact iter_same h I G j
  rcases Nat.lt_or_ge tmax 2 with hlt | hge
  · rcases Nat.eq_zero_or_pos tmax with hz | hz
    · rw [a0 hz, b0 hz]
    · have ht : tmax = 1 := by omega
      rw [a1 ht, b1 ht, hi 1 le_rfl]
  · obtain ⟨m, hm2, hmle, hbef, hstop, hres⟩ := a2 hge
    obtain ⟨m', hm2', hmle', hbef', hstop', hres'⟩ := b2 hge
    have hmm : m' = m := by
      rcases Nat.lt_trichotomy m' m with hlt | heq | hgt
      · exfalso
        rcases hstop' with hs | hs
        · rw [hi _ (by omega), hi _ (by omega)] at hs
          exact hbef m' hm2' hlt hs
        · omega
      · exact heq
      · exfalso
        rcases hstop with hs | hs
        · rw [← hi _ (by omega), ← hi m (by omega)] at hs
          exact hbef' m hm2 hgt hs
        · omega
    subst hmm
    rw [hres, hres', hi _ (by omega), hi _ (by omega)]

/-- Idle numbers do not change the final state of the numpy solver. -/
theorem npEquilibriumState_idle (tmax : Nat) (eta : R) (verbose : Bool) :
    npEquilibriumState E tmax eta verbose = npEquilibriumState D tmax eta verbose := by
  have J := validInput_same h I
  obtain ⟨T, N, hT, hN, hg, hlt⟩ := goodSeqs_of_valid I.wf I.trails I.nonempty
  have G := goodSched I.wf I.trails hg none hlt
  obtain ⟨a0, a1, a2⟩ := npEquilibriumState_cases I hT hN hg tmax eta verbose
  obtain ⟨b0, b1, b2⟩ := npEquilibriumState_cases J
    (by rw [trailsSequences_same h]; exact hT) (by rw [numberOfSequences_same h I.wf]; exact hN)
    (goodSeqs_same h hg) tmax eta verbose
  rw [sched_same h] at b1 b2
  have hi : ∀ j, 1 ≤ j → nIter E (sched D T N) j = nIter D (sched D T N) j := by
    intro j hj
    obtain ⟨j, rfl⟩ : ∃ i, j = i + 1 := ⟨j - 1, by omega⟩
    exact nIter_same h I G j
  have hd : ∀ j, 2 ≤ j → nDist E (sched D T N) j = nDist D (sched D T N) j := by
    intro j hj
    unfold nDist
    rw [hi _ (by omega), hi _ (by omega)]
  rcases Nat.lt_or_ge tmax 2 with hlt | hge
  · rcases Nat.eq_zero_or_pos tmax with hz | hz
    · rw [a0 hz, b0 hz]
    · have ht : tmax = 1 := by omega
      rw [a1 ht, b1 ht, hi 1 le_rfl]
  · obtain ⟨m, hm2, hmle, hbef, hstop, hres⟩ := a2 hge
    obtain ⟨m', hm2', hmle', hbef', hstop', hres'⟩ := b2 hge
    have hmm : m' = m := by
      rcases Nat.lt_trichotomy m' m with hlt | heq | hgt
      · exfalso
        rcases hstop' with hs | hs
        · rw [hd _ hm2'] at hs
          exact hbef m' hm2' hlt hs
        · omega
      · exact heq
      · exfalso
        rcases hstop with hs | hs
        · rw [← hd _ hm2] at hs
          exact hbef' m hm2 hgt hs
        · omega
    subst hmm
    rw [hres, hres', hd _ hm2, hi _ (by omega)]

end

/-! ## The form -/

section
variable [Field R] [LinearOrder R] [PySqrt R]

theorem trail_edge_next {D : Diagram R} (I : ValidInput D) {u v : Int} {d : EdgeData R}
    (hd : D.edges.get? (u, v) = some d) (ht : d.type = .trail) :
    ∃ a m, a ∈ D.nodes.keys ∧ nxtK D none a = some m ∧ edgeKey D a m = (u, v) := by
  obtain ⟨k1, k2⟩ := edgeKey_of_mem I.simple (Dict.mem_keys_of_get? hd)
  have key : ∀ a m, (∃ key tr, (key, tr) ∈ D.trails ∧ Consecutive tr a m) →
      a ∈ D.nodes.keys ∧ nxtK D none a = some m := by
    rintro a m ⟨key, tr, htr, hc⟩
    have hnext := (trailNext_iff I.wf I.trails).2 ⟨key, tr, htr, hc⟩
    refine ⟨I.trails.mem_keys htr hc.mem_left, ?_⟩
    unfold nxtK
    rw [if_neg, hnext]
    rintro (hc | hc)
    · exact trailNext_support I.wf I.trails hnext hc
    · simp at hc
  obtain ⟨key0, tr, htr, hc | hc⟩ := I.trails.complete u v (Or.inl ⟨d, hd, ht⟩)
  · obtain ⟨h1, h2⟩ := key u v ⟨key0, tr, htr, hc⟩
    exact ⟨u, v, h1, h2, k1⟩
  · obtain ⟨h1, h2⟩ := key v u ⟨key0, tr, htr, hc⟩
    exact ⟨v, u, h1, h2, k2⟩

theorem nproc_forces {D : Diagram R} {nxt : Int → Option Int} {ind : Bool} (l : List Int)
    (s : NState R) : (s.trailForces.keys.Nodup →
        (l.foldl (nproc D nxt ind) s).trailForces.keys.Nodup) ∧
      (s.reactions.keys.Nodup → (l.foldl (nproc D nxt ind) s).reactions.keys.Nodup) ∧
      (∀ e ∈ s.trailForces.keys, e ∈ (l.foldl (nproc D nxt ind) s).trailForces.keys) ∧
      ∀ a ∈ l, ∀ m, nxt a = some m →
        edgeKey D a m ∈ (l.foldl (nproc D nxt ind) s).trailForces.keys := by
  induction l generalizing s with
  | nil => exact ⟨id, id, fun _ he => he, by simp⟩
  | cons n l ih =>
    obtain ⟨i1, i2, i3, i4⟩ := ih (nproc D nxt ind s n)
    simp only [List.foldl_cons]
    refine ⟨fun hn => i1 ?_, fun hn => i2 ?_, fun e he => i3 e ?_, fun a ha m hm => ?_⟩
    · unfold nproc
      cases nxt n with
      | none => exact hn
      | some m => exact Dict.nodup_keys_set hn
    · unfold nproc
      cases nxt n with
      | none => exact Dict.nodup_keys_set hn
      | some m => exact hn
    · unfold nproc
      cases nxt n with
      | none => exact he
      | some m => rw [Dict.mem_keys_set]; exact Or.inr he
    · rcases List.mem_cons.1 ha with rfl | ha
      · refine i3 _ ?_
        unfold nproc
        rw [hm]
        simp only [Dict.mem_keys_set]
        exact Or.inl trivial
      · exact i4 a ha m hm

theorem nIter_nodup {D : Diagram R} {L : List Int} (m : Nat) :
    (nIter D L m).reactions.keys.Nodup ∧ (nIter D L m).trailForces.keys.Nodup := by
  induction m with
  | zero => exact ⟨List.nodup_nil, List.nodup_nil⟩
  | succ m ih => exact ⟨(nproc_forces L _).2.1 ih.1, (nproc_forces L _).1 ih.2⟩

variable {D E : Diagram R} (h : SameExcept (Idle D) D E) (I : ValidInput D)
include h I

/-- Edges of diagrams differing in idle numbers agree but for lengths and trail forces. -/
theorem edge_idle {e : Int × Int} {d d1 : EdgeData R} (hd : D.edges.get? e = some d)
    (h1 : E.edges.get? e = some d1) : d1.type = d.type ∧ d1.plane = d.plane ∧
      (d.type ≠ .trail → d1.force = d.force) := by
  obtain ⟨t, p, _, f⟩ := h.edge e d d1 hd h1
  refine ⟨t, p, fun ht => f ?_⟩
  rintro ⟨d2, h2, h3⟩
  rw [hd] at h2
  exact ht (by cases h2; exact h3)

theorem node_idle {n : Int} {d d1 : NodeData R} (hd : D.nodes.get? n = some d)
    (h1 : E.nodes.get? n = some d1) : d1 = { d with pos := d1.pos } := by
  obtain ⟨r, k, t, _, _, _, x, y, z⟩ := h.node n d d1 hd h1
  have hl : d1.load = d.load := by
    ext
    · exact x fun hc => hc
    · exact y fun hc => hc
    · exact z fun hc => hc
  cases d; cases d1; simp_all

theorem formUpdate_idle {s : EqState R} (hx : s.xyz.keys = D.nodes.keys)
    (hr : s.reactions.keys.Nodup) (hf : s.trailForces.keys.Nodup)
    (ht : ∀ e d, D.edges.get? e = some d → d.type = .trail → e ∈ s.trailForces.keys) :
    formUpdate (formFromTopology E) s = formUpdate (formFromTopology D) s := by
  have hn : (formUpdate (formFromTopology E) s).nodes = (formUpdate (formFromTopology D) s).nodes := by
    refine Dict.ext_get? ?_ ?_ fun n hn => ?_
    · rw [formNodes_keys]
      show E.nodes.keys.Nodup
      rw [h.nodeKeys]; exact I.wf.nodesNodup
    · rw [formNodes_keys, formNodes_keys]; exact h.nodeKeys
    · rw [formNodes_keys] at hn
      rw [formNodes_get? (formFromTopology E) s (by rw [hx]; exact h.nodeKeys.symm)
          (by show E.nodes.keys.Nodup; rw [h.nodeKeys]; exact I.wf.nodesNodup) hr,
        formNodes_get? (formFromTopology D) s hx I.wf.nodesNodup hr]
      obtain ⟨d1, h1⟩ := (Dict.exists_get?_iff E.nodes n).2 hn
      obtain ⟨d, hd⟩ := (Dict.exists_get?_iff D.nodes n).2 (by rw [← h.nodeKeys]; exact hn)
      show (E.nodes.get? n).map _ = (D.nodes.get? n).map _
      rw [hd, h1, Option.map_some, Option.map_some, node_idle h I hd h1]
  have he : (formUpdate (formFromTopology E) s).edges = (formUpdate (formFromTopology D) s).edges := by
    refine Dict.ext_get? ?_ ?_ fun e he => ?_
    · rw [formEdges_keys]
      show E.edges.keys.Nodup
      rw [h.edgeKeys]; exact I.wf.edgesNodup
    · rw [formEdges_keys, formEdges_keys]; exact h.edgeKeys
    · rw [formEdges_keys] at he
      rw [formEdges_get? (formFromTopology E) s hf, formEdges_get? (formFromTopology D) s hf, hn]
      obtain ⟨d1, h1⟩ := (Dict.exists_get?_iff E.edges e).2 he
      have hmem : e ∈ D.edges.keys := by rw [← h.edgeKeys]; exact he
      obtain ⟨d, hd⟩ := (Dict.exists_get?_iff D.edges e).2 hmem
      show (E.edges.get? e).map _ = (D.edges.get? e).map _
      rw [hd, h1, Option.map_some, Option.map_some]
      obtain ⟨t, p, f⟩ := edge_idle h I hd h1
      have hforce : (s.trailForces.get? e).getD d1.force = (s.trailForces.get? e).getD d.force := by
        by_cases hty : d.type = .trail
        · obtain ⟨w, hw⟩ := (Dict.exists_get?_iff _ _).2 (ht e d hd hty)
          rw [hw]; rfl
        · rw [f hty]
      have hg : ∀ n ∈ D.nodes.keys, ∃ a, (formUpdate (formFromTopology D) s).nodes.get? n = some a :=
        fun n hn => (Dict.exists_get?_iff _ _).2 (by rw [formNodes_keys]; exact hn)
      obtain ⟨a, ha⟩ := hg e.1 (I.wf.edge_left _ hmem)
      obtain ⟨b, hb⟩ := hg e.2 (I.wf.edge_right _ hmem)
      unfold signedLength
      rw [ha, hb, hforce]
      cases d; cases d1; simp_all
  obtain ⟨r1, r2, _⟩ := h.rest
  have e1 : formUpdate (formFromTopology E) s = { formFromTopology E with
    nodes := (formUpdate (formFromTopology E) s).nodes
    edges := (formUpdate (formFromTopology E) s).edges } := rfl
  rw [e1, hn, he]
  unfold formUpdate formFromTopology
  simp only [r1, r2]

/-- Idle numbers do not change the returned form. -/
theorem staticEquilibrium_idle (tmax : Nat) (eta : R) (verbose : Bool) :
    staticEquilibrium E none tmax eta verbose = staticEquilibrium D none tmax eta verbose := by
  unfold staticEquilibrium
  rw [equilibriumState_idle h I tmax eta verbose]
  cases hs : equilibriumState D none tmax eta verbose with
  | error err => rfl
  | ok s =>
    simp only [Except.ok.injEq]
    obtain ⟨L, m, G, rfl⟩ : ∃ L m, GoodSched D none L ∧ s = iter D none L (m + 1) := by
      obtain ⟨L, G, h0, h1, h2⟩ := equilibriumState_cases I (kmax := none) (by simp) tmax eta verbose
      rcases Nat.lt_or_ge tmax 2 with hlt | hge
      · rcases Nat.eq_zero_or_pos tmax with hz | hz
        · rw [h0 hz] at hs; cases hs
        · have ht : tmax = 1 := by omega
          rw [h1 ht] at hs
          split_ifs at hs
          exact ⟨L, 0, G, (Except.ok.inj hs).symm⟩
      · obtain ⟨m, hm2, _, _, _, hres⟩ := h2 hge
        rw [hres] at hs
        split_ifs at hs
        obtain ⟨m, rfl⟩ : ∃ k, m = k + 1 := ⟨m - 1, by omega⟩
        exact ⟨L, m, G, (Except.ok.inj hs).symm⟩
    obtain ⟨r, Q, S⟩ := finalSpec I.wf I.trails G m
    refine formUpdate_idle h I S.keys.1 S.reactNodup S.forceNodup ?_
    rintro ⟨u, v⟩ d hd hty
    obtain ⟨a, b, ha, hn, he⟩ := trail_edge_next I hd hty
    rw [← he]
    exact Dict.mem_keys_of_get? (S.next a ha b hn).2.2.1

theorem npFormUpdate_idle {s : NState R} (hx : s.xyz.keys = D.nodes.keys)
    (hf : s.trailForces.keys.Nodup)
    (ht : ∀ e d, D.edges.get? e = some d → d.type = .trail → e ∈ s.trailForces.keys) :
    npFormUpdate (formFromTopology E).num s = npFormUpdate (formFromTopology D).num s := by
  have kE : Dict.keys (E.nodes.map fun p => (p.1, p.2.num) : Dict Int (NodeData (Num R))) =
      D.nodes.keys := by rw [keys_map_val E.nodes NodeData.num, h.nodeKeys]
  have kD : Dict.keys (D.nodes.map fun p => (p.1, p.2.num) : Dict Int (NodeData (Num R))) =
      D.nodes.keys := keys_map_val D.nodes NodeData.num
  have kE' : Dict.keys (E.edges.map fun p => (p.1, p.2.num) : Dict (Int × Int) (EdgeData (Num R))) =
      D.edges.keys := by rw [keys_map_val E.edges EdgeData.num, h.edgeKeys]
  have kD' : Dict.keys (D.edges.map fun p => (p.1, p.2.num) : Dict (Int × Int) (EdgeData (Num R))) =
      D.edges.keys := keys_map_val D.edges EdgeData.num
  have hn : (npFormUpdate (formFromTopology E).num s).nodes =
      (npFormUpdate (formFromTopology D).num s).nodes := by
    unfold npFormUpdate
    dsimp only
    congr 1
    show List.foldl _ (E.nodes.map fun p => (p.1, p.2.num)) _ =
      List.foldl _ (D.nodes.map fun p => (p.1, p.2.num)) _
    refine Dict.ext_get? ?_ ?_ fun n hn => ?_
    · rw [keys_foldl_modify (fun w (d : NodeData (Num R)) => { d with pos := NVec.coords w }), kE]
      exact I.wf.nodesNodup
    · rw [keys_foldl_modify (fun w (d : NodeData (Num R)) => { d with pos := NVec.coords w }),
        keys_foldl_modify (fun w (d : NodeData (Num R)) => { d with pos := NVec.coords w }), kE, kD]
    · rw [keys_foldl_modify (fun w (d : NodeData (Num R)) => { d with pos := NVec.coords w }), kE] at hn
      have hnd : s.xyz.keys.Nodup := by rw [hx]; exact I.wf.nodesNodup
      rw [get?_foldl_modify (fun w (d : NodeData (Num R)) => { d with pos := NVec.coords w }) _ hnd,
        get?_foldl_modify (fun w (d : NodeData (Num R)) => { d with pos := NVec.coords w }) _ hnd,
        get?_map_val E.nodes NodeData.num, get?_map_val D.nodes NodeData.num]
      obtain ⟨w, hw⟩ := (Dict.exists_get?_iff s.xyz n).2 (by rw [hx]; exact hn)
      obtain ⟨d, hd⟩ := (Dict.exists_get?_iff D.nodes n).2 hn
      obtain ⟨d1, h1⟩ := (Dict.exists_get?_iff E.nodes n).2 (by rw [h.nodeKeys]; exact hn)
      rw [hw, hd, h1, node_idle h I hd h1]
      rfl
  have he : (npFormUpdate (formFromTopology E).num s).edges =
      (npFormUpdate (formFromTopology D).num s).edges := by
    unfold npFormUpdate
    dsimp only
    show List.map _ (List.foldl _ (E.edges.map fun p => (p.1, p.2.num)) _) =
      List.map _ (List.foldl _ (D.edges.map fun p => (p.1, p.2.num)) _)
    have hkey : ∀ (X : Dict (Int × Int) (EdgeData (Num R))), Dict.keys (List.map
        (fun p => (p.1, npSignedLength s.xyz p.1 p.2)) X : Dict (Int × Int) (EdgeData (Num R))) =
        X.keys := by
      intro X; unfold Dict.keys; rw [List.map_map]; rfl
    refine Dict.ext_get? ?_ ?_ fun e he => ?_
    · rw [hkey, keys_foldl_modify (fun w (d : EdgeData (Num R)) => { d with force := w }), kE']
      exact I.wf.edgesNodup
    · rw [hkey, hkey, keys_foldl_modify (fun w (d : EdgeData (Num R)) => { d with force := w }),
        keys_foldl_modify (fun w (d : EdgeData (Num R)) => { d with force := w }), kE', kD']
    · rw [hkey, keys_foldl_modify (fun w (d : EdgeData (Num R)) => { d with force := w }), kE'] at he
      rw [get?_map_key _ (fun e d => npSignedLength s.xyz e d),
        get?_map_key _ (fun e d => npSignedLength s.xyz e d),
        get?_foldl_modify (fun w (d : EdgeData (Num R)) => { d with force := w }) _ hf,
        get?_foldl_modify (fun w (d : EdgeData (Num R)) => { d with force := w }) _ hf,
        get?_map_val E.edges EdgeData.num, get?_map_val D.edges EdgeData.num]
      obtain ⟨d, hd⟩ := (Dict.exists_get?_iff D.edges e).2 he
      obtain ⟨d1, h1⟩ := (Dict.exists_get?_iff E.edges e).2 (by rw [h.edgeKeys]; exact he)
      obtain ⟨t, p, f⟩ := edge_idle h I hd h1
      obtain ⟨a, ha⟩ := (Dict.exists_get?_iff s.xyz e.1).2 (by rw [hx]; exact I.wf.edge_left _ he)
      obtain ⟨b, hb⟩ := (Dict.exists_get?_iff s.xyz e.2).2 (by rw [hx]; exact I.wf.edge_right _ he)
      rw [hd, h1]
      unfold npSignedLength
      rw [ha, hb]
      cases hw : s.trailForces.get? e with
      | some w =>
        cases d; cases d1; simp_all [EdgeData.num]
      | none =>
        have hty : d.type ≠ .trail := by
          intro hty
          obtain ⟨w, hw'⟩ := (Dict.exists_get?_iff _ _).2 (ht e d hd hty)
          rw [hw] at hw'; cases hw'
        have := f hty
        cases d; cases d1; simp_all [EdgeData.num]
  obtain ⟨r1, r2, _⟩ := h.rest
  have e1 : npFormUpdate (formFromTopology E).num s = { (formFromTopology E).num with
    nodes := (npFormUpdate (formFromTopology E).num s).nodes
    edges := (npFormUpdate (formFromTopology E).num s).edges } := rfl
  rw [e1, hn, he]
  unfold npFormUpdate formFromTopology Diagram.num
  simp only [r1, r2]

/-- Idle numbers do not change the form returned by the numpy solver. -/
theorem staticEquilibriumNumpy_idle (tmax : Nat) (eta : R) (verbose : Bool) :
    staticEquilibriumNumpy E tmax eta verbose = staticEquilibriumNumpy D tmax eta verbose := by
  unfold staticEquilibriumNumpy
  rw [npEquilibriumState_idle h I tmax eta verbose]
  cases hs : npEquilibriumState D tmax eta verbose with
  | error err => rfl
  | ok s =>
    simp only [Except.ok.injEq]
    obtain ⟨L, m, G, rfl⟩ : ∃ L m, GoodSched D none L ∧ s = nIter D L (m + 1) := by
      obtain ⟨T, N, hT, hN, hg, hlt⟩ := goodSeqs_of_valid I.wf I.trails I.nonempty
      have G := goodSched I.wf I.trails hg none hlt
      obtain ⟨h0, h1, h2⟩ := npEquilibriumState_cases I hT hN hg tmax eta verbose
      rcases Nat.lt_or_ge tmax 2 with hlt | hge
      · rcases Nat.eq_zero_or_pos tmax with hz | hz
        · rw [h0 hz] at hs; cases hs
        · have ht : tmax = 1 := by omega
          rw [h1 ht] at hs
          split_ifs at hs
          exact ⟨_, 0, G, (Except.ok.inj hs).symm⟩
      · obtain ⟨m, hm2, _, _, _, hres⟩ := h2 hge
        rw [hres] at hs
        split_ifs at hs
        obtain ⟨m, rfl⟩ : ∃ k, m = k + 1 := ⟨m - 1, by omega⟩
        exact ⟨_, m, G, (Except.ok.inj hs).symm⟩
    have hnd := nIter_nodup (D := D) (L := L) (m + 1)
    refine npFormUpdate_idle h I (goodNState_iter I.wf I.trails L _).1 hnd.2 ?_
    rintro ⟨u, v⟩ d hd hty
    obtain ⟨a, b, ha, hn, he⟩ := trail_edge_next I hd hty
    rw [← he]
    exact (nproc_forces L _).2.2.2 a ((G.mem a).2 ha) b hn

end
end CEM
