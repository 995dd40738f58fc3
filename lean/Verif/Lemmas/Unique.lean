import Verif.Lemmas.Nodal

/-!
# Without indirect deviation edges the equations have one solution
-/

set_option linter.unusedSectionVars false
set_option linter.unusedSimpArgs false

namespace CEM
open Diagram Spec

variable {R : Type} [Field R] [LinearOrder R] [PySqrt R]

theorem indNbrs_direct {D : Diagram R} (h : DirectOnly D) (n : Int) : indNbrs D n = [] := by
  unfold indNbrs
  rw [List.filter_eq_nil_iff]
  intro m hm hc
  simp only [decide_eq_true_eq] at hc
  have hd := edgeKey_mem hm
  rcases edgeKey_ends D n m with e | e
  · exact hc.2 (h n m _ (by rw [← e]; exact hd) hc.1)
  · exact hc.2 (h m n _ (by rw [← e]; exact hd) hc.1).symm

/-- The equations of a form without indirect deviation edges. -/
structure Solves (D : Diagram R) (kmax : Option Int) (P T r : Int → Vec R) : Prop where
  out : ∀ n ∈ D.nodes.keys, r n = outVec D false P (T n) n
  next : ∀ n ∈ D.nodes.keys, ∀ m, nxtK D kmax n = some m →
    P m = P n + effectiveLength (edgeData D n m) (P n) (r n) • Vec.normalize (r n) ∧ T m = r n

theorem FinalSpec.solves {D : Diagram R} (hd : DirectOnly D) {kmax : Option Int} {ind : Bool}
    {p s : EqState R} {r : Int → Vec R} {Q : Int → Int → Vec R}
    (S : FinalSpec D kmax ind p s r Q) : Solves D kmax s.pos s.res r := by
  refine ⟨?_, ?_⟩
  · intro n hn
    rw [S.out n hn]
    unfold outVec
    rw [indNbrs_direct hd]
    have : devSum D (Q n) n (dirNbrs D n) = devSum D s.pos n (dirNbrs D n) := by
      unfold devSum
      congr 1
      apply List.map_congr_left
      intro m hm
      have hs : seqOf D n = seqOf D m := by
        have := (List.mem_filter.1 hm).2; simp only [decide_eq_true_eq] at this; exact this.2
      unfold devTerm
      rw [S.seen n hn m (by simp [rankOf, hs]), S.seen n hn n le_rfl]
    rw [this]
    simp [devSum]
  · intro n hn m hm
    obtain ⟨h1, h2, _⟩ := S.next n hn m hm
    exact ⟨h1, h2⟩

section
variable {D E : Diagram R}

theorem _root_.CEM.Spec.SameProblem.keys (h : SameProblem D E) (n : Int) :
    n ∈ D.nodes.keys ↔ n ∈ E.nodes.keys := by
  rw [← Dict.get?_isSome_iff, ← Dict.get?_isSome_iff]
  have := congrArg Option.isSome (h.nodes n)
  simp only [Option.isSome_map] at this
  rw [this]

theorem _root_.CEM.Spec.SameProblem.seq (h : SameProblem D E) (n : Int) : seqOf D n = seqOf E n := by
  have := h.nodes n
  unfold seqOf
  cases h1 : D.nodes.get? n <;> cases h2 : E.nodes.get? n <;> rw [h1, h2] at this <;> simp_all

theorem _root_.CEM.Spec.SameProblem.type (h : SameProblem D E) (n : Int) : typeOf D n = typeOf E n := by
  have := h.nodes n
  unfold typeOf
  cases h1 : D.nodes.get? n <;> cases h2 : E.nodes.get? n <;> rw [h1, h2] at this <;> simp_all

theorem _root_.CEM.Spec.SameProblem.load (h : SameProblem D E) (n : Int) : loadOf D n = loadOf E n := by
  have := h.nodes n
  unfold loadOf
  cases h1 : D.nodes.get? n <;> cases h2 : E.nodes.get? n <;> rw [h1, h2] at this <;> simp_all

theorem _root_.CEM.Spec.SameProblem.edgeKey (h : SameProblem D E) (n m : Int) : edgeKey D n m = edgeKey E n m := by
  unfold CEM.edgeKey
  have : D.edges.has (n, m) = E.edges.has (n, m) := by
    rw [Bool.eq_iff_iff, Dict.has_iff, Dict.has_iff]; exact h.edges _
  rw [this]

theorem _root_.CEM.Spec.SameProblem.nbr (h : SameProblem D E) (n m : Int) :
    m ∈ D.neighbors n ↔ m ∈ E.neighbors n := by
  rw [mem_neighbors, mem_neighbors, h.edges, h.edges]

theorem _root_.CEM.Spec.SameProblem.trailNext (h : SameProblem D E) (w : WF D) (V : ValidTrails D) (w' : WF E)
    (V' : ValidTrails E) (n : Int) : trailNext D n = trailNext E n := by
  apply Option.ext
  intro m
  rw [trailNext_iff w V, trailNext_iff w' V']
  constructor
  · rintro ⟨k, t, hm, hc⟩; exact ⟨k, t, (h.trails _).1 hm, hc⟩
  · rintro ⟨k, t, hm, hc⟩; exact ⟨k, t, (h.trails _).2 hm, hc⟩

theorem _root_.CEM.Spec.SameProblem.nxtK (h : SameProblem D E) (w : WF D) (V : ValidTrails D) (w' : WF E)
    (V' : ValidTrails E) (kmax : Option Int) (n : Int) : nxtK D kmax n = nxtK E kmax n := by
  unfold CEM.nxtK
  rw [h.type, h.seq, h.trailNext w V w' V']

theorem _root_.CEM.Spec.SameProblem.data (h : SameProblem D E) {n m : Int} (hm : m ∈ D.neighbors n) :
    (edgeData D n m).type = (edgeData E n m).type ∧
    ((edgeData D n m).type = .deviation → (edgeData D n m).force = (edgeData E n m).force) ∧
    ((edgeData D n m).type = .trail → (edgeData D n m).length = (edgeData E n m).length ∧
      (edgeData D n m).plane = (edgeData E n m).plane) := by
  have h1 := edgeKey_mem hm
  have h2 := edgeKey_mem ((h.nbr n m).1 hm)
  rw [← h.edgeKey] at h2
  exact ⟨h.types _ _ _ h1 h2, h.deviationData _ _ _ h1 h2, h.trailData _ _ _ h1 h2⟩

theorem _root_.CEM.Spec.SameProblem.dirNbrs (h : SameProblem D E) (n : Int) :
    (dirNbrs D n).Perm (dirNbrs E n) := by
  unfold CEM.dirNbrs
  rw [List.perm_ext_iff_of_nodup ((nodup_neighbors D n).filter _) ((nodup_neighbors E n).filter _)]
  intro m
  rw [List.mem_filter, List.mem_filter, h.nbr]
  constructor
  · rintro ⟨h1, h2⟩
    refine ⟨h1, ?_⟩
    simp only [decide_eq_true_eq] at h2 ⊢
    rw [← (h.data ((h.nbr n m).2 h1)).1, ← h.seq, ← h.seq]; exact h2
  · rintro ⟨h1, h2⟩
    refine ⟨h1, ?_⟩
    simp only [decide_eq_true_eq] at h2 ⊢
    rw [(h.data ((h.nbr n m).2 h1)).1, h.seq, h.seq]; exact h2

theorem _root_.CEM.Spec.SameProblem.devSum (h : SameProblem D E) {P P' : Int → Vec R} {n : Int}
    (hn : P n = P' n) (hP : ∀ m ∈ CEM.dirNbrs D n, P m = P' m) :
    devSum D P n (CEM.dirNbrs D n) = devSum E P' n (CEM.dirNbrs E n) := by
  unfold CEM.devSum
  rw [← ((h.dirNbrs n).map (devTerm E P' n)).sum_eq]
  congr 1
  apply List.map_congr_left
  intro m hm
  obtain ⟨h1, h2⟩ := List.mem_filter.1 hm
  simp only [decide_eq_true_eq] at h2
  unfold devTerm
  rw [(h.data h1).2.1 h2.1, hn, hP m hm]

/-- Uniqueness, by induction on the sequence. -/
theorem solves_unique (h : SameProblem D E) (g : SimpleGraph D) (w : WF D) (V : ValidTrails D) (w' : WF E)
    (V' : ValidTrails E) {kmax : Option Int} {P T r P' T' r' : Int → Vec R}
    (S : Solves D kmax P T r) (S' : Solves E kmax P' T' r')
    (hstart : ∀ m ∈ D.nodes.keys, (∀ a ∈ D.nodes.keys, nxtK D kmax a ≠ some m) →
      P m = P' m ∧ T m = T' m) :
    ∀ n ∈ D.nodes.keys, P n = P' n ∧ T n = T' n ∧ r n = r' n := by
  have hr : ∀ n ∈ D.nodes.keys, P n = P' n → T n = T' n →
      (∀ m ∈ dirNbrs D n, P m = P' m) → r n = r' n := by
    intro n hn h1 h2 h3
    rw [S.out n hn, S'.out n ((h.keys n).1 hn)]
    unfold outVec
    rw [h2, h.load, h.devSum h1 h3]
    rfl
  have main : ∀ (k : Nat) (n : Int), n ∈ D.nodes.keys → seqOf D n = some (k : Int) →
      P n = P' n ∧ T n = T' n := by
    intro k
    induction k with
    | zero =>
      intro n hn hk
      apply hstart n hn
      intro a _ ha
      obtain ⟨key, tr, ht, hc⟩ := (trailNext_iff w V).1 (nxtK_trail ha)
      obtain ⟨j, hj, _, e⟩ := seqOf_next V ht hc
      rw [hk] at e
      have := Option.some.inj e
      simp at this
      omega
    | succ k ih =>
      intro n hn hk
      by_cases hex : ∃ a ∈ D.nodes.keys, CEM.nxtK D kmax a = some n
      · obtain ⟨a, ha, han⟩ := hex
        obtain ⟨key, tr, ht, hc⟩ := (trailNext_iff w V).1 (nxtK_trail han)
        obtain ⟨j, hj, e1, e2⟩ := seqOf_next V ht hc
        rw [hk] at e2
        have hjk : j = k := by have := Option.some.inj e2; push_cast at this; omega
        subst hjk
        obtain ⟨p1, p2⟩ := ih a ha e1
        have hra := hr a ha p1 p2 (by
          intro m hm
          obtain ⟨h1, h2⟩ := List.mem_filter.1 hm
          simp only [decide_eq_true_eq] at h2
          exact (ih m (mem_keys_of_nbr w h1).1 (by rw [← h2.2]; exact e1)).1)
        obtain ⟨q1, q2⟩ := S.next a ha n han
        obtain ⟨q3, q4⟩ := S'.next a ((h.keys a).1 ha) n (by rw [← h.nxtK w V w' V']; exact han)
        have hadj := trailNext_adj w V (nxtK_trail han)
        have hty : (edgeData D a n).type = .trail := by
          have := (List.mem_filter.1 ((mem_trlNbrs g).2 hadj)).2
          simpa using this
        obtain ⟨l1, l2⟩ := (h.data (adj_mem_neighbors hadj)).2.2 hty
        have hlen : ∀ p v, effectiveLength (edgeData D a n) p v = effectiveLength (edgeData E a n) p v := by
          intro p v; unfold effectiveLength; rw [l1, l2]
        exact ⟨by rw [q1, q3, p1, hra, hlen], by rw [q2, q4, hra]⟩
      · push Not at hex
        exact hstart n hn hex
  intro n hn
  obtain ⟨k, hk, h0⟩ := allSequenced_of_valid V n hn
  obtain ⟨i, rfl⟩ := Int.eq_ofNat_of_zero_le h0
  obtain ⟨h1, h2⟩ := main i n hn hk
  refine ⟨h1, h2, hr n hn h1 h2 ?_⟩
  intro m hm
  obtain ⟨hm1, hm2⟩ := List.mem_filter.1 hm
  simp only [decide_eq_true_eq] at hm2
  exact (main i m (mem_keys_of_nbr w hm1).1 (by rw [← hm2.2]; exact hk)).1

end
end CEM
