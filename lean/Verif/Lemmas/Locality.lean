import Verif.Lemmas.Unique
import Verif.Spec.Locality

/-!
# Equal data give equal parts of the form
-/

set_option linter.unusedSectionVars false
set_option linter.unusedSimpArgs false

namespace CEM
open Diagram Spec

variable {R : Type} [Field R] [LinearOrder R] [PySqrt R]

theorem edgeBetween_iff {D : Diagram R} (g : SimpleGraph D) {a b : Int} {d : EdgeData R} :
    EdgeBetween D a b d ↔ b ∈ D.neighbors a ∧ edgeData D a b = d := by
  unfold EdgeBetween
  constructor
  · rintro (h | h)
    · have hm := Dict.mem_keys_of_get? h
      refine ⟨mem_neighbors.2 (Or.inl hm), ?_⟩
      unfold edgeData; rw [(edgeKey_of_mem g hm).1, h]; rfl
    · have hm := Dict.mem_keys_of_get? h
      refine ⟨mem_neighbors.2 (Or.inr hm), ?_⟩
      unfold edgeData; rw [(edgeKey_of_mem g hm).2, h]; rfl
  · rintro ⟨h, rfl⟩
    have hk := edgeKey_mem h
    rcases edgeKey_ends D a b with e | e
    · left; rw [← e]; exact hk
    · right; rw [← e]; exact hk

theorem mem_dirNbrs {D : Diagram R} (g : SimpleGraph D) (hd : DirectOnly D) {n m : Int} :
    m ∈ dirNbrs D n ↔ ∃ d, EdgeBetween D n m d ∧ d.type = .deviation := by
  unfold dirNbrs
  rw [List.mem_filter]
  constructor
  · rintro ⟨h1, h2⟩
    simp only [decide_eq_true_eq] at h2
    exact ⟨_, (edgeBetween_iff g).2 ⟨h1, rfl⟩, h2.1⟩
  · rintro ⟨d, h1, h2⟩
    obtain ⟨h3, rfl⟩ := (edgeBetween_iff g).1 h1
    refine ⟨h3, ?_⟩
    simp only [decide_eq_true_eq]
    refine ⟨h2, ?_⟩
    rcases h1 with h | h
    · exact hd _ _ _ h h2
    · exact (hd _ _ _ h h2).symm

section
variable {D E : Diagram R} {A B : Int → Prop}

theorem _root_.CEM.Spec.SharedPart.devSum (h : SharedPart D E A B) (g : SimpleGraph D)
    (g' : SimpleGraph E) (hd : DirectOnly D) (hd' : DirectOnly E) {P P' : Int → Vec R} {n : Int}
    (hB : B n) (hn : P n = P' n) (hP : ∀ m ∈ CEM.dirNbrs D n, P m = P' m) :
    devSum D P n (CEM.dirNbrs D n) = devSum E P' n (CEM.dirNbrs E n) := by
  have hperm : (CEM.dirNbrs D n).Perm (CEM.dirNbrs E n) := by
    have n1 : (CEM.dirNbrs D n).Nodup := (nodup_neighbors D n).filter _
    have n2 : (CEM.dirNbrs E n).Nodup := (nodup_neighbors E n).filter _
    rw [List.perm_ext_iff_of_nodup n1 n2]
    intro m
    rw [mem_dirNbrs g hd, mem_dirNbrs g' hd']
    exact h.deviation n m hB
  unfold CEM.devSum
  rw [← (hperm.map (devTerm E P' n)).sum_eq]
  congr 1
  apply List.map_congr_left
  intro m hm
  obtain ⟨d, e1, t1⟩ := (mem_dirNbrs g hd).1 hm
  obtain ⟨d', e2, t2⟩ := (h.deviation n m hB).1 ⟨d, e1, t1⟩
  have hf := (h.forces n m d d' hB e1 t1 e2 t2).1
  unfold devTerm
  rw [((edgeBetween_iff g).1 e1).2, ((edgeBetween_iff g').1 e2).2, hf, hn, hP m hm]

/-- The positions in `A` and the outgoing vectors in `B` agree. -/
theorem _root_.CEM.Spec.SharedPart.solves (h : SharedPart D E A B) (I : ValidInput D)
    (J : ValidInput E) (hd : DirectOnly D) (hd' : DirectOnly E) {kD kE : Option Int}
    (hk : ∀ a b, A b → Follows D a b → kD ≠ seqOf D a ∧ kE ≠ seqOf E a)
    {P T r P' T' r' : Int → Vec R} (S : Solves D kD P T r) (S' : Solves E kE P' T' r')
    (hstart : ∀ m, A m → (∀ a, ¬ Follows D a m) → P m = P' m ∧ T m = T' m) :
    (∀ n, A n → P n = P' n ∧ T n = T' n) ∧ (∀ n, B n → r n = r' n) := by
  have w := I.wf
  have w' := J.wf
  have V := I.trails
  have V' := J.trails
  have hr : ∀ n, B n → P n = P' n → T n = T' n →
      (∀ m ∈ dirNbrs D n, P m = P' m) → r n = r' n := by
    intro n hB h1 h2 h3
    have hA := h.sub n hB
    rw [S.out n (h.left n hA), S'.out n (h.right n hA)]
    unfold outVec
    have hl : loadOf D n = loadOf E n := h.loads n hB
    rw [h2, hl, h.devSum I.simple J.simple hd hd' hB h1 h3]
    rfl
  have hnb : ∀ n, B n → ∀ m ∈ dirNbrs D n, A m ∧ seqOf D m = seqOf D n := by
    intro n hB m hm
    obtain ⟨d, e1, t1⟩ := (mem_dirNbrs I.simple hd).1 hm
    obtain ⟨d', e2, t2⟩ := (h.deviation n m hB).1 ⟨d, e1, t1⟩
    refine ⟨(h.forces n m d d' hB e1 t1 e2 t2).2, ?_⟩
    have := (List.mem_filter.1 hm).2
    simp only [decide_eq_true_eq] at this
    exact this.2.symm
  have main : ∀ (k : Nat) (n : Int), A n → seqOf D n = some (k : Int) → P n = P' n ∧ T n = T' n := by
    intro k
    induction k with
    | zero =>
      intro n hA hs
      apply hstart n hA
      rintro a ⟨key, tr, ht, hc⟩
      obtain ⟨j, hj, _, e⟩ := seqOf_next V ht hc
      rw [hs] at e
      have := Option.some.inj e
      simp at this
      omega
    | succ k ih =>
      intro n hA hs
      by_cases hex : ∃ a, Follows D a n
      · obtain ⟨a, han⟩ := hex
        have han' := (h.same_before a n hA).1 han
        have hB := h.before a n hA han
        have hAa := h.sub a hB
        obtain ⟨key, tr, ht, hc⟩ := id han
        obtain ⟨j, hj, e1, e2⟩ := seqOf_next V ht hc
        rw [hs] at e2
        have hjk : j = k := by have := Option.some.inj e2; push_cast at this; omega
        subst hjk
        obtain ⟨p1, p2⟩ := ih a hAa e1
        have hra := hr a hB p1 p2 (fun m hm =>
          (ih m (hnb a hB m hm).1 (by rw [(hnb a hB m hm).2]; exact e1)).1)
        obtain ⟨k1, k2⟩ := hk a n hA han
        have n1 := (trailNext_iff w V).2 han
        have n2 := (trailNext_iff w' V').2 han'
        have x1 : nxtK D kD a = some n := by
          unfold nxtK; rw [if_neg]
          · exact n1
          · rintro (c | c)
            · exact trailNext_support w V n1 c
            · exact k1 c.2
        have x2 : nxtK E kE a = some n := by
          unfold nxtK; rw [if_neg]
          · exact n2
          · rintro (c | c)
            · exact trailNext_support w' V' n2 c
            · exact k2 c.2
        obtain ⟨q1, q2⟩ := S.next a (h.left a hAa) n x1
        obtain ⟨q3, q4⟩ := S'.next a (h.right a hAa) n x2
        obtain ⟨l1, l2⟩ := h.trailData a n _ _ hA han
          ((edgeBetween_iff I.simple).2 ⟨adj_mem_neighbors (trailNext_adj w V n1), rfl⟩)
          ((edgeBetween_iff J.simple).2 ⟨adj_mem_neighbors (trailNext_adj w' V' n2), rfl⟩)
        have hlen : ∀ p v, effectiveLength (edgeData D a n) p v = effectiveLength (edgeData E a n) p v := by
          intro p v; unfold effectiveLength; rw [l1, l2]
        exact ⟨by rw [q1, q3, p1, hra, hlen], by rw [q2, q4, hra]⟩
      · push Not at hex
        exact hstart n hA hex
  have all : ∀ n, A n → P n = P' n ∧ T n = T' n := by
    intro n hA
    obtain ⟨k, hk, h0⟩ := allSequenced_of_valid V n (h.left n hA)
    obtain ⟨i, rfl⟩ := Int.eq_ofNat_of_zero_le h0
    exact main i n hA hk
  refine ⟨all, fun n hB => ?_⟩
  obtain ⟨h1, h2⟩ := all n (h.sub n hB)
  exact hr n hB h1 h2 fun m hm => (all m (hnb n hB m hm).1).1

end

theorem edgeBetween_mem {D : Diagram R} {a b : Int} {d : EdgeData R} (h : EdgeBetween D a b d) :
    (a, b) ∈ D.edges.keys ∨ (b, a) ∈ D.edges.keys := by
  rcases h with h | h
  · exact Or.inl (Dict.mem_keys_of_get? h)
  · exact Or.inr (Dict.mem_keys_of_get? h)

theorem Follows.mem {D : Diagram R} (V : ValidTrails D) {a b : Int} (h : Follows D a b) :
    a ∈ D.nodes.keys ∧ b ∈ D.nodes.keys := by
  obtain ⟨key, tr, ht, hc⟩ := h
  exact ⟨V.mem_keys ht hc.mem_left, V.mem_keys ht hc.mem_right⟩

theorem Follows.seq {D : Diagram R} (V : ValidTrails D) {a b : Int} (h : Follows D a b) :
    ∃ k : Int, 0 ≤ k ∧ seqOf D a = some k ∧ seqOf D b = some (k + 1) := by
  obtain ⟨key, tr, ht, hc⟩ := h
  exact seqOf_next V ht hc

theorem Follows.typed {D : Diagram R} (I : ValidInput D) {a b : Int} (h : Follows D a b)
    {d : EdgeData R} (he : EdgeBetween D a b d) : d.type = .trail := by
  have hadj := trailNext_adj I.wf I.trails ((trailNext_iff I.wf I.trails).2 h)
  have := (List.mem_filter.1 ((mem_trlNbrs I.simple).2 hadj)).2
  rw [((edgeBetween_iff I.simple).1 he).2] at this
  simpa using this

/-- A node that follows no other node is the first node of its trail. -/
theorem first_of_not_follows {D : Diagram R} (V : ValidTrails D) {m : Int} (hm : m ∈ D.nodes.keys)
    (hx : ∀ a, ¬ Follows D a m) : ∃ tr, (m, tr) ∈ D.trails := by
  obtain ⟨⟨key, tr⟩, htr, hmem⟩ := List.mem_flatMap.1 (V.partition.mem_iff.2 hm)
  have hhead : m = key := by
    obtain ⟨rest, rfl⟩ := V.head key tr htr
    obtain ⟨l1, l2, hl⟩ := List.append_of_mem hmem
    rcases List.eq_nil_or_concat l1 with rfl | ⟨l1', a, rfl⟩
    · simp only [List.nil_append] at hl
      exact (List.cons.inj hl).1.symm
    · exfalso
      exact hx a ⟨key, _, htr, l1', l2, by simpa using hl⟩
  subst hhead
  exact ⟨tr, htr⟩

section
variable {D E : Diagram R} {k : Int}

theorem _root_.CEM.Spec.SameUpTo.seq (h : SameUpTo k D E) (n : Int) : seqOf D n = seqOf E n := by
  have := h.nodes n
  unfold seqOf
  cases h1 : D.nodes.get? n <;> cases h2 : E.nodes.get? n <;> rw [h1, h2] at this <;> simp_all

theorem _root_.CEM.Spec.SameUpTo.type (h : SameUpTo k D E) (n : Int) : typeOf D n = typeOf E n := by
  have := h.nodes n
  unfold typeOf
  cases h1 : D.nodes.get? n <;> cases h2 : E.nodes.get? n <;> rw [h1, h2] at this <;> simp_all

theorem _root_.CEM.Spec.SameUpTo.keys (h : SameUpTo k D E) (n : Int) :
    n ∈ D.nodes.keys ↔ n ∈ E.nodes.keys := by
  rw [← Dict.get?_isSome_iff, ← Dict.get?_isSome_iff]
  have := congrArg Option.isSome (h.nodes n)
  simp only [Option.isSome_map] at this
  rw [this]

theorem _root_.CEM.Spec.SameUpTo.directOnly (h : SameUpTo k D E) (hd : DirectOnly D) :
    DirectOnly E := by
  intro a b d h1 h2
  obtain ⟨d0, h0⟩ := (Dict.exists_get?_iff D.edges (a, b)).2
    ((h.edges _).2 (Dict.mem_keys_of_get? h1))
  rw [← h.seq, ← h.seq]
  exact hd a b d0 h0 (by rw [h.types _ _ _ h0 h1]; exact h2)

theorem _root_.CEM.Spec.SameUpTo.follows (h : SameUpTo k D E) (a b : Int) :
    Follows D a b ↔ Follows E a b := by
  unfold Follows
  simp only [h.trails]

/-- The two edges between two nodes have the same direction. -/
theorem _root_.CEM.Spec.SameUpTo.edgeBetween (h : SameUpTo k D E) (g : SimpleGraph D) {a b : Int}
    {d d' : EdgeData R} (e1 : EdgeBetween D a b d) (e2 : EdgeBetween E a b d') :
    (D.edges.get? (a, b) = some d ∧ E.edges.get? (a, b) = some d') ∨
    (D.edges.get? (b, a) = some d ∧ E.edges.get? (b, a) = some d') := by
  rcases e1 with e1 | e1 <;> rcases e2 with e2 | e2
  · exact Or.inl ⟨e1, e2⟩
  · exact absurd ((h.edges _).2 (Dict.mem_keys_of_get? e2))
      (g.noAnti _ _ (Dict.mem_keys_of_get? e1))
  · exact absurd ((h.edges _).2 (Dict.mem_keys_of_get? e2))
      (g.noAnti _ _ (Dict.mem_keys_of_get? e1))
  · exact Or.inr ⟨e1, e2⟩

theorem _root_.CEM.Spec.SameUpTo.sharedPart (h : SameUpTo k D E) (I : ValidInput D)
    (hd : DirectOnly D) : SharedPart D E (fun n => n ∈ D.nodes.keys ∧ AtMost D k n)
      (fun n => n ∈ D.nodes.keys ∧ AtMost D (k - 1) n) := by
  have dev : ∀ n m d d', EdgeBetween D n m d → EdgeBetween E n m d' → d.type = d'.type := by
    intro n m d d' e1 e2
    rcases h.edgeBetween I.simple e1 e2 with ⟨q1, q2⟩ | ⟨q1, q2⟩
    · exact h.types _ _ _ q1 q2
    · exact h.types _ _ _ q1 q2
  have ex1 : ∀ n m d, EdgeBetween D n m d → ∃ d', EdgeBetween E n m d' := by
    rintro n m d (e | e)
    · obtain ⟨d', hd'⟩ := (Dict.exists_get?_iff _ _).2 ((h.edges _).1 (Dict.mem_keys_of_get? e))
      exact ⟨d', Or.inl hd'⟩
    · obtain ⟨d', hd'⟩ := (Dict.exists_get?_iff _ _).2 ((h.edges _).1 (Dict.mem_keys_of_get? e))
      exact ⟨d', Or.inr hd'⟩
  have ex2 : ∀ n m d, EdgeBetween E n m d → ∃ d', EdgeBetween D n m d' := by
    rintro n m d (e | e)
    · obtain ⟨d', hd'⟩ := (Dict.exists_get?_iff _ _).2 ((h.edges _).2 (Dict.mem_keys_of_get? e))
      exact ⟨d', Or.inl hd'⟩
    · obtain ⟨d', hd'⟩ := (Dict.exists_get?_iff _ _).2 ((h.edges _).2 (Dict.mem_keys_of_get? e))
      exact ⟨d', Or.inr hd'⟩
  have before : ∀ a b, AtMost D k b → Follows D a b → AtMost D (k - 1) a := by
    rintro a b ⟨s, hs, hle⟩ hf
    obtain ⟨j, _, e1, e2⟩ := Follows.seq I.trails hf
    rw [hs] at e2
    have := Option.some.inj e2
    exact ⟨j, e1, by omega⟩
  have mono : ∀ n, AtMost D (k - 1) n → AtMost D k n := by
    rintro n ⟨s, hs, hle⟩; exact ⟨s, hs, by omega⟩
  refine ⟨fun n h => h.1, fun n hn => (h.keys n).1 hn.1, fun n hn => ⟨hn.1, mono n hn.2⟩,
    fun a b hb hf => ⟨(Follows.mem I.trails hf).1, before a b hb.2 hf⟩,
    fun a b _ => h.follows a b, ?_, ?_, fun n hn => h.loads n hn.2, ?_, ?_⟩
  · intro a b d d' hb hf e1 e2
    have ht := Follows.typed I hf e1
    have ha := mono a (before a b hb.2 hf)
    rcases h.edgeBetween I.simple e1 e2 with ⟨q1, q2⟩ | ⟨q1, q2⟩
    · exact h.trailData _ _ _ _ q1 q2 ht ha hb.2
    · exact h.trailData _ _ _ _ q1 q2 ht hb.2 ha
  · intro n hn hx
    obtain ⟨tr, htr⟩ := first_of_not_follows I.trails hn.1 hx
    exact h.origins n tr htr hn.2
  · intro n m _
    constructor
    · rintro ⟨d, e1, t1⟩
      obtain ⟨d', e2⟩ := ex1 n m d e1
      exact ⟨d', e2, by rw [← dev n m d d' e1 e2]; exact t1⟩
    · rintro ⟨d, e1, t1⟩
      obtain ⟨d', e2⟩ := ex2 n m d e1
      exact ⟨d', e2, by rw [dev n m d' d e2 e1]; exact t1⟩
  · intro n m d d' hn e1 t1 e2 t2
    have hs : seqOf D n = seqOf D m := by
      rcases e1 with e | e
      · exact hd _ _ _ e t1
      · exact (hd _ _ _ e t1).symm
    have hm : AtMost D (k - 1) m := by
      obtain ⟨s, h1, h2⟩ := hn.2; exact ⟨s, by rw [← hs]; exact h1, h2⟩
    refine ⟨?_, ?_, mono m hm⟩
    · rcases h.edgeBetween I.simple e1 e2 with ⟨q1, q2⟩ | ⟨q1, q2⟩
      · exact h.deviationData _ _ _ _ q1 q2 t1 hn.2
      · exact h.deviationData _ _ _ _ q1 q2 t1 hm
    · rcases edgeBetween_mem e1 with q | q
      · exact I.wf.edge_right _ q
      · exact I.wf.edge_left _ q

theorem _root_.CEM.Spec.PartOf.sharedPart (h : PartOf D E) (I : ValidInput D) (J : ValidInput E) :
    SharedPart D E (fun n => n ∈ D.nodes.keys) (fun n => n ∈ D.nodes.keys) := by
  have hnode : ∀ n ∈ D.nodes.keys, E.nodes.get? n = D.nodes.get? n := by
    intro n hn
    obtain ⟨d, hd⟩ := (Dict.exists_get?_iff _ _).2 hn
    rw [hd, h.nodes n d hd]
  have hedge : ∀ a b, (a ∈ D.nodes.keys ∨ b ∈ D.nodes.keys) → E.edges.get? (a, b) = D.edges.get? (a, b) := by
    intro a b hab
    cases h1 : E.edges.get? (a, b) with
    | none =>
      cases h2 : D.edges.get? (a, b) with
      | none => rfl
      | some d => rw [h.edges _ _ h2] at h1; exact absurd h1 (by simp)
    | some d =>
      obtain ⟨d', hd'⟩ := (Dict.exists_get?_iff _ _).2 (h.closed a b (Dict.mem_keys_of_get? h1) hab)
      rw [hd', ← h1, h.edges _ _ hd']
  have hbet : ∀ a b d, (a ∈ D.nodes.keys ∨ b ∈ D.nodes.keys) → (EdgeBetween E a b d ↔ EdgeBetween D a b d) := by
    intro a b d hab
    unfold EdgeBetween
    rw [hedge a b hab, hedge b a hab.symm]
  have one : ∀ a b d d', EdgeBetween D a b d → EdgeBetween D a b d' → d = d' := by
    intro a b d d' e1 e2
    rw [← ((edgeBetween_iff I.simple).1 e1).2, ← ((edgeBetween_iff I.simple).1 e2).2]
  refine ⟨fun _ h => h, ?_, fun _ h => h, fun a b _ hf => (Follows.mem I.trails hf).1, ?_, ?_, ?_, ?_, ?_, ?_⟩
  · intro n hn
    rw [← Dict.get?_isSome_iff, hnode n hn, Dict.get?_isSome_iff]; exact hn
  · intro a b hb
    constructor
    · rintro ⟨key, tr, ht, hc⟩
      exact ⟨key, tr, h.trails _ ht, hc⟩
    · rintro ⟨key, tr, ht, hc⟩
      have hadj : TrailAdj E a b := (isChain_iff_consecutive tr).1 (J.trails.chain key tr ht) a b hc
      have hadj' : TrailAdj D a b := by
        rcases hadj with ⟨d, q, t⟩ | ⟨d, q, t⟩
        · exact Or.inl ⟨d, by rw [← hedge a b (Or.inr hb)]; exact q, t⟩
        · exact Or.inr ⟨d, by rw [← hedge b a (Or.inl hb)]; exact q, t⟩
      obtain ⟨key', tr', ht', hc'⟩ := I.trails.complete a b hadj'
      rcases hc' with hc' | hc'
      · exact ⟨key', tr', ht', hc'⟩
      · exfalso
        obtain ⟨j, _, e1, e2⟩ := seqOf_next J.trails ht hc
        obtain ⟨j', _, e3, e4⟩ := seqOf_next J.trails (h.trails _ ht') hc'
        rw [e1] at e4; rw [e2] at e3
        have := Option.some.inj e4
        have := Option.some.inj e3
        omega
  · intro a b d d' hb _ e1 e2
    rw [hbet a b d' (Or.inr hb)] at e2
    rw [one a b d d' e1 e2]; exact ⟨rfl, rfl⟩
  · intro n hn _
    unfold posOf; rw [hnode n hn]
  · intro n hn
    unfold loadAt; rw [hnode n hn]
  · intro n m hn
    simp only [hbet n m _ (Or.inl hn)]
  · intro n m d d' hn e1 _ e2 _
    rw [hbet n m d' (Or.inl hn)] at e2
    refine ⟨by rw [one n m d d' e1 e2], ?_⟩
    rcases edgeBetween_mem e1 with q | q
    · exact I.wf.edge_right _ q
    · exact I.wf.edge_left _ q

end
end CEM

namespace CEM
open Diagram Spec

/-- The balance of a node with any `kmax`, if the trail edge before it was computed and the one
after it carries no force unless it was computed. -/
theorem imbalance_cut {D : Diagram ℝ} (I : ValidInput D) (hl : NonzeroTrails D)
    {kmax : Option Int} {ind : Bool}
    {p s : EqState ℝ} {r : Int → Vec ℝ} {Q : Int → Int → Vec ℝ}
    (S : FinalSpec D kmax ind p s r Q) {n : Int} (hn : n ∈ D.nodes.keys)
    (hin : ∀ a, trailNext D a = some n → nxtK D kmax a = some n)
    (hcut : ∀ m, trailNext D n = some m → nxtK D kmax n = none → (edgeData D n m).force = 0) :
    imbalance (formOf D s) n = devSum D s.pos n (indNbrs D n) -
      (if ind then devSum D (Q n) n (indNbrs D n) else 0) := by
  have w := I.wf
  have V := I.trails
  have g := I.simple
  unfold imbalance
  rw [sum_pull w g S, loadAt_form w S, reactionAt_form w S I.reaction hn,
    sum_nbrs_split I.typed]
  have hterm : ∀ l : List Int, (∀ m ∈ l, (edgeData D n m).type = .deviation) →
      (l.map fun m => formForce D s n m • unit (s.pos m - s.pos n)).sum = devSum D s.pos n l := by
    intro l hdev
    unfold devSum
    congr 1
    apply List.map_congr_left
    intro m hm
    rw [formForce_dev w V g S (hdev m hm), devTerm_real]
  have hdir : ∀ m ∈ dirNbrs D n, (edgeData D n m).type = .deviation := fun m hm => by
    have := (List.mem_filter.1 hm).2; simp only [decide_eq_true_eq] at this; exact this.1
  have hind : ∀ m ∈ indNbrs D n, (edgeData D n m).type = .deviation := fun m hm => by
    have := (List.mem_filter.1 hm).2; simp only [decide_eq_true_eq] at this; exact this.1
  rw [hterm _ hdir, hterm _ hind]
  have hQdir : devSum D (Q n) n (dirNbrs D n) = devSum D s.pos n (dirNbrs D n) := by
    unfold devSum
    congr 1
    apply List.map_congr_left
    intro m hm
    have hs : seqOf D n = seqOf D m := by
      have := (List.mem_filter.1 hm).2; simp only [decide_eq_true_eq] at this; exact this.2
    unfold devTerm
    rw [S.seen n hn m (by simp [rankOf, hs]), S.seen n hn n le_rfl]
  have hout := S.out n hn
  unfold outVec at hout
  rw [hQdir] at hout
  have hfwd : ∀ a ∈ D.nodes.keys, ∀ m, nxtK D kmax a = some m →
      formForce D s a m • unit (s.pos m - s.pos a) = r a := by
    intro a ha m hm
    obtain ⟨h1, _, h3, _⟩ := S.next a ha m hm
    obtain ⟨hed, hty⟩ := edgeData_trail w V g (nxtK_trail hm)
    have h0 := effectiveLength_ne_zero (hl _ _ hed hty) (s.pos a) (r a)
    unfold formForce
    rw [h3, h1, Option.getD_some, add_sub_cancel_left, normalize_eq_unit,
      copysign_smul_unit (r a) h0]
  have htr := sum_trlNbrs w V g n (fun m => formForce D s n m • unit (s.pos m - s.pos n))
    (if nxtK D kmax n = none then 0 else r n) (-(s.res n))
    (by
      intro m hm
      split_ifs with hx
      · have : formForce D s n m = 0 := by
          unfold formForce
          rw [S.force]
          · exact hcut m hm hx
          · intro a ha b hab he
            have h1 := edgeData_trail w V g (nxtK_trail hab)
            obtain ⟨key, tr, ht, hc⟩ := (trailNext_iff w V).1 (nxtK_trail hab)
            obtain ⟨key', tr', ht', hc'⟩ := (trailNext_iff w V).1 hm
            obtain ⟨j, _, e1, e2⟩ := seqOf_next V ht hc
            obtain ⟨j', _, e3, e4⟩ := seqOf_next V ht' hc'
            rcases edgeKey_ends D a b with q | q <;> rcases edgeKey_ends D n m with q' | q' <;>
              rw [q, q'] at he <;> obtain ⟨rfl, rfl⟩ := Prod.mk.inj he
            · rw [hx] at hab; simp at hab
            · rw [e1] at e4; rw [e2] at e3
              have := Option.some.inj e4
              have := Option.some.inj e3
              omega
            · rw [e1] at e4; rw [e2] at e3
              have := Option.some.inj e4
              have := Option.some.inj e3
              omega
            · rw [hx] at hab; simp at hab
        rw [this, zero_smul]
      · cases hy : nxtK D kmax n with
        | none => exact absurd hy hx
        | some y =>
          have := nxtK_trail hy
          rw [hm] at this
          rw [Option.some.inj this]
          exact hfwd n hn y hy)
    (by
      intro h
      rw [if_pos]
      cases hy : nxtK D kmax n with
      | none => rfl
      | some y => rw [nxtK_trail hy] at h; simp at h)
    (by
      intro m hm
      have hmk : m ∈ D.nodes.keys := by
        obtain ⟨key, tr, ht, hc⟩ := (trailNext_iff w V).1 hm
        exact V.mem_keys ht hc.mem_left
      have hkey := edgeKey_comm g (adj_mem_neighbors (trailNext_adj w V hm))
      have hff : formForce D s n m = formForce D s m n := by
        unfold formForce edgeData; rw [hkey]
      have h2 := (S.next m hmk n (hin m hm)).2.1
      rw [hff, ← neg_sub, unit_neg, smul_neg, hfwd m hmk n (hin m hm), h2])
    (by
      intro h
      have := (S.start n (by intro a _ ha; exact h a (nxtK_trail ha))).2
      rw [this]
      obtain ⟨d, hd⟩ := (Dict.exists_get?_iff _ _).2 hn
      have : (initState D).res n = d.reaction := by
        unfold EqState.res initState
        rw [get?_map_val D.nodes (fun d => d.reaction), hd]; rfl
      rw [this, I.reaction n d hd]
      simp)
  rw [htr]
  by_cases hx : nxtK D kmax n = none
  · rw [if_pos hx, if_pos hx, hout]; abel
  · rw [if_neg hx, if_neg hx, hout]; abel

end CEM
