import Verif.Lemmas.RoundedNumpy

/-!
# Sweeps of the rounded numpy solver node by node

As in `Lemmas/Rounded`, for `flNproc`.
-/

set_option linter.unusedSectionVars false
set_option linter.unusedSimpArgs false

namespace CEM
open Diagram Spec

section
variable {R : Type} [Field R] [LinearOrder R] [PySqrt R] {A : Arith R}

theorem fl_nproc_none {D : Diagram R} {nxt : Int → Option Int} {ind : Bool} {s : NState R} {n : Int}
    (h : nxt n = none) : flNproc A D nxt ind s n =
      { s with reactions := s.reactions.set n (flOutN A D ind s.pos (s.res n) n) } := by
  simp only [flNproc, h]

theorem fl_nproc_some {D : Diagram R} {nxt : Int → Option Int} {ind : Bool} {s : NState R} {n m : Int}
    (h : nxt n = some m) : flNproc A D nxt ind s n =
      { s with
        xyz := s.xyz.set m (lift2 A.vadd (s.pos n) (lift2 A.vscale (flLenN A D n m (s.pos n)
          (flOutN A D ind s.pos (s.res n) n)) (flNpDirection A (flOutN A D ind s.pos (s.res n) n))))
        trailForces := s.trailForces.set (edgeKey D n m)
          (flNpTrailForce A ( (flOutN A D ind s.pos (s.res n) n))
            (flLenN A D n m (s.pos n) (flOutN A D ind s.pos (s.res n) n)))
        trailDirs := s.trailDirs.set (edgeKey D n m) (flNpDirection A (flOutN A D ind s.pos (s.res n) n))
        residual := s.residual.set m (flOutN A D ind s.pos (s.res n) n) } := by
  simp only [flNproc, h]

variable {D : Diagram R} {nxt : Int → Option Int} {rank : Int → Int} {ind : Bool} {L : List Int}

/-- The state when `n` is about to be processed. -/
def flNStateAt (A : Arith R) (D : Diagram R) (nxt : Int → Option Int) (ind : Bool) (L : List Int) (s : NState R)
    (n : Int) : NState R := (L.takeWhile (· ≠ n)).foldl (flNproc A D nxt ind) s

def flNRAt (A : Arith R) (D : Diagram R) (nxt : Int → Option Int) (ind : Bool) (L : List Int) (s : NState R)
    (n : Int) : NVec R :=
  flOutN A D ind (flNStateAt A D nxt ind L s n).pos ((flNStateAt A D nxt ind L s n).res n) n

/-- The signed length used for the trail edge leaving `n` when it is processed. -/
def flNLenAt (A : Arith R) (D : Diagram R) (nxt : Int → Option Int) (ind : Bool) (L : List Int) (s : NState R)
    (n m : Int) : Num R :=
  flLenN A D n m ((flNStateAt A D nxt ind L s n).pos n) (flNRAt A D nxt ind L s n)

/-- The state after a prefix of the schedule. -/
structure FlNPrefixSpec (A : Arith R) (D : Diagram R) (nxt : Int → Option Int) (ind : Bool) (L : List Int)
    (s : NState R) (L1 : List Int) (s1 : NState R) : Prop where
  moved : ∀ a ∈ L1, ∀ m, nxt a = some m →
    s1.xyz.get? m = some (lift2 A.vadd ((flNStateAt A D nxt ind L s a).pos a)
      (lift2 A.vscale (flNLenAt A D nxt ind L s a m) (flNpDirection A (flNRAt A D nxt ind L s a)))) ∧
    s1.residual.get? m = some (flNRAt A D nxt ind L s a) ∧
    s1.trailForces.get? (edgeKey D a m) =
      some (flNpTrailForce A ( (flNRAt A D nxt ind L s a)) (flNLenAt A D nxt ind L s a m)) ∧
    s1.trailDirs.get? (edgeKey D a m) = some (flNpDirection A (flNRAt A D nxt ind L s a))
  kept : ∀ m, (∀ a ∈ L1, nxt a ≠ some m) →
    s1.xyz.get? m = s.xyz.get? m ∧ s1.residual.get? m = s.residual.get? m
  react : ∀ n, s1.reactions.get? n =
    if n ∈ L1 ∧ nxt n = none then some (flNRAt A D nxt ind L s n) else s.reactions.get? n
  force : ∀ e, (∀ a ∈ L1, ∀ m, nxt a = some m → edgeKey D a m ≠ e) →
    s1.trailForces.get? e = s.trailForces.get? e ∧ s1.trailDirs.get? e = s.trailDirs.get? e

theorem fl_nprefixSpec (S : Sched nxt rank L) (s : NState R) (L1 L2 : List Int) (h : L = L1 ++ L2) :
    FlNPrefixSpec A D nxt ind L s L1 (L1.foldl (flNproc A D nxt ind) s) := by
  induction L1 using List.reverseRecOn generalizing L2 with
  | nil => exact ⟨by simp, by simp, by simp, by simp⟩
  | append_singleton L1 n ih =>
    have hsplit : L = L1 ++ n :: L2 := by simpa using h
    have I := ih (n :: L2) hsplit
    have hst : flNStateAt A D nxt ind L s n = L1.foldl (flNproc A D nxt ind) s := by
      unfold flNStateAt; rw [takeWhile_of_split S.nodup hsplit]
    have hnL : n ∉ L1 := by
      have := S.nodup
      rw [hsplit] at this
      intro hc
      exact (List.nodup_append.1 this).2.2 n hc n (by simp) rfl
    rw [List.foldl_append, List.foldl_cons, List.foldl_nil]
    have hr : flOutN A D ind (L1.foldl (flNproc A D nxt ind) s).pos
        ((L1.foldl (flNproc A D nxt ind) s).res n) n = flNRAt A D nxt ind L s n := by
      unfold flNRAt; rw [hst]
    cases hn : nxt n with
    | none =>
      have hp : flNproc A D nxt ind (L1.foldl (flNproc A D nxt ind) s) n =
          { L1.foldl (flNproc A D nxt ind) s with
            reactions := (L1.foldl (flNproc A D nxt ind) s).reactions.set n (flNRAt A D nxt ind L s n) } := by
        rw [fl_nproc_none hn, hr]
      rw [hp]
      refine ⟨?_, ?_, ?_, ?_⟩
      · intro a ha m hm
        rcases List.mem_append.1 ha with ha | ha
        · exact I.moved a ha m hm
        · simp only [List.mem_singleton] at ha; subst ha; rw [hn] at hm; simp at hm
      · intro m hm
        exact I.kept m fun a ha => hm a (List.mem_append_left _ ha)
      · intro m
        rw [Dict.get?_set, I.react]
        by_cases e : n = m
        · subst e; simp [hn]
        · simp [e, Ne.symm e]
      · intro e he
        exact I.force e fun a ha => he a (List.mem_append_left _ ha)
    | some m0 =>
      have hl : flLenN A D n m0 ((L1.foldl (flNproc A D nxt ind) s).pos n)
          (flNRAt A D nxt ind L s n) = flNLenAt A D nxt ind L s n m0 := by unfold flNLenAt; rw [hst]
      have hp : flNproc A D nxt ind (L1.foldl (flNproc A D nxt ind) s) n =
          { L1.foldl (flNproc A D nxt ind) s with
            xyz := (L1.foldl (flNproc A D nxt ind) s).xyz.set m0 (lift2 A.vadd ((flNStateAt A D nxt ind L s n).pos n)
              (lift2 A.vscale (flNLenAt A D nxt ind L s n m0) (flNpDirection A (flNRAt A D nxt ind L s n))))
            trailForces := (L1.foldl (flNproc A D nxt ind) s).trailForces.set (edgeKey D n m0)
              (flNpTrailForce A ( (flNRAt A D nxt ind L s n)) (flNLenAt A D nxt ind L s n m0))
            trailDirs := (L1.foldl (flNproc A D nxt ind) s).trailDirs.set (edgeKey D n m0)
              (flNpDirection A (flNRAt A D nxt ind L s n))
            residual := (L1.foldl (flNproc A D nxt ind) s).residual.set m0 (flNRAt A D nxt ind L s n) } := by
        rw [fl_nproc_some hn, hr, hl, hst]
      rw [hp]
      refine ⟨?_, ?_, ?_, ?_⟩
      · intro a ha m hm
        by_cases han : a = n
        · subst han
          rw [hn] at hm
          obtain rfl := Option.some.inj hm
          simp
        · have ha' : a ∈ L1 := by simpa [han] using ha
          have hmm : m0 ≠ m := by
            rintro rfl; exact han (S.inj a n m0 hm hn)
          have hee : edgeKey D n m0 ≠ edgeKey D a m := by
            intro e; exact han (edgeKey_inj (D := D) S hn hm e).1.symm
          simp only [Dict.get?_set, if_neg hmm, if_neg hee]
          exact I.moved a ha' m hm
      · intro m hm
        have hmm : m0 ≠ m := by rintro rfl; exact hm n (by simp) hn
        simp only [Dict.get?_set, if_neg hmm]
        exact I.kept m fun a ha => hm a (List.mem_append_left _ ha)
      · intro m
        rw [I.react]
        by_cases e : m = n
        · subst e; simp [hn]
        · simp [e]
      · intro e he
        have hee : edgeKey D n m0 ≠ e := he n (by simp) m0 hn
        simp only [Dict.get?_set, if_neg hee]
        exact I.force e fun a ha => he a (List.mem_append_left _ ha)

/-- The state after a sweep over the schedule `L`, in terms of the outgoing vectors
`r` and the positions `Q n` seen when node `n` was processed. -/
structure FlNSweepSpec (A : Arith R) (D : Diagram R) (nxt : Int → Option Int) (rank : Int → Int) (ind : Bool)
    (L : List Int) (s s' : NState R) (r : Int → NVec R) (Q : Int → Int → NVec R) : Prop where
  /-- positions of nodes that are not later are final -/
  seen : ∀ n ∈ L, ∀ m, rank m ≤ rank n → Q n m = s'.pos m
  /-- other positions are final or those before the sweep -/
  seen_any : ∀ n ∈ L, ∀ m, Q n m = s.pos m ∨ Q n m = s'.pos m
  out : ∀ n ∈ L, r n = flOutN A D ind (Q n) (s'.res n) n
  next : ∀ n ∈ L, ∀ m, nxt n = some m →
    s'.pos m = lift2 A.vadd (s'.pos n) (lift2 A.vscale (flLenN A D n m (s'.pos n) (r n)) (flNpDirection A (r n))) ∧
    s'.res m = r n ∧
    s'.trailForces.get? (edgeKey D n m) =
      some (flNpTrailForce A ( (r n)) (flLenN A D n m (s'.pos n) (r n))) ∧
    s'.trailDirs.get? (edgeKey D n m) = some (flNpDirection A (r n))
  start : ∀ m, (∀ a ∈ L, nxt a ≠ some m) → s'.pos m = s.pos m ∧ s'.res m = s.res m
  react : ∀ n, s'.reactions.get? n =
    if n ∈ L ∧ nxt n = none then some (r n) else s.reactions.get? n
  force : ∀ e, (∀ a ∈ L, ∀ m, nxt a = some m → edgeKey D a m ≠ e) →
    s'.trailForces.get? e = s.trailForces.get? e ∧ s'.trailDirs.get? e = s.trailDirs.get? e

theorem fl_nsweepSpec (S : Sched nxt rank L) (s : NState R) :
    FlNSweepSpec A D nxt rank ind L s (L.foldl (flNproc A D nxt ind) s) (flNRAt A D nxt ind L s)
      (fun n => (flNStateAt A D nxt ind L s n).pos) := by
  have I := fl_nprefixSpec (A := A) (D := D) (ind := ind) S s L [] (by simp)
  have hpre : ∀ n ∈ L, ∃ L1 L2, L = L1 ++ n :: L2 ∧
      flNStateAt A D nxt ind L s n = L1.foldl (flNproc A D nxt ind) s := by
    intro n hn
    obtain ⟨L1, L2, h⟩ := List.append_of_mem hn
    exact ⟨L1, L2, h, by unfold flNStateAt; rw [takeWhile_of_split S.nodup h]⟩
  have hbefore : ∀ {n L1 L2}, L = L1 ++ n :: L2 → ∀ a ∈ L, rank a < rank n → a ∈ L1 := by
    intro n L1 L2 h a ha hlt
    have hs := S.sorted
    rw [h] at ha hs
    rcases List.mem_append.1 ha with h1 | h1
    · exact h1
    · exfalso
      have h2 := (List.pairwise_append.1 hs).2.1
      rcases List.mem_cons.1 h1 with rfl | h1
      · omega
      · have := (List.pairwise_cons.1 h2).1 a h1; omega
  have seen : ∀ n ∈ L, ∀ m, rank m ≤ rank n →
      (flNStateAt A D nxt ind L s n).xyz.get? m = (L.foldl (flNproc A D nxt ind) s).xyz.get? m ∧
      (flNStateAt A D nxt ind L s n).residual.get? m = (L.foldl (flNproc A D nxt ind) s).residual.get? m := by
    intro n hn m hr
    obtain ⟨L1, L2, h, hst⟩ := hpre n hn
    rw [hst]
    have J := fl_nprefixSpec (A := A) (D := D) (ind := ind) S s L1 (n :: L2) h
    by_cases hex : ∃ a ∈ L, nxt a = some m
    · obtain ⟨a, ha, ham⟩ := hex
      have ha1 : a ∈ L1 := hbefore h a ha (by have := S.rank_succ a m ham; omega)
      have j := J.moved a ha1 m ham
      have i := I.moved a ha m ham
      exact ⟨by rw [j.1, i.1], by rw [j.2.1, i.2.1]⟩
    · push Not at hex
      have j := J.kept m fun a ha => hex a (by rw [h]; exact List.mem_append_left _ ha)
      have i := I.kept m hex
      exact ⟨by rw [j.1, i.1], by rw [j.2, i.2]⟩
  have seenP : ∀ n ∈ L, ∀ m, rank m ≤ rank n →
      (flNStateAt A D nxt ind L s n).pos m = (L.foldl (flNproc A D nxt ind) s).pos m := by
    intro n hn m hr; unfold NState.pos; rw [(seen n hn m hr).1]
  have hlen : ∀ n ∈ L, ∀ m, flNLenAt A D nxt ind L s n m = flLenN A D n m
      ((L.foldl (flNproc A D nxt ind) s).pos n) (flNRAt A D nxt ind L s n) := by
    intro n hn m; unfold flNLenAt; rw [seenP n hn n le_rfl]
  refine ⟨seenP, ?_, ?_, ?_, ?_, I.react, I.force⟩
  · intro n hn m
    obtain ⟨L1, L2, h, hst⟩ := hpre n hn
    simp only [hst]
    have J := fl_nprefixSpec (A := A) (D := D) (ind := ind) S s L1 (n :: L2) h
    by_cases hex : ∃ a ∈ L1, nxt a = some m
    · obtain ⟨a, ha, ham⟩ := hex
      right
      have haL : a ∈ L := by rw [h]; exact List.mem_append_left _ ha
      unfold NState.pos
      rw [(J.moved a ha m ham).1, (I.moved a haL m ham).1]
    · push Not at hex
      left
      unfold NState.pos
      rw [(J.kept m hex).1]
  · intro n hn
    unfold flNRAt
    have : (flNStateAt A D nxt ind L s n).res n = (L.foldl (flNproc A D nxt ind) s).res n := by
      unfold NState.res; rw [(seen n hn n le_rfl).2]
    rw [this]
  · intro n hn m hm
    obtain ⟨i1, i2, i3, i4⟩ := I.moved n hn m hm
    rw [hlen n hn m] at i1 i3
    rw [seenP n hn n le_rfl] at i1
    refine ⟨?_, ?_, i3, i4⟩
    · rw [NState.pos, i1]; rfl
    · rw [NState.res, i2]; rfl
  · intro m hm
    unfold NState.pos NState.res
    rw [(I.kept m hm).1, (I.kept m hm).2]
    exact ⟨rfl, rfl⟩

/-! ## Diagrams without NaN -/

theorem coords_some_inj {a b : Vec R} (h : NVec.coords (some a) = NVec.coords (some b)) : a = b := by
  simp only [NVec.coords, Vec.mk.injEq, Option.some.injEq] at h
  exact Vec.ext h.1 h.2.1 h.2.2

theorem num_inj {F G : Diagram R} (h : F.num = G.num) : F = G := by
  have hinj : ∀ {K V W : Type} {f : V → W}, (∀ a b, f a = f b → a = b) → ∀ (l m : List (K × V)),
      (l.map fun p => (p.1, f p.2)) = (m.map fun p => (p.1, f p.2)) → l = m := by
    intro K V W f hf l m h
    refine List.map_injective_iff.2 ?_ h
    rintro ⟨k, a⟩ ⟨k', a'⟩ h
    simp only [Prod.mk.injEq] at h
    rw [h.1, hf _ _ h.2]
  cases F; cases G
  simp only [Diagram.num, Diagram.mk.injEq, Option.some.injEq] at h
  obtain ⟨h1, h2, h3, h4, h5, h6, h7, h8⟩ := h
  have e1 := hinj (f := NodeData.num) (by
    rintro ⟨p, l, r, k, t⟩ ⟨p', l', r', k', t'⟩ h
    simp only [NodeData.num, NodeData.mk.injEq] at h
    rw [coords_some_inj h.1, coords_some_inj h.2.1, coords_some_inj h.2.2.1, h.2.2.2.1, h.2.2.2.2]) _ _ h1
  have e2 := hinj (f := EdgeData.num) (by
    rintro ⟨t, l, f, p⟩ ⟨t', l', f', p'⟩ h
    simp only [EdgeData.num, EdgeData.mk.injEq, Option.some.injEq] at h
    obtain ⟨rfl, rfl, rfl, h4⟩ := h
    congr
    cases p with
    | none => cases p' with
      | none => rfl
      | some q => simp at h4
    | some q => cases p' with
      | none => simp at h4
      | some q' =>
        simp only [Option.map_some, Option.some.injEq, Prod.mk.injEq] at h4
        rw [Prod.ext (coords_some_inj h4.1) (coords_some_inj h4.2)]) _ _ h2
  rw [e1, e2, h3, h4, h5, h6, h7, coords_some_inj h8]

end
end CEM
