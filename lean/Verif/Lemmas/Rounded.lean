import Verif.Model.Rounded
import Verif.Lemmas.Nodal

/-!
# Form finding with any arithmetic as a fold

As in `Lemmas/Schedule`, `Lemmas/EqStep` and `Lemmas/EqLoop`, for the functions of
`Model/Rounded`.
-/

set_option linter.unusedSectionVars false
set_option linter.unusedSimpArgs false

namespace CEM
open Diagram Spec

variable {R : Type} [Field R] [LinearOrder R] [PySqrt R] {A : Arith R}

/-- The forces of the deviation edges from `n` to the nodes of `l`, added up from the
left. -/
def flDevSum (A : Arith R) (D : Diagram R) (P : Int → Vec R) (n : Int) (l : List Int) (acc : Vec R) : Vec R :=
  l.foldl (fun acc m => A.vadd acc (A.vscale (edgeData D n m).force
    (A.vnormalize (A.vsub (P m) (P n))))) acc

/-- The outgoing trail vector of node `n`. -/
def flOut (A : Arith R) (D : Diagram R) (ind : Bool) (P : Int → Vec R) (t : Vec R) (n : Int) : Vec R :=
  flTrailVectorOut A (-t) (loadOf D n) (flDevSum A D P n (dirNbrs D n) 0)
    (if ind then flDevSum A D P n (indNbrs D n) 0 else 0)

/-- Processing one node; `nxt` is the next node of its trail. -/
def flProc (A : Arith R) (D : Diagram R) (nxt : Int → Option Int) (ind : Bool) (s : EqState R) (n : Int) : EqState R :=
  let r := flOut A D ind s.pos (s.res n) n
  match nxt n with
  | none => { s with reactions := s.reactions.set n r }
  | some m =>
    let l := flEffectiveLength A (edgeData D n m) (s.pos n) r
    { s with
      xyz := s.xyz.set m (A.vadd (s.pos n) (A.vscale l (A.vnormalize r)))
      trailForces := s.trailForces.set (edgeKey D n m) (copysign (A.vlength r) l)
      trailDirs := s.trailDirs.set (edgeKey D n m) (A.vnormalize r)
      residual := s.residual.set m r }

theorem fl_proc_none {D : Diagram R} {nxt : Int → Option Int} {ind : Bool} {s : EqState R} {n : Int}
    (h : nxt n = none) : flProc A D nxt ind s n =
      { s with reactions := s.reactions.set n (flOut A D ind s.pos (s.res n) n) } := by
  simp only [flProc, h]

theorem fl_proc_some {D : Diagram R} {nxt : Int → Option Int} {ind : Bool} {s : EqState R} {n m : Int}
    (h : nxt n = some m) : flProc A D nxt ind s n =
      { s with
        xyz := s.xyz.set m (A.vadd (s.pos n) (A.vscale (flEffectiveLength A (edgeData D n m) (s.pos n)
          (flOut A D ind s.pos (s.res n) n)) (A.vnormalize (flOut A D ind s.pos (s.res n) n))))
        trailForces := s.trailForces.set (edgeKey D n m)
          (copysign (A.vlength (flOut A D ind s.pos (s.res n) n))
            (flEffectiveLength A (edgeData D n m) (s.pos n) (flOut A D ind s.pos (s.res n) n)))
        trailDirs := s.trailDirs.set (edgeKey D n m) (A.vnormalize (flOut A D ind s.pos (s.res n) n))
        residual := s.residual.set m (flOut A D ind s.pos (s.res n) n) } := by
  simp only [flProc, h]

variable {D : Diagram R} {nxt : Int → Option Int} {rank : Int → Int} {ind : Bool} {L : List Int}

/-- The state when `n` is about to be processed. -/
def flStateAt (A : Arith R) (D : Diagram R) (nxt : Int → Option Int) (ind : Bool) (L : List Int) (s : EqState R)
    (n : Int) : EqState R := (L.takeWhile (· ≠ n)).foldl (flProc A D nxt ind) s

def flRAt (A : Arith R) (D : Diagram R) (nxt : Int → Option Int) (ind : Bool) (L : List Int) (s : EqState R)
    (n : Int) : Vec R :=
  flOut A D ind (flStateAt A D nxt ind L s n).pos ((flStateAt A D nxt ind L s n).res n) n

/-- The signed length used for the trail edge leaving `n` when it is processed. -/
def flLenAt (A : Arith R) (D : Diagram R) (nxt : Int → Option Int) (ind : Bool) (L : List Int) (s : EqState R)
    (n m : Int) : R :=
  flEffectiveLength A (edgeData D n m) ((flStateAt A D nxt ind L s n).pos n) (flRAt A D nxt ind L s n)

/-- The state after a prefix of the schedule. -/
structure FlPrefixSpec (A : Arith R) (D : Diagram R) (nxt : Int → Option Int) (ind : Bool) (L : List Int)
    (s : EqState R) (L1 : List Int) (s1 : EqState R) : Prop where
  moved : ∀ a ∈ L1, ∀ m, nxt a = some m →
    s1.xyz.get? m = some (A.vadd ((flStateAt A D nxt ind L s a).pos a)
      (A.vscale (flLenAt A D nxt ind L s a m) (A.vnormalize (flRAt A D nxt ind L s a)))) ∧
    s1.residual.get? m = some (flRAt A D nxt ind L s a) ∧
    s1.trailForces.get? (edgeKey D a m) =
      some (copysign (A.vlength (flRAt A D nxt ind L s a)) (flLenAt A D nxt ind L s a m)) ∧
    s1.trailDirs.get? (edgeKey D a m) = some (A.vnormalize (flRAt A D nxt ind L s a))
  kept : ∀ m, (∀ a ∈ L1, nxt a ≠ some m) →
    s1.xyz.get? m = s.xyz.get? m ∧ s1.residual.get? m = s.residual.get? m
  react : ∀ n, s1.reactions.get? n =
    if n ∈ L1 ∧ nxt n = none then some (flRAt A D nxt ind L s n) else s.reactions.get? n
  force : ∀ e, (∀ a ∈ L1, ∀ m, nxt a = some m → edgeKey D a m ≠ e) →
    s1.trailForces.get? e = s.trailForces.get? e ∧ s1.trailDirs.get? e = s.trailDirs.get? e

theorem fl_prefixSpec (S : Sched nxt rank L) (s : EqState R) (L1 L2 : List Int) (h : L = L1 ++ L2) :
    FlPrefixSpec A D nxt ind L s L1 (L1.foldl (flProc A D nxt ind) s) := by
  induction L1 using List.reverseRecOn generalizing L2 with
  | nil => exact ⟨by simp, by simp, by simp, by simp⟩
  | append_singleton L1 n ih =>
    have hsplit : L = L1 ++ n :: L2 := by simpa using h
    have I := ih (n :: L2) hsplit
    have hst : flStateAt A D nxt ind L s n = L1.foldl (flProc A D nxt ind) s := by
      unfold flStateAt; rw [takeWhile_of_split S.nodup hsplit]
    have hnL : n ∉ L1 := by
      have := S.nodup
      rw [hsplit] at this
      intro hc
      exact (List.nodup_append.1 this).2.2 n hc n (by simp) rfl
    rw [List.foldl_append, List.foldl_cons, List.foldl_nil]
    have hr : flOut A D ind (L1.foldl (flProc A D nxt ind) s).pos
        ((L1.foldl (flProc A D nxt ind) s).res n) n = flRAt A D nxt ind L s n := by
      unfold flRAt; rw [hst]
    cases hn : nxt n with
    | none =>
      have hp : flProc A D nxt ind (L1.foldl (flProc A D nxt ind) s) n =
          { L1.foldl (flProc A D nxt ind) s with
            reactions := (L1.foldl (flProc A D nxt ind) s).reactions.set n (flRAt A D nxt ind L s n) } := by
        rw [fl_proc_none hn, hr]
      rw [hp]
      refine ⟨?_, ?_, ?_, ?_⟩
      · intro a ha m hm
        rcases List.mem_append.1 ha with ha | ha
        · exact I.moved a ha m hm
        · simp only [List.mem_singleton] at ha; subst ha; rw [hn] at hm; simp at hm
      · intro m hm
        exact I.kept m fun a ha => hm a (List.mem_append_left _ ha)
      · intro m
        rw [Dict.get?_set, I.react]
        by_cases e : n = m
        · subst e; simp [hn]
        · simp [e, Ne.symm e]
      · intro e he
        exact I.force e fun a ha => he a (List.mem_append_left _ ha)
    | some m0 =>
      have hl : flEffectiveLength A (edgeData D n m0) ((L1.foldl (flProc A D nxt ind) s).pos n)
          (flRAt A D nxt ind L s n) = flLenAt A D nxt ind L s n m0 := by unfold flLenAt; rw [hst]
      have hp : flProc A D nxt ind (L1.foldl (flProc A D nxt ind) s) n =
          { L1.foldl (flProc A D nxt ind) s with
            xyz := (L1.foldl (flProc A D nxt ind) s).xyz.set m0 (A.vadd ((flStateAt A D nxt ind L s n).pos n)
              (A.vscale (flLenAt A D nxt ind L s n m0) (A.vnormalize (flRAt A D nxt ind L s n))))
            trailForces := (L1.foldl (flProc A D nxt ind) s).trailForces.set (edgeKey D n m0)
              (copysign (A.vlength (flRAt A D nxt ind L s n)) (flLenAt A D nxt ind L s n m0))
            trailDirs := (L1.foldl (flProc A D nxt ind) s).trailDirs.set (edgeKey D n m0)
              (A.vnormalize (flRAt A D nxt ind L s n))
            residual := (L1.foldl (flProc A D nxt ind) s).residual.set m0 (flRAt A D nxt ind L s n) } := by
        rw [fl_proc_some hn, hr, hl, hst]
      rw [hp]
      refine ⟨?_, ?_, ?_, ?_⟩
      · intro a ha m hm
        by_cases han : a = n
        · subst han
          rw [hn] at hm
          obtain rfl := Option.some.inj hm
          simp
        · have ha' : a ∈ L1 := by simpa [han] using ha
          have hmm : m0 ≠ m := by
            rintro rfl; exact han (S.inj a n m0 hm hn)
          have hee : edgeKey D n m0 ≠ edgeKey D a m := by
            intro e; exact han (edgeKey_inj (D := D) S hn hm e).1.symm
          simp only [Dict.get?_set, if_neg hmm, if_neg hee]
          exact I.moved a ha' m hm
      · intro m hm
        have hmm : m0 ≠ m := by rintro rfl; exact hm n (by simp) hn
        simp only [Dict.get?_set, if_neg hmm]
        exact I.kept m fun a ha => hm a (List.mem_append_left _ ha)
      · intro m
        rw [I.react]
        by_cases e : m = n
        · subst e; simp [hn]
        · simp [e]
      · intro e he
        have hee : edgeKey D n m0 ≠ e := he n (by simp) m0 hn
        simp only [Dict.get?_set, if_neg hee]
        exact I.force e fun a ha => he a (List.mem_append_left _ ha)

/-- The state after a flSweep A over the schedule `L`, in terms of the outgoing vectors
`r` and the positions `Q n` seen when node `n` was processed. -/
structure FlSweepSpec (A : Arith R) (D : Diagram R) (nxt : Int → Option Int) (rank : Int → Int) (ind : Bool)
    (L : List Int) (s s' : EqState R) (r : Int → Vec R) (Q : Int → Int → Vec R) : Prop where
  /-- positions of nodes that are not later are final -/
  seen : ∀ n ∈ L, ∀ m, rank m ≤ rank n → Q n m = s'.pos m
  /-- other positions are final or those before the flSweep A -/
  seen_any : ∀ n ∈ L, ∀ m, Q n m = s.pos m ∨ Q n m = s'.pos m
  out : ∀ n ∈ L, r n = flOut A D ind (Q n) (s'.res n) n
  next : ∀ n ∈ L, ∀ m, nxt n = some m →
    s'.pos m = A.vadd (s'.pos n) (A.vscale (flEffectiveLength A (edgeData D n m) (s'.pos n) (r n)) (A.vnormalize (r n))) ∧
    s'.res m = r n ∧
    s'.trailForces.get? (edgeKey D n m) =
      some (copysign (A.vlength (r n)) (flEffectiveLength A (edgeData D n m) (s'.pos n) (r n))) ∧
    s'.trailDirs.get? (edgeKey D n m) = some (A.vnormalize (r n))
  start : ∀ m, (∀ a ∈ L, nxt a ≠ some m) → s'.pos m = s.pos m ∧ s'.res m = s.res m
  react : ∀ n, s'.reactions.get? n =
    if n ∈ L ∧ nxt n = none then some (r n) else s.reactions.get? n
  force : ∀ e, (∀ a ∈ L, ∀ m, nxt a = some m → edgeKey D a m ≠ e) →
    s'.trailForces.get? e = s.trailForces.get? e ∧ s'.trailDirs.get? e = s.trailDirs.get? e

theorem fl_sweepSpec (S : Sched nxt rank L) (s : EqState R) :
    FlSweepSpec A D nxt rank ind L s (L.foldl (flProc A D nxt ind) s) (flRAt A D nxt ind L s)
      (fun n => (flStateAt A D nxt ind L s n).pos) := by
  have I := fl_prefixSpec (A := A) (D := D) (ind := ind) S s L [] (by simp)
  have hpre : ∀ n ∈ L, ∃ L1 L2, L = L1 ++ n :: L2 ∧
      flStateAt A D nxt ind L s n = L1.foldl (flProc A D nxt ind) s := by
    intro n hn
    obtain ⟨L1, L2, h⟩ := List.append_of_mem hn
    exact ⟨L1, L2, h, by unfold flStateAt; rw [takeWhile_of_split S.nodup h]⟩
  have hbefore : ∀ {n L1 L2}, L = L1 ++ n :: L2 → ∀ a ∈ L, rank a < rank n → a ∈ L1 := by
    intro n L1 L2 h a ha hlt
    have hs := S.sorted
    rw [h] at ha hs
    rcases List.mem_append.1 ha with h1 | h1
    · exact h1
    · exfalso
      have h2 := (List.pairwise_append.1 hs).2.1
      rcases List.mem_cons.1 h1 with rfl | h1
      · omega
      · have := (List.pairwise_cons.1 h2).1 a h1; omega
  have seen : ∀ n ∈ L, ∀ m, rank m ≤ rank n →
      (flStateAt A D nxt ind L s n).xyz.get? m = (L.foldl (flProc A D nxt ind) s).xyz.get? m ∧
      (flStateAt A D nxt ind L s n).residual.get? m = (L.foldl (flProc A D nxt ind) s).residual.get? m := by
    intro n hn m hr
    obtain ⟨L1, L2, h, hst⟩ := hpre n hn
    rw [hst]
    have J := fl_prefixSpec (A := A) (D := D) (ind := ind) S s L1 (n :: L2) h
    by_cases hex : ∃ a ∈ L, nxt a = some m
    · obtain ⟨a, ha, ham⟩ := hex
      have ha1 : a ∈ L1 := hbefore h a ha (by have := S.rank_succ a m ham; omega)
      have j := J.moved a ha1 m ham
      have i := I.moved a ha m ham
      exact ⟨by rw [j.1, i.1], by rw [j.2.1, i.2.1]⟩
    · push Not at hex
      have j := J.kept m fun a ha => hex a (by rw [h]; exact List.mem_append_left _ ha)
      have i := I.kept m hex
      exact ⟨by rw [j.1, i.1], by rw [j.2, i.2]⟩
  have seenP : ∀ n ∈ L, ∀ m, rank m ≤ rank n →
      (flStateAt A D nxt ind L s n).pos m = (L.foldl (flProc A D nxt ind) s).pos m := by
    intro n hn m hr; unfold EqState.pos; rw [(seen n hn m hr).1]
  have hlen : ∀ n ∈ L, ∀ m, flLenAt A D nxt ind L s n m = flEffectiveLength A (edgeData D n m)
      ((L.foldl (flProc A D nxt ind) s).pos n) (flRAt A D nxt ind L s n) := by
    intro n hn m; unfold flLenAt; rw [seenP n hn n le_rfl]
  refine ⟨seenP, ?_, ?_, ?_, ?_, I.react, I.force⟩
  · intro n hn m
    obtain ⟨L1, L2, h, hst⟩ := hpre n hn
    simp only [hst]
    have J := fl_prefixSpec (A := A) (D := D) (ind := ind) S s L1 (n :: L2) h
    by_cases hex : ∃ a ∈ L1, nxt a = some m
    · obtain ⟨a, ha, ham⟩ := hex
      right
      have haL : a ∈ L := by rw [h]; exact List.mem_append_left _ ha
      unfold EqState.pos
      rw [(J.moved a ha m ham).1, (I.moved a haL m ham).1]
    · push Not at hex
      left
      unfold EqState.pos
      rw [(J.kept m hex).1]
  · intro n hn
    unfold flRAt
    have : (flStateAt A D nxt ind L s n).res n = (L.foldl (flProc A D nxt ind) s).res n := by
      unfold EqState.res; rw [(seen n hn n le_rfl).2]
    rw [this]
  · intro n hn m hm
    obtain ⟨i1, i2, i3, i4⟩ := I.moved n hn m hm
    rw [hlen n hn m] at i1 i3
    rw [seenP n hn n le_rfl] at i1
    refine ⟨?_, ?_, i3, i4⟩
    · rw [EqState.pos, i1]; rfl
    · rw [EqState.res, i2]; rfl
  · intro m hm
    unfold EqState.pos EqState.res
    rw [(I.kept m hm).1, (I.kept m hm).2]
    exact ⟨rfl, rfl⟩

theorem fl_proc_keys (s : EqState R) (n : Int) (h : ∀ m, nxt n = some m → m ∈ s.xyz.keys ∧ m ∈ s.residual.keys) :
    (flProc A D nxt ind s n).xyz.keys = s.xyz.keys ∧ (flProc A D nxt ind s n).residual.keys = s.residual.keys := by
  unfold flProc
  cases hn : nxt n with
  | none => simp
  | some m =>
    simp only
    exact ⟨Dict.keys_set_of_mem _ (h m hn).1, Dict.keys_set_of_mem _ (h m hn).2⟩

theorem fl_fold_keys (l : List Int) (s : EqState R)
    (h : ∀ n ∈ l, ∀ m, nxt n = some m → m ∈ s.xyz.keys ∧ m ∈ s.residual.keys) :
    (l.foldl (flProc A D nxt ind) s).xyz.keys = s.xyz.keys ∧
    (l.foldl (flProc A D nxt ind) s).residual.keys = s.residual.keys := by
  induction l generalizing s with
  | nil => simp
  | cons n l ih =>
    rw [List.foldl_cons]
    obtain ⟨h1, h2⟩ := fl_proc_keys (A := A) (D := D) (ind := ind) s n (h n (by simp))
    obtain ⟨h3, h4⟩ := ih (flProc A D nxt ind s n) (by
      rw [h1, h2]; exact fun n hn => h n (by simp [hn]))
    exact ⟨h3.trans h1, h4.trans h2⟩

theorem fl_incoming_edgeKey {D : Diagram R} {xyz : Dict Int (Vec R)} {n m : Int}
    (hn : n ∈ xyz.keys) (hm : m ∈ xyz.keys) :
    flIncomingEdgeVector A n xyz (edgeKey D n m) =
      .ok (A.vnormalize (A.vsub ((xyz.get? m).getD 0) ((xyz.get? n).getD 0))) := by
  obtain ⟨a, ha⟩ := (Dict.exists_get?_iff _ _).2 hn
  obtain ⟨b, hb⟩ := (Dict.exists_get?_iff _ _).2 hm
  have ho : (if (edgeKey D n m).1 ≠ n then (edgeKey D n m).1 else (edgeKey D n m).2) = m := by
    rcases edgeKey_ends D n m with e | e
    · rw [e]; simp
    · rw [e]; simp only [ne_eq, ite_not]; split_ifs with h
      · exact h.symm
      · rfl
  unfold flIncomingEdgeVector
  simp only [ho, Dict.getE, ha, hb, Option.getD_some]

theorem fl_deviationLoop_eq {D : Diagram R} (w : WF D) {s : EqState R} {n : Int}
    (hk : s.xyz.keys = D.nodes.keys) (hn : n ∈ D.nodes.keys) (l : List Int)
    (hl : ∀ m ∈ l, m ∈ D.neighbors n) (acc : Vec R) :
    flDeviationResultantLoop A D n s.xyz (l.map (edgeKey D n)) acc =
      .ok (flDevSum A D s.pos n l acc) := by
  induction l generalizing acc with
  | nil => simp [flDeviationResultantLoop, flDevSum]
  | cons m l ih =>
    have hm := hl m (by simp)
    rw [List.map_cons, flDeviationResultantLoop,
      fl_incoming_edgeKey (by rw [hk]; exact hn) (by rw [hk]; exact (mem_keys_of_nbr w hm).1)]
    simp only [Dict.getE, edgeKey_mem hm]
    rw [ih fun x hx => hl x (by simp [hx])]
    simp only [flDevSum, List.foldl_cons, EqState.pos]

theorem fl_nodeEquilibrium_eq {D : Diagram R} (w : WF D)
    (hs : ∀ n ∈ D.nodes.keys, ∃ k, seqOf D n = some k) {s : EqState R} {n : Int} (ind : Bool)
    (hk : s.xyz.keys = D.nodes.keys) (hn : n ∈ D.nodes.keys) (t : Vec R) :
    flNodeEquilibrium A D n t s.xyz ind = .ok (flOut A D ind s.pos t n) := by
  obtain ⟨d, hd⟩ := (Dict.exists_get?_iff _ _).2 hn
  obtain ⟨h1, h2⟩ := connectedDirect_eq w hs n
  have hq : loadOf D n = d.load := by simp [loadOf, hd]
  unfold flNodeEquilibrium flDirectResultant flIndirectResultant
  simp only [Dict.getE, hd, h1, h2]
  rw [fl_deviationLoop_eq w hk hn (dirNbrs D n) (fun m hm => (List.mem_filter.1 hm).1),
    fl_deviationLoop_eq w hk hn (indNbrs D n) (fun m hm => (List.mem_filter.1 hm).1)]
  cases ind
  · simp only [Bool.false_eq_true, if_false, flOut, hq]
  · simp only [if_true, flOut, hq]

theorem fl_goodState_proc {D : Diagram R} (w : WF D) (V : ValidTrails D) {kmax : Option Int}
    {ind : Bool} {s : EqState R} (h : GoodState D s) (n : Int) :
    GoodState D (flProc A D (nxtK D kmax) ind s n) := by
  obtain ⟨h1, h2⟩ := fl_proc_keys (A := A) (D := D) (nxt := nxtK D kmax) (ind := ind) s n (by
    intro m hm; rw [h.1, h.2]; exact ⟨(nxtK_mem w V hm).1, (nxtK_mem w V hm).1⟩)
  exact ⟨h1.trans h.1, h2.trans h.2⟩

theorem fl_eqStep_eq {D : Diagram R} (w : WF D) (V : ValidTrails D) {T : Dict Int (Dict Int Int)}
    (hT : GoodSeqs D T) (kmax : Option Int) (ind : Bool) (k : Int) {s : EqState R}
    (hg : GoodState D s) {key : Int} (hkey : key ∈ D.trails.keys) :
    flStep A D T kmax ind k s key = .ok (match (T.get? key).bind (·.get? k) with
      | none => s
      | some n => flProc A D (nxtK D kmax) ind s n) := by
  obtain ⟨tr, ht⟩ := Dict.mem_keys_iff.1 hkey
  obtain ⟨m, hm, hspec⟩ := hT key tr ht
  have hs : ∀ n ∈ D.nodes.keys, ∃ k, seqOf D n = some k := fun n hn =>
    let ⟨k, h, _⟩ := allSequenced_of_valid V n hn; ⟨k, h⟩
  unfold flStep
  simp only [Dict.getE, hm, Option.bind_some]
  cases hn : m.get? k with
  | none => rfl
  | some n =>
    obtain ⟨hntr, hseq⟩ := (hspec k n).1 hn
    have hnk := V.mem_keys ht hntr
    obtain ⟨p, hp⟩ := (Dict.exists_get?_iff s.xyz n).2 (by rw [hg.1]; exact hnk)
    obtain ⟨r, hr⟩ := (Dict.exists_get?_iff s.residual n).2 (by rw [hg.2]; exact hnk)
    have hpos : s.pos n = p := by simp [EqState.pos, hp]
    have hres : s.res n = r := by simp [EqState.res, hr]
    simp only [hp, hr]
    rw [fl_nodeEquilibrium_eq w hs ind hg.1 hnk]
    have hsup : D.isNodeSupport n = .ok (decide (typeOf D n = some .support)) := by
      obtain ⟨d, hd⟩ := (Dict.exists_get?_iff _ _).2 hnk
      simp [isNodeSupport, typeOf, hd]
    simp only [hsup, decide_eq_true_eq]
    by_cases hstop : typeOf D n = some .support ∨ kmax = some k
    · have hx : nxtK D kmax n = none := by
        unfold nxtK
        rw [if_pos]
        rcases hstop with h | h
        · exact Or.inl h
        · exact Or.inr ⟨by simp [h], by rw [h, hseq]⟩
      rw [if_pos hstop, fl_proc_none hx, hres]
    · rw [if_neg hstop]
      push Not at hstop
      obtain ⟨n', hn'⟩ := trailNext_isSome w V hnk hstop.1
      have hx : nxtK D kmax n = some n' := by
        unfold nxtK
        rw [if_neg, hn']
        rintro (h | ⟨h1, h2⟩)
        · exact hstop.1 h
        · rw [hseq] at h2; exact hstop.2 h2
      obtain ⟨key', tr', ht', hc⟩ := (trailNext_iff w V).1 hn'
      have he := V.unique w ht ht' hntr hc.mem_left
      obtain ⟨rfl, rfl⟩ := Prod.mk.inj he
      obtain ⟨j, _, hj1, hj2⟩ := seqOf_next V ht hc
      rw [hseq] at hj1
      obtain rfl := Option.some.inj hj1
      have hnext : m.get? (k + 1) = some n' := (hspec _ _).2 ⟨hc.mem_right, hj2⟩
      have hadj := trailNext_adj w V hn'
      have hed := edgeKey_mem (adj_mem_neighbors hadj)
      unfold edgeKey at hed
      simp only [hnext, hed]
      rw [fl_proc_some hx, hres, hpos]
      rfl

theorem fl_goodState_fold {D : Diagram R} (w : WF D) (V : ValidTrails D) {kmax : Option Int}
    {ind : Bool} {s : EqState R} (h : GoodState D s) (l : List Int) :
    GoodState D (l.foldl (flProc A D (nxtK D kmax) ind) s) := by
  induction l generalizing s with
  | nil => exact h
  | cons n l ih => exact ih (fl_goodState_proc w V h n)

theorem fl_sweep_eq {D : Diagram R} (w : WF D) (V : ValidTrails D) {T : Dict Int (Dict Int Int)}
    (hT : GoodSeqs D T) (kmax : Option Int) (ind : Bool) (N : Int) {s : EqState R}
    (hg : GoodState D s) :
    flSweep A D T kmax ind N s = .ok ((sched D T N).foldl (flProc A D (nxtK D kmax) ind) s) := by
  have inner : ∀ (k : Int) (s : EqState R), GoodState D s →
      forE (flStep A D T kmax ind k) D.trails.keys s =
        .ok ((level D T k).foldl (flProc A D (nxtK D kmax) ind) s) := by
    intro k s hs
    have := (forE_ok (f := flStep A D T kmax ind k) (l := D.trails.keys)
      (g := fun s key => match (T.get? key).bind (·.get? k) with
        | none => s
        | some n => flProc A D (nxtK D kmax) ind s n) (Inv := GoodState D) hs
      (fun s key h hk => fl_eqStep_eq w V hT kmax ind k h hk)
      (by
        intro s key h _
        split
        · exact h
        · exact fl_goodState_proc w V h _)).1
    rw [this, level, List.foldl_filterMap]
    congr 2
    funext s key
    cases (T.get? key).bind (·.get? k) <;> rfl
  unfold flSweep
  have := (forE_ok (f := fun s k => forE (flStep A D T kmax ind k) D.trails.keys s) (l := pyRange N)
    (g := fun s k => (level D T k).foldl (flProc A D (nxtK D kmax) ind) s) (Inv := GoodState D) hg
    (fun s k h _ => inner k s h) (fun s k h _ => fl_goodState_fold w V h _)).1
  rw [this, sched, List.foldl_flatMap]

/-- The state after `m` sweeps. -/
def flSweepsN (A : Arith R) (D : Diagram R) (T : Dict Int (Dict Int Int)) (kmax : Option Int) (N : Int) :
    Nat → Except PyErr (EqState R)
  | 0 => .ok (initState D)
  | m + 1 =>
    match flSweepsN A D T kmax N m with
    | .error e => .error e
    | .ok s => flSweep A D T kmax (m ≠ 0) N s

theorem fl_sweepsN_succ {D : Diagram R} {T : Dict Int (Dict Int Int)} {kmax : Option Int} {N : Int}
    {m : Nat} {s : EqState R} (h : flSweepsN A D T kmax N m = .ok s) :
    flSweepsN A D T kmax N (m + 1) = flSweep A D T kmax (m ≠ 0) N s := by
  rw [flSweepsN, h]

/-- What the loop over `t` returns. -/
structure FlLoopSpec (A : Arith R) (D : Diagram R) (T : Dict Int (Dict Int Int)) (kmax : Option Int) (eta : R)
    (N : Int) (t tmax m : Nat) (s : EqState R) (info : Option (LoopInfo R)) : Prop where
  le : m ≤ tmax
  ge : t ≤ m
  state : flSweepsN A D T kmax N m = .ok s
  none_iff : t < m → info ≠ none
  first : t < m → m = 1 → info = some ⟨0, none⟩
  later : t < m → 2 ≤ m → ∃ p, flSweepsN A D T kmax N (m - 1) = .ok p ∧
    info = some ⟨m - 1, some (flResidualDistance A p.xyz s.xyz)⟩ ∧
    (flResidualDistance A p.xyz s.xyz < eta ∨ m = tmax)
  stop : t = m → m = tmax
  one : m = 1 → t < m → tmax = 1
  /-- no earlier iteration met the stopping criterion -/
  before : ∀ j p q, t < j → 2 ≤ j → j < m → flSweepsN A D T kmax N (j - 1) = .ok p →
    flSweepsN A D T kmax N j = .ok q → ¬ flResidualDistance A p.xyz q.xyz < eta

theorem fl_eqLoop_ok {D : Diagram R} {T : Dict Int (Dict Int Int)} {kmax : Option Int} {eta : R}
    {N : Int} (fuel t : Nat) (s : EqState R) (info : Option (LoopInfo R))
    (hs : flSweepsN A D T kmax N t = .ok s) {r : EqState R × Option (LoopInfo R)}
    (h : flLoop A D T kmax eta N fuel t s info = .ok r) :
    ∃ m, FlLoopSpec A D T kmax eta N t (t + fuel) m r.1 r.2 ∧ (m = t → r.2 = info) := by
  induction fuel generalizing t s info with
  | zero =>
    simp only [flLoop, Except.ok.injEq] at h
    subst h
    refine ⟨t, ⟨by simp, le_rfl, hs, by simp, by simp, by simp, by simp, by simp, ?_⟩, fun _ => rfl⟩
    intro j p q h1 _ h2; omega
  | succ fuel ih =>
    rw [flLoop] at h
    cases hsw : flSweep A D T kmax (t ≠ 0) N s with
    | error e => rw [hsw] at h; simp at h
    | ok s' =>
      rw [hsw] at h
      have hs' : flSweepsN A D T kmax N (t + 1) = .ok s' := by rw [fl_sweepsN_succ hs]; exact hsw
      have hlift : ∀ info', (∀ (_ : t + 1 = 1), info' = some ⟨0, none⟩) →
          (2 ≤ t + 1 → info' = some ⟨t, some (flResidualDistance A s.xyz s'.xyz)⟩ ∧
            ¬ flResidualDistance A s.xyz s'.xyz < eta) →
          flLoop A D T kmax eta N fuel (t + 1) s' info' = .ok r →
          ∃ m, FlLoopSpec A D T kmax eta N t (t + (fuel + 1)) m r.1 r.2 ∧ (m = t → r.2 = info) := by
        intro info' h1 h2 hr
        obtain ⟨m, L, hm⟩ := ih (t + 1) s' info' hs' hr
        have hge := L.ge
        refine ⟨m, ⟨by have := L.le; omega, by omega, L.state, ?_, ?_, ?_, by omega, ?_, ?_⟩,
          by omega⟩
        · intro _
          rcases Nat.lt_or_ge (t + 1) m with hlt | hle
          · exact L.none_iff hlt
          · have : m = t + 1 := by omega
            rw [hm this]
            rcases Nat.eq_zero_or_pos t with h0 | h0
            · rw [h1 (by omega)]; simp
            · rw [(h2 (by omega)).1]; simp
        · intro _ hm1
          rw [hm (by omega), h1 (by omega)]
        · intro _ hm2
          rcases Nat.lt_or_ge (t + 1) m with hlt | hle
          · obtain ⟨p, hp, hi, hd⟩ := L.later hlt hm2
            exact ⟨p, hp, hi, hd.imp id (by omega)⟩
          · have hmt : m = t + 1 := by omega
            subst hmt
            have hst := L.state
            rw [hs'] at hst
            obtain rfl := Except.ok.inj hst
            refine ⟨s, by simpa using hs, ?_, Or.inr ?_⟩
            · rw [hm rfl, (h2 hm2).1]; rfl
            · have := L.stop rfl; omega
        · intro hm1 _
          have := L.stop (by omega); omega
        · intro j p q hj1 hj2 hj3 hp hq
          rcases Nat.lt_or_ge (t + 1) j with hlt | hle
          · exact L.before j p q hlt hj2 hj3 hp hq
          · have hjt : j = t + 1 := by omega
            subst hjt
            rw [hs'] at hq
            obtain rfl := Except.ok.inj hq
            have hp' : flSweepsN A D T kmax N t = .ok p := by simpa using hp
            rw [hs] at hp'
            obtain rfl := Except.ok.inj hp'
            exact (h2 hj2).2
      simp only at h
      by_cases ht : t = 0
      · rw [if_pos ht] at h
        exact hlift _ (fun _ => rfl) (by omega) h
      · rw [if_neg ht] at h
        by_cases hd : flResidualDistance A s.xyz s'.xyz < eta
        · rw [if_pos hd] at h
          obtain rfl := Except.ok.inj h
          refine ⟨t + 1, ⟨by omega, by omega, hs', by simp, by intro _ h; omega, ?_, by omega, by omega,
            by intro j p q h1 _ h2; omega⟩, by omega⟩
          intro _ _
          exact ⟨s, by simpa using hs, by simp, Or.inl hd⟩
        · rw [if_neg hd] at h
          exact hlift _ (by omega) (fun _ => ⟨rfl, hd⟩) h

theorem fl_eqLoop_error {D : Diagram R} {T : Dict Int (Dict Int Int)} {kmax : Option Int} {eta : R}
    {N : Int} (fuel t : Nat) (s : EqState R) (info : Option (LoopInfo R))
    (hs : flSweepsN A D T kmax N t = .ok s) {e : PyErr}
    (h : flLoop A D T kmax eta N fuel t s info = .error e) :
    ∃ m, flSweepsN A D T kmax N m = .error e := by
  induction fuel generalizing t s info with
  | zero => simp [flLoop] at h
  | succ fuel ih =>
    rw [flLoop] at h
    cases hsw : flSweep A D T kmax (t ≠ 0) N s with
    | error e' =>
      rw [hsw] at h
      obtain rfl := Except.error.inj h
      exact ⟨t + 1, by rw [fl_sweepsN_succ hs]; exact hsw⟩
    | ok s' =>
      rw [hsw] at h
      have hs' : flSweepsN A D T kmax N (t + 1) = .ok s' := by rw [fl_sweepsN_succ hs]; exact hsw
      simp only at h
      split_ifs at h
      · exact ih _ _ _ hs' h
      · exact ih _ _ _ hs' h

/-- The iterates for a schedule. -/
def flIter (A : Arith R) (D : Diagram R) (kmax : Option Int) (L : List Int) : Nat → EqState R
  | 0 => initState D
  | m + 1 => L.foldl (flProc A D (nxtK D kmax) (m ≠ 0)) (flIter A D kmax L m)

theorem fl_goodState_iter {D : Diagram R} (w : WF D) (V : ValidTrails D) (kmax : Option Int)
    (L : List Int) (m : Nat) : GoodState D (flIter A D kmax L m) := by
  induction m with
  | zero => exact goodState_init D
  | succ m ih => exact fl_goodState_fold w V ih L

theorem fl_sweepsN_eq {D : Diagram R} (w : WF D) (V : ValidTrails D) {T : Dict Int (Dict Int Int)}
    (hT : GoodSeqs D T) (kmax : Option Int) (N : Int) (m : Nat) :
    flSweepsN A D T kmax N m = .ok (flIter A D kmax (sched D T N) m) := by
  induction m with
  | zero => rfl
  | succ m ih =>
    rw [fl_sweepsN_succ ih, fl_sweep_eq w V hT kmax _ N (fl_goodState_iter w V kmax _ m)]
    rfl

/-- The result of `equilibrium_state` on a valid diagram in terms of the iterates. -/
theorem fl_equilibriumState_sched {D : Diagram R} (I : ValidInput D) {kmax : Option Int}
    (hk : ∀ k, kmax = some k → 0 ≤ k) {T : Dict Int (Dict Int Int)} {N : Int}
    (hT : D.trailsSequences = .ok T) (hN : D.numberOfSequences = .ok N) (hg : GoodSeqs D T)
    (tmax : Nat) (eta : R) (verbose : Bool) :
      (tmax = 0 → flEquilibriumState A D kmax tmax eta verbose = .error .unboundLocal) ∧
      (tmax = 1 → flEquilibriumState A D kmax tmax eta verbose =
        if verbose then .error .unboundLocal else .ok (flIter A D kmax (sched D T N) 1)) ∧
      (2 ≤ tmax → ∃ m, 2 ≤ m ∧ m ≤ tmax ∧
        (∀ j, 2 ≤ j → j < m →
          ¬ flResidualDistance A (flIter A D kmax (sched D T N) (j - 1)).xyz (flIter A D kmax (sched D T N) j).xyz < eta) ∧
        (flResidualDistance A (flIter A D kmax (sched D T N) (m - 1)).xyz (flIter A D kmax (sched D T N) m).xyz < eta ∨ m = tmax) ∧
        flEquilibriumState A D kmax tmax eta verbose =
          if flResidualDistance A (flIter A D kmax (sched D T N) (m - 1)).xyz (flIter A D kmax (sched D T N) m).xyz > eta
          then .error .valueError else .ok (flIter A D kmax (sched D T N) m)) := by
  have hnum : D.numberOfTrails ≠ 0 := by
    unfold numberOfTrails
    have := I.nonempty
    simpa [Dict.vals] using this
  have hk' : ¬ (kmax.any (· < 0) = true) := by
    cases kmax with
    | none => simp
    | some k => simpa using hk k rfl
  have hunf : flEquilibriumState A D kmax tmax eta verbose =
      match flLoop A D T kmax eta N tmax 0 (initState D) none with
      | .error err => .error err
      | .ok r => eqFinish eta verbose r := by
    unfold flEquilibriumState
    rw [if_neg hnum, hT, hN]
    simp only
    rw [if_neg hk']
    try rfl
  cases hloop : flLoop A D T kmax eta N tmax 0 (initState D) none with
  | error e =>
    obtain ⟨m, hm⟩ := fl_eqLoop_error tmax 0 _ _ rfl hloop
    rw [fl_sweepsN_eq I.wf I.trails hg] at hm
    simp at hm
  | ok r =>
    rw [hloop] at hunf
    simp only at hunf
    obtain ⟨s, info⟩ := r
    obtain ⟨m, S, hm⟩ := fl_eqLoop_ok tmax 0 _ _ rfl hloop
    have hst := S.state
    rw [fl_sweepsN_eq I.wf I.trails hg] at hst
    have hst := Except.ok.inj hst
    simp only at hst
    subst hst
    have hle := S.le
    refine ⟨?_, ?_, ?_⟩
    · intro h0
      have : m = 0 := by omega
      have := hm this
      simp only at this
      subst this
      rw [hunf]; rfl
    · intro h1
      have hm1 : m = 1 := by
        rcases Nat.eq_zero_or_pos m with h | h
        · have := S.stop h.symm; omega
        · omega
      have := S.first (by omega) hm1
      simp only at this
      subst this hm1
      rw [hunf]
      cases verbose <;> simp [eqFinish]
    · intro h2
      have hm2 : 2 ≤ m := by
        rcases Nat.lt_or_ge 0 m with h | h
        · by_contra hc
          have := S.one (by omega) h
          omega
        · have := S.stop (by omega); omega
      obtain ⟨p, hp, hinfo, hd⟩ := S.later (by omega) hm2
      rw [fl_sweepsN_eq I.wf I.trails hg] at hp
      have hp := Except.ok.inj hp
      subst hp
      refine ⟨m, hm2, by omega, ?_, hd.imp id (by omega), ?_⟩
      · intro j hj1 hj2
        exact S.before j _ _ (by omega) hj1 hj2 (fl_sweepsN_eq I.wf I.trails hg _ _ _)
          (fl_sweepsN_eq I.wf I.trails hg _ _ _)
      · rw [hunf]
        simp only at hinfo
        rw [hinfo]
        have : m - 1 > 0 := by omega
        simp only [eqFinish, if_pos this]

/-- The same for some schedule. -/
theorem fl_equilibriumState_cases {D : Diagram R} (I : ValidInput D) {kmax : Option Int}
    (hk : ∀ k, kmax = some k → 0 ≤ k) (tmax : Nat) (eta : R) (verbose : Bool) :
    ∃ L, GoodSched D kmax L ∧
      (tmax = 0 → flEquilibriumState A D kmax tmax eta verbose = .error .unboundLocal) ∧
      (tmax = 1 → flEquilibriumState A D kmax tmax eta verbose =
        if verbose then .error .unboundLocal else .ok (flIter A D kmax L 1)) ∧
      (2 ≤ tmax → ∃ m, 2 ≤ m ∧ m ≤ tmax ∧
        (∀ j, 2 ≤ j → j < m →
          ¬ flResidualDistance A (flIter A D kmax L (j - 1)).xyz (flIter A D kmax L j).xyz < eta) ∧
        (flResidualDistance A (flIter A D kmax L (m - 1)).xyz (flIter A D kmax L m).xyz < eta ∨ m = tmax) ∧
        flEquilibriumState A D kmax tmax eta verbose =
          if flResidualDistance A (flIter A D kmax L (m - 1)).xyz (flIter A D kmax L m).xyz > eta
          then .error .valueError else .ok (flIter A D kmax L m)) := by
  obtain ⟨T, N, hT, hN, hg, hlt⟩ := goodSeqs_of_valid I.wf I.trails I.nonempty
  exact ⟨sched D T N, goodSched I.wf I.trails hg kmax hlt,
    fl_equilibriumState_sched I hk hT hN hg tmax eta verbose⟩

/-- What is known about the last iterate. -/
structure FlFinalSpec (A : Arith R) (D : Diagram R) (kmax : Option Int) (ind : Bool) (p s : EqState R)
    (r : Int → Vec R) (Q : Int → Int → Vec R) : Prop where
  keys : GoodState D s
  /-- positions of nodes that are not later are final -/
  seen : ∀ n ∈ D.nodes.keys, ∀ m, rankOf D m ≤ rankOf D n → Q n m = s.pos m
  seen_any : ∀ n ∈ D.nodes.keys, ∀ m, Q n m = p.pos m ∨ Q n m = s.pos m
  out : ∀ n ∈ D.nodes.keys, r n = flOut A D ind (Q n) (s.res n) n
  next : ∀ n ∈ D.nodes.keys, ∀ m, nxtK D kmax n = some m →
    s.pos m = A.vadd (s.pos n) (A.vscale (flEffectiveLength A (edgeData D n m) (s.pos n) (r n)) (A.vnormalize (r n))) ∧
    s.res m = r n ∧
    s.trailForces.get? (edgeKey D n m) =
      some (copysign (A.vlength (r n)) (flEffectiveLength A (edgeData D n m) (s.pos n) (r n))) ∧
    s.trailDirs.get? (edgeKey D n m) = some (A.vnormalize (r n))
  start : ∀ m, (∀ a ∈ D.nodes.keys, nxtK D kmax a ≠ some m) →
    s.pos m = (initState D).pos m ∧ s.res m = (initState D).res m
  react : ∀ n, s.reactions.get? n =
    if n ∈ D.nodes.keys ∧ nxtK D kmax n = none then some (r n) else none
  force : ∀ e, (∀ a ∈ D.nodes.keys, ∀ m, nxtK D kmax a = some m → edgeKey D a m ≠ e) →
    s.trailForces.get? e = none
  reactNodup : s.reactions.keys.Nodup
  forceNodup : s.trailForces.keys.Nodup

theorem fl_iter_start {D : Diagram R} {kmax : Option Int} {L : List Int} (G : GoodSched D kmax L)
    (m : Nat) : (∀ a, (∀ n ∈ D.nodes.keys, nxtK D kmax n ≠ some a) →
      (flIter A D kmax L m).pos a = (initState D).pos a ∧
      (flIter A D kmax L m).res a = (initState D).res a) ∧
    (∀ n, ¬ (n ∈ D.nodes.keys ∧ nxtK D kmax n = none) →
      (flIter A D kmax L m).reactions.get? n = none) ∧
    (∀ e, (∀ a ∈ D.nodes.keys, ∀ b, nxtK D kmax a = some b → edgeKey D a b ≠ e) →
      (flIter A D kmax L m).trailForces.get? e = none) := by
  induction m with
  | zero => exact ⟨fun _ _ => ⟨rfl, rfl⟩, fun _ _ => rfl, fun _ _ => rfl⟩
  | succ m ih =>
    have S := fl_sweepSpec (A := A) (D := D) (ind := decide (m ≠ 0)) G.sched (flIter A D kmax L m)
    refine ⟨?_, ?_, ?_⟩
    · intro a ha
      have h1 := S.start a fun n hn => ha n ((G.mem n).1 hn)
      have h2 := ih.1 a ha
      exact ⟨h1.1.trans h2.1, h1.2.trans h2.2⟩
    · intro n hn
      have h1 := S.react n
      rw [if_neg (by rw [G.mem]; exact hn), ih.2.1 n hn] at h1
      exact h1
    · intro e he
      exact (S.force e fun a ha => he a ((G.mem a).1 ha)).1.trans (ih.2.2 e he)

theorem fl_proc_nodup {D : Diagram R} {nxt : Int → Option Int} {ind : Bool} {s : EqState R} (n : Int)
    (h1 : s.reactions.keys.Nodup) (h2 : s.trailForces.keys.Nodup) :
    (flProc A D nxt ind s n).reactions.keys.Nodup ∧ (flProc A D nxt ind s n).trailForces.keys.Nodup := by
  cases hn : nxt n with
  | none => rw [fl_proc_none hn]; exact ⟨Dict.nodup_keys_set h1, h2⟩
  | some m => rw [fl_proc_some hn]; exact ⟨h1, Dict.nodup_keys_set h2⟩

theorem fl_fold_nodup {D : Diagram R} {nxt : Int → Option Int} {ind : Bool} (l : List Int)
    {s : EqState R} (h1 : s.reactions.keys.Nodup) (h2 : s.trailForces.keys.Nodup) :
    (l.foldl (flProc A D nxt ind) s).reactions.keys.Nodup ∧
    (l.foldl (flProc A D nxt ind) s).trailForces.keys.Nodup := by
  induction l generalizing s with
  | nil => exact ⟨h1, h2⟩
  | cons n l ih =>
    obtain ⟨h3, h4⟩ := fl_proc_nodup (A := A) (D := D) (nxt := nxt) (ind := ind) n h1 h2
    exact ih h3 h4

theorem fl_iter_nodup {D : Diagram R} {kmax : Option Int} {L : List Int} (m : Nat) :
    (flIter A D kmax L m).reactions.keys.Nodup ∧ (flIter A D kmax L m).trailForces.keys.Nodup := by
  induction m with
  | zero => exact ⟨List.nodup_nil, List.nodup_nil⟩
  | succ m ih => exact fl_fold_nodup L ih.1 ih.2

theorem fl_finalSpec_sched {D : Diagram R} (w : WF D) (V : ValidTrails D) {kmax : Option Int}
    {L : List Int} (G : GoodSched D kmax L) (m : Nat) :
    FlFinalSpec A D kmax (m ≠ 0) (flIter A D kmax L m) (flIter A D kmax L (m + 1))
      (flRAt A D (nxtK D kmax) (decide (m ≠ 0)) L (flIter A D kmax L m))
      (fun n => (flStateAt A D (nxtK D kmax) (decide (m ≠ 0)) L (flIter A D kmax L m) n).pos) := by
  have S := fl_sweepSpec (A := A) (D := D) (ind := decide (m ≠ 0)) G.sched (flIter A D kmax L m)
  have I := fl_iter_start (A := A) G (m + 1)
  refine ⟨fl_goodState_iter w V kmax L _, ?_, ?_, ?_, ?_, ?_, ?_, ?_, (fl_iter_nodup _).1,
    (fl_iter_nodup _).2⟩
  · exact fun n hn => S.seen n ((G.mem n).2 hn)
  · exact fun n hn => S.seen_any n ((G.mem n).2 hn)
  · exact fun n hn => S.out n ((G.mem n).2 hn)
  · exact fun n hn => S.next n ((G.mem n).2 hn)
  · exact fun a ha => I.1 a ha
  · intro n
    by_cases h : n ∈ D.nodes.keys ∧ nxtK D kmax n = none
    · rw [if_pos h]
      have := S.react n
      rw [if_pos (by rw [G.mem]; exact h)] at this
      exact this
    · rw [if_neg h]; exact I.2.1 n h
  · exact fun e he => I.2.2 e he

theorem fl_finalSpec {D : Diagram R} (w : WF D) (V : ValidTrails D) {kmax : Option Int} {L : List Int}
    (G : GoodSched D kmax L) (m : Nat) :
    ∃ r Q, FlFinalSpec A D kmax (m ≠ 0) (flIter A D kmax L m) (flIter A D kmax L (m + 1)) r Q :=
  ⟨_, _, fl_finalSpec_sched w V G m⟩

end CEM
