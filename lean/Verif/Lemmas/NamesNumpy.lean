import Verif.Lemmas.Names
import Verif.Lemmas.Numpy

/-!
# The numpy solver on a diagram with other names of nodes
-/

set_option linter.unusedSectionVars false
set_option linter.unusedSimpArgs false

namespace CEM
open Diagram Spec

variable {R : Type} [Field R] [LinearOrder R] [PySqrt R]

namespace Names

variable {f : Int → Int} {g : Int × Int → Int × Int} {D E : Diagram R}

theorem lift2_add_assoc {M : Type} [AddCommMonoid M] (a b c : Option M) :
    lift2 (· + ·) (lift2 (· + ·) a b) c = lift2 (· + ·) (lift2 (· + ·) a c) b := by
  cases a <;> cases b <;> cases c <;> simp [lift2, add_right_comm]

/-- A sum of numbers that may be NaN does not depend on the order. -/
theorem foldl_lift2_perm {ι M : Type} [AddCommMonoid M] (F : ι → Option M) {l l' : List ι}
    (h : l.Perm l') (a : Option M) :
    l.foldl (fun acc m => lift2 (· + ·) acc (F m)) a =
      l'.foldl (fun acc m => lift2 (· + ·) acc (F m)) a := by
  induction h generalizing a with
  | nil => rfl
  | cons x _ ih => exact ih _
  | swap x y l =>
    rw [List.foldl_cons, List.foldl_cons, List.foldl_cons, List.foldl_cons, lift2_add_assoc]
  | trans _ _ ih1 ih2 => exact (ih1 a).trans (ih2 a)

/-- The states of the two computations correspond. -/
structure SameNState (f : Int → Int) (g : Int × Int → Int × Int) (D : Diagram R)
    (s t : NState R) : Prop where
  xyz : Carried f D.nodes.keys s.xyz t.xyz
  residual : Carried f D.nodes.keys s.residual t.residual
  trailForces : Carried g D.edges.keys s.trailForces t.trailForces
  reactions : Carried f D.nodes.keys s.reactions t.reactions

theorem SameNState.pos {s t : NState R} (h : SameNState f g D s t) {n : Int}
    (hn : n ∈ D.nodes.keys) : t.pos (f n) = s.pos n := by
  unfold NState.pos; rw [h.xyz n hn]

theorem SameNState.res {s t : NState R} (h : SameNState f g D s t) {n : Int}
    (hn : n ∈ D.nodes.keys) : t.res (f n) = s.res n := by
  unfold NState.res; rw [h.residual n hn]

theorem devSumN_eq (w : WF D) (s : SimpleGraph D) (h : SameUpToNames f g D E)
    {P P' : Int → NVec R} (hP : ∀ n ∈ D.nodes.keys, P' (f n) = P n) {n : Int}
    (hn : n ∈ D.nodes.keys) {l l' : List Int} (hl : l'.Perm (l.map f))
    (hm : ∀ m ∈ l, m ∈ D.neighbors n) (a : NVec R) :
    devSumN E P' (f n) l' a = devSumN D P n l a := by
  unfold devSumN
  rw [foldl_lift2_perm (devTermN E P' (f n)) hl a, List.foldl_map]
  refine List.foldl_ext _ _ _ fun acc m hml => ?_
  have := hm m hml
  rw [devTermN, devTermN, edgeData_eq w s h this, hP m (mem_keys_of_nbr w this).1, hP n hn]

theorem outVecN_eq (w : WF D) (s : SimpleGraph D) (w' : WF E) (h : SameUpToNames f g D E)
    (ind : Bool) {P P' : Int → NVec R} (hP : ∀ n ∈ D.nodes.keys, P' (f n) = P n) (t : NVec R)
    {n : Int} (hn : n ∈ D.nodes.keys) : outVecN E ind P' t (f n) = outVecN D ind P t n := by
  unfold outVecN
  rw [devSumN_eq w s h hP hn (dirNbrs_perm w s w' h hn) fun m hm => (List.mem_filter.1 hm).1,
    devSumN_eq w s h hP hn (indNbrs_perm w s w' h hn) fun m hm => (List.mem_filter.1 hm).1]
  have : loadOf E (f n) = loadOf D n := by rw [loadOf, loadOf, get_node h hn]
  rw [this]

theorem SameNState.nproc (w : WF D) (sg : SimpleGraph D) (V : ValidTrails D) (w' : WF E)
    (h : SameUpToNames f g D E) {kmax : Option Int} {ind : Bool} {s t : NState R}
    (hst : SameNState f g D s t) {n : Int} (hn : n ∈ D.nodes.keys) :
    SameNState f g D (CEM.nproc D (nxtK D kmax) ind s n)
      (CEM.nproc E (nxtK E kmax) ind t (f n)) := by
  have hr : outVecN E ind t.pos (t.res (f n)) (f n) = outVecN D ind s.pos (s.res n) n := by
    rw [hst.res hn]
    exact outVecN_eq w sg w' h ind (fun m hm => hst.pos hm) _ hn
  have hx := nxtK_eq V h kmax hn
  cases hm : nxtK D kmax n with
  | none =>
    rw [hm, Option.map_none] at hx
    simp only [CEM.nproc, hm, hx, hr]
    exact ⟨hst.xyz, hst.residual, hst.trailForces, hst.reactions.set h.inj hn _⟩
  | some m =>
    rw [hm, Option.map_some] at hx
    have hmk := (nxtK_mem w V hm).1
    have hnb : m ∈ D.neighbors n := adj_mem_neighbors (trailNext_adj w V (nxtK_trail hm))
    have hek : edgeKey D n m ∈ D.edges.keys := Dict.mem_keys_of_get? (edgeKey_mem hnb)
    simp only [CEM.nproc, hm, hx, hr, lenN]
    rw [hst.pos hn, edgeData_eq w sg h hnb, edgeKey_eq w sg h hnb]
    exact ⟨hst.xyz.set h.inj hmk _, hst.residual.set h.inj hmk _,
      hst.trailForces.set (fun a ha b hb => edge_inj w sg h ha hb) hek _, hst.reactions⟩

theorem SameNState.fold (w : WF D) (sg : SimpleGraph D) (V : ValidTrails D) (w' : WF E)
    (h : SameUpToNames f g D E) {kmax : Option Int} {ind : Bool} (l : List Int)
    (hl : ∀ n ∈ l, n ∈ D.nodes.keys) {s t : NState R} (hst : SameNState f g D s t) :
    SameNState f g D (l.foldl (CEM.nproc D (nxtK D kmax) ind) s)
      ((l.map f).foldl (CEM.nproc E (nxtK E kmax) ind) t) := by
  induction l generalizing s t with
  | nil => exact hst
  | cons n l ih =>
    rw [List.map_cons, List.foldl_cons, List.foldl_cons]
    exact ih (fun m hm => hl m (by simp [hm])) (hst.nproc w sg V w' h (hl n (by simp)))

theorem sameNState_init (h : SameUpToNames f g D E) :
    SameNState f g D (npInit D) (npInit E) := by
  refine ⟨?_, ?_, fun _ _ => rfl, fun _ _ => rfl⟩
  · intro n hn
    unfold npInit
    simp only
    rw [get?_map_val E.nodes (fun d => some d.pos), get?_map_val D.nodes (fun d => some d.pos),
      get_node h hn]
  · intro n hn
    unfold npInit
    simp only
    rw [get?_map_val E.nodes (fun d => some d.reaction),
      get?_map_val D.nodes (fun d => some d.reaction), get_node h hn]

theorem sameNState_iter (w : WF D) (sg : SimpleGraph D) (V : ValidTrails D) (w' : WF E)
    (h : SameUpToNames f g D E) {L : List Int}
    (hL : ∀ n ∈ L, n ∈ D.nodes.keys) (m : Nat) :
    SameNState f g D (nIter D L m) (nIter E (L.map f) m) := by
  induction m with
  | zero => exact sameNState_init h
  | succ m ih => exact ih.fold w sg V w' h L hL

theorem npDistance_names (w : WF D) (w' : WF E) (h : SameUpToNames f g D E)
    {a b a' b' : NState R} (ha : SameNState f g D a a') (hb : SameNState f g D b b')
    (gb : b.xyz.keys = D.nodes.keys) (gb' : b'.xyz.keys = E.nodes.keys) :
    npDistance a'.xyz b'.xyz = npDistance a.xyz b.xyz := by
  have key : ∀ (c d : Dict Int (NVec R)), d.keys.Nodup →
      npDistance c d = (d.keys.foldl (fun acc k => lift2 (· + ·) acc
        ((lift2 (· - ·) ((c.get? k).getD none) ((d.get? k).getD none)).map fun v => Vec.dot v v))
          (some 0)).map PySqrt.sqrt := by
    intro c d hd
    unfold npDistance Dict.keys
    rw [List.foldl_map]
    congr 1
    refine List.foldl_ext _ _ _ fun acc p hp => ?_
    rw [Dict.get?_of_mem hd (k := p.1) (v := p.2) hp]
    rfl
  rw [key _ _ (by rw [gb']; exact w'.nodesNodup), key _ _ (by rw [gb]; exact w.nodesNodup), gb, gb',
    ← foldl_lift2_perm _ (nodes_perm w w' h), List.foldl_map]
  congr 1
  refine List.foldl_ext _ _ _ fun acc n hn => ?_
  rw [ha.xyz n hn, hb.xyz n hn]

theorem length_swap (a b : Vec R) : Vec.length (a - b) = Vec.length (b - a) := by
  have := dist_swap a b
  unfold Vec.dist at this
  unfold Vec.length at this ⊢
  exact this

theorem numNodes_get? (F : Diagram R) (s : NState R) (hx : s.xyz.keys = F.nodes.keys)
    (hn : F.nodes.keys.Nodup) (hr : s.reactions.keys.Nodup) (n : Int) :
    (npFormUpdate F.num s).nodes.get? n = (F.nodes.get? n).map fun d =>
      { d.num with pos := (s.pos n).coords
                   reaction := ((s.reactions.get? n).map NVec.coords).getD d.num.reaction } := by
  unfold npFormUpdate
  dsimp only
  rw [get?_foldl_modify (fun (w : NVec R) (d : NodeData (Num R)) => { d with reaction := w.coords }) _ hr,
    get?_foldl_modify (fun (w : NVec R) (d : NodeData (Num R)) => { d with pos := w.coords }) _
      (by rw [hx]; exact hn)]
  have hF' : F.num.nodes.get? n = (F.nodes.get? n).map NodeData.num := get?_map_val _ _ _
  rw [hF']
  cases hF : F.nodes.get? n with
  | none =>
    cases s.xyz.get? n <;> cases s.reactions.get? n <;> rfl
  | some d =>
    obtain ⟨p, hp⟩ := (Dict.exists_get?_iff s.xyz n).2 (by rw [hx]; exact Dict.mem_keys_of_get? hF)
    have : s.pos n = p := by simp [NState.pos, hp]
    rw [hp, this]
    cases s.reactions.get? n <;> rfl

theorem numEdges_get? (F : Diagram R) (s : NState R) (hf : s.trailForces.keys.Nodup)
    (e : Int × Int) :
    (npFormUpdate F.num s).edges.get? e = (F.edges.get? e).map fun d =>
      npSignedLength s.xyz e { d.num with force := (s.trailForces.get? e).getD d.num.force } := by
  show Dict.get? (List.map _ _) e = _
  rw [get?_map_key _ (fun e d => npSignedLength s.xyz e d)]
  rw [get?_foldl_modify (fun (w : Num R) (d : EdgeData (Num R)) => { d with force := w }) _ hf]
  have hF' : F.num.edges.get? e = (F.edges.get? e).map EdgeData.num := get?_map_val _ _ _
  rw [hF']
  cases F.edges.get? e <;> cases s.trailForces.get? e <;> rfl

theorem numNodes_keys (F : Diagram R) (s : NState R) :
    (npFormUpdate F.num s).nodes.keys = F.nodes.keys := by
  unfold npFormUpdate
  dsimp only
  rw [keys_foldl_modify (fun (w : NVec R) (d : NodeData (Num R)) => { d with reaction := w.coords }),
    keys_foldl_modify (fun (w : NVec R) (d : NodeData (Num R)) => { d with pos := w.coords })]
  exact keys_map_val _ _

theorem numEdges_keys (F : Diagram R) (s : NState R) :
    (npFormUpdate F.num s).edges.keys = F.edges.keys := by
  unfold npFormUpdate
  dsimp only
  rw [keys_map_key _ (fun e d => npSignedLength _ e d),
    keys_foldl_modify (fun (w : Num R) (d : EdgeData (Num R)) => { d with force := w })]
  exact keys_map_val _ _

theorem nproc_nodup {nxt : Int → Option Int} {ind : Bool} {s : NState R} (n : Int)
    (h : s.reactions.keys.Nodup ∧ s.trailForces.keys.Nodup) :
    (CEM.nproc D nxt ind s n).reactions.keys.Nodup ∧
      (CEM.nproc D nxt ind s n).trailForces.keys.Nodup := by
  cases hn : nxt n with
  | none => simp only [CEM.nproc, hn]; exact ⟨Dict.nodup_keys_set h.1, h.2⟩
  | some m => simp only [CEM.nproc, hn]; exact ⟨h.1, Dict.nodup_keys_set h.2⟩

theorem nIter_nodup (L : List Int) (m : Nat) :
    (nIter D L m).reactions.keys.Nodup ∧ (nIter D L m).trailForces.keys.Nodup := by
  induction m with
  | zero => exact ⟨List.nodup_nil, List.nodup_nil⟩
  | succ m ih =>
    rw [nIter]
    generalize nIter D L m = s at ih
    induction L generalizing s with
    | nil => exact ih
    | cons n l ih' => exact ih' _ (nproc_nodup n ih)

theorem npForm_names (w : WF D) (w' : WF E) (h : SameUpToNames f g D E)
    {s t : NState R} (hst : SameNState f g D s t) (gs : s.xyz.keys = D.nodes.keys)
    (gt : t.xyz.keys = E.nodes.keys) (ns : s.reactions.keys.Nodup ∧ s.trailForces.keys.Nodup)
    (nt : t.reactions.keys.Nodup ∧ t.trailForces.keys.Nodup) :
    SameUpToNames f g (npFormUpdate (formFromTopology D).num s)
      (npFormUpdate (formFromTopology E).num t) := by
  have kn : (npFormUpdate (formFromTopology D).num s).nodes.keys = D.nodes.keys := numNodes_keys _ _
  have kn' : (npFormUpdate (formFromTopology E).num t).nodes.keys = E.nodes.keys := numNodes_keys _ _
  have ke : (npFormUpdate (formFromTopology D).num s).edges.keys = D.edges.keys := numEdges_keys _ _
  have ke' : (npFormUpdate (formFromTopology E).num t).edges.keys = E.edges.keys := numEdges_keys _ _
  refine ⟨?_, ?_, ?_, ?_, ?_, ?_, ?_⟩
  · rw [kn]; exact h.inj
  · intro n d hd
    have hn := Dict.mem_keys_of_get? hd
    rw [kn] at hn
    rw [numNodes_get? (formFromTopology E) _ gt w'.nodesNodup nt.1]
    rw [numNodes_get? (formFromTopology D) _ gs w.nodesNodup ns.1] at hd
    have : (formFromTopology E).nodes.get? (f n) = (formFromTopology D).nodes.get? n := get_node h hn
    rw [this, hst.pos hn, hst.reactions n hn, hd]
  · rw [kn, kn']; exact h.nodes
  · rw [ke]; exact h.ends
  · intro e d hd
    have he := Dict.mem_keys_of_get? hd
    rw [ke] at he
    rw [numEdges_get? _ _ nt.2]
    rw [numEdges_get? _ _ ns.2] at hd
    have : (formFromTopology E).edges.get? (g e) = (formFromTopology D).edges.get? e := get_edge h he
    rw [this, hst.trailForces e he, ← hd]
    cases (formFromTopology D).edges.get? e with
    | none => rfl
    | some d' =>
      simp only [Option.map_some, Option.some.injEq]
      have h1 := hst.xyz e.1 (w.edge_left _ he)
      have h2 := hst.xyz e.2 (w.edge_right _ he)
      unfold npSignedLength
      rcases h.ends e he with hg | hg <;> rw [hg] <;> simp only <;> rw [h1, h2]
      cases s.xyz.get? e.1 with
      | none => cases s.xyz.get? e.2 <;> rfl
      | some a =>
        cases s.xyz.get? e.2 with
        | none => rfl
        | some b =>
          simp only
          have : (lift2 (· - ·) b a : NVec R).map Vec.length = (lift2 (· - ·) a b : NVec R).map Vec.length := by
            cases a <;> cases b <;> first | rfl | exact congrArg some (length_swap _ _)
          rw [this]
  · rw [ke, ke']; exact h.edges
  · rfl

/-- The final states of the numpy solver correspond. -/
theorem npState_names (I : ValidInput D) (w' : WF E) (h : SameUpToNames f g D E) (tmax : Nat)
    (eta : R) (verbose : Bool) :
    SameOutcome (fun s t => SameNState f g D s t ∧ s.xyz.keys = D.nodes.keys ∧
        t.xyz.keys = E.nodes.keys ∧ (s.reactions.keys.Nodup ∧ s.trailForces.keys.Nodup) ∧
        t.reactions.keys.Nodup ∧ t.trailForces.keys.Nodup)
      (npEquilibriumState D tmax eta verbose) (npEquilibriumState E tmax eta verbose) := by
  have I' := input I w' h
  obtain ⟨T, N, hT, hN, hg, hlt⟩ := goodSeqs_of_valid I.wf I.trails I.nonempty
  obtain ⟨T', N', hT', hN', hg', hlt'⟩ := goodSeqs_of_valid I'.wf I'.trails I'.nonempty
  have hs := sched_eq I.wf w' I.trails h hg hg' hlt hlt'
  have hL : ∀ n ∈ sched D T N, n ∈ D.nodes.keys := fun n hn => (mem_sched I.trails hg hlt).1 hn
  obtain ⟨a0, a1, a2⟩ := npEquilibriumState_cases I hT hN hg tmax eta verbose
  obtain ⟨b0, b1, b2⟩ := npEquilibriumState_cases I' hT' hN' hg' tmax eta verbose
  rw [hs] at b1 b2
  have hstate := fun m => sameNState_iter I.wf I.simple I.trails w' h hL m
  have hall : ∀ m, SameNState f g D (nIter D (sched D T N) m) (nIter E ((sched D T N).map f) m) ∧
      (nIter D (sched D T N) m).xyz.keys = D.nodes.keys ∧
      (nIter E ((sched D T N).map f) m).xyz.keys = E.nodes.keys ∧
      ((nIter D (sched D T N) m).reactions.keys.Nodup ∧
        (nIter D (sched D T N) m).trailForces.keys.Nodup) ∧
      (nIter E ((sched D T N).map f) m).reactions.keys.Nodup ∧
        (nIter E ((sched D T N).map f) m).trailForces.keys.Nodup := fun m =>
    ⟨hstate m, (goodNState_iter I.wf I.trails _ m).1, (goodNState_iter I'.wf I'.trails _ m).1,
      nIter_nodup _ m, nIter_nodup _ m⟩
  have hd : ∀ m, nDist E ((sched D T N).map f) m = nDist D (sched D T N) m := fun m =>
    npDistance_names I.wf w' h (hstate _) (hstate _) (hall m).2.1 (hall m).2.2.1
  rcases Nat.lt_or_ge tmax 2 with ht | ht
  · rcases Nat.lt_or_ge tmax 1 with ht' | ht'
    · rw [a0 (by omega), b0 (by omega)]; exact .error _
    · rw [a1 (by omega), b1 (by omega)]
      cases verbose
      · exact .ok (hall 1)
      · exact .error _
  · obtain ⟨m, m2, mt, mb, me, mr⟩ := a2 ht
    obtain ⟨m', m2', mt', mb', me', mr'⟩ := b2 ht
    simp only [hd] at mb' me' mr'
    have hmm : m = m' := by
      rcases Nat.lt_trichotomy m m' with hlt | he | hlt
      · rcases me with me | me
        · exact absurd me (mb' m m2 hlt)
        · omega
      · exact he
      · rcases me' with me' | me'
        · exact absurd me' (mb m' m2' hlt)
        · omega
    subst hmm
    rw [mr, mr']
    split_ifs
    · exact .error _
    · exact .ok (hall m)

end Names
end CEM
