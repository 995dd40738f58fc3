import Verif.Lemmas.EqLoop
import Verif.Lemmas.Statics

/-!
# The form diagram and the forces at its nodes
-/

set_option linter.unusedSectionVars false
set_option linter.unusedSimpArgs false

namespace CEM
open Diagram Spec

variable {R : Type} [Field R] [LinearOrder R] [PySqrt R]

/-! ## Updates of the form -/

theorem get?_foldl_modify {K V W : Type} [DecidableEq K] (f : W → V → V) (xs : Dict K W)
    (hn : xs.keys.Nodup) (d : Dict K V) (k : K) :
    (xs.foldl (fun ns p => ns.modify p.1 (f p.2)) d).get? k =
      match xs.get? k with
      | none => d.get? k
      | some w => (d.get? k).map (f w) := by
  induction xs generalizing d with
  | nil => rfl
  | cons p xs ih =>
    rw [Dict.keys_cons, List.nodup_cons] at hn
    rw [List.foldl_cons, ih hn.2]
    simp only [Dict.get?]
    by_cases h : p.1 = k
    · have : Dict.get? xs k = none := by
        rw [Dict.get?_eq_none_iff, ← h]; exact hn.1
      rw [this, if_pos h]
      simp [Dict.get?_modify, h]
    · rw [if_neg h]
      simp only [Dict.get?_modify, if_neg h]

theorem keys_foldl_modify {K V W : Type} [DecidableEq K] (f : W → V → V) (xs : Dict K W)
    (d : Dict K V) :
    (xs.foldl (fun ns p => ns.modify p.1 (f p.2)) d).keys = d.keys := by
  induction xs generalizing d with
  | nil => rfl
  | cons p xs ih => rw [List.foldl_cons, ih, Dict.keys_modify]

theorem keys_map_key {K V W : Type} [DecidableEq K] (d : Dict K V) (f : K → V → W) :
    Dict.keys (d.map fun p => (p.1, f p.1 p.2) : Dict K W) = d.keys := by
  unfold Dict.keys; rw [List.map_map]; rfl

theorem get?_map_key {K V W : Type} [DecidableEq K] (d : Dict K V) (f : K → V → W) (k : K) :
    Dict.get? (d.map fun p => (p.1, f p.1 p.2) : Dict K W) k = (d.get? k).map (f k) := by
  induction d with
  | nil => rfl
  | cons p d ih =>
    simp only [List.map_cons, Dict.get?]
    split_ifs with h
    · subst h; rfl
    · exact ih

theorem formNodes_keys (F : Diagram R) (s : EqState R) :
    (formUpdate F s).nodes.keys = F.nodes.keys := by
  unfold formUpdate updateReactions updateCoords
  dsimp only
  rw [keys_foldl_modify (fun w (d : NodeData R) => { d with reaction := w }),
    keys_foldl_modify (fun w (d : NodeData R) => { d with pos := w })]

theorem formEdges_keys (F : Diagram R) (s : EqState R) :
    (formUpdate F s).edges.keys = F.edges.keys := by
  unfold formUpdate updateForces
  dsimp only
  rw [keys_map_key _ (fun e d => signedLength _ e d),
    keys_foldl_modify (fun w (d : EdgeData R) => { d with force := w })]

/-- Node attributes of the form. -/
theorem formNodes_get? (F : Diagram R) (s : EqState R) (hx : s.xyz.keys = F.nodes.keys)
    (hn : F.nodes.keys.Nodup) (hr : s.reactions.keys.Nodup) (n : Int) :
    (formUpdate F s).nodes.get? n = (F.nodes.get? n).map fun d =>
      { d with pos := s.pos n, reaction := (s.reactions.get? n).getD d.reaction } := by
  unfold formUpdate updateReactions updateCoords
  dsimp only
  rw [get?_foldl_modify (fun w (d : NodeData R) => { d with reaction := w }) _ hr,
    get?_foldl_modify (fun w (d : NodeData R) => { d with pos := w }) _ (by rw [hx]; exact hn)]
  cases hF : F.nodes.get? n with
  | none =>
    cases s.xyz.get? n <;> cases s.reactions.get? n <;> rfl
  | some d =>
    obtain ⟨p, hp⟩ := (Dict.exists_get?_iff s.xyz n).2 (by rw [hx]; exact Dict.mem_keys_of_get? hF)
    have : s.pos n = p := by simp [EqState.pos, hp]
    rw [hp, this]
    cases s.reactions.get? n <;> rfl

/-- Edge attributes of the form. -/
theorem formEdges_get? (F : Diagram R) (s : EqState R) (hf : s.trailForces.keys.Nodup)
    (e : Int × Int) :
    (formUpdate F s).edges.get? e = (F.edges.get? e).map fun d =>
      signedLength (formUpdate F s).nodes e
        { d with force := (s.trailForces.get? e).getD d.force } := by
  show Dict.get? (List.map _ (updateForces F.edges s.trailForces)) e = _
  rw [get?_map_key _ (fun e d => signedLength (updateReactions (updateCoords F.nodes s.xyz) s.reactions) e d)]
  unfold updateForces
  rw [get?_foldl_modify (fun w (d : EdgeData R) => { d with force := w }) _ hf]
  cases F.edges.get? e <;> cases s.trailForces.get? e <;> rfl

theorem signedLength_force (nodes : Dict Int (NodeData R)) (e : Int × Int) (d : EdgeData R) :
    (signedLength nodes e d).force = d.force ∧ (signedLength nodes e d).type = d.type ∧
      (signedLength nodes e d).plane = d.plane := by
  unfold signedLength
  split <;> simp

theorem WF.formUpdate {F : Diagram R} (w : WF F) (s : EqState R) : WF (formUpdate F s) := by
  have h1 := formNodes_keys F s
  have h2 := formEdges_keys F s
  refine ⟨?_, ?_, w.3, ?_, w.5, ?_, ?_, ?_⟩
  · rw [h1]; exact w.1
  · rw [h2]; exact w.2
  · rw [h1]; exact w.4
  · rw [h1]; exact w.6
  · rw [h1, h2]; exact w.7
  · rw [h1, h2]; exact w.8

theorem WF.form {D : Diagram R} (w : WF D) : WF (formFromTopology D) :=
  ⟨w.1, w.2, w.3, w.4, w.5, w.6, w.7, w.8⟩

/-! ## Edges at a node -/

/-- The other ends of the edges at `n`, one per edge end. -/
def ends (es : List (Int × Int)) (n : Int) : List Int :=
  es.flatMap fun e => (if e.1 = n then [e.2] else []) ++ (if e.2 = n then [e.1] else [])

theorem mem_ends {es : List (Int × Int)} {n m : Int} :
    m ∈ ends es n ↔ (n, m) ∈ es ∨ (m, n) ∈ es := by
  unfold ends
  rw [List.mem_flatMap]
  constructor
  · rintro ⟨⟨a, b⟩, he, hm⟩
    rcases List.mem_append.1 hm with h | h
    · split_ifs at h with hc
      · simp only [List.mem_singleton] at h; simp only at hc; subst hc h; exact Or.inl he
      · simp at h
    · split_ifs at h with hc
      · simp only [List.mem_singleton] at h; simp only at hc; subst hc h; exact Or.inr he
      · simp at h
  · rintro (h | h)
    · exact ⟨_, h, by simp⟩
    · exact ⟨_, h, by simp⟩

theorem nodup_ends {D : Diagram R} (w : WF D) (g : SimpleGraph D) (n : Int) :
    (ends D.edges.keys n).Nodup := by
  unfold ends
  rw [List.nodup_flatMap]
  constructor
  · rintro ⟨a, b⟩ he
    by_cases h1 : a = n
    · by_cases h2 : b = n
      · subst h1 h2; exact absurd he (g.noLoop _)
      · simp [h1, h2]
    · simp only [if_neg h1, List.nil_append]
      split_ifs <;> simp
  · have hd := w.edgesNodup
    rw [List.Nodup, List.pairwise_iff_forall_sublist] at hd
    rw [List.pairwise_iff_forall_sublist]
    intro e f hs
    have hne := hd hs
    have he : e ∈ D.edges.keys := hs.subset (by simp)
    have hf : f ∈ D.edges.keys := hs.subset (by simp)
    rw [Function.onFun, List.disjoint_left]
    obtain ⟨a, b⟩ := e
    obtain ⟨c, d⟩ := f
    have mk : ∀ {a b m : Int}, m ∈ (if a = n then [b] else []) ++ (if b = n then [a] else []) →
        (a = n ∧ b = m) ∨ (b = n ∧ a = m) := by
      intro a b m h
      rcases List.mem_append.1 h with h | h
      · split_ifs at h with hc
        · exact Or.inl ⟨hc, (List.mem_singleton.1 h).symm⟩
        · simp at h
      · split_ifs at h with hc
        · exact Or.inr ⟨hc, (List.mem_singleton.1 h).symm⟩
        · simp at h
    intro m h1 h2
    rcases mk h1 with ⟨rfl, rfl⟩ | ⟨rfl, rfl⟩ <;> rcases mk h2 with ⟨h3, h4⟩ | ⟨h3, h4⟩
    · simp only at h3 h4; exact hne (by rw [h3, h4])
    · simp only at h3 h4; subst h3 h4; exact g.noAnti _ _ he hf
    · simp only at h3 h4; subst h3 h4; exact g.noAnti _ _ he hf
    · simp only at h3 h4; exact hne (by rw [h3, h4])

theorem neighbors_perm {D : Diagram R} (w : WF D) (g : SimpleGraph D) (n : Int) :
    (ends D.edges.keys n).Perm (D.neighbors n) := by
  rw [List.perm_ext_iff_of_nodup (nodup_ends w g n) (nodup_neighbors D n)]
  intro m
  rw [mem_ends, mem_neighbors]

theorem sum_ends {M : Type} [AddCommMonoid M] (es : List (Int × Int)) (n : Int) (g : Int → M) :
    ((ends es n).map g).sum =
      (es.map fun e => (if e.1 = n then g e.2 else 0) + (if e.2 = n then g e.1 else 0)).sum := by
  induction es with
  | nil => rfl
  | cons e es ih =>
    unfold ends at ih ⊢
    rw [List.flatMap_cons, List.map_append, List.sum_append, ih, List.map_cons, List.sum_cons]
    congr 1
    by_cases h1 : e.1 = n <;> by_cases h2 : e.2 = n <;> simp [h1, h2]

/-- The sum of `g` over the neighbours as a sum over all edges. -/
theorem sum_neighbors {M : Type} [AddCommMonoid M] {D : Diagram R} (w : WF D) (g : SimpleGraph D)
    (n : Int) (f : Int → M) : ((D.neighbors n).map f).sum =
      (D.edges.keys.map fun e => (if e.1 = n then f e.2 else 0) + (if e.2 = n then f e.1 else 0)).sum := by
  rw [← sum_ends, ((neighbors_perm w g n).map f).sum_eq]

theorem edgeKey_of_mem {D : Diagram R} (g : SimpleGraph D) {a b : Int}
    (h : (a, b) ∈ D.edges.keys) : edgeKey D a b = (a, b) ∧ edgeKey D b a = (a, b) := by
  unfold edgeKey
  rw [if_pos ((Dict.has_iff _ _).2 h), if_neg]
  · exact ⟨rfl, rfl⟩
  · rw [Dict.has_iff]; exact g.noAnti _ _ h

theorem list_sum_filter_split {α M : Type} [AddCommMonoid M] (l : List α) (p : α → Bool) (f : α → M) :
    (l.map f).sum = ((l.filter p).map f).sum + ((l.filter fun a => !p a).map f).sum := by
  induction l with
  | nil => simp
  | cons a l ih =>
    rw [List.map_cons, List.sum_cons, ih]
    by_cases h : p a
    · simp [List.filter_cons, h, add_assoc]
    · simp [List.filter_cons, h, add_left_comm]

/-- Neighbours of `n` through trail edges. -/
def trlNbrs (D : Diagram R) (n : Int) : List Int :=
  (D.neighbors n).filter fun m => (edgeData D n m).type = .trail

theorem sum_nbrs_split {M : Type} [AddCommMonoid M] {D : Diagram R}
    (ht : ∀ e d, D.edges.get? e = some d → d.type ≠ .untyped) (n : Int) (f : Int → M) :
    ((D.neighbors n).map f).sum = ((trlNbrs D n).map f).sum + ((dirNbrs D n).map f).sum +
      ((indNbrs D n).map f).sum := by
  rw [list_sum_filter_split (D.neighbors n) (fun m => (edgeData D n m).type = .trail) f, add_assoc]
  congr 1
  rw [list_sum_filter_split _ (fun m => seqOf D n = seqOf D m) f, List.filter_filter,
    List.filter_filter]
  have key : ∀ m ∈ D.neighbors n, (!decide ((edgeData D n m).type = .trail)) =
      decide ((edgeData D n m).type = .deviation) := by
    intro m hm
    have := ht _ _ (edgeKey_mem hm)
    cases h : (edgeData D n m).type <;> simp_all
  unfold dirNbrs indNbrs
  congr 3
  · apply List.filter_congr
    intro m hm
    rw [key m hm]
    by_cases h1 : (edgeData D n m).type = .deviation <;>
      by_cases h2 : seqOf D n = seqOf D m <;> simp [h1, h2]
  · apply List.filter_congr
    intro m hm
    rw [key m hm]
    by_cases h1 : (edgeData D n m).type = .deviation <;>
      by_cases h2 : seqOf D n = seqOf D m <;> simp [h1, h2]

theorem mem_trlNbrs {D : Diagram R} (g : SimpleGraph D) {n m : Int} :
    m ∈ trlNbrs D n ↔ TrailAdj D n m := by
  unfold trlNbrs
  rw [List.mem_filter]
  constructor
  · rintro ⟨h1, h2⟩
    have hd := edgeKey_mem h1
    simp only [decide_eq_true_eq] at h2
    rcases edgeKey_ends D n m with e | e
    · exact Or.inl ⟨_, by rw [← e]; exact hd, h2⟩
    · exact Or.inr ⟨_, by rw [← e]; exact hd, h2⟩
  · intro h
    refine ⟨adj_mem_neighbors h, ?_⟩
    rcases h with ⟨d, hd, ht⟩ | ⟨d, hd, ht⟩
    · have := (edgeKey_of_mem g (Dict.mem_keys_of_get? hd)).1
      simp [edgeData, this, hd, ht]
    · have := (edgeKey_of_mem g (Dict.mem_keys_of_get? hd)).2
      simp [edgeData, this, hd, ht]

/-- The trail neighbours are the previous and the next node of the trail. -/
theorem trlNbrs_iff {D : Diagram R} (w : WF D) (V : ValidTrails D) (g : SimpleGraph D) {n m : Int} :
    m ∈ trlNbrs D n ↔ trailNext D n = some m ∨ trailNext D m = some n := by
  rw [mem_trlNbrs g]
  constructor
  · intro h
    obtain ⟨key, tr, ht, hc⟩ := V.complete _ _ h
    exact hc.imp (fun hc => (trailNext_iff w V).2 ⟨key, tr, ht, hc⟩)
      (fun hc => (trailNext_iff w V).2 ⟨key, tr, ht, hc⟩)
  · rintro (h | h)
    · exact trailNext_adj w V h
    · exact (trailNext_adj w V h).symm

theorem trailNext_inj {D : Diagram R} (w : WF D) (V : ValidTrails D) {a b m : Int}
    (ha : trailNext D a = some m) (hb : trailNext D b = some m) : a = b := by
  obtain ⟨k1, t1, h1, c1⟩ := (trailNext_iff w V).1 ha
  obtain ⟨k2, t2, h2, c2⟩ := (trailNext_iff w V).1 hb
  have he := V.unique w h1 h2 c1.mem_right c2.mem_right
  obtain ⟨rfl, rfl⟩ := Prod.mk.inj he
  exact c1.left_unique (V.trail_nodup w h1) c2

theorem trailNext_asymm {D : Diagram R} (w : WF D) (V : ValidTrails D) {a b : Int}
    (ha : trailNext D a = some b) (hb : trailNext D b = some a) : False := by
  obtain ⟨k1, t1, h1, c1⟩ := (trailNext_iff w V).1 ha
  obtain ⟨k2, t2, h2, c2⟩ := (trailNext_iff w V).1 hb
  obtain ⟨i, _, e1, e2⟩ := seqOf_next V h1 c1
  obtain ⟨j, _, e3, e4⟩ := seqOf_next V h2 c2
  rw [e2] at e3
  rw [e1] at e4
  have := Option.some.inj e3
  have := Option.some.inj e4
  omega

/-- Without `kmax` the next node of the computation is the next node of the trail. -/
theorem nxtK_none {D : Diagram R} (w : WF D) (V : ValidTrails D) (n : Int) :
    nxtK D none n = trailNext D n := by
  unfold nxtK
  split_ifs with h
  · cases hx : trailNext D n with
    | none => rfl
    | some m =>
      rcases h with h | h
      · exact absurd h (trailNext_support w V hx)
      · simp at h
  · rfl

/-- Sum over the trail neighbours. -/
theorem sum_trlNbrs {M : Type} [AddCommMonoid M] {D : Diagram R} (w : WF D) (V : ValidTrails D)
    (g : SimpleGraph D) (n : Int) (f : Int → M) (o i : M)
    (ho : ∀ m, trailNext D n = some m → f m = o) (ho' : trailNext D n = none → o = 0)
    (hi : ∀ m, trailNext D m = some n → f m = i) (hi' : (∀ m, trailNext D m ≠ some n) → i = 0) :
    ((trlNbrs D n).map f).sum = o + i := by
  have hnd : (trlNbrs D n).Nodup := (nodup_neighbors D n).filter _
  have hp : ∃ l1 l2 : List Int, (trlNbrs D n).Perm (l1 ++ l2) ∧ (l1.map f).sum = o ∧
      (l2.map f).sum = i := by
    by_cases hprev : ∃ p, trailNext D p = some n
    · obtain ⟨p, hp⟩ := hprev
      cases hx : trailNext D n with
      | none =>
        refine ⟨[], [p], ?_, by simp [ho' hx], by simp [hi p hp]⟩
        rw [List.perm_ext_iff_of_nodup hnd (by simp)]
        intro m
        rw [trlNbrs_iff w V g, hx]
        simp only [reduceCtorEq, false_or, List.nil_append, List.mem_singleton]
        exact ⟨fun h => trailNext_inj w V h hp, fun h => h ▸ hp⟩
      | some q =>
        refine ⟨[q], [p], ?_, by simp [ho q hx], by simp [hi p hp]⟩
        have hqp : q ≠ p := by rintro rfl; exact trailNext_asymm w V hx hp
        rw [List.perm_ext_iff_of_nodup hnd (by simp [hqp])]
        intro m
        rw [trlNbrs_iff w V g, hx]
        simp only [Option.some.injEq, List.singleton_append, List.mem_cons, List.not_mem_nil, or_false]
        constructor
        · rintro (h | h)
          · exact Or.inl h.symm
          · exact Or.inr (trailNext_inj w V h hp)
        · rintro (h | h)
          · exact Or.inl h.symm
          · exact Or.inr (h ▸ hp)
    · push Not at hprev
      cases hx : trailNext D n with
      | none =>
        refine ⟨[], [], ?_, by simp [ho' hx], by simp [hi' hprev]⟩
        rw [List.perm_ext_iff_of_nodup hnd (by simp)]
        intro m
        rw [trlNbrs_iff w V g, hx]
        simp [hprev m]
      | some q =>
        refine ⟨[q], [], ?_, by simp [ho q hx], by simp [hi' hprev]⟩
        rw [List.perm_ext_iff_of_nodup hnd (by simp)]
        intro m
        rw [trlNbrs_iff w V g, hx]
        simp [hprev m, eq_comm]
  obtain ⟨l1, l2, hperm, h1, h2⟩ := hp
  rw [(hperm.map f).sum_eq, List.map_append, List.sum_append, h1, h2]

end CEM
