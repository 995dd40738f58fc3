import Verif.Spec.Names
import Verif.Lemmas.Form

/-!
# Form finding on a diagram with other names of nodes
-/

set_option linter.unusedSectionVars false
set_option linter.unusedSimpArgs false

namespace CEM
open Diagram Spec

variable {R : Type} [Field R] [LinearOrder R] [PySqrt R]

/-! ## The diagrams -/

namespace Names

section Basic
variable {S : Type} {f : Int → Int} {g : Int × Int → Int × Int} {D E : Diagram S}

theorem mem_node (h : SameUpToNames f g D E) {n : Int} (hn : n ∈ D.nodes.keys) :
    f n ∈ E.nodes.keys := by
  obtain ⟨d, hd⟩ := (Dict.exists_get?_iff _ _).2 hn
  exact Dict.mem_keys_of_get? (h.node n d hd)

theorem mem_edge (h : SameUpToNames f g D E) {e : Int × Int} (he : e ∈ D.edges.keys) :
    g e ∈ E.edges.keys := by
  obtain ⟨d, hd⟩ := (Dict.exists_get?_iff _ _).2 he
  exact Dict.mem_keys_of_get? (h.edge e d hd)

theorem get_node (h : SameUpToNames f g D E) {n : Int} (hn : n ∈ D.nodes.keys) :
    E.nodes.get? (f n) = D.nodes.get? n := by
  obtain ⟨d, hd⟩ := (Dict.exists_get?_iff _ _).2 hn
  rw [hd, h.node n d hd]

theorem get_edge (h : SameUpToNames f g D E) {e : Int × Int} (he : e ∈ D.edges.keys) :
    E.edges.get? (g e) = D.edges.get? e := by
  obtain ⟨d, hd⟩ := (Dict.exists_get?_iff _ _).2 he
  rw [hd, h.edge e d hd]

theorem nodes_perm (w : WF D) (w' : WF E) (h : SameUpToNames f g D E) :
    (D.nodes.keys.map f).Perm E.nodes.keys := by
  refine (List.perm_ext_iff_of_nodup ?_ w'.nodesNodup).2 fun m => ?_
  · exact w.nodesNodup.map_on fun a ha b hb => h.inj a ha b hb
  · rw [List.mem_map]
    constructor
    · rintro ⟨n, hn, rfl⟩; exact mem_node h hn
    · intro hm
      obtain ⟨n, hn, e⟩ := h.nodes m hm
      exact ⟨n, hn, e⟩

theorem edge_inj (w : WF D) (s : SimpleGraph D) (h : SameUpToNames f g D E) {a b : Int × Int}
    (ha : a ∈ D.edges.keys) (hb : b ∈ D.edges.keys) (hab : g a = g b) : a = b := by
  obtain ⟨a1, a2⟩ := a
  obtain ⟨b1, b2⟩ := b
  have i := h.inj
  have ma1 := w.edge_left _ ha
  have ma2 := w.edge_right _ ha
  have mb1 := w.edge_left _ hb
  have mb2 := w.edge_right _ hb
  have key : (a1 = b1 ∧ a2 = b2) ∨ (a1 = b2 ∧ a2 = b1) := by
    rcases h.ends _ ha with ea | ea <;> rcases h.ends _ hb with eb | eb <;>
      rw [ea, eb] at hab <;> simp only [Prod.mk.injEq] at hab
    · exact Or.inl ⟨i _ ma1 _ mb1 hab.1, i _ ma2 _ mb2 hab.2⟩
    · exact Or.inr ⟨i _ ma1 _ mb2 hab.1, i _ ma2 _ mb1 hab.2⟩
    · exact Or.inr ⟨i _ ma1 _ mb2 hab.2, i _ ma2 _ mb1 hab.1⟩
    · exact Or.inl ⟨i _ ma1 _ mb1 hab.2, i _ ma2 _ mb2 hab.1⟩
  rcases key with ⟨rfl, rfl⟩ | ⟨rfl, rfl⟩
  · rfl
  · exact absurd hb (s.noAnti _ _ ha)

theorem simple (w : WF D) (s : SimpleGraph D) (h : SameUpToNames f g D E) : SimpleGraph E := by
  have noLoop : ∀ n, (n, n) ∉ E.edges.keys := by
    intro n hn
    obtain ⟨⟨a, b⟩, he, hg⟩ := h.edges _ hn
    have : f a = f b := by
      rcases h.ends _ he with e | e <;> rw [e] at hg <;> simp only [Prod.mk.injEq] at hg
      · exact hg.1.trans hg.2.symm
      · exact hg.2.trans hg.1.symm
    have := h.inj a (w.edge_left _ he) b (w.edge_right _ he) this
    subst this
    exact s.noLoop a he
  refine ⟨noLoop, ?_⟩
  intro x y hx hy
  obtain ⟨⟨a, b⟩, he, hg⟩ := h.edges _ hx
  obtain ⟨⟨c, d⟩, he', hg'⟩ := h.edges _ hy
  have i := h.inj
  have ma1 := w.edge_left _ he
  have ma2 := w.edge_right _ he
  have mb1 := w.edge_left _ he'
  have mb2 := w.edge_right _ he'
  simp only at ma1 ma2 mb1 mb2
  have key : (a = c ∧ b = d) ∨ (a = d ∧ b = c) := by
    rcases h.ends _ he with ea | ea <;> rcases h.ends _ he' with eb | eb <;>
      rw [ea] at hg <;> rw [eb] at hg' <;> simp only [Prod.mk.injEq] at hg hg'
    · exact Or.inr ⟨i _ ma1 _ mb2 (hg.1.trans hg'.2.symm), i _ ma2 _ mb1 (hg.2.trans hg'.1.symm)⟩
    · exact Or.inl ⟨i _ ma1 _ mb1 (hg.1.trans hg'.2.symm), i _ ma2 _ mb2 (hg.2.trans hg'.1.symm)⟩
    · exact Or.inl ⟨i _ ma1 _ mb1 (hg.2.trans hg'.1.symm), i _ ma2 _ mb2 (hg.1.trans hg'.2.symm)⟩
    · exact Or.inr ⟨i _ ma1 _ mb2 (hg.2.trans hg'.1.symm), i _ ma2 _ mb1 (hg.1.trans hg'.2.symm)⟩
  rcases key with ⟨rfl, rfl⟩ | ⟨rfl, rfl⟩
  · rw [hg] at hg'
    have := (Prod.mk.inj hg').1
    subst this
    exact noLoop _ hx
  · exact s.noAnti _ _ he he'

theorem typeOf_eq (h : SameUpToNames f g D E) {n : Int} (hn : n ∈ D.nodes.keys) :
    typeOf E (f n) = typeOf D n := by rw [typeOf, typeOf, get_node h hn]

theorem seqOf_eq (h : SameUpToNames f g D E) {n : Int} (hn : n ∈ D.nodes.keys) :
    seqOf E (f n) = seqOf D n := by rw [seqOf, seqOf, get_node h hn]

theorem trailAdj_map (h : SameUpToNames f g D E) {a b : Int} (hab : TrailAdj D a b) :
    TrailAdj E (f a) (f b) := by
  have one : ∀ a b, IsTrail D a b → TrailAdj E (f a) (f b) := by
    rintro a b ⟨d, hd, ht⟩
    have he := h.edge _ d hd
    rcases h.ends _ (Dict.mem_keys_of_get? hd) with e | e <;> rw [e] at he
    · exact Or.inl ⟨d, he, ht⟩
    · exact Or.inr ⟨d, he, ht⟩
  rcases hab with hab | hab
  · exact one a b hab
  · exact (one b a hab).symm

theorem trailAdj_of (h : SameUpToNames f g D E) {x y : Int} (hxy : TrailAdj E x y) :
    ∃ a b, TrailAdj D a b ∧ f a = x ∧ f b = y := by
  have one : ∀ x y, IsTrail E x y → ∃ a b, TrailAdj D a b ∧ f a = x ∧ f b = y := by
    rintro x y ⟨d, hd, ht⟩
    obtain ⟨⟨a, b⟩, he, hg⟩ := h.edges _ (Dict.mem_keys_of_get? hd)
    have hd' : D.edges.get? (a, b) = some d := by rw [← get_edge h he, hg, hd]
    rcases h.ends _ he with e | e <;> rw [e] at hg <;> simp only [Prod.mk.injEq] at hg
    · exact ⟨a, b, Or.inl ⟨d, hd', ht⟩, hg.1, hg.2⟩
    · exact ⟨b, a, Or.inr ⟨d, hd', ht⟩, hg.1, hg.2⟩
  rcases hxy with hxy | hxy
  · exact one x y hxy
  · obtain ⟨a, b, h1, h2, h3⟩ := one y x hxy
    exact ⟨b, a, h1.symm, h3, h2⟩

theorem mem_trails (h : SameUpToNames f g D E) {key : Int} {tr : List Int} :
    (key, tr) ∈ E.trails ↔ ∃ key' tr', (key', tr') ∈ D.trails ∧ f key' = key ∧ tr'.map f = tr := by
  rw [h.trails, List.mem_map]
  constructor
  · rintro ⟨⟨a, b⟩, hp, he⟩
    obtain ⟨h1, h2⟩ := Prod.mk.inj he
    exact ⟨a, b, hp, h1, h2⟩
  · rintro ⟨a, b, hp, h1, h2⟩
    exact ⟨(a, b), hp, by simp [h1, h2]⟩

theorem consecutive_map {l : List Int} {a b : Int} (h : Consecutive l a b) :
    Consecutive (l.map f) (f a) (f b) := by
  obtain ⟨p, s, rfl⟩ := h
  exact ⟨p.map f, s.map f, by simp⟩

theorem valid (w : WF D) (w' : WF E) (V : ValidTrails D) (h : SameUpToNames f g D E) :
    ValidTrails E := by
  refine ⟨?_, ?_, ?_, ?_, ?_, ?_, ?_⟩
  · intro key tr ht
    obtain ⟨key', tr', hp, rfl, rfl⟩ := (mem_trails h).1 ht
    obtain ⟨rest, rfl⟩ := V.head _ _ hp
    exact ⟨rest.map f, by simp⟩
  · intro key tr ht
    obtain ⟨key', tr', hp, rfl, rfl⟩ := (mem_trails h).1 ht
    rw [typeOf_eq h (V.mem_keys hp (V.key_mem hp))]
    exact V.origin _ _ hp
  · intro key tr ht
    obtain ⟨key', tr', hp, rfl, rfl⟩ := (mem_trails h).1 ht
    rw [List.isChain_map]
    exact (V.chain _ _ hp).imp fun a b hab => trailAdj_map h hab
  · refine List.Perm.trans ?_ (nodes_perm w w' h)
    have : E.trails.flatMap (·.2) = (D.trails.flatMap (·.2)).map f := by
      rw [h.trails, List.flatMap_map, List.map_flatMap]
    rw [this]
    exact V.partition.map f
  · intro x y hxy
    obtain ⟨a, b, hab, rfl, rfl⟩ := trailAdj_of h hxy
    obtain ⟨key, tr, hp, hc⟩ := V.complete a b hab
    exact ⟨f key, tr.map f, (mem_trails h).2 ⟨key, tr, hp, rfl, rfl⟩,
      hc.imp consecutive_map consecutive_map⟩
  · intro key tr ht m hm
    obtain ⟨key', tr', hp, rfl, rfl⟩ := (mem_trails h).1 ht
    obtain ⟨n, hn, rfl⟩ := List.mem_map.1 hm
    rw [typeOf_eq h (V.mem_keys hp hn), V.support _ _ hp n hn, List.getLast?_map]
    constructor
    · intro e; rw [e]; rfl
    · intro e
      obtain ⟨l, hl, hfl⟩ := Option.map_eq_some_iff.1 e
      rw [hl]
      have hlm : l ∈ tr' := List.mem_of_getLast? hl
      rw [h.inj l (V.mem_keys hp hlm) n (V.mem_keys hp hn) hfl]
  · intro key tr ht
    obtain ⟨key', tr', hp, rfl, rfl⟩ := (mem_trails h).1 ht
    obtain ⟨s, hs⟩ := V.seq _ _ hp
    refine ⟨s, fun i hi => ?_⟩
    rw [List.length_map] at hi
    rw [List.getElem_map, seqOf_eq h (V.mem_keys hp (List.getElem_mem _))]
    exact hs i hi

theorem input [Zero (Vec S)] (I : ValidInput D) (w' : WF E) (h : SameUpToNames f g D E) :
    ValidInput E := by
  refine ⟨w', simple I.wf I.simple h, valid I.wf w' I.trails h, ?_, ?_, ?_⟩
  · rw [h.trails]
    intro e
    exact I.nonempty (List.map_eq_nil_iff.1 e)
  · intro m d hd
    obtain ⟨n, hn, rfl⟩ := h.nodes m (Dict.mem_keys_of_get? hd)
    rw [get_node h hn] at hd
    exact I.reaction n d hd
  · intro e' d hd
    obtain ⟨e, he, rfl⟩ := h.edges e' (Dict.mem_keys_of_get? hd)
    rw [get_edge h he] at hd
    exact I.typed e d hd

end Basic

/-! ## Neighbours -/

section Nbr
variable {f : Int → Int} {g : Int × Int → Int × Int} {D E : Diagram R}

theorem nodup_neighbors (w : WF D) (s : SimpleGraph D) (n : Int) : (D.neighbors n).Nodup :=
  (neighbors_perm w s n).nodup_iff.1 (nodup_ends w s n)

theorem mem_nbr (w : WF D) (h : SameUpToNames f g D E) {n : Int} (hn : n ∈ D.nodes.keys) {m' : Int} :
    m' ∈ E.neighbors (f n) ↔ ∃ m ∈ D.neighbors n, f m = m' := by
  constructor
  · intro hm
    rw [mem_neighbors] at hm
    have one : ∀ a b, (a, b) ∈ D.edges.keys → (f a = f n ∧ f b = m') ∨ (f b = f n ∧ f a = m') →
        ∃ m ∈ D.neighbors n, f m = m' := by
      rintro a b hab (⟨h1, h2⟩ | ⟨h1, h2⟩)
      · have := h.inj a (w.edge_left _ hab) n hn h1
        subst this
        exact ⟨b, mem_neighbors.2 (Or.inl hab), h2⟩
      · have := h.inj b (w.edge_right _ hab) n hn h1
        subst this
        exact ⟨a, mem_neighbors.2 (Or.inr hab), h2⟩
    rcases hm with hm | hm
    · obtain ⟨⟨a, b⟩, hab, hg⟩ := h.edges _ hm
      refine one a b hab ?_
      rcases h.ends _ hab with e | e <;> rw [e] at hg <;> simp only [Prod.mk.injEq] at hg
      · exact Or.inl hg
      · exact Or.inr hg
    · obtain ⟨⟨a, b⟩, hab, hg⟩ := h.edges _ hm
      refine one a b hab ?_
      rcases h.ends _ hab with e | e <;> rw [e] at hg <;> simp only [Prod.mk.injEq] at hg
      · exact Or.inr hg.symm
      · exact Or.inl hg.symm
  · rintro ⟨m, hm, rfl⟩
    rw [mem_neighbors] at hm ⊢
    rcases hm with hm | hm
    · have := mem_edge h hm
      rcases h.ends _ hm with e | e <;> rw [e] at this
      · exact Or.inl this
      · exact Or.inr this
    · have := mem_edge h hm
      rcases h.ends _ hm with e | e <;> rw [e] at this
      · exact Or.inr this
      · exact Or.inl this

theorem neighbors_perm' (w : WF D) (s : SimpleGraph D) (w' : WF E) (h : SameUpToNames f g D E)
    {n : Int} (hn : n ∈ D.nodes.keys) : (E.neighbors (f n)).Perm ((D.neighbors n).map f) := by
  refine (List.perm_ext_iff_of_nodup (nodup_neighbors w' (simple w s h) _) ?_).2 fun m' => ?_
  · exact (nodup_neighbors w s n).map_on fun a ha b hb =>
      h.inj a (mem_keys_of_nbr w ha).1 b (mem_keys_of_nbr w hb).1
  · rw [mem_nbr w h hn, List.mem_map]

theorem edgeKey_eq (w : WF D) (s : SimpleGraph D) (h : SameUpToNames f g D E) {n m : Int}
    (hm : m ∈ D.neighbors n) : edgeKey E (f n) (f m) = g (edgeKey D n m) := by
  have s' := simple w s h
  have hk : edgeKey D n m ∈ D.edges.keys := Dict.mem_keys_of_get? (edgeKey_mem hm)
  have hg := mem_edge h hk
  have hends : g (edgeKey D n m) = (f n, f m) ∨ g (edgeKey D n m) = (f m, f n) := by
    rcases edgeKey_ends D n m with e | e <;> rcases h.ends _ hk with e' | e' <;> rw [e', e] <;> simp
  unfold edgeKey
  change (if E.edges.has (f n, f m) then _ else _) = g (edgeKey D n m)
  rcases hends with e | e
  · rw [e] at hg
    rw [if_pos ((Dict.has_iff _ _).2 hg), e]
  · rw [e] at hg
    rw [if_neg, e]
    intro hc
    exact s'.noAnti _ _ hg ((Dict.has_iff _ _).1 hc)

theorem edgeData_eq (w : WF D) (s : SimpleGraph D) (h : SameUpToNames f g D E) {n m : Int}
    (hm : m ∈ D.neighbors n) : edgeData E (f n) (f m) = edgeData D n m := by
  unfold edgeData
  rw [edgeKey_eq w s h hm, get_edge h (Dict.mem_keys_of_get? (edgeKey_mem hm))]

theorem filter_nbr (w : WF D) (s : SimpleGraph D) (w' : WF E) (h : SameUpToNames f g D E)
    {n : Int} (hn : n ∈ D.nodes.keys) (p q : Int → Bool)
    (hpq : ∀ m ∈ D.neighbors n, p (f m) = q m) :
    ((E.neighbors (f n)).filter p).Perm (((D.neighbors n).filter q).map f) := by
  refine ((neighbors_perm' w s w' h hn).filter p).trans ?_
  rw [List.filter_map]
  rw [List.filter_congr (fun m hm => by rw [Function.comp_apply, hpq m hm])]

theorem dirNbrs_perm (w : WF D) (s : SimpleGraph D) (w' : WF E) (h : SameUpToNames f g D E)
    {n : Int} (hn : n ∈ D.nodes.keys) : (dirNbrs E (f n)).Perm ((dirNbrs D n).map f) := by
  refine filter_nbr w s w' h hn _ _ fun m hm => ?_
  rw [edgeData_eq w s h hm, seqOf_eq h hn, seqOf_eq h (mem_keys_of_nbr w hm).1]

theorem indNbrs_perm (w : WF D) (s : SimpleGraph D) (w' : WF E) (h : SameUpToNames f g D E)
    {n : Int} (hn : n ∈ D.nodes.keys) : (indNbrs E (f n)).Perm ((indNbrs D n).map f) := by
  refine filter_nbr w s w' h hn _ _ fun m hm => ?_
  rw [edgeData_eq w s h hm, seqOf_eq h hn, seqOf_eq h (mem_keys_of_nbr w hm).1]

/-! ## Trails -/

theorem nextIn_map {l : List Int} {n : Int} (hi : ∀ a ∈ l, f a = f n → a = n) :
    nextIn (l.map f) (f n) = (nextIn l n).map f := by
  induction l with
  | nil => rfl
  | cons a l ih =>
    cases l with
    | nil => rfl
    | cons b l =>
      simp only [List.map_cons, nextIn]
      by_cases hc : a = n
      · rw [if_pos hc, if_pos (by rw [hc])]; rfl
      · rw [if_neg hc, if_neg fun e => hc (hi a (by simp) e)]
        exact ih fun x hx => hi x (by simp only [List.mem_cons] at hx ⊢; exact Or.inr hx)

theorem trailNext_eq (V : ValidTrails D) (h : SameUpToNames f g D E) {n : Int}
    (hn : n ∈ D.nodes.keys) : trailNext E (f n) = (trailNext D n).map f := by
  unfold trailNext
  rw [h.trails]
  have : ∀ l : List (Int × List Int), (∀ p ∈ l, p ∈ D.trails) →
      (l.map fun p => (f p.1, p.2.map f)).findSome? (fun p => nextIn p.2 (f n)) =
        (l.findSome? fun p => nextIn p.2 n).map f := by
    intro l
    induction l with
    | nil => intro _; rfl
    | cons p l ih =>
      intro hl
      have hp : (p.1, p.2) ∈ D.trails := hl p (by simp)
      have := nextIn_map (f := f) (l := p.2) (n := n) fun a ha =>
        h.inj a (V.mem_keys hp ha) n hn
      rw [List.map_cons, List.findSome?_cons, List.findSome?_cons, this]
      cases nextIn p.2 n with
      | none => exact ih fun q hq => hl q (by simp [hq])
      | some b => rfl
  exact this D.trails fun _ h => h

theorem nxtK_eq (V : ValidTrails D) (h : SameUpToNames f g D E) (kmax : Option Int) {n : Int}
    (hn : n ∈ D.nodes.keys) : nxtK E kmax (f n) = (nxtK D kmax n).map f := by
  unfold nxtK
  rw [typeOf_eq h hn, seqOf_eq h hn, trailNext_eq V h hn]
  split_ifs <;> rfl

/-! ## The schedule -/

theorem level_eq (V : ValidTrails D) (h : SameUpToNames f g D E)
    {T T' : Dict Int (Dict Int Int)} (hT : GoodSeqs D T) (hT' : GoodSeqs E T') (k : Int) :
    level E T' k = (level D T k).map f := by
  unfold level
  have hkeys : E.trails.keys = D.trails.keys.map f := by
    rw [h.trails]; unfold Dict.keys; rw [List.map_map, List.map_map]; rfl
  rw [hkeys, List.filterMap_map, List.map_filterMap]
  refine List.filterMap_congr fun key hkey => ?_
  obtain ⟨tr, ht⟩ := Dict.mem_keys_iff.1 hkey
  obtain ⟨m, hm, hs⟩ := hT key tr ht
  obtain ⟨m', hm', hs'⟩ := hT' (f key) (tr.map f) ((mem_trails h).2 ⟨key, tr, ht, rfl, rfl⟩)
  rw [Function.comp_apply, hm, hm', Option.bind_some, Option.bind_some]
  ext x
  rw [hs', Option.map_eq_some_iff]
  constructor
  · rintro ⟨hx, hk⟩
    obtain ⟨n, hn, rfl⟩ := List.mem_map.1 hx
    rw [seqOf_eq h (V.mem_keys ht hn)] at hk
    exact ⟨n, (hs k n).2 ⟨hn, hk⟩, rfl⟩
  · rintro ⟨n, hn, rfl⟩
    obtain ⟨h1, h2⟩ := (hs k n).1 hn
    exact ⟨List.mem_map_of_mem h1, by rw [seqOf_eq h (V.mem_keys ht h1)]; exact h2⟩

theorem sched_more (V : ValidTrails D) {T : Dict Int (Dict Int Int)} (hT : GoodSeqs D T) {N M : Int}
    (hN : ∀ n ∈ D.nodes.keys, ∀ k, seqOf D n = some k → k < N) (hNM : N ≤ M) :
    sched D T M = sched D T N := by
  unfold sched pyRange
  obtain ⟨j, hj⟩ := Nat.exists_eq_add_of_le (Int.toNat_le_toNat hNM)
  rw [hj, List.range_add, List.map_append, List.flatMap_append]
  refine (List.append_right_eq_self).2 ?_
  rw [List.flatMap_eq_nil_iff]
  intro k hk
  rw [List.map_map, List.mem_map] at hk
  obtain ⟨i, _, rfl⟩ := hk
  rw [List.eq_nil_iff_forall_not_mem]
  intro n hn
  obtain ⟨h1, h2⟩ := (mem_level V hT).1 hn
  have := hN n h1 _ h2
  simp only [Function.comp_apply, Int.ofNat_eq_natCast] at this
  omega

theorem sched_eq (w : WF D) (w' : WF E) (V : ValidTrails D) (h : SameUpToNames f g D E)
    {T T' : Dict Int (Dict Int Int)} (hT : GoodSeqs D T) (hT' : GoodSeqs E T') {N N' : Int}
    (hN : ∀ n ∈ D.nodes.keys, ∀ k, seqOf D n = some k → k < N)
    (hN' : ∀ n ∈ E.nodes.keys, ∀ k, seqOf E n = some k → k < N') :
    sched E T' N' = (sched D T N).map f := by
  rw [← sched_more V hT hN (le_max_left N N'),
    ← sched_more (valid w w' V h) hT' hN' (le_max_right N N')]
  unfold sched
  rw [List.map_flatMap]
  exact List.flatMap_congr fun k _ => level_eq V h hT hT' k

/-! ## States -/

/-- The second dictionary has under the new names what the first has under the old ones. -/
def Carried {K L W : Type} [DecidableEq K] [DecidableEq L] (f : K → L) (A : List K) (d : Dict K W) (e : Dict L W) : Prop :=
  ∀ a ∈ A, e.get? (f a) = d.get? a

theorem Carried.set {K L W : Type} [DecidableEq K] [DecidableEq L] {f : K → L} {A : List K} {d : Dict K W} {e : Dict L W}
    (h : Carried f A d e) (hi : ∀ a ∈ A, ∀ b ∈ A, f a = f b → a = b) {k : K} (hk : k ∈ A) (v : W) :
    Carried f A (d.set k v) (e.set (f k) v) := by
  intro a ha
  rw [Dict.get?_set, Dict.get?_set, h a ha]
  by_cases hc : k = a
  · rw [if_pos hc, if_pos (by rw [hc])]
  · rw [if_neg hc, if_neg fun e => hc (hi k hk a ha e)]

/-- The states of the two computations correspond. -/
structure SameState (f : Int → Int) (g : Int × Int → Int × Int) (D : Diagram R)
    (s t : EqState R) : Prop where
  xyz : Carried f D.nodes.keys s.xyz t.xyz
  residual : Carried f D.nodes.keys s.residual t.residual
  trailForces : Carried g D.edges.keys s.trailForces t.trailForces
  reactions : Carried f D.nodes.keys s.reactions t.reactions

theorem SameState.pos {s t : EqState R} (h : SameState f g D s t) {n : Int}
    (hn : n ∈ D.nodes.keys) : t.pos (f n) = s.pos n := by
  unfold EqState.pos; rw [h.xyz n hn]

theorem SameState.res {s t : EqState R} (h : SameState f g D s t) {n : Int}
    (hn : n ∈ D.nodes.keys) : t.res (f n) = s.res n := by
  unfold EqState.res; rw [h.residual n hn]

theorem devSum_eq (w : WF D) (s : SimpleGraph D) (h : SameUpToNames f g D E)
    {P P' : Int → Vec R} (hP : ∀ n ∈ D.nodes.keys, P' (f n) = P n) {n : Int}
    (hn : n ∈ D.nodes.keys) {l l' : List Int} (hl : l'.Perm (l.map f))
    (hm : ∀ m ∈ l, m ∈ D.neighbors n) : devSum E P' (f n) l' = devSum D P n l := by
  unfold devSum
  rw [(hl.map (devTerm E P' (f n))).sum_eq, List.map_map]
  congr 1
  refine List.map_congr_left fun m hml => ?_
  have := hm m hml
  rw [Function.comp_apply, devTerm, devTerm, edgeData_eq w s h this,
    hP m (mem_keys_of_nbr w this).1, hP n hn]

theorem outVec_eq (w : WF D) (s : SimpleGraph D) (w' : WF E) (h : SameUpToNames f g D E)
    (ind : Bool) {P P' : Int → Vec R} (hP : ∀ n ∈ D.nodes.keys, P' (f n) = P n) (t : Vec R)
    {n : Int} (hn : n ∈ D.nodes.keys) : outVec E ind P' t (f n) = outVec D ind P t n := by
  unfold outVec
  rw [devSum_eq w s h hP hn (dirNbrs_perm w s w' h hn) fun m hm => (List.mem_filter.1 hm).1,
    devSum_eq w s h hP hn (indNbrs_perm w s w' h hn) fun m hm => (List.mem_filter.1 hm).1]
  have : loadOf E (f n) = loadOf D n := by rw [loadOf, loadOf, get_node h hn]
  rw [this]

theorem SameState.proc (w : WF D) (sg : SimpleGraph D) (V : ValidTrails D) (w' : WF E)
    (h : SameUpToNames f g D E) {kmax : Option Int} {ind : Bool} {s t : EqState R}
    (hst : SameState f g D s t) {n : Int} (hn : n ∈ D.nodes.keys) :
    SameState f g D (CEM.proc D (nxtK D kmax) ind s n) (CEM.proc E (nxtK E kmax) ind t (f n)) := by
  have hr : outVec E ind t.pos (t.res (f n)) (f n) = outVec D ind s.pos (s.res n) n := by
    rw [hst.res hn]
    exact outVec_eq w sg w' h ind (fun m hm => hst.pos hm) _ hn
  have hx := nxtK_eq V h kmax hn
  cases hm : nxtK D kmax n with
  | none =>
    rw [hm, Option.map_none] at hx
    rw [proc_none hm, proc_none hx, hr]
    exact ⟨hst.xyz, hst.residual, hst.trailForces, hst.reactions.set h.inj hn _⟩
  | some m =>
    rw [hm, Option.map_some] at hx
    have hmk := (nxtK_mem w V hm).1
    have hnb : m ∈ D.neighbors n := adj_mem_neighbors (trailNext_adj w V (nxtK_trail hm))
    have hek : edgeKey D n m ∈ D.edges.keys := Dict.mem_keys_of_get? (edgeKey_mem hnb)
    rw [proc_some hm, proc_some hx, hr, hst.pos hn, edgeData_eq w sg h hnb, edgeKey_eq w sg h hnb]
    exact ⟨hst.xyz.set h.inj hmk _, hst.residual.set h.inj hmk _,
      hst.trailForces.set (fun a ha b hb => edge_inj w sg h ha hb) hek _, hst.reactions⟩

theorem SameState.fold (w : WF D) (sg : SimpleGraph D) (V : ValidTrails D) (w' : WF E)
    (h : SameUpToNames f g D E) {kmax : Option Int} {ind : Bool} (l : List Int)
    (hl : ∀ n ∈ l, n ∈ D.nodes.keys) {s t : EqState R} (hst : SameState f g D s t) :
    SameState f g D (l.foldl (CEM.proc D (nxtK D kmax) ind) s)
      ((l.map f).foldl (CEM.proc E (nxtK E kmax) ind) t) := by
  induction l generalizing s t with
  | nil => exact hst
  | cons n l ih =>
    rw [List.map_cons, List.foldl_cons, List.foldl_cons]
    exact ih (fun m hm => hl m (by simp [hm])) (hst.proc w sg V w' h (hl n (by simp)))

theorem sameState_init (h : SameUpToNames f g D E) :
    SameState f g D (initState D) (initState E) := by
  refine ⟨?_, ?_, fun _ _ => rfl, fun _ _ => rfl⟩
  · intro n hn
    unfold initState
    simp only
    rw [get?_map_val E.nodes (fun d => d.pos), get?_map_val D.nodes (fun d => d.pos), get_node h hn]
  · intro n hn
    unfold initState
    simp only
    rw [get?_map_val E.nodes (fun d => d.reaction), get?_map_val D.nodes (fun d => d.reaction),
      get_node h hn]

theorem sameState_iter (w : WF D) (sg : SimpleGraph D) (V : ValidTrails D) (w' : WF E)
    (h : SameUpToNames f g D E) {kmax : Option Int} {L : List Int}
    (hL : ∀ n ∈ L, n ∈ D.nodes.keys) (m : Nat) :
    SameState f g D (iter D kmax L m) (iter E kmax (L.map f) m) := by
  induction m with
  | zero => exact sameState_init h
  | succ m ih => exact ih.fold w sg V w' h L hL

/-! ## The stopping criterion -/

theorem residualDistance_sum (last new : Dict Int (Vec R)) :
    residualDistance last new =
      (new.map fun p => Vec.dist ((last.get? p.1).getD 0) p.2).sum := by
  unfold residualDistance
  suffices h : ∀ (l : Dict Int (Vec R)) (a : R),
      l.foldl (fun acc p => acc + Vec.dist ((last.get? p.1).getD 0) p.2) a =
        a + (l.map fun p => Vec.dist ((last.get? p.1).getD 0) p.2).sum by
    rw [h]; simp
  intro l
  induction l with
  | nil => intro a; simp
  | cons p l ih => intro a; rw [List.foldl_cons, ih, List.map_cons, List.sum_cons]; ring

theorem map_pairs {K V W : Type} [DecidableEq K] {d : Dict K V} (hn : d.keys.Nodup) (F : K → Option V → W) :
    (d.map fun p => F p.1 (some p.2)) = d.keys.map fun k => F k (d.get? k) := by
  unfold Dict.keys
  rw [List.map_map]
  refine List.map_congr_left fun p hp => ?_
  rw [Function.comp_apply, Dict.get?_of_mem hn (k := p.1) (v := p.2) hp]

theorem residualDistance_names (w : WF D) (w' : WF E) (h : SameUpToNames f g D E)
    {a b a' b' : EqState R} (ha : SameState f g D a a') (hb : SameState f g D b b')
    (gb : b.xyz.keys = D.nodes.keys) (gb' : b'.xyz.keys = E.nodes.keys) :
    residualDistance a'.xyz b'.xyz = residualDistance a.xyz b.xyz := by
  have e1 := map_pairs (d := b'.xyz) (by rw [gb']; exact w'.nodesNodup)
    fun k v => Vec.dist ((a'.xyz.get? k).getD 0) (v.getD 0)
  have e2 := map_pairs (d := b.xyz) (by rw [gb]; exact w.nodesNodup)
    fun k v => Vec.dist ((a.xyz.get? k).getD 0) (v.getD 0)
  simp only [Option.getD_some] at e1 e2
  rw [residualDistance_sum, residualDistance_sum, e1, e2, gb, gb',
    ← ((nodes_perm w w' h).map _).sum_eq, List.map_map]
  congr 1
  refine List.map_congr_left fun n hn => ?_
  rw [Function.comp_apply, ha.xyz n hn, hb.xyz n hn]

/-! ## The form -/

theorem dist_swap (a b : Vec R) : Vec.dist a b = Vec.dist b a := by
  unfold Vec.dist Vec.length
  congr 1
  simp only [Vec.dot, Vec.sub_x, Vec.sub_y, Vec.sub_z]
  ring

theorem form_names (w : WF D) (w' : WF E) (h : SameUpToNames f g D E)
    {s t : EqState R} (hst : SameState f g D s t) (gs : s.xyz.keys = D.nodes.keys)
    (gt : t.xyz.keys = E.nodes.keys) (ns : s.reactions.keys.Nodup ∧ s.trailForces.keys.Nodup)
    (nt : t.reactions.keys.Nodup ∧ t.trailForces.keys.Nodup) :
    SameUpToNames f g (formUpdate (formFromTopology D) s) (formUpdate (formFromTopology E) t) := by
  have kn : (formUpdate (formFromTopology D) s).nodes.keys = D.nodes.keys := formNodes_keys _ _
  have kn' : (formUpdate (formFromTopology E) t).nodes.keys = E.nodes.keys := formNodes_keys _ _
  have ke : (formUpdate (formFromTopology D) s).edges.keys = D.edges.keys := formEdges_keys _ _
  have ke' : (formUpdate (formFromTopology E) t).edges.keys = E.edges.keys := formEdges_keys _ _
  have hnode : ∀ n ∈ D.nodes.keys, (formUpdate (formFromTopology E) t).nodes.get? (f n) =
      (formUpdate (formFromTopology D) s).nodes.get? n := by
    intro n hn
    rw [formNodes_get? (formFromTopology E) _ gt w'.nodesNodup nt.1,
      formNodes_get? (formFromTopology D) _ gs w.nodesNodup ns.1]
    have : (formFromTopology E).nodes.get? (f n) = (formFromTopology D).nodes.get? n := get_node h hn
    rw [this, hst.pos hn, hst.reactions n hn]
  refine ⟨?_, ?_, ?_, ?_, ?_, ?_, ?_⟩
  · rw [kn]; exact h.inj
  · intro n d hd
    have hn := Dict.mem_keys_of_get? hd
    rw [kn] at hn
    rw [hnode n hn, hd]
  · rw [kn, kn']; exact h.nodes
  · rw [ke]; exact h.ends
  · intro e d hd
    have he := Dict.mem_keys_of_get? hd
    rw [ke] at he
    rw [formEdges_get? _ _ nt.2]
    rw [formEdges_get? _ _ ns.2] at hd
    have : (formFromTopology E).edges.get? (g e) = (formFromTopology D).edges.get? e := get_edge h he
    rw [this, hst.trailForces e he, ← hd]
    cases (formFromTopology D).edges.get? e with
    | none => rfl
    | some d' =>
      simp only [Option.map_some, Option.some.injEq]
      have h1 := hnode e.1 (w.edge_left _ he)
      have h2 := hnode e.2 (w.edge_right _ he)
      unfold signedLength
      rcases h.ends e he with hg | hg <;> rw [hg] <;> simp only <;> rw [h1, h2]
      cases (formUpdate (formFromTopology D) s).nodes.get? e.1 <;>
        cases (formUpdate (formFromTopology D) s).nodes.get? e.2 <;> simp only
      rw [dist_swap]
  · rw [ke, ke']; exact h.edges
  · rfl

end Nbr
end Names
end CEM
