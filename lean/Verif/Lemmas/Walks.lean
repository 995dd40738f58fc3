import Verif.Lemmas.Trails2
import Verif.Spec.Walks

/-! # The trail search makes the specified walks -/

set_option linter.unusedSectionVars false
set_option linter.unusedSimpArgs false

namespace CEM
namespace Diagram
open Spec
variable {R : Type}

/-! ## The order of neighbours -/

/-- `Earlier` for a list of edges. -/
def EarlierIn (es : List (Int × Int)) (n y x : Int) : Prop :=
  ∃ l e r, es = l ++ e :: r ∧ (e = (n, y) ∨ e = (y, n)) ∧ (n, x) ∉ l ∧ (x, n) ∉ l

theorem EarlierIn.mono {es : List (Int × Int)} {n y x : Int} (h : EarlierIn es n y x)
    (e : Int × Int) : EarlierIn (es ++ [e]) n y x := by
  obtain ⟨l, e', r, rfl, h⟩ := h
  exact ⟨l, e', r ++ [e], by simp, h⟩

theorem EarlierIn.of_mem {es : List (Int × Int)} {n y x : Int}
    (hy : (n, y) ∈ es ∨ (y, n) ∈ es) (hx : (n, x) ∉ es ∧ (x, n) ∉ es) : EarlierIn es n y x := by
  rcases hy with h | h <;> obtain ⟨l, r, rfl⟩ := List.append_of_mem h
  · exact ⟨l, _, r, rfl, Or.inl rfl, fun h => hx.1 (by simp [h]), fun h => hx.2 (by simp [h])⟩
  · exact ⟨l, _, r, rfl, Or.inr rfl, fun h => hx.1 (by simp [h]), fun h => hx.2 (by simp [h])⟩

theorem EarlierIn.asymm {es : List (Int × Int)} {n y x : Int} (hne : y ≠ x)
    (h : EarlierIn es n y x) (h' : EarlierIn es n x y) : False := by
  obtain ⟨l, e, r, h1, h2, h3, h4⟩ := h
  obtain ⟨l', e', r', h1', h2', h3', h4'⟩ := h'
  have hee : l ++ e :: r = l' ++ e' :: r' := h1 ▸ h1'
  rcases List.append_eq_append_iff.1 hee with ⟨m, hm, hm'⟩ | ⟨m, hm, hm'⟩
  · cases m with
    | nil =>
      simp only [List.nil_append, List.cons.injEq] at hm'
      have he := hm'.1
      rcases h2 with rfl | rfl <;> rcases h2' with h2' | h2' <;>
        rw [h2'] at he <;> simp only [Prod.mk.injEq] at he <;> omega
    | cons a m =>
      simp only [List.cons_append, List.cons.injEq] at hm'
      have : e ∈ l' := by rw [hm, hm'.1]; simp
      rcases h2 with rfl | rfl
      · exact h3' this
      · exact h4' this
  · cases m with
    | nil =>
      simp only [List.nil_append, List.cons.injEq] at hm'
      have he := hm'.1
      rcases h2 with rfl | rfl <;> rcases h2' with h2' | h2' <;>
        rw [h2'] at he <;> simp only [Prod.mk.injEq] at he <;> omega
    | cons a m =>
      simp only [List.cons_append, List.cons.injEq] at hm'
      have : e' ∈ l := by rw [hm, hm'.1]; simp
      rcases h2' with rfl | rfl
      · exact h3 this
      · exact h4 this

theorem pairwise_insertNew {es : List (Int × Int)} {n : Int} {l : List Int} {x : Int}
    {e : Int × Int}
    (hl : ∀ y ∈ l, (n, y) ∈ es ∨ (y, n) ∈ es ∨ y = x)
    (hx : x ∉ l → (n, x) ∉ es ∧ (x, n) ∉ es)
    (hp : l.Pairwise (EarlierIn (es ++ [e]) n)) :
    (insertNew l x).Pairwise (EarlierIn (es ++ [e]) n) := by
  unfold insertNew
  split
  · exact hp
  · rename_i h
    rw [List.pairwise_append]
    refine ⟨hp, List.pairwise_singleton _ _, ?_⟩
    intro y hy z hz
    rw [List.mem_singleton] at hz; subst hz
    rcases hl y hy with h1 | h1 | h1
    · exact (EarlierIn.of_mem (Or.inl h1) (hx h)).mono e
    · exact (EarlierIn.of_mem (Or.inr h1) (hx h)).mono e
    · subst h1; exact absurd hy h

theorem pairwise_foldl_adjStep (n : Int) (es : List (Int × Int)) :
    (es.foldl (adjStep n) []).Pairwise (EarlierIn es n) := by
  induction es using List.reverseRecOn with
  | nil => simp
  | append_singleton es e ih =>
    rw [List.foldl_append, List.foldl_cons, List.foldl_nil]
    have hm : ∀ y, y ∈ es.foldl (adjStep n) [] ↔ (n, y) ∈ es ∨ (y, n) ∈ es := by
      intro y; simp [mem_foldl_adjStep]
    set l := es.foldl (adjStep n) [] with hl
    have hp : l.Pairwise (EarlierIn (es ++ [e]) n) := ih.imp fun h => h.mono e
    unfold adjStep
    dsimp only
    by_cases h1 : e.1 = n
    · rw [if_pos h1]
      have hp1 : (insertNew l e.2).Pairwise (EarlierIn (es ++ [e]) n) := by
        refine pairwise_insertNew (fun y hy => ?_) (fun hx => ?_) hp
        · rcases (hm y).1 hy with h | h
          · exact Or.inl h
          · exact Or.inr (Or.inl h)
        · rw [hm, not_or] at hx; exact hx
      split_ifs with h2
      · have : insertNew (insertNew l e.2) e.1 = insertNew l e.2 := by
          rw [h1, ← h2]
          have : e.2 ∈ insertNew l e.2 := mem_insertNew.2 (Or.inl rfl)
          rw [insertNew, if_pos this]
        rw [this]; exact hp1
      · exact hp1
    · rw [if_neg h1]
      split_ifs with h2
      · refine pairwise_insertNew (fun y hy => ?_) (fun hx => ?_) hp
        · rcases (hm y).1 hy with h | h
          · exact Or.inl h
          · exact Or.inr (Or.inl h)
        · rw [hm, not_or] at hx; exact hx
      · exact hp

theorem pairwise_neighbors (D : Diagram R) (n : Int) : (D.neighbors n).Pairwise (Earlier D n) :=
  pairwise_foldl_adjStep n D.edges.keys

/-! ## The next node -/

theorem isTrailPair_iff_joined {D : Diagram R} {n x : Int} :
    D.isTrailPair n x = true ↔ Joined D n x := by
  unfold isTrailPair Joined IsTrail
  cases h1 : D.edges.get? (n, x) with
  | some d =>
    have := Dict.mem_keys_of_get? h1
    simp [this]
  | none =>
    have := (Dict.get?_eq_none_iff _ _).1 h1
    cases h2 : D.edges.get? (x, n) <;> simp [this]

theorem _root_.CEM.Spec.Joined.mem {D : Diagram R} {n x : Int} (h : Joined D n x) :
    x ∈ D.neighbors n :=
  adj_mem_neighbors (isTrailPair_adj (isTrailPair_iff_joined.2 h))

theorem _root_.CEM.Spec.NextNode.unique {D : Diagram R} {v : List Int} {n x y : Int}
    (h : NextNode D v n x) (h' : NextNode D v n y) : x = y := by
  by_contra hne
  exact EarlierIn.asymm (es := D.edges.keys) (Ne.symm hne)
    (h.last y h'.joined h'.fresh (Ne.symm hne)) (h'.last x h.joined h.fresh hne)

theorem nextNode_of_nextInWalk {D : Diagram R} {v : List Int} {n x : Int}
    (h : D.nextInWalk v n = some x) : NextNode D v n x := by
  obtain ⟨h1, h2⟩ := nextInWalk_some h
  refine ⟨isTrailPair_iff_joined.1 h2, h1, ?_⟩
  intro y hy hyv hne
  unfold nextInWalk at h
  rw [List.find?_eq_some_iff_append] at h
  obtain ⟨_, as, bs, hab, has⟩ := h
  have hrev : D.neighbors n = bs.reverse ++ x :: as.reverse := by
    have := congrArg List.reverse hab
    simpa using this
  have hmem := hy.mem
  rw [hrev, List.mem_append, List.mem_cons] at hmem
  have hp := pairwise_neighbors D n
  rw [hrev, List.pairwise_append] at hp
  rcases hmem with hm | hm | hm
  · exact hp.2.2 y hm x (by simp)
  · exact absurd hm hne
  · have := has y (by simpa using hm)
    simp [hyv, isTrailPair_iff_joined.2 hy] at this

theorem nextInWalk_iff {D : Diagram R} {v : List Int} {n x : Int} :
    D.nextInWalk v n = some x ↔ NextNode D v n x := by
  refine ⟨nextNode_of_nextInWalk, fun h => ?_⟩
  cases hc : D.nextInWalk v n with
  | none =>
    exact absurd (nextInWalk_none hc h.joined.mem (isTrailPair_iff_joined.2 h.joined)) h.fresh
  | some y => rw [(nextNode_of_nextInWalk hc).unique h]

theorem nextInWalk_none_iff {D : Diagram R} {v : List Int} {n : Int} :
    D.nextInWalk v n = none ↔ ∀ x, ¬ NextNode D v n x := by
  constructor
  · intro h x hx; rw [nextInWalk_iff.2 hx] at h; simp at h
  · intro h
    cases hc : D.nextInWalk v n with
    | none => rfl
    | some x => exact absurd (nextNode_of_nextInWalk hc) (h x)

/-! ## The walk -/

theorem walkFrom_of_walk {D : Diagram R} {fuel : Nat} {acc : List Int} {n : Int} {tr : List Int}
    (h : D.walk fuel acc n = some tr) : WalkFrom D acc n tr := by
  induction fuel generalizing acc n with
  | zero => simp [walk] at h
  | succ fuel ih =>
    simp only [walk] at h
    cases hc : D.nextInWalk acc n with
    | none =>
      simp only [hc, Option.some.injEq] at h
      subst h
      exact .stop (nextInWalk_none_iff.1 hc)
    | some x =>
      simp only [hc] at h
      split_ifs at h with hx
      · subst hx
        simp only [Option.some.injEq] at h
        subst h
        exact .loop (nextInWalk_iff.1 hc)
      · exact .move (nextInWalk_iff.1 hc) hx (ih h)

theorem _root_.CEM.Spec.WalkFrom.unique {D : Diagram R} {v : List Int} {n : Int} {t t' : List Int}
    (h : WalkFrom D v n t) (h' : WalkFrom D v n t') : t = t' := by
  induction h with
  | stop hs =>
    cases h' with
    | stop _ => rfl
    | loop hn => exact absurd hn (hs _)
    | move hn _ _ => exact absurd hn (hs _)
  | loop hl =>
    cases h' with
    | stop hs => exact absurd hl (hs _)
    | loop _ => rfl
    | move hn hne _ => exact absurd (hn.unique hl) hne
  | move hm hne _ ih =>
    cases h' with
    | stop hs => exact absurd hm (hs _)
    | loop hn => exact absurd (hm.unique hn) hne
    | move hn _ hw => rw [← hm.unique hn] at hw; exact ih hw

theorem _root_.CEM.Spec.Search.unique {D : Diagram R} {l f : List Int} {w w' : List (List Int)}
    (h : Search D l f w) (h' : Search D l f w') : w = w' := by
  induction h generalizing w' with
  | done => cases h'; rfl
  | walk ht hn hw _ ih =>
    cases h' with
    | walk ht' hn' hw' hs' =>
      have := hw.unique hw'
      simp only [List.cons.injEq] at this
      obtain ⟨rfl, rfl⟩ := this
      rw [ih hs']
    | skip hc _ =>
      rcases hc with hc | hc
      · exact absurd ht hc
      · exact absurd hc hn
  | skip hc _ ih =>
    cases h' with
    | walk ht hn _ _ =>
      rcases hc with hc | hc
      · exact absurd ht hc
      · exact absurd hc hn
    | skip _ hs' => exact ih hs'

/-! ## Sequences -/

theorem seqOf_assign_last (D : Diagram R) (l : List Int) (k : Int) {m : Int} (hm : m ∈ l)
    (hk : m ∈ D.nodes.keys) :
    ∃ i, LastPosition l m i ∧ seqOf (D.assignSequences l k) m = some (k + i) := by
  induction l generalizing D k with
  | nil => simp at hm
  | cons n l ih =>
    have hk' : m ∈ (D.setK n k).nodes.keys := by simpa [setK] using hk
    by_cases h : m ∈ l
    · obtain ⟨i, ⟨pre, post, h1, h2, h3⟩, h4⟩ := ih (D.setK n k) (k + 1) h hk'
      refine ⟨i + 1, ⟨n :: pre, post, by simp [h1], by simp [h2], h3⟩, ?_⟩
      rw [assignSequences, h4]; push_cast; congr 1; ring
    · have hmn : m = n := by simpa [h] using hm
      subst hmn
      refine ⟨0, ⟨[], l, by simp, rfl, h⟩, ?_⟩
      rw [assignSequences, seqOf_assign_not_mem _ _ _ _ h, seqOf_setK, if_pos rfl, if_pos hk]
      simp

/-! ## The loop over the supports -/

/-- What the loop over the remaining nodes does to the state, in terms of its walks. -/
structure SearchSpec (s s' : BuildState R) (ws : List (List Int)) : Prop where
  inT : ∀ n, n ∈ s'.inTrails ↔ n ∈ s.inTrails ∨ ∃ tr ∈ ws, n ∈ tr
  typ : ∀ n, typeOf s'.D n =
    if ∃ tr ∈ ws, tr.head? = some n then some .origin else typeOf s.D n
  trails : ∀ key tr, LastWith ws (fun t => t.head? = some key) tr →
    s'.trails.get? key = some tr
  trails_none : ∀ key, (∀ tr ∈ ws, tr.head? ≠ some key) → s'.trails.get? key = s.trails.get? key
  seq : ∀ n tr, LastWith ws (n ∈ ·) tr →
    ∃ i, LastPosition tr n i ∧ seqOf s'.D n = some (i : Int)
  seq_none : ∀ n, (∀ tr ∈ ws, n ∉ tr) → seqOf s'.D n = seqOf s.D n

theorem lastWith_cons {t : List Int} {ws : List (List Int)} {p : List Int → Prop} {tr : List Int}
    (h : LastWith (t :: ws) p tr) :
    LastWith ws p tr ∨ (tr = t ∧ p t ∧ ∀ u ∈ ws, ¬ p u) := by
  obtain ⟨pre, post, h1, h2, h3⟩ := h
  cases pre with
  | nil =>
    simp only [List.nil_append, List.cons.injEq] at h1
    obtain ⟨rfl, rfl⟩ := h1
    exact Or.inr ⟨rfl, h2, h3⟩
  | cons a pre =>
    simp only [List.cons_append, List.cons.injEq] at h1
    exact Or.inl ⟨pre, post, h1.2, h2, h3⟩

theorem LastWith.exists {ws : List (List Int)} {p : List Int → Prop} (h : ∃ t ∈ ws, p t) :
    ∃ tr, LastWith ws p tr := by
  induction ws with
  | nil => simp at h
  | cons t ws ih =>
    by_cases hw : ∃ u ∈ ws, p u
    · obtain ⟨tr, pre, post, h1, h2⟩ := ih hw
      exact ⟨tr, t :: pre, post, by simp [h1], h2⟩
    · push Not at hw
      obtain ⟨u, hu, hpu⟩ := h
      rcases List.mem_cons.1 hu with rfl | hu
      · exact ⟨u, [], ws, rfl, hpu, hw⟩
      · exact absurd hpu (hw u hu)

theorem buildLoop_search {D : Diagram R} (w : WF D) {fuel : Nat} {l : List Int}
    {s s' : BuildState R} {firsts : List Int} (hb : SameBase D s.D)
    (ht : ∀ n, typeOf s.D n = if n ∈ firsts then some .origin else typeOf D n)
    (h : buildLoop fuel l s = some s') :
    ∃ ws, Search D l firsts ws ∧ SearchSpec s s' ws := by
  induction l generalizing s firsts with
  | nil =>
    simp only [buildLoop, Option.some.injEq] at h
    subst h
    refine ⟨[], .done, ?_⟩
    constructor
    · simp
    · simp
    · rintro key tr ⟨pre, post, h, _⟩; simp at h
    · simp
    · rintro n tr ⟨pre, post, h, _⟩; simp at h
    · simp
  | cons n l ih =>
    rw [buildLoop_cons] at h
    by_cases hty : typeOf s.D n = some .support
    · rw [if_pos hty] at h
      have hnf : n ∉ firsts := by
        intro hc; rw [ht, if_pos hc] at hty; simp at hty
      have hDn : typeOf D n = some .support := by rw [ht, if_neg hnf] at hty; exact hty
      cases hs1 : buildStep fuel s n with
      | none => rw [hs1] at h; simp at h
      | some s1 =>
        rw [hs1] at h
        simp only [Option.bind_some] at h
        obtain ⟨o, tr, hw, e1, e2, e3⟩ := buildStep_trails hs1
        rw [walk_congr hb.edges] at hw
        have hsub := walk_subset w hw
          (by simpa using typeOf_isSome_mem hDn)
        have hb1 : SameBase D s1.D := hb.trans (sameBase_buildStep hs1)
        have hok : o ∈ D.nodes.keys := hsub o (by simp)
        have ht1 : ∀ m, typeOf s1.D m = if m ∈ o :: firsts then some .origin else typeOf D m := by
          intro m
          rw [e3, typeOf_assignSequences, typeOf_setOrigin]
          by_cases hm : m = o
          · subst hm
            obtain ⟨t, hto⟩ := typeOf_some_of_mem (D := s.D) (n := m) (hb.keys ▸ hok)
            simp [hto]
          · rw [if_neg hm, ht m]; simp [hm]
        obtain ⟨ws, hws, hl⟩ := ih hb1 ht1 h
        refine ⟨(o :: tr) :: ws, .walk hDn hnf (walkFrom_of_walk hw) hws, ?_⟩
        constructor
        · intro m
          rw [hl.inT, e2]
          simp only [List.mem_append, List.mem_cons, exists_eq_or_imp]
          tauto
        · intro m
          rw [hl.typ, ht1, ht]
          by_cases h1 : ∃ t ∈ ws, t.head? = some m
          · rw [if_pos h1, if_pos (by obtain ⟨t, h1, h2⟩ := h1; exact ⟨t, by simp [h1], h2⟩)]
          · by_cases hm : m = o
            · subst hm
              rw [if_neg h1, if_pos (by simp), if_pos ⟨m :: tr, by simp, by simp⟩]
            · have h2 : ¬ ∃ t ∈ (o :: tr) :: ws, t.head? = some m := by
                simp only [List.mem_cons, exists_eq_or_imp, List.head?_cons, Option.some.injEq,
                  not_or]
                exact ⟨fun h => hm h.symm, h1⟩
              rw [if_neg h1, if_neg h2]
              simp [hm]
        · intro key t hlw
          rcases lastWith_cons hlw with hlw | ⟨rfl, hp, hno⟩
          · exact hl.trails key t hlw
          · rw [hl.trails_none key hno, e1]
            simp only [List.head?_cons, Option.some.injEq] at hp
            subst hp
            exact Dict.get?_set_self _ _ _
        · intro key hno
          rw [hl.trails_none key fun t htm => hno t (by simp [htm]), e1]
          have : o ≠ key := by
            have := hno (o :: tr) (by simp); simpa using this
          rw [Dict.get?_set, if_neg this]
        · intro m t hlw
          rcases lastWith_cons hlw with hlw | ⟨rfl, hp, hno⟩
          · exact hl.seq m t hlw
          · rw [hl.seq_none m hno, e3]
            have hmk : m ∈ (s.D.setOrigin o).nodes.keys := by
              simp only [setOrigin, Dict.keys_modify]
              rw [hb.keys]; exact hsub m hp
            obtain ⟨i, hi, he⟩ := seqOf_assign_last (s.D.setOrigin o) (o :: tr) 0 hp hmk
            exact ⟨i, hi, by rw [he]; simp⟩
        · intro m hno
          rw [hl.seq_none m fun t htm => hno t (by simp [htm]), e3,
            seqOf_assign_not_mem _ _ _ _ (hno _ (by simp)), seqOf_setOrigin]
    · rw [if_neg hty] at h
      obtain ⟨ws, hws, hl⟩ := ih hb ht h
      refine ⟨ws, .skip ?_ hws, hl⟩
      by_cases hf : n ∈ firsts
      · exact Or.inr hf
      · rw [ht, if_neg hf] at hty; exact Or.inl hty

theorem searchTrails_walks {D : Diagram R} (w : WF D) {s : BuildState R}
    (h : D.searchTrails = some s) : ∃ ws, Walks D ws ∧ SearchSpec ⟨D, [], []⟩ s ws :=
  buildLoop_search w (SameBase.refl D) (by simp) h

theorem walks_unique {D : Diagram R} {ws ws' : List (List Int)} (h : Walks D ws)
    (h' : Walks D ws') : ws = ws' := Search.unique h h'

end Diagram
end CEM
