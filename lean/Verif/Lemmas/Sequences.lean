import Verif.Lemmas.Trails2

/-! # Shifts, sequences and deviation edges -/

set_option linter.unusedSectionVars false
set_option linter.unusedSimpArgs false

namespace CEM
namespace Diagram
open Spec
variable {R : Type}

/-! ## `assignSequences` in closed form -/

theorem assign_get? (D : Diagram R) (l : List Int) (k : Int) (hn : l.Nodup) (n : Int) :
    (D.assignSequences l k).nodes.get? n =
      (D.nodes.get? n).map fun d => if n ∈ l then { d with k := some (k + (l.idxOf n : Nat)) } else d := by
  induction l generalizing D k with
  | nil => simp [assignSequences]
  | cons x l ih =>
    rw [List.nodup_cons] at hn
    rw [assignSequences, ih _ _ hn.2]
    have hset : (D.setK x k).nodes.get? n = if x = n then (D.nodes.get? x).map
        (fun d => { d with k := some k }) else D.nodes.get? n := by
      simp only [setK, Dict.get?_modify]
    rw [hset]
    by_cases hx : x = n
    · subst hx
      simp only [if_pos, Option.map_map]
      congr 1
      funext d
      simp [hn.1]
    · simp only [if_neg hx]
      congr 1
      funext d
      have hx' : n ≠ x := Ne.symm hx
      by_cases hm : n ∈ l
      · simp only [hm, if_true, List.mem_cons, hx', false_or]
        rw [List.idxOf_cons_ne _ hx]
        congr 2
        push_cast; ring
      · simp [hm, hx']

theorem nodes_ext {D D' : Diagram R} (hk : D.nodes.keys = D'.nodes.keys) (hn : D.nodes.keys.Nodup)
    (hg : ∀ n, D.nodes.get? n = D'.nodes.get? n) : D.nodes = D'.nodes :=
  Dict.ext_get? hn hk fun k _ => hg k

theorem assign_eq {D : Diagram R} (l : List Int) (k : Int) :
    D.assignSequences l k = { D with nodes := (D.assignSequences l k).nodes } := by
  have h := sameBase_assignSequences D l k
  obtain ⟨h1, h2, h3, h4, h5, h6, h7, _, _⟩ := h
  cases hD : D.assignSequences l k
  simp only [hD] at h1 h2 h3 h4 h5 h6 h7
  subst h1 h2 h3 h4 h5 h6 h7
  rfl

theorem keys_assign (D : Diagram R) (l : List Int) (k : Int) :
    (D.assignSequences l k).nodes.keys = D.nodes.keys := (sameBase_assignSequences D l k).keys

theorem diagram_ext_nodes {D E F : Diagram R} (h1 : E = { D with nodes := E.nodes })
    (h2 : F = { D with nodes := F.nodes }) (h : E.nodes = F.nodes) : E = F := by
  rw [h1, h2, h]

theorem assign_assign {D : Diagram R} (hn : D.nodes.keys.Nodup) {l : List Int} (hl : l.Nodup)
    (k k' : Int) : (D.assignSequences l k).assignSequences l k' = D.assignSequences l k' := by
  have hnodes : ((D.assignSequences l k).assignSequences l k').nodes = (D.assignSequences l k').nodes := by
    refine nodes_ext (by simp only [keys_assign]) (by simpa only [keys_assign] using hn) fun n => ?_
    simp only [assign_get? _ _ _ hl, Option.map_map]
    congr 1
    funext d
    by_cases h : n ∈ l <;> simp [h]
  refine diagram_ext_nodes (D := D) ?_ (assign_eq l k') hnodes
  rw [assign_eq l k', assign_eq (D := D) l k]

theorem assign_comm {D : Diagram R} (hn : D.nodes.keys.Nodup) {l l' : List Int} (hl : l.Nodup)
    (hl' : l'.Nodup) (hd : ∀ x ∈ l, x ∉ l') (k k' : Int) :
    (D.assignSequences l k).assignSequences l' k' = (D.assignSequences l' k').assignSequences l k := by
  have hnodes : ((D.assignSequences l k).assignSequences l' k').nodes =
      ((D.assignSequences l' k').assignSequences l k).nodes := by
    refine nodes_ext (by simp only [keys_assign]) (by simpa only [keys_assign] using hn) fun n => ?_
    simp only [assign_get? _ _ _ hl, assign_get? _ _ _ hl', Option.map_map]
    congr 1
    funext d
    by_cases h : n ∈ l
    · have := hd n h; simp [h, this]
    · by_cases h' : n ∈ l' <;> simp [h, h']
  refine diagram_ext_nodes (D := D) ?_ ?_ hnodes
  · rw [assign_eq l' k', assign_eq (D := D) l k]
  · rw [assign_eq l k, assign_eq (D := D) l' k']

/-! ## Facts about valid trails -/

theorem _root_.CEM.Spec.ValidTrails.flat_nodup {D : Diagram R} (w : WF D) (V : ValidTrails D) :
    (D.trails.flatMap (·.2)).Nodup := V.partition.nodup_iff.2 w.nodesNodup

theorem nodup_of_flatMap {t : List (Int × List Int)} (h : (t.flatMap (·.2)).Nodup)
    {p : Int × List Int} (hp : p ∈ t) : p.2.Nodup :=
  (List.nodup_flatMap.1 h).1 p hp

theorem _root_.CEM.Spec.ValidTrails.trail_nodup {D : Diagram R} (w : WF D) (V : ValidTrails D)
    {key : Int} {tr : List Int} (h : (key, tr) ∈ D.trails) : tr.Nodup :=
  nodup_of_flatMap (V.flat_nodup w) h

theorem _root_.CEM.Spec.ValidTrails.key_mem {D : Diagram R} (V : ValidTrails D)
    {key : Int} {tr : List Int} (h : (key, tr) ∈ D.trails) : key ∈ tr := by
  obtain ⟨rest, rfl⟩ := V.head _ _ h; simp

theorem _root_.CEM.Spec.ValidTrails.mem_keys {D : Diagram R} (V : ValidTrails D)
    {key : Int} {tr : List Int} (h : (key, tr) ∈ D.trails) {n : Int} (hn : n ∈ tr) :
    n ∈ D.nodes.keys := V.partition.mem_iff.1 (List.mem_flatMap.2 ⟨_, h, hn⟩)

theorem _root_.CEM.Spec.ValidTrails.unique {D : Diagram R} (w : WF D) (V : ValidTrails D)
    {p q : Int × List Int} (hp : p ∈ D.trails) (hq : q ∈ D.trails) {n : Int} (hn : n ∈ p.2)
    (hn' : n ∈ q.2) : p = q := nodup_flatMap_unique (V.flat_nodup w) hp hq hn hn'

theorem keys_nodup_of_heads {t : List (Int × List Int)} (hf : (t.flatMap (·.2)).Nodup)
    (hh : ∀ key tr, (key, tr) ∈ t → key ∈ tr) : (Dict.keys t).Nodup := by
  induction t with
  | nil => simp
  | cons p t ih =>
    simp only [List.flatMap_cons, List.nodup_append] at hf
    rw [Dict.keys_cons, List.nodup_cons]
    refine ⟨?_, ih hf.2.1 fun k tr h => hh k tr (List.mem_cons_of_mem _ h)⟩
    intro hk
    obtain ⟨tr, htr⟩ := Dict.mem_keys_iff.1 hk
    exact hf.2.2 p.1 (hh p.1 p.2 (by simp)) p.1
      (List.mem_flatMap.2 ⟨_, htr, hh _ _ (List.mem_cons_of_mem _ htr)⟩) rfl

theorem _root_.CEM.Spec.ValidTrails.keys_nodup {D : Diagram R} (w : WF D) (V : ValidTrails D) :
    D.trails.keys.Nodup :=
  keys_nodup_of_heads (V.flat_nodup w) fun _ _ h => V.key_mem h

theorem _root_.CEM.Spec.ValidTrails.get? {D : Diagram R} (w : WF D) (V : ValidTrails D)
    {key : Int} {tr : List Int} (h : (key, tr) ∈ D.trails) : D.trails.get? key = some tr :=
  Dict.get?_of_mem (V.keys_nodup w) h

theorem shiftTrail_valid {D : Diagram R} (w : WF D) (V : ValidTrails D) {key : Int}
    {tr : List Int} (h : (key, tr) ∈ D.trails) (s : Int) :
    D.shiftTrail key s = (D.assignSequences tr s, .ok ()) := by
  have ho := V.origin _ _ h
  have h1 : D.isNodeOrigin key = .ok true := by
    unfold isNodeOrigin
    unfold typeOf at ho
    cases hc : D.nodes.get? key with
    | none => simp [hc] at ho
    | some d => simp [hc] at ho; simp [ho]
  have h2 : D.hasTrails = true := by
    unfold hasTrails numberOfTrails Dict.vals
    simp only [List.length_map, decide_eq_true_eq]
    exact List.length_pos_of_mem h
  unfold shiftTrail
  simp [h1, h2, V.get? w h]

theorem trailAdj_assign (D : Diagram R) (l : List Int) (k a b : Int) :
    TrailAdj (D.assignSequences l k) a b ↔ TrailAdj D a b :=
  trailAdj_congr (sameBase_assignSequences D l k).edges a b

theorem assign_valid {D : Diagram R} (w : WF D) (V : ValidTrails D) {key : Int}
    {tr : List Int} (h : (key, tr) ∈ D.trails) (s : Nat) :
    ValidTrails (D.assignSequences tr s) := by
  have hb := sameBase_assignSequences D tr s
  have hnd := V.trail_nodup w h
  refine ⟨?_, ?_, ?_, ?_, ?_, ?_, ?_⟩
  · rw [hb.trails]; exact V.head
  · rw [hb.trails]; intro k t ht; rw [typeOf_assignSequences]; exact V.origin k t ht
  · rw [hb.trails]; intro k t ht
    rw [isChain_iff_consecutive]
    intro a b hab
    rw [trailAdj_assign]
    exact (isChain_iff_consecutive t).1 (V.chain k t ht) a b hab
  · rw [hb.trails, hb.keys]; exact V.partition
  · intro a b hab
    rw [trailAdj_assign] at hab
    rw [hb.trails]; exact V.complete a b hab
  · rw [hb.trails]; intro k t ht n hn
    rw [typeOf_assignSequences]; exact V.support k t ht n hn
  · rw [hb.trails]; intro k t ht
    by_cases he : (k, t) = (key, tr)
    · obtain ⟨rfl, rfl⟩ := Prod.mk.inj he
      exact ⟨s, fun i hi => seqOf_assign D t s hnd (fun x hx => V.mem_keys ht hx) i hi⟩
    · obtain ⟨s', hs'⟩ := V.seq k t ht
      refine ⟨s', fun i hi => ?_⟩
      rw [seqOf_assign_not_mem _ _ _ _ ?_]
      · exact hs' i hi
      · intro hm
        exact he (V.unique w ht h (List.getElem_mem hi) hm)

/-! ## Pure filters -/

theorem filterE_pure {α : Type} {p : α → Except PyErr Bool} {q : α → Bool} {l : List α}
    (h : ∀ a ∈ l, p a = .ok (q a)) : filterE p l = .ok (l.filter q) := by
  induction l with
  | nil => rfl
  | cons a l ih =>
    simp only [filterE, h a (by simp), ih fun b hb => h b (by simp [hb])]
    by_cases hq : q a <;> simp [hq]

theorem filterE_error {α : Type} {p : α → Except PyErr Bool} {l : List α} {e : PyErr}
    {a : α} (ha : a ∈ l) (hp : p a = .error e) (hall : ∀ b ∈ l, ∀ e', p b = .error e' → e' = e) :
    filterE p l = .error e := by
  induction l with
  | nil => simp at ha
  | cons b l ih =>
    simp only [filterE]
    cases hb : p b with
    | error e' => rw [hall b (by simp) e' hb]
    | ok v =>
      rcases List.mem_cons.1 ha with rfl | ha
      · rw [hp] at hb; simp at hb
      · simp only [ih ha fun b hb => hall b (by simp [hb])]

theorem mapE_pure {α β : Type} {f : α → Except PyErr β} {g : α → β} {l : List α}
    (h : ∀ a ∈ l, f a = .ok (g a)) : mapE f l = .ok (l.map g) := by
  induction l with
  | nil => rfl
  | cons a l ih => simp [mapE, h a (by simp), ih fun b hb => h b (by simp [hb])]

theorem nodeSequence_of {D : Diagram R} {n k : Int} (h : seqOf D n = some k) :
    D.nodeSequence n = .ok k := by
  unfold seqOf at h
  unfold nodeSequence
  cases hc : D.nodes.get? n with
  | none => simp [hc] at h
  | some d => simp [hc] at h; simp [h]

theorem nodeSequence_none {D : Diagram R} {n : Int} (hn : n ∈ D.nodes.keys)
    (h : seqOf D n = none) : D.nodeSequence n = .error .valueError := by
  unfold seqOf at h
  unfold nodeSequence
  obtain ⟨d, hd⟩ := (Dict.exists_get?_iff _ _).2 hn
  simp [hd] at h; simp [hd, h]

theorem edgeSequence_of {D : Diagram R} {a b i j : Int} (ha : seqOf D a = some i)
    (hb : seqOf D b = some j) : D.edgeSequence (a, b) = .ok (i, j) := by
  simp [edgeSequence, nodeSequence_of ha, nodeSequence_of hb]

/-- `sequence_last` on assigned sequences. -/
theorem allSequences_of {l : Dict Int (NodeData R)} (h : ∀ p ∈ l, ∃ k, p.2.k = some k) :
    ∃ ks, allSequences l = .ok ks ∧ ks.length = l.length ∧
      (∀ k ∈ ks, ∃ p ∈ l, p.2.k = some k) ∧ (∀ p ∈ l, ∀ k, p.2.k = some k → k ∈ ks) := by
  induction l with
  | nil => exact ⟨[], rfl, rfl, by simp, by simp⟩
  | cons p l ih =>
    obtain ⟨ks, h1, h2, h3, h4⟩ := ih fun q hq => h q (by simp [hq])
    obtain ⟨k, hk⟩ := h p (by simp)
    refine ⟨k :: ks, ?_, by simp [h2], ?_, ?_⟩
    · obtain ⟨a, d⟩ := p
      simp only at hk
      simp only [allSequences, hk, h1]
    · intro x hx
      rcases List.mem_cons.1 hx with rfl | hx
      · exact ⟨p, by simp, hk⟩
      · obtain ⟨q, hq, he⟩ := h3 x hx; exact ⟨q, by simp [hq], he⟩
    · intro q hq x hx
      rcases List.mem_cons.1 hq with rfl | hq
      · rw [hk] at hx; simp [Option.some.inj hx]
      · simp [h4 q hq x hx]

theorem foldl_max_spec (l : List Int) (k : Int) :
    (k ≤ l.foldl max k ∧ ∀ x ∈ l, x ≤ l.foldl max k) ∧ (l.foldl max k = k ∨ l.foldl max k ∈ l) := by
  induction l generalizing k with
  | nil => simp
  | cons a l ih =>
    obtain ⟨⟨h1, h2⟩, h3⟩ := ih (max k a)
    simp only [List.foldl_cons]
    refine ⟨⟨le_trans (le_max_left k a) h1, ?_⟩, ?_⟩
    · intro x hx
      rcases List.mem_cons.1 hx with rfl | hx
      · exact le_trans (le_max_right k x) h1
      · exact h2 x hx
    · rcases h3 with h3 | h3
      · rcases max_choice k a with e | e
        · left; rw [h3, e]
        · right; rw [h3, e]; simp
      · right; simp [h3]

theorem sequenceLast_spec {D : Diagram R} (hn : D.nodes.keys.Nodup) (hne : D.nodes.keys ≠ [])
    (h : ∀ n ∈ D.nodes.keys, ∃ k, seqOf D n = some k) :
    ∃ m, D.sequenceLast = .ok m ∧ (∀ n ∈ D.nodes.keys, ∀ k, seqOf D n = some k → k ≤ m) ∧
      ∃ n ∈ D.nodes.keys, seqOf D n = some m := by
  have hd : ∀ p ∈ D.nodes, D.nodes.get? p.1 = some p.2 := fun p hp => Dict.get?_of_mem hn hp
  have hp : ∀ p ∈ D.nodes, ∃ k, p.2.k = some k := by
    intro p hp
    obtain ⟨k, hk⟩ := h p.1 (Dict.mem_keys_iff.2 ⟨_, hp⟩)
    exact ⟨k, by simpa [seqOf, hd p hp] using hk⟩
  obtain ⟨ks, h1, h2, h3, h4⟩ := allSequences_of hp
  cases ks with
  | nil =>
    exfalso
    have : D.nodes = [] := List.length_eq_zero_iff.1 h2.symm
    simp [this] at hne
  | cons k ks =>
    refine ⟨ks.foldl max k, by simp [sequenceLast, h1], ?_, ?_⟩
    · intro n hnk j hj
      obtain ⟨d, hdn⟩ := (Dict.exists_get?_iff _ _).2 hnk
      have := h4 (n, d) (Dict.mem_of_get? hdn) j (by simpa [seqOf, hdn] using hj)
      rcases List.mem_cons.1 this with rfl | this
      · exact (foldl_max_spec ks _).1.1
      · exact (foldl_max_spec ks k).1.2 j this
    · have : ks.foldl max k ∈ k :: ks := by
        rcases (foldl_max_spec ks k).2 with e | e
        · rw [e]; simp
        · simp [e]
      obtain ⟨p, hp', he⟩ := h3 _ this
      exact ⟨p.1, Dict.mem_keys_iff.2 ⟨_, hp'⟩, by simp [seqOf, hd p hp', he]⟩

theorem mem_pyRange {n k : Int} : k ∈ pyRange n ↔ 0 ≤ k ∧ k < n := by
  unfold pyRange
  simp only [List.mem_map, List.mem_range]
  constructor
  · rintro ⟨i, hi, rfl⟩; simp; omega
  · rintro ⟨h1, h2⟩; exact ⟨k.toNat, by omega, by simp; omega⟩

theorem sequenceAt_of {D : Diagram R} (h : ∀ n ∈ D.nodes.keys, ∃ k, seqOf D n = some k) (k : Int) :
    D.sequenceAt k = .ok (D.nodes.keys.filter fun n => seqOf D n = some k) := by
  unfold sequenceAt
  apply filterE_pure
  intro n hn
  obtain ⟨j, hj⟩ := h n hn
  simp [nodeSequence_of hj, hj]

/-! ## `trail_sequences` -/

theorem trailSequencesLoop_spec {D : Diagram R} (l : List Int) (acc : Dict Int Int)
    (h : ∀ n ∈ l, ∃ k, seqOf D n = some k)
    (hinj : ∀ a ∈ l, ∀ b ∈ l, seqOf D a = seqOf D b → a = b) :
    ∃ m, D.trailSequencesLoop l acc = .ok m ∧
      ∀ k n, m.get? k = some n ↔ (n ∈ l ∧ seqOf D n = some k) ∨
        ((∀ x ∈ l, seqOf D x ≠ some k) ∧ acc.get? k = some n) := by
  induction l generalizing acc with
  | nil => exact ⟨acc, rfl, by simp⟩
  | cons x l ih =>
    obtain ⟨kx, hx⟩ := h x (by simp)
    obtain ⟨m, hm, hspec⟩ := ih (acc.set kx x) (fun n hn => h n (by simp [hn]))
      (fun a ha b hb => hinj a (by simp [ha]) b (by simp [hb]))
    refine ⟨m, by simp [trailSequencesLoop, nodeSequence_of hx, hm], ?_⟩
    intro k n
    rw [hspec, Dict.get?_set]
    constructor
    · rintro (⟨h1, h2⟩ | ⟨h1, h2⟩)
      · exact Or.inl ⟨by simp [h1], h2⟩
      · split_ifs at h2 with e
        · subst e; simp at h2; subst h2; exact Or.inl ⟨by simp, hx⟩
        · refine Or.inr ⟨?_, h2⟩
          intro y hy
          rcases List.mem_cons.1 hy with rfl | hy
          · rw [hx]; simpa using e
          · exact h1 y hy
    · rintro (⟨h1, h2⟩ | ⟨h1, h2⟩)
      · rcases List.mem_cons.1 h1 with rfl | h1'
        · rw [hx] at h2
          obtain rfl := Option.some.inj h2
          by_cases hex : n ∈ l
          · exact Or.inl ⟨hex, hx⟩
          · refine Or.inr ⟨?_, by simp⟩
            intro y hy hyk
            have := hinj y (by simp [hy]) n (by simp) (by rw [hyk, hx])
            exact hex (this ▸ hy)
        · exact Or.inl ⟨h1', h2⟩
      · refine Or.inr ⟨fun y hy => h1 y (by simp [hy]), ?_⟩
        have : kx ≠ k := by
          intro e; exact h1 x (by simp) (by rw [hx, e])
        simp [this, h2]

theorem trailsSequencesLoop_spec {D : Diagram R} (l : List Int) (acc : Dict Int (Dict Int Int))
    (f : Int → Dict Int Int) (h : ∀ key ∈ l, D.trailSequences key = .ok (f key)) :
    ∃ m, D.trailsSequencesLoop l acc = .ok m ∧
      ∀ key, m.get? key = if key ∈ l then some (f key) else acc.get? key := by
  induction l generalizing acc with
  | nil => exact ⟨acc, rfl, by simp⟩
  | cons x l ih =>
    obtain ⟨m, hm, hs⟩ := ih (acc.set x (f x)) (fun k hk => h k (by simp [hk]))
    refine ⟨m, by simp [trailsSequencesLoop, h x (by simp), hm], ?_⟩
    intro key
    rw [hs, Dict.get?_set]
    by_cases h1 : key ∈ l
    · simp [h1]
    · by_cases h2 : x = key
      · subst h2; simp [h1]
      · simp [h1, h2, Ne.symm h2]

end Diagram
end CEM
