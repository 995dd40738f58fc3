import Verif.Lemmas.Autodiff
import Verif.Lemmas.AutodiffRules
import Verif.Props.Gradient

/-!
# Derivatives of forms

Where a family of problems settles, automatic differentiation of one of them finds the derivatives of
the form.
-/

set_option linter.unusedSectionVars false
set_option linter.unusedSimpArgs false

namespace CEM
namespace Props
open Diagram Spec Filter Topology

/-- `T` contains the derivatives of the numbers of the problems `D t` at zero. -/
structure Tangent (D : ℝ → Diagram ℝ) (T : Diagram ℝ) : Prop where
  same : ∀ t, SameExcept (fun _ => True) (D 0) (D t)
  positions : ∀ n, Moves (fun t => posOf (D t) n) (tanPos T n)
  loads : ∀ n, Moves (fun t => loadAt (D t) n) (tanLoad T n)
  lengths : ∀ e, HasDerivAt (fun t => lengthAt (D t) e) (tanLength T e) 0
  forces : ∀ e, HasDerivAt (fun t => forceAt (D t) e) (tanForce T e) 0

section
variable {D : ℝ → Diagram ℝ} {E : Diagram ℝ} {P T r : ℝ → Int → Vec ℝ}

theorem tracks_dev (G : Tangent D E) {A : Int → TVec ℝ} {n : Int} (l : List Int)
    (hl : ∀ m ∈ l, m ∈ (D 0).neighbors n) (hn : Tracks (A n) fun t => P t n)
    (hm : ∀ m ∈ l, Tracks (A m) (fun t => P t m) ∧ P 0 m ≠ P 0 n) {acc : TVec ℝ} {q : ℝ → Vec ℝ}
    (ha : Tracks acc q) :
    Tracks (devSumA (D 0) E A n l acc) fun t => q t + devSum (D t) (P t) n l := by
  induction l generalizing acc q with
  | nil =>
    refine Tracks.congr (a := acc) ha (.of_forall fun t => ?_)
    simp [devSum]
  | cons m l ih =>
    have hterm : Tracks (devTermA (D 0) E A n m) fun t => devTerm (D t) (P t) n m := by
      obtain ⟨h1, h2⟩ := hm m (by simp)
      obtain ⟨u, hu, ku⟩ := (h1.sub hn).normalize (sub_ne_zero.2 h2)
      have hnb := hl m (by simp)
      refine ⟨_, by simp only [devTermA, hu, Option.map_some]; rfl, ?_⟩
      refine Follow.scale ⟨?_, ?_⟩ ku
      · rfl
      · simp only [(edgeData_numbers (G.same _) hnb).2]
        exact G.forces _
    have := ih (fun x hx => hl x (by simp [hx])) (fun x hx => hm x (by simp [hx])) (ha.add hterm)
    refine Tracks.congr this (.of_forall fun t => ?_)
    simp only [devSum, List.map_cons, List.sum_cons]
    exact (add_assoc _ _ _).symm

/-- The outgoing trail vector. -/
theorem tracks_out (G : Tangent D E) {A : Int → TVec ℝ} {a : TVec ℝ} {n : Int} {ind : Bool} {t0 : ℝ → Vec ℝ}
    (ha : Tracks a t0) (hn : Tracks (A n) fun t => P t n)
    (hd : ∀ m ∈ dirNbrs (D 0) n, Tracks (A m) (fun t => P t m) ∧ P 0 m ≠ P 0 n)
    (hi : ∀ m ∈ indNbrs (D 0) n, ind = true ∧ Tracks (A m) (fun t => P t m) ∧ P 0 m ≠ P 0 n) :
    Tracks (outVecA (D 0) E ind A a n) fun t =>
      t0 t - loadOf (D t) n - devSum (D t) (P t) n (dirNbrs (D t) n) - devSum (D t) (P t) n (indNbrs (D t) n) := by
  have h1 := tracks_dev G (dirNbrs (D 0) n) (fun m hm => (List.mem_filter.1 hm).1) hn hd (Tracks.const 0)
  have h2 : Tracks (if ind then devSumA (D 0) E A n (indNbrs (D 0) n) (some (.const 0)) else some (.const 0))
      fun t => devSum (D t) (P t) n (indNbrs (D 0) n) := by
    rcases h0 : indNbrs (D 0) n with _ | ⟨m, l⟩
    · have e : (if ind then devSumA (D 0) E A n [] (some (.const 0)) else some (.const 0)) =
          some (Traced.const (0 : Vec ℝ)) := by cases ind <;> rfl
      rw [e]
      exact Tracks.congr (Tracks.const 0) (.of_forall fun t => by simp [devSum])
    · rw [← h0, if_pos (hi m (by rw [h0]; simp)).1]
      have := tracks_dev G (indNbrs (D 0) n) (fun m hm => (List.mem_filter.1 hm).1) hn
        (fun m hm => (hi m hm).2) (Tracks.const 0)
      exact Tracks.congr this (.of_forall fun t => by simp only [zero_add])
  have hq : Tracks (some ⟨loadOf (D 0) n, tanLoad E n⟩) fun t => loadOf (D t) n :=
    ⟨_, rfl, rfl, G.loads n⟩
  have := (((ha.neg.add hq).add h1).add h2).neg
  refine Tracks.congr this (.of_forall fun t => ?_)
  simp only [dirNbrs_shape (G.same t), indNbrs_shape (G.same t), zero_add]
  abel

/-- What is known in sweep `i` after the nodes `L1` have been processed. -/
def Known (D : Diagram ℝ) (stage : Int → Nat) (i : Nat) (L1 : List Int) (m : Int) : Prop :=
  (∀ a, trailNext D a ≠ some m) ∨ stage m < i ∨ (stage m ≤ i ∧ ∃ a ∈ L1, trailNext D a = some m)

/-- The state has the derivatives of what is known. -/
structure Right (D : ℝ → Diagram ℝ) (P T r : ℝ → Int → Vec ℝ) (stage : Int → Nat) (i : Nat) (L1 : List Int)
    (A : AState ℝ) : Prop where
  pos : ∀ m ∈ (D 0).nodes.keys, Known (D 0) stage i L1 m → Tracks (A.pos m) fun t => P t m
  res : ∀ m ∈ (D 0).nodes.keys, Known (D 0) stage i L1 m → Tracks (A.res m) fun t => T t m
  force : ∀ a b, trailNext (D 0) a = some b → stage b < i ∨ (stage b ≤ i ∧ a ∈ L1) →
    ∃ v, A.trailForces.get? (edgeKey (D 0) a b) = some v ∧ TracksN v fun t =>
      copysign (Vec.length (r t a)) (effectiveLength (edgeData (D t) a b) (P t a) (r t a))

variable {stage : Int → Nat}

/-- Neighbours of a node that is processed. -/
theorem right_out (I : ValidInput (D 0)) (G : Tangent D E)
    (hS : ∀ᶠ t in 𝓝 0, Settled (D t) (P t) (T t) (r t)) (hr : Firm (D 0) (P 0) (r 0))
    {L L1 L2 : List Int} {n : Int} (S : GoodSched (D 0) none L) (hL : L = L1 ++ n :: L2) {i : Nat} {A : AState ℝ}
    (H : Right D P T r stage i L1 A)
    (hc : stage n ≤ i ∧ (∀ m ∈ dirNbrs (D 0) n, stage m ≤ i) ∧
      ∀ m ∈ indNbrs (D 0) n, 0 < i ∧ (stage m ≤ i ∧ rankOf (D 0) m ≤ rankOf (D 0) n ∨ stage m < i)) :
    n ∈ (D 0).nodes.keys ∧ Tracks (A.pos n) (fun t => P t n) ∧
      Tracks (outVecA (D 0) E (i > 0) A.pos (A.res n) n) fun t => r t n := by
  have hnk : n ∈ (D 0).nodes.keys := (S.mem n).1 (by rw [hL]; simp)
  have hnx := nxtK_none I.wf I.trails
  have known : ∀ x ∈ (D 0).nodes.keys, stage x ≤ i → rankOf (D 0) x ≤ rankOf (D 0) n →
      Known (D 0) stage i L1 x := by
    intro x hx hs hr
    by_cases hex : ∃ a, trailNext (D 0) a = some x
    · obtain ⟨a, hax⟩ := hex
      refine Or.inr (Or.inr ⟨hs, a, ?_, hax⟩)
      have ha := (Follows.mem I.trails ((trailNext_iff I.wf I.trails).1 hax)).1
      have := S.sched.rank_succ a x (by rw [hnx]; exact hax)
      exact mem_before S.sched.sorted hL ((S.mem a).2 ha) (by omega)
    · push Not at hex; exact Or.inl hex
  have kn := known n hnk hc.1 le_rfl
  have hp := H.pos n hnk kn
  refine ⟨hnk, hp, ?_⟩
  have dev : ∀ m ∈ (D 0).neighbors n, (edgeData (D 0) n m).type = .deviation → P 0 m ≠ P 0 n := hr.apart n
  have ho := tracks_out G (ind := decide (i > 0)) (H.res n hnk kn) hp (fun m hm => ?_) (fun m hm => ?_)
  · refine Tracks.congr ho ?_
    filter_upwards [hS] with t ht
    rw [ht.out n (by rw [(G.same t).nodeKeys]; exact hnk)]
  · obtain ⟨h1, h2⟩ := List.mem_filter.1 hm
    simp only [decide_eq_true_eq] at h2
    have hmk := (mem_keys_of_nbr I.wf h1).1
    exact ⟨H.pos m hmk (known m hmk (hc.2.1 m hm) (rank_dirNbr hm).le), dev m h1 h2.1⟩
  · obtain ⟨h1, h2⟩ := List.mem_filter.1 hm
    simp only [decide_eq_true_eq] at h2
    have hmk := (mem_keys_of_nbr I.wf h1).1
    obtain ⟨g1, g2⟩ := hc.2.2 m hm
    refine ⟨by simpa using g1, ?_, dev m h1 h2.1⟩
    rcases g2 with ⟨g2, g3⟩ | g2
    · exact H.pos m hmk (known m hmk g2 g3)
    · exact H.pos m hmk (Or.inr (Or.inl g2))

theorem right_step (I : ValidInput (D 0)) (G : Tangent D E) (St : Staged (D 0) stage)
    (hS : ∀ᶠ t in 𝓝 0, Settled (D t) (P t) (T t) (r t)) (hr : Firm (D 0) (P 0) (r 0))
    (hl : NonzeroTrails (D 0))
    {L L1 L2 : List Int} {n : Int} (S : GoodSched (D 0) none L) (hL : L = L1 ++ n :: L2) {i : Nat} {A : AState ℝ}
    (H : Right D P T r stage i L1 A) :
    Right D P T r stage i (L1 ++ [n]) (aproc (D 0) E (nxtK (D 0) none) (i > 0) A n) := by
  have hnx := nxtK_none I.wf I.trails
  unfold aproc
  cases hn : nxtK (D 0) none n with
  | none =>
    rw [hnx] at hn
    have back : ∀ m, Known (D 0) stage i (L1 ++ [n]) m → Known (D 0) stage i L1 m := by
      rintro m (h | h | ⟨h, a, ha, ham⟩)
      · exact Or.inl h
      · exact Or.inr (Or.inl h)
      · rcases List.mem_append.1 ha with ha | ha
        · exact Or.inr (Or.inr ⟨h, a, ha, ham⟩)
        · simp only [List.mem_singleton] at ha; subst ha; rw [hn] at ham; simp at ham
    refine ⟨fun m hm h => H.pos m hm (back m h), fun m hm h => H.res m hm (back m h), fun a b hab h => ?_⟩
    refine H.force a b hab ?_
    rcases h with h | ⟨h, ha⟩
    · exact Or.inl h
    · rcases List.mem_append.1 ha with ha | ha
      · exact Or.inr ⟨h, ha⟩
      · simp only [List.mem_singleton] at ha; subst ha; rw [hn] at hab; simp at hab
  | some m0 =>
    have hn' : trailNext (D 0) n = some m0 := by rw [← hnx]; exact hn
    have hf : Follows (D 0) n m0 := (trailNext_iff I.wf I.trails).1 hn'
    have nbr : ∀ x ∈ (D 0).neighbors n, EdgeBetween (D 0) n x (edgeData (D 0) n x) :=
      fun x hx => (edgeBetween_iff I.simple).2 ⟨hx, rfl⟩
    obtain ⟨q, hq, e1, e2⟩ := Follows.seq I.trails hf
    -- the node that is placed
    have main : stage m0 ≤ i →
        Tracks (lift2 Traced.add (A.pos n) (lift2 Traced.scale
          (lenA (D 0) E n m0 (A.pos n) (outVecA (D 0) E (i > 0) A.pos (A.res n) n))
          (adDirection (outVecA (D 0) E (i > 0) A.pos (A.res n) n)))) (fun t => P t m0) ∧
        Tracks (outVecA (D 0) E (i > 0) A.pos (A.res n) n) (fun t => T t m0) ∧
        TracksN (adTrailForce (outVecA (D 0) E (i > 0) A.pos (A.res n) n)
          (lenA (D 0) E n m0 (A.pos n) (outVecA (D 0) E (i > 0) A.pos (A.res n) n)))
          fun t => copysign (Vec.length (r t n)) (effectiveLength (edgeData (D t) n m0) (P t n) (r t n)) := by
      intro hle
      obtain ⟨hnk, hp, ho⟩ := right_out I G hS hr S hL H (by
        refine ⟨(St.before n m0 hf).trans hle, fun x hx => ?_, fun x hx => ?_⟩
        · obtain ⟨h1, h2⟩ := List.mem_filter.1 hx
          simp only [decide_eq_true_eq] at h2
          exact (St.direct n m0 x _ hf (nbr x h1) h2.1 h2.2).trans hle
        · obtain ⟨h1, h2⟩ := List.mem_filter.1 hx
          simp only [decide_eq_true_eq] at h2
          have hxk := (mem_keys_of_nbr I.wf h1).1
          obtain ⟨p, hp, _⟩ := allSequenced_of_valid I.trails x hxk
          rcases lt_trichotomy p q with hlt | heq | hgt
          · obtain ⟨g1, g2⟩ := St.earlier n m0 x _ _ _ hf (nbr x h1) h2.1 e1 hp hlt
            refine ⟨by omega, Or.inl ⟨by omega, ?_⟩⟩
            unfold rankOf
            rw [hp, e1]
            exact hlt.le
          · exact absurd (by rw [e1, hp, heq]) h2.2
          · have g := St.later n m0 x _ _ _ hf (nbr x h1) h2.1 e1 hp hgt
            exact ⟨by omega, Or.inr (by omega)⟩)
      have hr0 := hr.trail n m0 hn'
      have hb := adj_mem_neighbors (trailNext_adj I.wf I.trails hn')
      have hlen : TracksN (lenA (D 0) E n m0 (A.pos n) (outVecA (D 0) E (i > 0) A.pos (A.res n) n))
          fun t => effectiveLength (edgeData (D t) n m0) (P t n) (r t n) := by
        refine tracks_length (d := fun t => edgeData (D t) n m0)
          (fun t => (edgeData_shape (G.same t) n m0).2) ⟨rfl, ?_⟩ hp ho hr0 fun o N => hr.plane n m0 o N hn'
        simp only [(edgeData_numbers (G.same _) hb).1]
        exact G.lengths _
      have e : ∀ᶠ t in 𝓝 0, P t m0 = P t n +
          effectiveLength (edgeData (D t) n m0) (P t n) (r t n) • Vec.normalize (r t n) ∧ T t m0 = r t n := by
        filter_upwards [hS] with t ht
        exact ht.next n (by rw [(G.same t).nodeKeys]; exact hnk) m0
          (by rw [trailNext_shape (G.same t)]; exact hn')
      obtain ⟨d1, d2⟩ := edgeData_trail I.wf I.trails I.simple hn'
      exact ⟨(hp.add ((tracks_direction ho hr0).scale hlen)).congr (e.mono fun t h => h.1),
        ho.congr (e.mono fun t h => h.2),
        tracks_force ho hlen hr0 (effectiveLength_ne_zero (hl _ _ d1 d2) _ _)⟩
    have back : ∀ m, m0 ≠ m → Known (D 0) stage i (L1 ++ [n]) m → Known (D 0) stage i L1 m := by
      rintro m e (h | h | ⟨h, a, ha, ham⟩)
      · exact Or.inl h
      · exact Or.inr (Or.inl h)
      · rcases List.mem_append.1 ha with ha | ha
        · exact Or.inr (Or.inr ⟨h, a, ha, ham⟩)
        · simp only [List.mem_singleton] at ha; subst ha; rw [hn'] at ham
          exact absurd (Option.some.inj ham) e
    have here : Known (D 0) stage i (L1 ++ [n]) m0 → stage m0 ≤ i := by
      rintro (h | h | ⟨h, _⟩)
      · exact absurd hn' (h n)
      · exact h.le
      · exact h
    refine ⟨fun m hm h => ?_, fun m hm h => ?_, fun a b hab h => ?_⟩
    · unfold AState.pos
      simp only [Dict.get?_set]
      by_cases e : m0 = m
      · subst e
        rw [if_pos rfl]
        exact (main (here h)).1
      · rw [if_neg e]
        exact H.pos m hm (back m e h)
    · unfold AState.res
      simp only [Dict.get?_set]
      by_cases e : m0 = m
      · subst e
        rw [if_pos rfl]
        exact (main (here h)).2.1
      · rw [if_neg e]
        exact H.res m hm (back m e h)
    · simp only [Dict.get?_set]
      by_cases e : a = n
      · subst e
        rw [hn'] at hab
        obtain rfl := Option.some.inj hab
        rw [if_pos rfl]
        exact ⟨_, rfl, (main (by rcases h with h | h; exacts [h.le, h.1])).2.2⟩
      · rw [if_neg fun h' => e (edgeKey_inj S.sched hn (by rw [hnx]; exact hab) h').1.symm]
        refine H.force a b hab ?_
        rcases h with h | ⟨h, ha⟩
        · exact Or.inl h
        · rcases List.mem_append.1 ha with ha | ha
          · exact Or.inr ⟨h, ha⟩
          · simp only [List.mem_singleton] at ha; exact absurd ha e

theorem right_fold (I : ValidInput (D 0)) (G : Tangent D E) (St : Staged (D 0) stage)
    (hS : ∀ᶠ t in 𝓝 0, Settled (D t) (P t) (T t) (r t)) (hr : Firm (D 0) (P 0) (r 0))
    (hl : NonzeroTrails (D 0)) {L : List Int} (S : GoodSched (D 0) none L) {i : Nat} {A : AState ℝ}
    (H : Right D P T r stage i [] A) (L1 L2 : List Int) (hL : L = L1 ++ L2) :
    Right D P T r stage i L1 (L1.foldl (aproc (D 0) E (nxtK (D 0) none) (i > 0)) A) := by
  induction L1 using List.reverseRecOn generalizing L2 with
  | nil => exact H
  | append_singleton L1 n ih =>
    have hsplit : L = L1 ++ n :: L2 := by simpa using hL
    simp only [List.foldl_append, List.foldl_cons, List.foldl_nil]
    exact right_step I G St hS hr hl S hsplit (ih (n :: L2) hsplit)

theorem right_init (I : ValidInput (D 0)) (G : Tangent D E)
    (hS : ∀ᶠ t in 𝓝 0, Settled (D t) (P t) (T t) (r t)) :
    Right D P T r stage 0 [] (adInit (D 0) E) := by
  have start : ∀ m ∈ (D 0).nodes.keys, Known (D 0) stage 0 [] m →
      ∀ᶠ t in 𝓝 0, P t m = posOf (D t) m ∧ T t m = 0 := by
    intro m hm h
    filter_upwards [hS] with t ht
    refine ht.start m (by rw [(G.same t).nodeKeys]; exact hm) fun a => ?_
    rw [trailNext_shape (G.same t)]
    rcases h with h | h | ⟨_, a, ha, _⟩
    · exact h a
    · omega
    · simp at ha
  refine ⟨fun m hm h => ?_, fun m hm h => ?_, fun a b hab h => ?_⟩
  · obtain ⟨d, hd⟩ := (Dict.exists_get?_iff _ _).2 hm
    have e : (adInit (D 0) E).pos m = some ⟨posOf (D 0) m, tanPos E m⟩ := by
      unfold AState.pos adInit posOf
      rw [get?_map_key (D 0).nodes (fun n d => some (Traced.mk d.pos (tanPos E n))), hd]
      simp
    rw [e]
    exact Tracks.congr ⟨_, rfl, rfl, G.positions m⟩ ((start m hm h).mono fun t h => h.1)
  · obtain ⟨d, hd⟩ := (Dict.exists_get?_iff _ _).2 hm
    have e : (adInit (D 0) E).res m = some (.const 0) := by
      unfold AState.res adInit
      rw [get?_map_val (D 0).nodes (fun d => some (Traced.const d.reaction)), hd]
      simp [I.reaction m d hd]
    rw [e]
    exact Tracks.congr (Tracks.const 0) ((start m hm h).mono fun t h => h.2)
  · rcases h with h | ⟨_, h⟩
    · omega
    · simp at h

theorem right_next {L : List Int} (I : ValidInput (D 0)) (S : GoodSched (D 0) none L) {i : Nat} {A : AState ℝ}
    (H : Right D P T r stage i L A) : Right D P T r stage (i + 1) [] A := by
  have key : ∀ a b, trailNext (D 0) a = some b → a ∈ L := fun a b h =>
    (S.mem a).2 (Follows.mem I.trails ((trailNext_iff I.wf I.trails).1 h)).1
  have known : ∀ m, Known (D 0) stage (i + 1) [] m → Known (D 0) stage i L m := by
    rintro m (h | h | ⟨_, a, ha, _⟩)
    · exact Or.inl h
    · by_cases hex : ∃ a, trailNext (D 0) a = some m
      · obtain ⟨a, ha⟩ := hex
        exact Or.inr (Or.inr ⟨by omega, a, key a m ha, ha⟩)
      · push Not at hex; exact Or.inl hex
    · simp at ha
  refine ⟨fun m hm h => H.pos m hm (known m h), fun m hm h => H.res m hm (known m h), fun a b hab h => ?_⟩
  refine H.force a b hab (Or.inr ⟨?_, key a b hab⟩)
  rcases h with h | ⟨_, h⟩
  · omega
  · simp at h

theorem right_iter (I : ValidInput (D 0)) (G : Tangent D E) (St : Staged (D 0) stage)
    (hS : ∀ᶠ t in 𝓝 0, Settled (D t) (P t) (T t) (r t)) (hr : Firm (D 0) (P 0) (r 0))
    (hl : NonzeroTrails (D 0)) {L : List Int} (S : GoodSched (D 0) none L) (i : Nat) :
    Right D P T r stage i [] (aIter (D 0) E L i) := by
  induction i with
  | zero => exact right_init I G hS
  | succ i ih => exact right_next I S (right_fold I G St hS hr hl S ih L [] (by simp))

/-- A state with derivatives has the numbers of a family of forms and their derivatives. -/
structure StateAlong (D : Diagram ℝ) (P r : ℝ → Int → Vec ℝ) (f : ℝ → Int → Int → ℝ) (s : AState ℝ) : Prop where
  pos : ∀ n ∈ D.nodes.keys, ∃ v, s.xyz.get? n = some v ∧ Tracks v fun t => P t n
  force : ∀ a b, trailNext D a = some b → ∃ v, s.trailForces.get? (edgeKey D a b) = some v ∧
    TracksN v fun t => f t a b
  reaction : ∀ n, typeOf D n = some .support → ∃ v, s.reactions.get? n = some v ∧ Tracks v fun t => r t n

theorem along_iter (I : ValidInput (D 0)) (G : Tangent D E) (St : Staged (D 0) stage)
    (hS : ∀ᶠ t in 𝓝 0, Settled (D t) (P t) (T t) (r t)) (hr : Firm (D 0) (P 0) (r 0))
    (hl : NonzeroTrails (D 0)) {L : List Int} (S : GoodSched (D 0) none L) (i : Nat)
    (hi : (∀ n ∈ (D 0).nodes.keys, stage n < i) ∨ (DirectOnly (D 0) ∧ ∀ n ∈ (D 0).nodes.keys, stage n ≤ i)) :
    StateAlong (D 0) P r (fun t a b => copysign (Vec.length (r t a))
      (effectiveLength (edgeData (D t) a b) (P t a) (r t a))) (aIter (D 0) E L (i + 1)) := by
  have hle : ∀ n ∈ (D 0).nodes.keys, stage n ≤ i := by
    rcases hi with hi | hi
    · exact fun n hn => (hi n hn).le
    · exact hi.2
  have R := right_fold I G St hS hr hl S (right_iter I G St hS hr hl S i) L [] (by simp)
  have hnx := nxtK_none I.wf I.trails
  refine ⟨fun n hn => ?_, fun a b hab => ?_, fun n hn => ?_⟩
  · obtain ⟨v, hv⟩ := (Dict.exists_get?_iff (aIter (D 0) E L (i + 1)).xyz n).2 (by
      rw [(goodAState_iter I.wf I.trails L (i + 1)).1]; exact hn)
    refine ⟨v, hv, ?_⟩
    have := R.pos n hn (by
      by_cases hex : ∃ a, trailNext (D 0) a = some n
      · obtain ⟨a, ha⟩ := hex
        exact Or.inr (Or.inr ⟨hle n hn, a,
          (S.mem a).2 (Follows.mem I.trails ((trailNext_iff I.wf I.trails).1 ha)).1, ha⟩)
      · push Not at hex; exact Or.inl hex)
    unfold AState.pos at this
    change Tracks (((aIter (D 0) E L (i + 1)).xyz.get? n).getD (some (.const 0))) _ at this
    rw [hv] at this
    exact this
  · obtain ⟨h1, h2⟩ := Follows.mem I.trails ((trailNext_iff I.wf I.trails).1 hab)
    exact R.force a b hab (Or.inr ⟨hle b h2, (S.mem a).2 h1⟩)
  · have hnk := mem_of_typeOf hn
    have hx : nxtK (D 0) none n = none := by unfold nxtK; rw [if_pos (Or.inl hn)]
    obtain ⟨L1, L2, hL⟩ := List.append_of_mem ((S.mem n).2 hnk)
    have R1 := right_fold I G St hS hr hl S (right_iter I G St hS hr hl S i) L1 (n :: L2) hL
    obtain ⟨_, _, ho⟩ := right_out I G hS hr S hL R1 (by
      refine ⟨hle n hnk, fun m hm => ?_, fun m hm => ?_⟩
      · exact hle m (mem_keys_of_nbr I.wf (List.mem_filter.1 hm).1).1
      · have hmk := (mem_keys_of_nbr I.wf (List.mem_filter.1 hm).1).1
        rcases hi with hi | hi
        · have := hi m hmk
          exact ⟨by omega, Or.inr this⟩
        · rw [indNbrs_direct hi.1] at hm; simp at hm)
    have keep : ∀ (l : List Int) (s : AState ℝ), n ∉ l →
        (l.foldl (aproc (D 0) E (nxtK (D 0) none) (i > 0)) s).reactions.get? n = s.reactions.get? n := by
      intro l
      induction l with
      | nil => intro s _; rfl
      | cons a l ih =>
        intro s h
        rw [List.foldl_cons, ih _ fun h' => h (by simp [h'])]
        unfold aproc
        cases nxtK (D 0) none a with
        | none =>
          simp only [Dict.get?_set]
          rw [if_neg fun e => h (by simp [e])]
        | some m => rfl
    have hnd : n ∉ L2 := by
      have := S.sched.nodup
      rw [hL] at this
      exact (List.nodup_cons.1 (List.nodup_append.1 this).2.1).1
    have e : aIter (D 0) E L (i + 1) = L2.foldl (aproc (D 0) E (nxtK (D 0) none) (i > 0))
        (aproc (D 0) E (nxtK (D 0) none) (i > 0)
          (L1.foldl (aproc (D 0) E (nxtK (D 0) none) (i > 0)) (aIter (D 0) E L i)) n) := by
      rw [aIter]
      conv_lhs => rw [hL]
      rw [List.foldl_append, List.foldl_cons, ← hL]
    rw [e, keep L2 _ hnd]
    simp only [aproc, hx, Dict.get?_set_self]
    exact ⟨_, rfl, ho⟩

end

end Props
end CEM
