import Verif.Lemmas.EqLoop
import Verif.Lemmas.Simulation
import Verif.Spec.Stray

/-! # The sweeps change only what lies on the stored trails -/

set_option linter.unusedSectionVars false
set_option linter.unusedSimpArgs false

namespace CEM
open Diagram Spec

variable {R : Type} [Field R] [LinearOrder R] [PySqrt R]

theorem trailSequencesLoop_on {D : Diagram R} {tr : List Int} :
    ∀ (l : List Int) (acc : Dict Int Int), (∀ n ∈ l, n ∈ tr) →
      (∀ k n, acc.get? k = some n → n ∈ tr ∧ seqOf D n = some k) →
      ∀ {S}, D.trailSequencesLoop l acc = .ok S →
      ∀ k n, S.get? k = some n → n ∈ tr ∧ seqOf D n = some k := by
  intro l
  induction l with
  | nil =>
    intro acc _ ha S h
    unfold trailSequencesLoop at h
    rw [← Except.ok.inj h]; exact ha
  | cons m l ih =>
    intro acc hl ha S h
    unfold trailSequencesLoop at h
    cases hm : D.nodeSequence m with
    | error e => rw [hm] at h; simp at h
    | ok k0 =>
      rw [hm] at h
      refine ih _ (fun n hn => hl n (List.mem_cons_of_mem _ hn)) ?_ h
      intro k n hk
      rw [Dict.get?_set] at hk
      split_ifs at hk with hc
      · subst hc
        rw [← Option.some.inj hk]
        refine ⟨hl m List.mem_cons_self, ?_⟩
        unfold nodeSequence at hm
        unfold seqOf
        cases hd : D.nodes.get? m with
        | none => rw [hd] at hm; simp at hm
        | some d =>
          rw [hd] at hm
          cases hk2 : d.k with
          | none => simp [hk2] at hm
          | some k2 => simpa [hk2] using hm
      · exact ha k n hk

theorem trailsSequences_on {D : Diagram R} {T : Dict Int (Dict Int Int)}
    (h : D.trailsSequences = .ok T) {key : Int} {S : Dict Int Int} (hS : T.get? key = some S) :
    ∃ tr, (∃ key, (key, tr) ∈ D.trails) ∧
      ∀ k n, S.get? k = some n → n ∈ tr ∧ seqOf D n = some k := by
  unfold trailsSequences at h
  have : ∀ (l : List Int) (acc : Dict Int (Dict Int Int)),
      (∀ key S, acc.get? key = some S → ∃ tr, (∃ key, (key, tr) ∈ D.trails) ∧
        ∀ k n, S.get? k = some n → n ∈ tr ∧ seqOf D n = some k) →
      ∀ {T}, D.trailsSequencesLoop l acc = .ok T →
      ∀ key S, T.get? key = some S → ∃ tr, (∃ key, (key, tr) ∈ D.trails) ∧
        ∀ k n, S.get? k = some n → n ∈ tr ∧ seqOf D n = some k := by
    intro l
    induction l with
    | nil =>
      intro acc ha T h
      unfold trailsSequencesLoop at h
      rw [← Except.ok.inj h]; exact ha
    | cons m l ih =>
      intro acc ha T h
      unfold trailsSequencesLoop at h
      cases hm : D.trailSequences m with
      | error e => rw [hm] at h; simp at h
      | ok S0 =>
        rw [hm] at h
        refine ih _ ?_ h
        intro key S hk
        rw [Dict.get?_set] at hk
        split_ifs at hk with hc
        · rw [← Option.some.inj hk]
          unfold trailSequences at hm
          cases ht : D.trails.get? m with
          | none => rw [ht] at hm; simp at hm
          | some tr =>
            rw [ht] at hm
            exact ⟨tr, ⟨m, Dict.mem_of_get? ht⟩,
              trailSequencesLoop_on tr [] (fun _ h => h) (by simp [Dict.get?]) hm⟩
        · exact ha key S hk
  exact this _ [] (by simp [Dict.get?]) h key S hS

/-- What holds between the initial state and the state `s`. -/
structure StraySpec (D : Diagram R) (kmax : Option Int) (s : EqState R) : Prop where
  keys : s.xyz.keys = D.nodes.keys
  reactionsNodup : s.reactions.keys.Nodup
  forcesNodup : s.trailForces.keys.Nodup
  pos : ∀ n, ¬ Movable D n → s.xyz.get? n = (D.nodes.get? n).map (·.pos)
  reaction : ∀ n, ¬ Reacting D kmax n → s.reactions.get? n = none
  force : ∀ e, ¬ Stretched D e → s.trailForces.get? e = none

theorem straySpec_init (D : Diagram R) (kmax : Option Int) : StraySpec D kmax (initState D) where
  keys := keys_map_val _ _
  reactionsNodup := List.nodup_nil
  forcesNodup := List.nodup_nil
  pos _ _ := get?_map_val _ _ _
  reaction _ _ := rfl
  force _ _ := rfl

theorem eqStep_stray {D : Diagram R} (w : WF D) {T : Dict Int (Dict Int Int)}
    (hT : D.trailsSequences = .ok T) {kmax : Option Int}
    {ind : Bool} {k : Int} (hk0 : 0 ≤ k) {s s' : EqState R} {key : Int}
    (h : eqStep D T kmax ind k s key = .ok s') (hs : StraySpec D kmax s) :
    StraySpec D kmax s' := by
  have hkeys := Trans.Good.step_keys w h hs.keys
  unfold eqStep at h
  cases h1 : T.getE key with
  | error _ => simp [h1] at h
  | ok seqs =>
    obtain ⟨tr, htr, hon⟩ := trailsSequences_on hT (Dict.getE_eq_ok_iff.1 h1)
    simp only [h1] at h
    cases h2 : seqs.get? k with
    | none => simp only [h2] at h; rw [← Except.ok.inj h]; exact hs
    | some node =>
      obtain ⟨hmem, hseq⟩ := hon k node h2
      simp only [h2] at h
      cases h3 : s.xyz.getE node with
      | error _ => simp [h3] at h
      | ok pos =>
        simp only [h3] at h
        cases h4 : s.residual.getE node with
        | error _ => simp [h4] at h
        | ok rin =>
          simp only [h4] at h
          cases h5 : nodeEquilibrium D node rin s.xyz ind with
          | error _ => simp [h5] at h
          | ok rvec =>
            simp only [h5] at h
            cases h6 : D.isNodeSupport node with
            | error _ => simp [h6] at h
            | ok sup =>
              simp only [h6] at h
              by_cases hsup : sup = true ∨ kmax = some k
              · rw [if_pos hsup] at h
                have h := Except.ok.inj h
                subst h
                refine ⟨hkeys, Dict.nodup_keys_set hs.reactionsNodup, hs.forcesNodup, hs.pos,
                  ?_, hs.force⟩
                intro n hn
                show (s.reactions.set node rvec).get? n = none
                rw [Dict.get?_set]
                split_ifs with hc
                · subst hc
                  refine absurd ⟨tr, k, ⟨htr, hmem, hseq⟩, ?_⟩ hn
                  rcases hsup with hsup | hsup
                  · left
                    unfold isNodeSupport at h6
                    cases hd : D.nodes.get? node with
                    | none => simp [hd] at h6
                    | some d =>
                      refine ⟨d, rfl, ?_⟩
                      simpa [hd, hsup] using h6
                  · exact Or.inr hsup
                · exact hs.reaction n hn
              · rw [if_neg hsup] at h
                cases h7 : seqs.getE (k + 1) with
                | error _ => simp [h7] at h
                | ok next =>
                  obtain ⟨hmem', hseq'⟩ := hon (k + 1) next (Dict.getE_eq_ok_iff.1 h7)
                  simp only [h7] at h
                  cases h8 : D.edges.getE (if D.edges.has (node, next) then (node, next)
                      else (next, node)) with
                  | error _ => simp [h8] at h
                  | ok d =>
                    simp only [h8] at h
                    have h := Except.ok.inj h
                    subst h
                    refine ⟨hkeys, hs.reactionsNodup, Dict.nodup_keys_set hs.forcesNodup, ?_,
                      hs.reaction, ?_⟩
                    · intro n hn
                      show (s.xyz.set next _).get? n = _
                      rw [Dict.get?_set]
                      split_ifs with hc
                      · subst hc
                        exact absurd ⟨tr, k + 1, ⟨htr, hmem', hseq'⟩, by omega⟩ hn
                      · exact hs.pos n hn
                    · intro e he
                      show (s.trailForces.set _ _).get? e = none
                      rw [Dict.get?_set]
                      by_cases hc : (if D.edges.has (node, next) then (node, next)
                          else (next, node)) = e
                      · refine absurd ⟨tr, k, ?_⟩ he
                        rw [← hc]
                        split_ifs
                        · exact Or.inl ⟨⟨htr, hmem, hseq⟩, ⟨htr, hmem', hseq'⟩⟩
                        · exact Or.inr ⟨⟨htr, hmem, hseq⟩, ⟨htr, hmem', hseq'⟩⟩
                      · rw [if_neg hc]
                        exact hs.force e he

theorem forE_inv_mem {α σ : Type} {f : σ → α → Except PyErr σ} {P : σ → Prop} (l : List α)
    (h : ∀ s, ∀ a ∈ l, ∀ s', f s a = .ok s' → P s → P s') {s s' : σ}
    (hl : forE f l s = .ok s') (hs : P s) : P s' := by
  induction l generalizing s with
  | nil => unfold forE at hl; rw [← Except.ok.inj hl]; exact hs
  | cons a l ih =>
    unfold forE at hl
    cases hf : f s a with
    | error _ => simp [hf] at hl
    | ok s1 =>
      simp only [hf] at hl
      exact ih (fun s a ha => h s a (List.mem_cons_of_mem _ ha)) hl
        (h _ _ List.mem_cons_self _ hf hs)

theorem sweep_stray {D : Diagram R} (w : WF D) {T : Dict Int (Dict Int Int)}
    (hT : D.trailsSequences = .ok T) {kmax : Option Int} {ind : Bool} {n : Int}
    {s s' : EqState R} (h : sweep D T kmax ind n s = .ok s') (hs : StraySpec D kmax s) :
    StraySpec D kmax s' := by
  unfold sweep at h
  refine forE_inv_mem (P := StraySpec D kmax) _ ?_ h hs
  intro s k hk s' h hs
  have hk0 : 0 ≤ k := by
    unfold pyRange at hk
    obtain ⟨i, _, rfl⟩ := List.mem_map.1 hk
    exact Int.natCast_nonneg i
  exact forE_inv_mem (P := StraySpec D kmax) _ (fun _ _ _ _ h hs => eqStep_stray w hT hk0 h hs) h hs

theorem sweepsN_stray {D : Diagram R} (w : WF D) {T : Dict Int (Dict Int Int)}
    (hT : D.trailsSequences = .ok T) {kmax : Option Int} {n : Int} :
    ∀ (m : Nat) {s : EqState R}, sweepsN D T kmax n m = .ok s → StraySpec D kmax s
  | 0, s, h => by
    unfold sweepsN at h
    rw [← Except.ok.inj h]
    exact straySpec_init D kmax
  | m + 1, s, h => by
    unfold sweepsN at h
    cases hm : sweepsN D T kmax n m with
    | error e => rw [hm] at h; simp at h
    | ok s0 =>
      rw [hm] at h
      exact sweep_stray w hT h (sweepsN_stray w hT m hm)

theorem allSequences_some {l : Dict Int (NodeData R)} {ks : List Int}
    (h : allSequences l = .ok ks) : ∀ p ∈ l, ∃ k, p.2.k = some k := by
  induction l generalizing ks with
  | nil => simp
  | cons q l ih =>
    obtain ⟨a, d⟩ := q
    unfold allSequences at h
    cases hk : d.k with
    | none => simp [hk] at h
    | some k =>
      simp only [hk] at h
      cases hl : allSequences l with
      | error e => simp [hl] at h
      | ok ks' =>
        intro p hp
        rcases List.mem_cons.1 hp with rfl | hp
        · exact ⟨k, hk⟩
        · exact ih hl p hp

end CEM
