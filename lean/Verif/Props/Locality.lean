import Verif.Lemmas.Locality
import Verif.Props.Returned

/-!
# Property C60: what a part of a form depends on

Causality along the sequences, independence of parts that are not connected, and the effect of
`kmax` on the nodes before it.
-/

set_option linter.unusedSectionVars false
set_option linter.unusedSimpArgs false

namespace CEM
namespace Props
open Diagram Spec

section
variable {R : Type} [Field R] [LinearOrder R] [PySqrt R]

theorem form_edgeBetween {D : Diagram R} {kmax : Option Int} {ind : Bool} {p s : EqState R}
    {r : Int → Vec R} {Q : Int → Int → Vec R} (g : SimpleGraph D)
    (S : FinalSpec D kmax ind p s r Q) {a b : Int} {d : EdgeData R}
    (h : EdgeBetween (formOf D s) a b d) :
    b ∈ D.neighbors a ∧
      d.force = (s.trailForces.get? (edgeKey D a b)).getD (edgeData D a b).force := by
  have go : ∀ e, (formOf D s).edges.get? e = some d → edgeKey D a b = e → 
      d.force = (s.trailForces.get? (edgeKey D a b)).getD (edgeData D a b).force := by
    intro e he hk
    rw [formOf_edge S] at he
    obtain ⟨d0, h0, rfl⟩ := Option.map_eq_some_iff.1 he
    rw [(signedLength_type _ _ _).2.2, hk]
    unfold edgeData
    rw [hk, h0]; rfl
  have hk2 : (formOf D s).edges.keys = D.edges.keys := formEdges_keys _ _
  rcases h with h | h
  · have hm := Dict.mem_keys_of_get? h
    rw [hk2] at hm
    exact ⟨mem_neighbors.2 (Or.inl hm), go _ h (edgeKey_of_mem g hm).1⟩
  · have hm := Dict.mem_keys_of_get? h
    rw [hk2] at hm
    exact ⟨mem_neighbors.2 (Or.inr hm), go _ h (edgeKey_of_mem g hm).2⟩

/-- C60. If two diagrams without indirect deviation edges agree on the data that a part depends on,
then the forms found for them, with any `kmax` that does not stop in the part, agree on the
part. -/
theorem C60_shared_part {D E : Diagram R} (I : ValidInput D) (J : ValidInput E) (hd : DirectOnly D)
    (hd' : DirectOnly E) {A B : Int → Prop} (h : SharedPart D E A B) {kD kE : Option Int}
    (h0 : ∀ k, kD = some k ∨ kE = some k → 0 ≤ k)
    (hk : ∀ a b, A b → Follows D a b → kD ≠ seqOf D a ∧ kE ≠ seqOf E a)
    {t1 t2 : Nat} {eta1 eta2 : R} {v1 v2 : Bool} {F G : Diagram R}
    (hF : staticEquilibrium D kD t1 eta1 v1 = .ok F)
    (hG : staticEquilibrium E kE t2 eta2 v2 = .ok G) :
    (∀ n, A n → posOf F n = posOf G n) ∧
    (∀ n, B n → typeOf D n = some .support → typeOf E n = some .support →
      reactionAt F n = reactionAt G n) ∧
    (∀ a b dF dG, A b → Follows D a b → EdgeBetween F a b dF → EdgeBetween G a b dG →
      dF.force = dG.force) := by
  have w := I.wf
  have w' := J.wf
  obtain ⟨ind, p, s, r, Q, rfl, S, _⟩ := returned_final I (fun k e => h0 k (Or.inl e)) hF
  obtain ⟨ind', p', s', r', Q', rfl, S', _⟩ := returned_final J (fun k e => h0 k (Or.inr e)) hG
  obtain ⟨hA, hB⟩ := h.solves I J hd hd' hk (S.solves hd) (S'.solves hd') (by
    intro m hm hx
    have hx' : ∀ a, ¬ Follows E a m := fun a ha => hx a ((h.same_before a m hm).2 ha)
    obtain ⟨h1, h2⟩ := S.start m fun a _ ha => hx a ((trailNext_iff w I.trails).1 (nxtK_trail ha))
    obtain ⟨h3, h4⟩ := S'.start m fun a _ ha => hx' a ((trailNext_iff w' J.trails).1 (nxtK_trail ha))
    obtain ⟨d, hdn⟩ := (Dict.exists_get?_iff _ _).2 (h.left m hm)
    obtain ⟨d', hdn'⟩ := (Dict.exists_get?_iff _ _).2 (h.right m hm)
    refine ⟨?_, ?_⟩
    · rw [h1, h3, posOf_init, posOf_init]
      exact h.origins m hm hx
    · rw [h2, h4]
      unfold EqState.res initState
      rw [get?_map_val D.nodes (fun d => d.reaction), get?_map_val E.nodes (fun d => d.reaction),
        hdn, hdn']
      simp [I.reaction m d hdn, J.reaction m d' hdn'])
  refine ⟨?_, ?_, ?_⟩
  · intro n hn
    rw [posOf_form w S, posOf_form w' S']
    exact (hA n hn).1
  · intro n hn t1 t2
    have hAn := h.sub n hn
    rw [reactionAt_form w S I.reaction (h.left n hAn), reactionAt_form w' S' J.reaction (h.right n hAn)]
    unfold nxtK
    rw [if_pos (Or.inl t1), if_pos (Or.inl t2), if_pos rfl, if_pos rfl]
    exact hB n hn
  · intro a b dF dG hb hf e1 e2
    have hf' := (h.same_before a b hb).1 hf
    have hBa := h.before a b hb hf
    have hAa := h.sub a hBa
    obtain ⟨k1, k2⟩ := hk a b hb hf
    have n1 := (trailNext_iff w I.trails).2 hf
    have n2 := (trailNext_iff w' J.trails).2 hf'
    have x1 : nxtK D kD a = some b := by
      unfold nxtK; rw [if_neg]
      · exact n1
      · rintro (c | c)
        · exact trailNext_support w I.trails n1 c
        · exact k1 c.2
    have x2 : nxtK E kE a = some b := by
      unfold nxtK; rw [if_neg]
      · exact n2
      · rintro (c | c)
        · exact trailNext_support w' J.trails n2 c
        · exact k2 c.2
    obtain ⟨b1, f1⟩ := form_edgeBetween I.simple S e1
    obtain ⟨b2, f2⟩ := form_edgeBetween J.simple S' e2
    obtain ⟨l1, l2⟩ := h.trailData a b _ _ hb hf ((edgeBetween_iff I.simple).2 ⟨b1, rfl⟩)
      ((edgeBetween_iff J.simple).2 ⟨b2, rfl⟩)
    have hlen : ∀ p v, effectiveLength (edgeData D a b) p v = effectiveLength (edgeData E a b) p v := by
      intro p v; unfold effectiveLength; rw [l1, l2]
    rw [f1, f2, (S.next a (h.left a hAa) b x1).2.2.1, (S'.next a (h.right a hAa) b x2).2.2.1, hlen,
      (hA a hAa).1, hB a hBa]
    rfl

/-- C60, causality. If two diagrams without indirect deviation edges differ only in the data of later
sequences, then the forms found for them agree up to sequence `k`: positions of
nodes, reactions of supports before `k` and forces of trail edges. -/
theorem C60_causality {D E : Diagram R} (I : ValidInput D) (J : ValidInput E) (hd : DirectOnly D)
    {k : Int} (h : SameUpTo k D E)
    {t1 t2 : Nat} {eta1 eta2 : R} {v1 v2 : Bool} {F G : Diagram R}
    (hF : staticEquilibrium D none t1 eta1 v1 = .ok F)
    (hG : staticEquilibrium E none t2 eta2 v2 = .ok G) :
    (∀ n ∈ D.nodes.keys, AtMost D k n → posOf F n = posOf G n) ∧
    (∀ n ∈ D.nodes.keys, AtMost D (k - 1) n → typeOf D n = some .support →
      reactionAt F n = reactionAt G n) ∧
    (∀ a b dF dG, AtMost D k b → Follows D a b → EdgeBetween F a b dF → EdgeBetween G a b dG →
      dF.force = dG.force) := by
  obtain ⟨h1, h2, h3⟩ := C60_shared_part I J hd (h.directOnly hd) (h.sharedPart I hd)
    (kD := none) (kE := none) (by simp) (by
      intro a b _ hf
      obtain ⟨j, _, e1, _⟩ := Follows.seq I.trails hf
      rw [← h.seq, e1]; simp) hF hG
  exact ⟨fun n hn hk => h1 n ⟨hn, hk⟩, fun n hn hk ht => h2 n ⟨hn, hk⟩ ht (by rw [← h.type]; exact ht),
    fun a b dF dG hb hf => h3 a b dF dG ⟨(Follows.mem I.trails hf).2, hb⟩ hf⟩

/-- C60, independence. A part of a diagram that is not connected with the rest has the same form as if
it were alone. -/
theorem C60_independent {D E : Diagram R} (I : ValidInput D) (J : ValidInput E) (hd : DirectOnly D)
    (hd' : DirectOnly E) (h : PartOf D E)
    {t1 t2 : Nat} {eta1 eta2 : R} {v1 v2 : Bool} {F G : Diagram R}
    (hF : staticEquilibrium D none t1 eta1 v1 = .ok F)
    (hG : staticEquilibrium E none t2 eta2 v2 = .ok G) :
    (∀ n ∈ D.nodes.keys, posOf F n = posOf G n ∧ reactionAt F n = reactionAt G n) ∧
    (∀ e dF dG, F.edges.get? e = some dF → G.edges.get? e = some dG → dF.force = dG.force) := by
  have hseq : ∀ E' : Diagram R, ValidInput E' → ∀ a b, Follows E' a b → (none : Option Int) ≠ seqOf E' a := by
    intro E' J' a b hf
    obtain ⟨j, _, e1, _⟩ := Follows.seq J'.trails hf
    rw [e1]; simp
  have SP := h.sharedPart I J
  obtain ⟨h1, h2, h3⟩ := C60_shared_part I J hd hd' SP (kD := none) (kE := none) (by simp)
    (fun a b hb hf => ⟨hseq D I a b hf, hseq E J a b ((SP.same_before a b hb).1 hf)⟩) hF hG
  obtain ⟨k1, k2, k3, k4⟩ := C25_keeps_data I hF
  obtain ⟨l1, l2, l3, l4⟩ := C25_keeps_data J hG
  refine ⟨fun n hn => ⟨h1 n hn, ?_⟩, ?_⟩
  · obtain ⟨d, hdn⟩ := (Dict.exists_get?_iff _ _).2 hn
    have hen := h.nodes n d hdn
    by_cases ht : d.type = .support
    · apply h2 n hn <;> unfold typeOf
      · rw [hdn, ← ht]; rfl
      · rw [hen, ← ht]; rfl
    · obtain ⟨d1, q1, _, _, _, _, z1⟩ := k3 n d hdn
      obtain ⟨d2, q2, _, _, _, _, z2⟩ := l3 n d hen
      unfold reactionAt
      rw [q1, q2]
      simp [z1 ht, z2 ht]
  · rintro ⟨a, b⟩ dF dG e1 e2
    have hm : (a, b) ∈ D.edges.keys := by rw [← k2]; exact Dict.mem_keys_of_get? e1
    obtain ⟨d, hde⟩ := (Dict.exists_get?_iff _ _).2 hm
    obtain ⟨d1, q1, _, _, z1⟩ := k4 _ d hde
    obtain ⟨d2, q2, _, _, z2⟩ := l4 _ d (h.edges _ _ hde)
    rw [q1] at e1; rw [q2] at e2
    obtain rfl := Option.some.inj e1
    obtain rfl := Option.some.inj e2
    cases ht : d.type with
    | untyped => exact absurd ht (I.typed _ _ hde)
    | deviation => rw [z1 ht, z2 ht]
    | trail =>
      obtain ⟨key, tr, htr, hc⟩ := I.trails.complete a b (Or.inl ⟨d, hde, ht⟩)
      rcases hc with hc | hc
      · exact h3 a b _ _ (I.wf.edge_right _ hm) ⟨key, tr, htr, hc⟩ (Or.inl q1) (Or.inl q2)
      · exact h3 b a _ _ (I.wf.edge_left _ hm) ⟨key, tr, htr, hc⟩ (Or.inr q1) (Or.inr q2)

/-- C60, `kmax`. Stopping after sequence `k` gives the nodes up to `k` the positions of the complete
form, and the trail edges up to `k` its forces. -/
theorem C60_kmax {D : Diagram R} (I : ValidInput D) (hd : DirectOnly D) {k : Int} (hk : 0 ≤ k)
    {t1 t2 : Nat} {eta1 eta2 : R} {v1 v2 : Bool} {F G : Diagram R}
    (hF : staticEquilibrium D (some k) t1 eta1 v1 = .ok F)
    (hG : staticEquilibrium D none t2 eta2 v2 = .ok G) :
    (∀ n ∈ D.nodes.keys, AtMost D k n → posOf F n = posOf G n) ∧
    (∀ n ∈ D.nodes.keys, AtMost D k n → typeOf D n = some .support →
      reactionAt F n = reactionAt G n) ∧
    (∀ a b dF dG, AtMost D k b → Follows D a b → EdgeBetween F a b dF → EdgeBetween G a b dG →
      dF.force = dG.force) := by
  have one : ∀ a b d d', EdgeBetween D a b d → EdgeBetween D a b d' → d = d' := by
    intro a b d d' e1 e2
    rw [← ((edgeBetween_iff I.simple).1 e1).2, ← ((edgeBetween_iff I.simple).1 e2).2]
  have before : ∀ a b, AtMost D k b → Follows D a b → ∃ j, seqOf D a = some j ∧ j < k := by
    rintro a b ⟨s, hs, hle⟩ hf
    obtain ⟨j, _, e1, e2⟩ := Follows.seq I.trails hf
    rw [hs] at e2
    have := Option.some.inj e2
    exact ⟨j, e1, by omega⟩
  have SP : SharedPart D D (fun n => n ∈ D.nodes.keys ∧ AtMost D k n)
      (fun n => n ∈ D.nodes.keys ∧ AtMost D k n) := by
    refine ⟨fun _ h => h.1, fun _ h => h.1, fun _ h => h, ?_, fun _ _ _ => Iff.rfl, ?_,
      fun _ _ _ => rfl, fun _ _ => rfl, fun _ _ _ => Iff.rfl, ?_⟩
    · intro a b hb hf
      obtain ⟨j, e, hj⟩ := before a b hb.2 hf
      exact ⟨(Follows.mem I.trails hf).1, j, e, hj.le⟩
    · intro a b d d' _ _ e1 e2
      rw [one a b d d' e1 e2]; exact ⟨rfl, rfl⟩
    · intro n m d d' hn e1 ht e2 _
      have hs : seqOf D n = seqOf D m := by
        rcases e1 with e | e
        · exact hd _ _ _ e ht
        · exact (hd _ _ _ e ht).symm
      refine ⟨by rw [one n m d d' e1 e2], ?_, ?_⟩
      · rcases edgeBetween_mem e1 with q | q
        · exact I.wf.edge_right _ q
        · exact I.wf.edge_left _ q
      · obtain ⟨j, h1, h2⟩ := hn.2
        exact ⟨j, by rw [← hs]; exact h1, h2⟩
  obtain ⟨h1, h2, h3⟩ := C60_shared_part I I hd hd SP (kD := some k) (kE := none)
    (by rintro j (e | e) <;> cases e; exact hk)
    (by
      intro a b hb hf
      obtain ⟨j, e, hj⟩ := before a b hb.2 hf
      rw [e]
      exact ⟨fun h => by have := Option.some.inj h; omega, by simp⟩) hF hG
  exact ⟨fun n hn hk => h1 n ⟨hn, hk⟩, fun n hn hk ht => h2 n ⟨hn, hk⟩ ht ht,
    fun a b dF dG hb hf => h3 a b dF dG ⟨(Follows.mem I.trails hf).2, hb⟩ hf⟩

end

/-- C60, the cut.  Stopping after sequence `k` leaves all nodes up to `k` in equilibrium; the force
of the cut trail edge is stored as reaction.  The trail edges must not have carried forces
before. -/
theorem C60_cut {D : Diagram ℝ} (I : ValidInput D) (hl : NonzeroTrails D) (hd : DirectOnly D)
    (hz : ∀ e d, D.edges.get? e = some d → d.type = .trail → d.force = 0) {k : Int} (hk : 0 ≤ k)
    {tmax : Nat} {eta : ℝ} {verbose : Bool} {F : Diagram ℝ}
    (h : staticEquilibrium D (some k) tmax eta verbose = .ok F) :
    ∀ n ∈ D.nodes.keys, AtMost D k n → imbalance F n = 0 := by
  obtain ⟨ind, p, s, r, Q, rfl, S, _⟩ := returned_final I (by rintro _ ⟨⟩; exact hk) h
  rintro n hn ⟨i, hi, hle⟩
  rw [imbalance_cut I hl S hn, indNbrs_direct hd]
  · simp [devSum]
  · intro a ha
    have hf := (trailNext_iff I.wf I.trails).1 ha
    obtain ⟨j, _, e1, e2⟩ := Follows.seq I.trails hf
    rw [hi] at e2
    have := Option.some.inj e2
    unfold nxtK; rw [if_neg]
    · exact ha
    · rintro (c | c)
      · exact trailNext_support I.wf I.trails ha c
      · rw [e1] at c
        have := Option.some.inj c.2
        omega
  · intro m hm _
    obtain ⟨h1, h2⟩ := edgeData_trail I.wf I.trails I.simple hm
    exact hz _ _ h1 h2

/-- C60, the cut with indirect deviation edges: the nodes up to `k` are in equilibrium up to the nodal
bounds. -/
theorem C60_cut_bound {D : Diagram ℝ} (I : ValidInput D) (hl : NonzeroTrails D)
    (hz : ∀ e d, D.edges.get? e = some d → d.type = .trail → d.force = 0) {k : Int} (hk : 0 ≤ k)
    {tmax : Nat} (ht : 2 ≤ tmax) {eta : ℝ} {verbose : Bool} {F : Diagram ℝ}
    (h : staticEquilibrium D (some k) tmax eta verbose = .ok F) :
    ∀ n ∈ D.nodes.keys, AtMost D k n → Vec.length (imbalance F n) ≤ nodalBound F eta n := by
  obtain ⟨ind, p, s, r, Q, rfl, S, h2⟩ := returned_final I (by rintro _ ⟨⟩; exact hk) h
  obtain ⟨rfl, hres⟩ := h2 ht
  rintro n hn ⟨i, hi, hle⟩
  rw [imbalance_cut I hl S hn, if_pos rfl, nodalBound_eq I S]
  · exact length_indDiff_le I S hres hn
  · intro a ha
    have hf := (trailNext_iff I.wf I.trails).1 ha
    obtain ⟨j, _, e1, e2⟩ := Follows.seq I.trails hf
    rw [hi] at e2
    have := Option.some.inj e2
    unfold nxtK; rw [if_neg]
    · exact ha
    · rintro (c | c)
      · exact trailNext_support I.wf I.trails ha c
      · rw [e1] at c
        have := Option.some.inj c.2
        omega
  · intro m hm _
    obtain ⟨h1, h2⟩ := edgeData_trail I.wf I.trails I.simple hm
    exact hz _ _ h1 h2

/-! ## Examples -/

open TrailEx KEx EqEx

namespace LocEx

local instance locSqrt : PySqrt ℚ := ⟨id⟩

/-- The chain with another load on node 1, sequence 1. -/
def heavyOps : List (Op ℚ) := nodes 3 ++ [trail 0 1, trail 1 2, sup 2, load 1 ⟨5, 0, -7⟩]
def heavyQ : Diagram ℚ := after key (heavyOps ++ [.buildTrails])

def heavyLit : Diagram ℚ where
  nodes := [(0, ⟨⟨0, 0, 0⟩, ⟨0, 0, 0⟩, ⟨0, 0, 0⟩, some 0, .origin⟩),
    (1, ⟨⟨1, 0, 0⟩, ⟨5, 0, -7⟩, ⟨0, 0, 0⟩, some 1, .free⟩),
    (2, ⟨⟨2, 0, 0⟩, ⟨0, 0, 0⟩, ⟨0, 0, 0⟩, some 2, .support⟩)]
  edges := [((0, 1), ⟨.trail, -1, 0, none⟩), ((1, 2), ⟨.trail, -1, 0, none⟩)]
  maxNode := 2
  gkeyNode := [("0", 0), ("1", 1), ("2", 2)]
  trails := [(0, [0, 1, 2])]
  auxTrails := []
  auxLength := -1
  auxVector := ⟨1, 1, 1⟩

theorem heavyQ_eq : heavyQ = heavyLit := by decide +kernel

theorem valid_heavyQ : ValidInput heavyQ :=
  validInput_of_history key heavyOps (RegularCheck.regular (WF.after _ _) (by decide +kernel))
    (by decide +kernel)

/-- The chain and a second trail that is not connected with it. -/
def pairOps : List (Op ℚ) := nodes 5 ++ [trail 0 1, trail 1 2, trail 3 4, sup 2, sup 4,
  load 1 ⟨0, 0, -1⟩, load 3 ⟨2, 0, 0⟩]
def pairQ : Diagram ℚ := after key (pairOps ++ [.buildTrails])

def pairLit : Diagram ℚ where
  nodes := [(0, ⟨⟨0, 0, 0⟩, ⟨0, 0, 0⟩, ⟨0, 0, 0⟩, some 0, .origin⟩),
    (1, ⟨⟨1, 0, 0⟩, ⟨0, 0, -1⟩, ⟨0, 0, 0⟩, some 1, .free⟩),
    (2, ⟨⟨2, 0, 0⟩, ⟨0, 0, 0⟩, ⟨0, 0, 0⟩, some 2, .support⟩),
    (3, ⟨⟨3, 0, 0⟩, ⟨2, 0, 0⟩, ⟨0, 0, 0⟩, some 0, .origin⟩),
    (4, ⟨⟨4, 0, 0⟩, ⟨0, 0, 0⟩, ⟨0, 0, 0⟩, some 1, .support⟩)]
  edges := [((0, 1), ⟨.trail, -1, 0, none⟩), ((1, 2), ⟨.trail, -1, 0, none⟩),
    ((3, 4), ⟨.trail, -1, 0, none⟩)]
  maxNode := 4
  gkeyNode := [("0", 0), ("1", 1), ("2", 2), ("3", 3), ("4", 4)]
  trails := [(0, [0, 1, 2]), (3, [3, 4])]
  auxTrails := []
  auxLength := -1
  auxVector := ⟨1, 1, 1⟩

theorem pairQ_eq : pairQ = pairLit := by decide +kernel

theorem valid_pairQ : ValidInput pairQ :=
  validInput_of_history key pairOps (RegularCheck.regular (WF.after _ _) (by decide +kernel))
    (by decide +kernel)

theorem valid_chainLit : ValidInput chainLit := by
  have h := valid_chainQ; rw [chainQ_eq] at h; exact h
theorem valid_heavyLit : ValidInput heavyLit := by
  have h := valid_heavyQ; rw [heavyQ_eq] at h; exact h
theorem valid_pairLit : ValidInput pairLit := by
  have h := valid_pairQ; rw [pairQ_eq] at h; exact h

theorem no_deviation {D : Diagram ℚ} (h : ∀ p ∈ D.edges, p.2.type = .trail) : DirectOnly D := by
  intro a b d hd ht
  rw [h _ (Dict.mem_of_get? hd)] at ht
  simp at ht

theorem once {D : Diagram ℚ} (I : ValidInput D) : ∃ F, staticEquilibrium D none 1 0 false = .ok F := by
  obtain ⟨L, _, _, h1, _⟩ := equilibriumState_cases I (kmax := none) (by simp) 1 0 false
  unfold staticEquilibrium
  rw [h1 rfl]
  exact ⟨_, rfl⟩

theorem once_kmax {D : Diagram ℚ} (I : ValidInput D) {k : Int} (hk : 0 ≤ k) :
    ∃ F, staticEquilibrium D (some k) 1 0 false = .ok F := by
  obtain ⟨L, _, _, h1, _⟩ := equilibriumState_cases I (kmax := some k) (by rintro _ ⟨⟩; exact hk) 1 0 false
  unfold staticEquilibrium
  rw [h1 rfl]
  exact ⟨_, rfl⟩

/-- The loads differ at sequence 1 only. -/
theorem same_heavy : SameUpTo 1 chainLit heavyLit where
  nodes n := by
    simp only [chainLit, heavyLit, Dict.get?]
    split_ifs <;> rfl
  trails _ := Iff.rfl
  edges _ := Iff.rfl
  types e d d' h1 h2 := by rw [show heavyLit.edges = chainLit.edges from rfl, h1] at h2; rw [Option.some.inj h2]
  origins n tr h _ := by
    have : n = 0 := by simpa [chainLit] using congrArg Prod.fst (List.mem_singleton.1 h)
    subst this; rfl
  loads n hn := by
    obtain ⟨s, h1, h2⟩ := hn
    simp only [seqOf, chainLit, Dict.get?] at h1
    simp only [loadAt, chainLit, heavyLit, Dict.get?]
    split_ifs at h1 ⊢ <;> (simp_all; try omega)
  trailData a b d d' h1 h2 _ _ _ := by
    rw [show heavyLit.edges = chainLit.edges from rfl, h1] at h2; rw [Option.some.inj h2]; exact ⟨rfl, rfl⟩
  deviationData a b d d' h1 h2 _ _ := by
    rw [show heavyLit.edges = chainLit.edges from rfl, h1] at h2; rw [Option.some.inj h2]

theorem part_pair : PartOf chainLit pairLit where
  nodes n d h := by
    simp only [chainLit, pairLit, Dict.get?] at h ⊢
    split_ifs at h ⊢ <;> simp_all
  edges e d h := by
    simp only [chainLit, pairLit, Dict.get?] at h ⊢
    split_ifs at h ⊢ <;> simp_all
  trails p h := by
    simp only [chainLit, pairLit] at h ⊢
    simp_all
  closed a b h1 h2 := by
    simp only [chainLit, pairLit, Dict.keys] at h1 h2 ⊢
    simp at h1 h2 ⊢
    omega

/-- With the other load, node 1 stays where it is, and the support (sequence 2) is moved. -/
example : ∃ F G, staticEquilibrium chainLit none 1 0 false = .ok F ∧
    staticEquilibrium heavyLit none 1 0 false = .ok G ∧
    posOf F 1 = posOf G 1 ∧ seqOf chainLit 1 = some 1 ∧ loadAt chainLit 1 ≠ loadAt heavyLit 1 := by
  obtain ⟨F, hF⟩ := once valid_chainLit
  obtain ⟨G, hG⟩ := once valid_heavyLit
  refine ⟨F, G, hF, hG, (C60_causality valid_chainLit valid_heavyLit
    (no_deviation (by decide +kernel)) same_heavy hF hG).1 1 (by decide +kernel)
      ⟨1, by decide +kernel, le_rfl⟩, by decide +kernel, by decide +kernel⟩

example : ∃ F G, staticEquilibrium chainLit none 1 0 false = .ok F ∧
    staticEquilibrium pairLit none 1 0 false = .ok G ∧
    posOf F 2 = posOf G 2 ∧ reactionAt F 2 = reactionAt G 2 := by
  obtain ⟨F, hF⟩ := once valid_chainLit
  obtain ⟨G, hG⟩ := once valid_pairLit
  exact ⟨F, G, hF, hG, (C60_independent valid_chainLit valid_pairLit
    (no_deviation (by decide +kernel)) (no_deviation (by decide +kernel)) part_pair hF hG).1 2
      (by decide +kernel)⟩

example : ∃ F G, staticEquilibrium pairLit (some 1) 1 0 false = .ok F ∧
    staticEquilibrium pairLit none 1 0 false = .ok G ∧
    posOf F 4 = posOf G 4 ∧ reactionAt F 4 = reactionAt G 4 := by
  obtain ⟨F, hF⟩ := once_kmax valid_pairLit (show (0 : Int) ≤ 1 by norm_num)
  obtain ⟨G, hG⟩ := once valid_pairLit
  have h := C60_kmax valid_pairLit (no_deviation (by decide +kernel)) (by norm_num) hF hG
  have h4 : AtMost pairLit 1 4 := ⟨1, by decide +kernel, le_rfl⟩
  exact ⟨F, G, hF, hG, h.1 4 (by decide +kernel) h4,
    h.2.1 4 (by decide +kernel) h4 (by decide +kernel)⟩

end LocEx

theorem NoForceCheck {D : Diagram ℚ} (h : ∀ p ∈ D.edges, p.2.type = .trail → p.2.force = 0) :
    ∀ e d, D.real.edges.get? e = some d → d.type = .trail → d.force = 0 := by
  intro e d hd ht
  unfold Diagram.real at hd
  rw [map_edges_get?] at hd
  obtain ⟨d0, h0, rfl⟩ := Option.map_eq_some_iff.1 hd
  have := h _ (Dict.mem_of_get? h0) ht
  simp only [EdgeData.map]
  rw [this]; simp

/-- With `kmax = 0` the origins are balanced by the stored cut forces. -/
example : ∃ F, staticEquilibrium direct (some 0) 1 0 false = .ok F ∧
    ∀ n ∈ direct.nodes.keys, AtMost direct 0 n → imbalance F n = 0 := by
  obtain ⟨L, _, _, h1, _⟩ := equilibriumState_cases valid_direct (kmax := some 0)
    (by rintro _ ⟨⟩; norm_num) 1 0 false
  have h : ∃ F, staticEquilibrium direct (some 0) 1 0 false = .ok F := by
    unfold staticEquilibrium
    rw [h1 rfl]
    exact ⟨_, rfl⟩
  obtain ⟨F, h⟩ := h
  exact ⟨F, h, C60_cut valid_direct nonzero_direct directOnly_direct
    (NoForceCheck (D := directQ) (by decide +kernel)) le_rfl h⟩

/-- With a large enough threshold form finding returns, with any `kmax`. -/
theorem exists_returned_kmax {D : Diagram ℝ} (I : ValidInput D) (tmax : Nat) (h : 2 ≤ tmax) {k : Int} (hk : 0 ≤ k) :
    ∃ eta F, staticEquilibrium D (some k) tmax eta false = .ok F := by
  obtain ⟨T, N, hT, hN, hg, hlt⟩ := goodSeqs_of_valid I.wf I.trails I.nonempty
  let L := sched D T N
  refine ⟨residualDistance (iter D (some k) L 1).xyz (iter D (some k) L 2).xyz + 1, ?_⟩
  have hnum : D.numberOfTrails ≠ 0 := by
    unfold numberOfTrails
    simpa [Dict.vals] using I.nonempty
  unfold staticEquilibrium equilibriumState
  rw [if_neg hnum, hT, hN]
  simp only [Option.any_some, decide_eq_true_eq, not_lt.2 hk, if_false]
  have e0 := sweep_eq I.wf I.trails hg (some k) (decide ((0 : Nat) ≠ 0)) N (goodState_init D)
  have e1 := sweep_eq I.wf I.trails hg (some k) (decide ((1 : Nat) ≠ 0)) N
    (goodState_iter I.wf I.trails (some k) L 1)
  obtain ⟨t, rfl⟩ : ∃ t, tmax = t + 2 := ⟨tmax - 2, by omega⟩
  rw [eqLoop, e0]
  simp only [if_true]
  rw [eqLoop]
  have e1' : sweep D T (some k) (decide ((0 + 1 : Nat) ≠ 0)) N
      (List.foldl (proc D (nxtK D (some k)) (decide ((0 : Nat) ≠ 0))) (initState D) (sched D T N)) =
      .ok (iter D (some k) L 2) := e1
  rw [e1']
  simp only [zero_add, one_ne_zero, if_false]
  have hlt' : residualDistance (List.foldl (proc D (nxtK D (some k)) (decide ((0 : Nat) ≠ 0)))
      (initState D) (sched D T N)).xyz (iter D (some k) L 2).xyz <
      residualDistance (iter D (some k) L 1).xyz (iter D (some k) L 2).xyz + 1 :=
    lt_add_one (residualDistance (iter D (some k) L 1).xyz (iter D (some k) L 2).xyz)
  rw [if_pos hlt']
  simp only [eqFinish]
  rw [if_pos (by norm_num), if_neg (not_lt.2 hlt'.le)]
  exact ⟨_, rfl⟩

example : ∃ eta F, staticEquilibrium indirect (some 0) 5 eta false = .ok F ∧
    ∀ n ∈ indirect.nodes.keys, AtMost indirect 0 n →
      Vec.length (imbalance F n) ≤ nodalBound F eta n := by
  obtain ⟨eta, F, h⟩ := exists_returned_kmax valid_indirect 5 (by norm_num) (le_refl (0 : Int))
  exact ⟨eta, F, h, C60_cut_bound valid_indirect nonzero_indirect
    (NoForceCheck (D := indirectQ) (by decide +kernel)) le_rfl (by norm_num) h⟩

end Props
end CEM
