import Verif.Lemmas.Symmetry
import Verif.Lemmas.Backward
import Verif.Lemmas.Unique
import Verif.Lemmas.Names
import Verif.Props.Exact
import Verif.Props.Staged
import Verif.Props.Transform
import Verif.Props.Small

/-!
# Property C88: symmetric problems have symmetric forms
-/

set_option linter.unusedSectionVars false
set_option linter.unusedSimpArgs false
set_option linter.unusedVariables false

namespace CEM
namespace Props
open Diagram Spec EqEx Symmetry

/-- Without indirect deviation edges the form of any iteration gives constant rounds. -/
theorem rounds_direct {D : Diagram ℝ} (I : ValidInput D) (hd : DirectOnly D) {ind : Bool} {p s : EqState ℝ} {r : Int → Vec ℝ}
    {Q : Int → Int → Vec ℝ} (S : FinalSpec D none ind p s r Q) :
    Rounds D (fun _ => true) (fun _ => s.pos) (fun _ => s.res) (fun _ => r) (fun _ _ => s.pos) := by
  have w := I.wf
  have V := I.trails
  have hnx : ∀ a, nxtK D none a = trailNext D a := nxtK_none w V
  refine ⟨fun _ _ => rfl, fun _ _ _ _ _ => rfl, fun _ _ _ _ => Or.inl rfl, ?_, ?_, ?_⟩
  · intro _ n hn
    rw [S.out n hn]
    unfold outVec
    rw [indNbrs_direct hd, devSum_congr (l := dirNbrs D n) (S.seen n hn n le_rfl) fun m hm => S.seen n hn m ?_]
    · simp [devSum]
    · have := (List.mem_filter.1 hm).2
      simp only [decide_eq_true_eq] at this
      unfold rankOf
      rw [this.2]
  · intro _ n hn m hm
    obtain ⟨h1, h2, _⟩ := S.next n hn m (by rw [hnx]; exact hm)
    exact ⟨h1, h2⟩
  · intro _ m hm hx
    obtain ⟨h1, h2⟩ := S.start m fun a _ => by rw [hnx]; exact hx a
    exact ⟨by rw [h1, start_position], by rw [h2, start_zero I hm]⟩

theorem names_congr {f f' : Int → Int} {D E : Diagram ℝ} (I : ValidInput D) (hf : ∀ n ∈ D.nodes.keys, f' n = f n)
    (h : ProblemUpToNames f D E) : ProblemUpToNames f' D E := by
  refine ⟨?_, ?_, ?_, ?_, ?_, ?_, ?_, ?_⟩
  · intro a ha b hb
    rw [hf a ha, hf b hb]
    exact h.inj a ha b hb
  · intro m
    rw [h.nodes]
    exact exists_congr fun n => and_congr_right fun hn => by rw [hf n hn]
  · intro n hn; rw [hf n hn]; exact h.load n hn
  · intro n hn; rw [hf n hn]; exact h.sequence n hn
  · intro n tr ht; rw [hf n (I.trails.mem_keys ht (I.trails.key_mem ht))]; exact h.origin n tr ht
  · intro q
    rw [h.trails]
    refine exists_congr fun p => and_congr_right fun hp => ?_
    rw [hf p.1 (I.trails.mem_keys hp (I.trails.key_mem hp)),
      List.map_congr_left (f := f') (g := f) fun x hx => hf x (I.trails.mem_keys hp hx)]
  · intro e d he
    have hm := Dict.mem_keys_of_get? he
    rw [hf _ (I.wf.edge_left e hm), hf _ (I.wf.edge_right e hm)]
    exact h.edge e d he
  · intro e' he'
    obtain ⟨e, he, h1⟩ := h.edges e' he'
    refine ⟨e, he, ?_⟩
    rw [hf _ (I.wf.edge_left e he), hf _ (I.wf.edge_right e he)]
    exact h1

theorem form_congr {f f' : Int → Int} {F G : Diagram ℝ} (w : ∀ e ∈ F.edges.keys, e.1 ∈ F.nodes.keys ∧ e.2 ∈ F.nodes.keys)
    (hf : ∀ n ∈ F.nodes.keys, f' n = f n) (h : FormUpToNames f' F G) : FormUpToNames f F G := by
  refine ⟨?_, ?_, ?_, ?_⟩
  · intro m
    rw [h.nodes]
    exact exists_congr fun n => and_congr_right fun hn => by rw [hf n hn]
  · intro n hn; rw [← hf n hn]; exact h.position n hn
  · intro n hn; rw [← hf n hn]; exact h.reaction n hn
  · intro e d he
    have hm := Dict.mem_keys_of_get? he
    rw [← hf _ (w e hm).1, ← hf _ (w e hm).2]
    exact h.edge e d he

theorem dev_force {D : Diagram ℝ} (I : ValidInput D) {ind : Bool} {p s : EqState ℝ} {r : Int → Vec ℝ} {Q : Int → Int → Vec ℝ}
    (S : FinalSpec D none ind p s r Q) {e : Int × Int} {d0 d : EdgeData ℝ} (h0 : D.edges.get? e = some d0)
    (ht : d0.type = .deviation) (h : (formOf D s).edges.get? e = some d) : d.force = d0.force := by
  have hk := (edgeKey_of_mem I.simple (Dict.mem_keys_of_get? h0)).1
  have hed : edgeData D e.1 e.2 = d0 := by unfold edgeData; rw [hk, h0]; rfl
  have := formForce_dev I.wf I.trails I.simple S (n := e.1) (m := e.2) (by rw [hed]; exact ht)
  unfold formForce at this
  rw [hk, hed] at this
  rw [formOf_edge S, h0] at h
  rw [← Option.some.inj h, (signedLength_type _ _ _).2.2]
  exact this

theorem form_nodes (D : Diagram ℝ) (s : EqState ℝ) : (formOf D s).nodes.keys = D.nodes.keys := formNodes_keys _ _

theorem form_ends {D : Diagram ℝ} (w : WF D) (s : EqState ℝ) :
    ∀ e ∈ (formOf D s).edges.keys, e.1 ∈ (formOf D s).nodes.keys ∧ e.2 ∈ (formOf D s).nodes.keys := by
  rw [form_nodes, show (formOf D s).edges.keys = D.edges.keys from formEdges_keys _ _]
  exact fun e he => ⟨w.edge_left e he, w.edge_right e he⟩

theorem stage_zero {D : Diagram ℝ} (hd : DirectOnly D) : Staged D fun _ => 0 := by
  have same : ∀ a m d i j, EdgeBetween D a m d → d.type = .deviation → seqOf D a = some i → seqOf D m = some j → i = j := by
    intro a m d i j he ht h1 h2
    have : seqOf D a = seqOf D m := by
      rcases he with he | he
      · exact hd _ _ d he ht
      · exact (hd _ _ d he ht).symm
    rw [h1, h2] at this
    exact Option.some.inj this
  refine ⟨fun _ _ _ => le_rfl, fun _ _ _ _ _ _ _ _ => le_rfl, ?_, ?_⟩
  · intro a b m d i j _ he ht h1 h2 h3
    have := same a m d i j he ht h1 h2
    omega
  · intro a b m d i j _ he ht h1 h2 h3
    have := same a m d i j he ht h1 h2
    omega

/-- Two states with constant rounds of the same problem give the same form. -/
theorem same_form {f : Int → Int} {D E : Diagram ℝ} (I : ValidInput D) (J : ValidInput E) (h : ProblemUpToNames f D E)
    (hout : ∀ n, n ∉ D.nodes.keys → f n ∉ E.nodes.keys) {stage : Int → Nat} (St : Staged D stage) {N : Nat}
    (hN : ∀ n ∈ D.nodes.keys, stage n ≤ N) {i i' : Bool} {p s p' s' : EqState ℝ} {r r' : Int → Vec ℝ} {Q Q' : Int → Int → Vec ℝ}
    (S : FinalSpec D none i p s r Q) (S' : FinalSpec E none i' p' s' r' Q')
    (hs : Rounds D (fun _ => true) (fun _ => s.pos) (fun _ => s.res) (fun _ => r) (fun _ _ => s.pos))
    (hs' : Rounds E (fun _ => true) (fun _ => s'.pos) (fun _ => s'.res) (fun _ => r') (fun _ _ => s'.pos)) :
    FormUpToNames f (formOf D s) (formOf E s') := by
  have w := I.wf
  have w' := J.wf
  have B := rounds_names I J h hout hs'
  have kn : (formOf D s).nodes.keys = D.nodes.keys := formNodes_keys _ _
  have kn' : (formOf E s').nodes.keys = E.nodes.keys := formNodes_keys _ _
  have ke : (formOf D s).edges.keys = D.edges.keys := formEdges_keys _ _
  have key : ∀ n ∈ D.nodes.keys, f n ∈ E.nodes.keys := fun n hn => (h.nodes _).2 ⟨n, hn, rfl⟩
  have hp : ∀ n ∈ D.nodes.keys, s.pos n = s'.pos (f n) := fun n hn =>
    (Rounds.agree I St hs B n hn (stage n) (stage n) le_rfl le_rfl).1
  have hr : ∀ n ∈ D.nodes.keys, r n = r' (f n) := fun n hn =>
    Rounds.agree_out I St hs B hN (i := N + 1) (j := N + 1) (by omega) (by omega) n hn
  have hpos : ∀ n ∈ D.nodes.keys, posOf (formOf E s') (f n) = posOf (formOf D s) n := by
    intro n hn
    rw [posOf_form w S, posOf_form w' S', hp n hn]
  refine ⟨?_, ?_, ?_, ?_⟩
  · rw [kn, kn']; exact h.nodes
  · rw [kn]; exact hpos
  · rw [kn]
    intro n hn
    rw [reactionAt_form w S I.reaction hn, reactionAt_form w' S' J.reaction (key n hn), hr n hn,
      nxtK_none w I.trails, nxtK_none w' J.trails]
    have : trailNext E (f n) = none ↔ trailNext D n = none := by
      constructor
      · intro h0
        cases hx : trailNext D n with
        | none => rfl
        | some m =>
          obtain ⟨h1, h2, -, -⟩ := next_facts I hx
          rw [(trailNext_names I J h h1 h2).2 hx] at h0
          cases h0
      · intro h0
        cases hx : trailNext E (f n) with
        | none => rfl
        | some m =>
          obtain ⟨-, h2, -, -⟩ := next_facts J hx
          obtain ⟨m, hm, rfl⟩ := (h.nodes m).1 h2
          rw [(trailNext_names I J h hn hm).1 hx] at h0
          cases h0
    simp only [this]
  · intro e d he
    have hm : e ∈ D.edges.keys := by rw [← ke]; exact Dict.mem_keys_of_get? he
    obtain ⟨d0, hd0⟩ := (Dict.exists_get?_iff D.edges e).2 hm
    obtain ⟨a, b⟩ := e
    have ha := w.edge_left _ hm
    have hb := w.edge_right _ hm
    simp only at ha hb
    obtain ⟨d1, hd1, hs1⟩ := h.edge _ _ hd0
    simp only at hd1
    obtain ⟨x, hx, he1, hd1⟩ : ∃ x, (x = (f a, f b) ∨ x = (f b, f a)) ∧ EdgeBetween E (f a) (f b) d1 ∧ E.edges.get? x = some d1 := by
      rcases hd1 with g | g
      · exact ⟨_, Or.inl rfl, Or.inl g, g⟩
      · exact ⟨_, Or.inr rfl, Or.inr g, g⟩
    obtain ⟨d', hd'⟩ : ∃ d', (formOf E s').edges.get? x = some d' := ⟨_, by rw [formOf_edge S', hd1]; rfl⟩
    have hbt : EdgeBetween (formOf E s') (f a) (f b) d' := by
      rcases hx with rfl | rfl
      · exact Or.inl hd'
      · exact Or.inr hd'
    have hty : d'.type = d.type := by
      rw [formOf_edge S', hd1] at hd'
      rw [formOf_edge S, hd0] at he
      rw [← Option.some.inj hd', ← Option.some.inj he, (signedLength_type _ _ _).1, (signedLength_type _ _ _).1]
      exact hs1.type
    have hforce : d'.force = d.force := by
      cases ht : d0.type with
      | untyped => exact absurd ht (I.typed _ _ hd0)
      | deviation =>
        rw [dev_force I S hd0 ht he, dev_force J S' hd1 (hs1.type.trans ht) hd', hs1.deviation ht]
      | trail =>
        have one : ∀ u v, u ∈ D.nodes.keys → (a, b) = (u, v) ∨ (a, b) = (v, u) → (x = (f u, f v) ∨ x = (f v, f u)) →
            (∃ key tr, (key, tr) ∈ D.trails ∧ Consecutive tr u v) → d'.force = d.force := by
          rintro u v hu hab hx ⟨key, tr, htr, hc⟩
          obtain ⟨-, f1, -⟩ := trail_form I S htr hc hab hd0 he
          obtain ⟨-, f2, -⟩ := trail_form J S' ((h.trails _).2 ⟨_, htr, rfl⟩) (Names.consecutive_map hc) hx hd1 hd'
          rw [f1, f2, effective_same hs1 ht, hr u hu, hpos u hu]
        obtain ⟨key, tr, htr, hc⟩ := I.trails.complete a b (Or.inl ⟨d0, hd0, ht⟩)
        rcases hc with hc | hc
        · exact one a b ha (Or.inl rfl) hx ⟨key, tr, htr, hc⟩
        · exact one b a hb (Or.inr rfl) hx.symm ⟨key, tr, htr, hc⟩
    refine ⟨d', hbt, hty, hforce, ?_⟩
    rw [formOf_length w S he, formOf_length w' S' hd', hforce]
    rcases hx with rfl | rfl
    · rw [hpos a ha, hpos b hb]
    · rw [hpos a ha, hpos b hb, Names.dist_swap]


section
variable {f : Int → Int} {D E : Diagram ℝ}

/-- **C88.**  Without indirect deviation edges the form depends on the problem only: not on the names of the nodes, on the
order of nodes, edges and trails, on the positions of nodes that are not the first of a trail, or on the settings. -/
theorem C88_names (I : ValidInput D) (J : ValidInput E) (h : ProblemUpToNames f D E) (hd : DirectOnly D) {tmax tmax' : Nat}
    {eta eta' : ℝ} {verbose verbose' : Bool} {F G : Diagram ℝ} (hF : staticEquilibrium D none tmax eta verbose = .ok F)
    (hG : staticEquilibrium E none tmax' eta' verbose' = .ok G) : FormUpToNames f F G := by
  obtain ⟨f', h1, h2⟩ := extend_names f D E
  have h' := names_congr I h1 h
  obtain ⟨i, p, s, r, Q, rfl, S, -⟩ := returned_final I (by simp) hF
  obtain ⟨i', p', s', r', Q', rfl, S', -⟩ := returned_final J (by simp) hG
  refine form_congr (form_ends I.wf s) (by rw [form_nodes]; exact h1)
    (same_form I J h' h2 (stage_zero hd) (N := 0) (fun _ _ => le_rfl) S S' (rounds_direct I hd S)
      (rounds_direct J (direct_names I J h hd) S'))

/-- **C88.**  The same if no position needs itself, for forms found with threshold zero. -/
theorem C88_names_acyclic (I : ValidInput D) (J : ValidInput E) (h : ProblemUpToNames f D E) (hA : Acyclic D)
    {tmax tmax' : Nat} (ht : 2 ≤ tmax) (ht' : 2 ≤ tmax') {eta eta' : ℝ} (he : eta ≤ 0) (he' : eta' ≤ 0)
    {verbose verbose' : Bool} {F G : Diagram ℝ} (hF : staticEquilibrium D none tmax eta verbose = .ok F)
    (hG : staticEquilibrium E none tmax' eta' verbose' = .ok G) : FormUpToNames f F G := by
  obtain ⟨f', h1, h2⟩ := extend_names f D E
  have h' := names_congr I h1 h
  obtain ⟨p, s, r, Q, rfl, S, hp⟩ := returned_fixed I ht he hF
  obtain ⟨p', s', r', Q', rfl, S', hp'⟩ := returned_fixed J ht' he' hG
  obtain ⟨St, hb⟩ := staged_of_acyclic I hA
  refine form_congr (form_ends I.wf s) (by rw [form_nodes]; exact h1)
    (same_form I J h' h2 St (N := D.nodes.length) (fun n hn => by have := hb n hn; omega) S S' (rounds_fixed I S hp)
      (rounds_fixed J S' hp'))

end

section
variable {A : Vec ℝ → Vec ℝ} {c : Vec ℝ} {f : Int → Int} {D : Diagram ℝ}

theorem carried_node (F : Diagram ℝ) (n : Int) : (carried A c F).nodes.get? n = (F.nodes.get? n).map fun d =>
    { d with pos := A d.pos + c, load := A d.load, reaction := A d.reaction } := by
  have h1 := get?_map_val (turn A F).nodes (fun d : NodeData ℝ => { d with pos := d.pos + c }) n
  have h2 := get?_map_val F.nodes (fun d : NodeData ℝ => { d with pos := A d.pos, load := A d.load, reaction := A d.reaction }) n
  refine h1.trans ?_
  rw [show (turn A F).nodes.get? n = _ from h2, Option.map_map]
  rfl

theorem carried_edge (F : Diagram ℝ) (e : Int × Int) : (carried A c F).edges.get? e = (F.edges.get? e).map fun d =>
    { d with plane := d.plane.map fun q => (A q.1 + c, A q.2) } := by
  have h1 := get?_map_val (turn A F).edges
    (fun d : EdgeData ℝ => { d with plane := d.plane.map fun q : Vec ℝ × Vec ℝ => (q.1 + c, q.2) }) e
  have h2 := get?_map_val F.edges (fun d : EdgeData ℝ => { d with plane := d.plane.map fun q : Vec ℝ × Vec ℝ => (A q.1, A q.2) }) e
  refine h1.trans ?_
  rw [show (turn A F).edges.get? e = _ from h2, Option.map_map]
  congr 1
  funext d
  simp [Function.comp_def]

theorem carried_keys (F : Diagram ℝ) : (carried A c F).nodes.keys = F.nodes.keys := by
  unfold carried translate turn Dict.keys
  simp [Function.comp_def]

theorem carried_edge_keys (F : Diagram ℝ) : (carried A c F).edges.keys = F.edges.keys := by
  unfold carried translate turn Dict.keys
  simp [Function.comp_def]

theorem carried_pos (F : Diagram ℝ) {n : Int} (hn : n ∈ F.nodes.keys) : posOf (carried A c F) n = A (posOf F n) + c := by
  obtain ⟨d, hd⟩ := (Dict.exists_get?_iff F.nodes n).2 hn
  unfold posOf
  rw [carried_node, hd]
  rfl

theorem carried_reaction (F : Diagram ℝ) {n : Int} (hn : n ∈ F.nodes.keys) :
    reactionAt (carried A c F) n = A (reactionAt F n) := by
  obtain ⟨d, hd⟩ := (Dict.exists_get?_iff F.nodes n).2 hn
  unfold reactionAt
  rw [carried_node, hd]
  rfl

theorem carried_shape (hA : Orthogonal A) (I : ValidInput D) : SameShape D (carried A c D) := by
  have h0 : A 0 = 0 := by
    have := hA.smul 0 0
    simpa using this
  refine ⟨carried_keys D, carried_edge_keys D, ?_, ?_, rfl, rfl, rfl⟩
  · intro n d d' h h'
    rw [carried_node, h] at h'
    obtain rfl := Option.some.inj h'
    exact ⟨by simp only [I.reaction n d h, h0], rfl, rfl⟩
  · intro e d d' h h'
    rw [carried_edge, h] at h'
    obtain rfl := Option.some.inj h'
    rfl

theorem carried_form (I : ValidInput D) (hA : Orthogonal A) {tmax : Nat} {eta : ℝ} {verbose : Bool} {F : Diagram ℝ}
    (hF : staticEquilibrium D none tmax eta verbose = .ok F) :
    staticEquilibrium (carried A c D) none tmax eta verbose = .ok (carried A c F) := by
  have w' : WF (turn A D) := by
    have h0 : carried A 0 D = turn A D := by
      unfold carried translate
      simp
    rw [← h0]
    exact ((carried_shape hA I).valid I).wf
  unfold carried
  rw [C34_translation w', C47_rotation I.wf hA, hF]
  rfl

theorem symmetric_of_names {F : Diagram ℝ} (h : FormUpToNames f (carried A c F) F) : SymmetricForm A c f F := by
  refine ⟨?_, ?_, ?_⟩
  · intro n hn
    rw [h.position n (by rw [carried_keys]; exact hn), carried_pos F hn]
  · intro n hn
    rw [h.reaction n (by rw [carried_keys]; exact hn), carried_reaction F hn]
  · intro e d he
    exact h.edge e { d with plane := d.plane.map fun q => (A q.1 + c, A q.2) } (by rw [carried_edge, he]; rfl)

/-- **C88.**  If a motion (a rotation or reflection `A` followed by a translation `c`) takes a problem without indirect
deviation edges to itself, it takes its form to itself: positions and reactions of nodes and their images are images of one
another, and forces and lengths of edges and their images are equal. -/
theorem C88_symmetric (hA : Orthogonal A) (I : ValidInput D) (h : SymmetricProblem A c f D) (hd : DirectOnly D) {tmax : Nat}
    {eta : ℝ} {verbose : Bool} {F : Diagram ℝ} (hF : staticEquilibrium D none tmax eta verbose = .ok F) :
    SymmetricForm A c f F :=
  symmetric_of_names (C88_names ((carried_shape hA I).valid I) I h ((carried_shape hA I).direct hd) (carried_form I hA hF) hF)

/-- **C88.**  The same if no position needs itself, for forms found with threshold zero. -/
theorem C88_symmetric_acyclic (hA : Orthogonal A) (I : ValidInput D) (h : SymmetricProblem A c f D) (hc : Acyclic D) {tmax : Nat}
    (ht : 2 ≤ tmax) {eta : ℝ} (he : eta ≤ 0) {verbose : Bool} {F : Diagram ℝ}
    (hF : staticEquilibrium D none tmax eta verbose = .ok F) : SymmetricForm A c f F :=
  symmetric_of_names (C88_names_acyclic ((carried_shape hA I).valid I) I h ((carried_shape hA I).acyclic hc) ht ht he he
    (carried_form I hA hF) hF)

end

/-! ## Examples -/

/-- What can be evaluated to see that two problems are the same up to names. -/
def ProblemCheck (f : Int → Int) (D E : Diagram ℚ) : Prop :=
  (∀ a ∈ D.nodes.keys, ∀ b ∈ D.nodes.keys, f a = f b → a = b) ∧
  (∀ n ∈ D.nodes.keys, f n ∈ E.nodes.keys) ∧
  (∀ m ∈ E.nodes.keys, ∃ n ∈ D.nodes.keys, f n = m) ∧
  (∀ p ∈ D.nodes, ((E.nodes.get? (f p.1)).map fun d => (d.load, d.k)) = some (p.2.load, p.2.k)) ∧
  (∀ p ∈ D.trails, (E.nodes.get? (f p.1)).map (·.pos) = (D.nodes.get? p.1).map (·.pos)) ∧
  (∀ p ∈ D.trails, (f p.1, p.2.map f) ∈ E.trails) ∧
  (∀ q ∈ E.trails, ∃ p ∈ D.trails, q = (f p.1, p.2.map f)) ∧
  (∀ p ∈ D.edges, ∃ q ∈ E.edges, (E.edges.get? (f p.1.1, f p.1.2) = some q.2 ∨ E.edges.get? (f p.1.2, f p.1.1) = some q.2) ∧
    q.2.type = p.2.type ∧ (p.2.type = .trail → q.2.length = p.2.length ∧ q.2.plane = p.2.plane) ∧
    (p.2.type = .deviation → q.2.force = p.2.force)) ∧
  (∀ e' ∈ E.edges.keys, ∃ e ∈ D.edges.keys, e' = (f e.1, f e.2) ∨ e' = (f e.2, f e.1))

instance (f : Int → Int) (D E : Diagram ℚ) : Decidable (ProblemCheck f D E) := by unfold ProblemCheck; infer_instance

theorem ProblemCheck.real {f : Int → Int} {D E : Diagram ℚ} (h : ProblemCheck f D E) : ProblemUpToNames f D.real E.real := by
  obtain ⟨h1, h2, h3, h4, h5, h6, h7, h8, h9⟩ := h
  unfold Diagram.real
  have node : ∀ n ∈ D.nodes.keys, ∃ d d', D.nodes.get? n = some d ∧ E.nodes.get? (f n) = some d' ∧ d'.load = d.load ∧ d'.k = d.k := by
    intro n hn
    obtain ⟨d, hd⟩ := (Dict.exists_get?_iff _ _).2 hn
    obtain ⟨d', hd', e⟩ := Option.map_eq_some_iff.1 (h4 _ (Dict.mem_of_get? hd))
    obtain ⟨e1, e2⟩ := Prod.mk.inj e
    exact ⟨d, d', hd, hd', e1, e2⟩
  refine ⟨?_, ?_, ?_, ?_, ?_, ?_, ?_, ?_⟩
  · rw [map_nodes_keys]; exact h1
  · rw [map_nodes_keys, map_nodes_keys]
    exact fun m => ⟨h3 m, fun ⟨n, hn, e⟩ => e ▸ h2 n hn⟩
  · rw [map_nodes_keys]
    intro n hn
    obtain ⟨d, d', a, b, c, -⟩ := node n hn
    unfold loadAt
    rw [map_nodes_get?, map_nodes_get?, a, b]
    simp [NodeData.map, c]
  · rw [map_nodes_keys]
    intro n hn
    obtain ⟨d, d', a, b, -, c⟩ := node n hn
    unfold seqOf
    rw [map_nodes_get?, map_nodes_get?, a, b]
    simp [NodeData.map, c]
  · intro n tr ht
    have := h5 _ (show (n, tr) ∈ D.trails from ht)
    unfold posOf
    rw [map_nodes_get?, map_nodes_get?, Option.map_map, Option.map_map]
    have e : ∀ o : Option (NodeData ℚ), o.map ((fun d : NodeData ℝ => d.pos) ∘ NodeData.map (fun q : ℚ => (q : ℝ))) =
        (o.map (·.pos)).map (Vec.map (fun q : ℚ => (q : ℝ))) := by
      intro o; cases o <;> rfl
    rw [e, e, this]
  · exact fun q => ⟨h7 q, fun ⟨p, hp, e⟩ => e ▸ h6 p hp⟩
  · intro e d he
    rw [map_edges_get?] at he
    obtain ⟨d0, hd0, rfl⟩ := Option.map_eq_some_iff.1 he
    obtain ⟨q, -, a, b, c, g⟩ := h8 _ (Dict.mem_of_get? hd0)
    refine ⟨EdgeData.map (fun q : ℚ => (q : ℝ)) q.2, ?_, b, ?_, ?_⟩
    · unfold EdgeBetween
      rw [map_edges_get?, map_edges_get?]
      exact a.imp (fun h => by rw [h]; rfl) (fun h => by rw [h]; rfl)
    · intro ht
      obtain ⟨c1, c2⟩ := c ht
      exact ⟨congrArg (fun q : ℚ => (q : ℝ)) c1, by simp only [EdgeData.map, c2]⟩
    · intro ht
      exact congrArg (fun q : ℚ => (q : ℝ)) (g ht)
  · rw [map_edges_keys, map_edges_keys]; exact h9

theorem consecutive_zip {l : List Int} {a b : Int} (h : Consecutive l a b) : (a, b) ∈ l.zip l.tail := by
  obtain ⟨p, q, rfl⟩ := h
  induction p with
  | nil => simp
  | cons x p ih =>
    cases p with
    | nil => simp
    | cons y p => exact List.mem_cons_of_mem _ ih

/-- What can be evaluated to see that no position needs itself. -/
def AcyclicCheck (μ : Int → Nat) (D : Diagram ℚ) : Prop :=
  ∀ p ∈ D.trails, ∀ q ∈ p.2.zip p.2.tail, μ q.1 < μ q.2 ∧ ∀ e ∈ D.edges, e.2.type = .deviation →
    (e.1.1 = q.1 → μ e.1.2 < μ q.2) ∧ (e.1.2 = q.1 → μ e.1.1 < μ q.2)

instance (μ : Int → Nat) (D : Diagram ℚ) : Decidable (AcyclicCheck μ D) := by unfold AcyclicCheck; infer_instance

theorem AcyclicCheck.acyclic {μ : Int → Nat} {D : Diagram ℚ} (h : AcyclicCheck μ D) : Acyclic D.real := by
  refine acyclic_of_measure μ ?_
  rintro b x ⟨a, ⟨key, tr, htr, hc⟩, hx⟩
  obtain ⟨h1, h2⟩ := h _ (show (key, tr) ∈ D.trails from htr) _ (consecutive_zip hc)
  rcases hx with rfl | ⟨d, hd, ht⟩
  · exact h1
  · have back : ∀ e, D.real.edges.get? e = some d → ∃ d0, (e, d0) ∈ D.edges ∧ d0.type = .deviation := by
      intro e he
      unfold Diagram.real at he
      rw [map_edges_get?] at he
      obtain ⟨d0, hd0, rfl⟩ := Option.map_eq_some_iff.1 he
      exact ⟨d0, Dict.mem_of_get? hd0, ht⟩
    rcases hd with hd | hd <;> obtain ⟨d0, hm, ht0⟩ := back _ hd
    · exact (h2 _ hm ht0).1 rfl
    · exact (h2 _ hm ht0).2 rfl

/-- A motion with rational numbers. -/
theorem carried_real {A : Vec ℚ → Vec ℚ} {B : Vec ℝ → Vec ℝ} (h : ∀ v, B (v.map fun q : ℚ => (q : ℝ)) = (A v).map fun q : ℚ => (q : ℝ))
    (c : Vec ℚ) (D : Diagram ℚ) : carried B (c.map fun q : ℚ => (q : ℝ)) D.real = (carried A c D).real := by
  have add : ∀ u v : Vec ℚ, (u.map fun q : ℚ => (q : ℝ)) + (v.map fun q : ℚ => (q : ℝ)) = (u + v).map fun q : ℚ => (q : ℝ) := by
    intro u v
    ext <;> simp [Vec.map]
  unfold carried translate turn Diagram.real Diagram.map
  simp only [List.map_map, Function.comp_def, NodeData.map, EdgeData.map, h, add, Option.map_map]

namespace MirrorEx
open TrailEx

local instance mirrorSqrt : PySqrt ℚ := ⟨id⟩

/-- The other side of the plane `x = 2`. -/
def mirror {R : Type} [Neg R] (v : Vec R) : Vec R := ⟨-v.x, v.y, v.z⟩

theorem orthogonal_mirror {R : Type} [Field R] : Orthogonal (mirror (R := R)) where
  add a b := by ext <;> simp [mirror]; ring
  smul c a := by ext <;> simp [mirror]
  dot a b := by simp [mirror, Vec.dot]

def swap (n : Int) : Int := if n = 0 then 4 else if n = 4 then 0 else if n = 1 then 3 else if n = 3 then 1 else n

/-- Trails `0-1` and `4-3` on both sides of the plane `x = 2`, and `2-5` in the middle; node 5 is not drawn there. -/
def mirrorOps (l : List (Op ℚ)) : List (Op ℚ) := nodes 6 ++ [trail 0 1, trail 4 3, trail 2 5] ++ l ++
  [sup 1, sup 3, sup 5, load 0 ⟨1, 0, 1⟩, load 4 ⟨-1, 0, 1⟩, load 2 ⟨0, 1, 2⟩]

def mirrorQ (l : List (Op ℚ)) : Diagram ℚ := after key (mirrorOps l ++ [.buildTrails])

/-- With deviation edges between the first nodes. -/
noncomputable def levelled : Diagram ℝ := (mirrorQ [dev 0 4, dev 2 0, dev 4 2]).real

/-- With deviation edges from the first node in the middle to the second ones of the other trails. -/
noncomputable def stepped : Diagram ℝ := (mirrorQ [dev 2 1, dev 3 2]).real

theorem valid_levelled : ValidInput levelled := validInput_real
  (validInput_of_history key (mirrorOps [dev 0 4, dev 2 0, dev 4 2]) (RegularCheck.regular (WF.after _ _) (by decide +kernel))
    (by decide +kernel))

theorem valid_stepped : ValidInput stepped := validInput_real
  (validInput_of_history key (mirrorOps [dev 2 1, dev 3 2]) (RegularCheck.regular (WF.after _ _) (by decide +kernel))
    (by decide +kernel))

theorem direct_levelled : DirectOnly levelled := map_directOnly (DirectCheck.direct (by decide +kernel))

theorem acyclic_stepped : Acyclic stepped :=
  AcyclicCheck.acyclic (μ := fun n => if n = 1 ∨ n = 3 then 1 else if n = 5 then 2 else 0) (by decide +kernel)

theorem cast_mirror (v : Vec ℚ) : mirror (v.map fun q : ℚ => (q : ℝ)) = (mirror v).map fun q : ℚ => (q : ℝ) := by
  ext <;> simp [mirror, Vec.map]

theorem cast_plane : (⟨4, 0, 0⟩ : Vec ℝ) = (⟨4, 0, 0⟩ : Vec ℚ).map fun q : ℚ => (q : ℝ) := by
  ext <;> simp [Vec.map]

theorem symmetric_levelled : SymmetricProblem mirror ⟨4, 0, 0⟩ swap levelled := by
  unfold SymmetricProblem levelled
  rw [cast_plane, carried_real cast_mirror]
  exact ProblemCheck.real (by decide +kernel)

theorem symmetric_stepped : SymmetricProblem mirror ⟨4, 0, 0⟩ swap stepped := by
  unfold SymmetricProblem stepped
  rw [cast_plane, carried_real cast_mirror]
  exact ProblemCheck.real (by decide +kernel)

end MirrorEx

open MirrorEx in
example : ∃ F, staticEquilibrium levelled none 100 0 false = .ok F ∧ SymmetricForm mirror ⟨4, 0, 0⟩ swap F := by
  obtain ⟨F, hF⟩ := C20_returns_without_indirect valid_levelled direct_levelled (show 1 ≤ 100 by norm_num) (le_refl (0 : ℝ))
  exact ⟨F, hF, C88_symmetric orthogonal_mirror valid_levelled symmetric_levelled direct_levelled hF⟩

open MirrorEx in
/-- Node 5 was not drawn in the plane of symmetry; in the form it lies there. -/
example : ∃ F, staticEquilibrium stepped none 100 0 false = .ok F ∧ SymmetricForm mirror ⟨4, 0, 0⟩ swap F ∧
    (posOf F 5).x = 2 ∧ ¬ DirectOnly stepped := by
  obtain ⟨St, hb⟩ := staged_of_acyclic valid_stepped acyclic_stepped
  have hk : stepped.nodes.keys = [0, 1, 2, 3, 4, 5] := by
    unfold stepped Diagram.real; rw [map_nodes_keys]; decide +kernel
  have hlen : stepped.nodes.length = 6 := by
    have := congrArg List.length hk
    simpa [Dict.keys] using this
  obtain ⟨F, hF⟩ := C65_returns valid_stepped St (N := 6) (fun n hn => by have := hb n hn; omega) (show 6 + 2 ≤ 100 by norm_num)
    (le_refl (0 : ℝ)) false
  have S := C88_symmetric_acyclic orthogonal_mirror valid_stepped symmetric_stepped acyclic_stepped (by norm_num) le_rfl hF
  refine ⟨F, hF, S, ?_, ?_⟩
  · have := congrArg Vec.x (S.position 5 (by rw [(C25_keeps_data valid_stepped hF).1, hk]; simp))
    simp only [Vec.add_x, mirror, swap] at this
    norm_num at this
    linarith
  · intro h
    have := h 2 1 _ (show stepped.edges.get? (2, 1) = some _ from rfl) rfl
    have e : seqOf stepped 2 = some 0 ∧ seqOf stepped 1 = some 1 := ⟨rfl, rfl⟩
    rw [e.1, e.2] at this
    simp at this

/-! ## With feedback -/

namespace CrossEx
open MirrorEx

/-- Trails `0-1` and `2-3` on both sides of the plane `x = 0`, and the indirect deviation edges `(0, 3)` and `(2, 1)`. -/
noncomputable def cross : Diagram ℝ where
  nodes := [(0, ⟨⟨1, 0, 0⟩, ⟨-1, 0, 0⟩, ⟨0, 0, 0⟩, some 0, .origin⟩),
    (1, ⟨⟨4, 0, 0⟩, ⟨0, 0, 0⟩, ⟨0, 0, 0⟩, some 1, .support⟩),
    (2, ⟨⟨-1, 0, 0⟩, ⟨1, 0, 0⟩, ⟨0, 0, 0⟩, some 0, .origin⟩),
    (3, ⟨⟨-4, 0, 0⟩, ⟨0, 0, 0⟩, ⟨0, 0, 0⟩, some 1, .support⟩)]
  edges := [((0, 1), ⟨.trail, 3, 0, none⟩), ((2, 3), ⟨.trail, 3, 0, none⟩),
    ((0, 3), ⟨.deviation, 0, -2, none⟩), ((2, 1), ⟨.deviation, 0, -2, none⟩)]
  maxNode := 3
  gkeyNode := [("0", 0), ("2", 1), ("1", 2), ("3", 3)]
  trails := [(0, [0, 1]), (2, [2, 3])]
  auxTrails := []
  auxLength := -1
  auxVector := ⟨1, 1, 1⟩

theorem cross_nodes (n : Int) : cross.nodes.get? n =
    if n = 0 then some ⟨⟨1, 0, 0⟩, ⟨-1, 0, 0⟩, ⟨0, 0, 0⟩, some 0, .origin⟩
    else if n = 1 then some ⟨⟨4, 0, 0⟩, ⟨0, 0, 0⟩, ⟨0, 0, 0⟩, some 1, .support⟩
    else if n = 2 then some ⟨⟨-1, 0, 0⟩, ⟨1, 0, 0⟩, ⟨0, 0, 0⟩, some 0, .origin⟩
    else if n = 3 then some ⟨⟨-4, 0, 0⟩, ⟨0, 0, 0⟩, ⟨0, 0, 0⟩, some 1, .support⟩ else none := by
  simp only [cross, Dict.get?, eq_comm (b := n)]

theorem cross_edges (e : Int × Int) : cross.edges.get? e =
    if e = (0, 1) then some ⟨.trail, 3, 0, none⟩ else if e = (2, 3) then some ⟨.trail, 3, 0, none⟩
    else if e = (0, 3) then some ⟨.deviation, 0, -2, none⟩
    else if e = (2, 1) then some ⟨.deviation, 0, -2, none⟩ else none := by
  simp only [cross, Dict.get?, eq_comm (b := e)]

theorem valid_cross : ValidInput cross := by
  refine validInput_same (S := fun _ => True) (D := FlipEx.flip) ⟨?_, ?_, ?_, ?_, ?_⟩ FlipEx.valid_flip
  · rw [FlipEx.flip_keys]; rfl
  · rw [FlipEx.flip_edge_keys]; rfl
  · intro n d d' h h'
    rw [FlipEx.flip_nodes] at h
    rw [cross_nodes] at h'
    split_ifs at h h' <;> simp at h h' <;> subst h <;> subst h' <;> simp
  · intro e d d' h h'
    rw [FlipEx.flip_edges] at h
    rw [cross_edges] at h'
    split_ifs at h h' <;> simp at h h' <;> subst h <;> subst h' <;> simp
  · refine ⟨rfl, rfl, rfl, rfl, ?_, ?_⟩
    · simp [cross, FlipEx.flip, FlipEx.flipLit, Diagram.real, Diagram.map]
    · simp [cross, FlipEx.flip, FlipEx.flipLit, Diagram.real, Diagram.map, Vec.map]

def turnAround (n : Int) : Int := if n = 0 then 2 else if n = 2 then 0 else if n = 1 then 3 else if n = 3 then 1 else n

theorem cross_keys : cross.nodes.keys = [0, 1, 2, 3] := rfl

theorem symmetric_cross : SymmetricProblem mirror 0 turnAround cross := by
  have four : ∀ n ∈ cross.nodes.keys, n = 0 ∨ n = 1 ∨ n = 2 ∨ n = 3 := by
    intro n hn; rw [cross_keys] at hn; simpa using hn
  refine ⟨?_, ?_, ?_, ?_, ?_, ?_, ?_, ?_⟩
  · rw [carried_keys, cross_keys]; decide
  · intro m
    rw [carried_keys, cross_keys]
    constructor
    · intro hm
      refine ⟨turnAround m, ?_, ?_⟩ <;> simp at hm <;> rcases hm with rfl | rfl | rfl | rfl <;> decide
    · rintro ⟨n, hn, rfl⟩
      simp at hn
      rcases hn with rfl | rfl | rfl | rfl <;> decide
  · intro n hn
    rw [carried_keys] at hn
    unfold loadAt
    rw [carried_node, cross_nodes, cross_nodes]
    rcases four n hn with rfl | rfl | rfl | rfl <;> simp [turnAround, mirror]
  · intro n hn
    rw [carried_keys] at hn
    unfold seqOf
    rw [carried_node, cross_nodes, cross_nodes]
    rcases four n hn with rfl | rfl | rfl | rfl <;> simp [turnAround]
  · intro n tr ht
    have : (n, tr) ∈ [((0 : Int), [(0 : Int), 1]), (2, [2, 3])] := ht
    unfold posOf
    rw [carried_node, cross_nodes, cross_nodes]
    simp only [List.mem_cons, Prod.mk.injEq, List.not_mem_nil, or_false] at this
    rcases this with ⟨rfl, -⟩ | ⟨rfl, -⟩ <;> simp [turnAround, mirror]
  · intro q
    show q ∈ [((0 : Int), [(0 : Int), 1]), (2, [2, 3])] ↔ ∃ p ∈ [((0 : Int), [(0 : Int), 1]), (2, [2, 3])], _
    simp only [List.mem_cons, List.not_mem_nil, or_false, exists_eq_or_imp, exists_eq_left, turnAround]
    simp
    exact or_comm
  · rintro ⟨a, b⟩ d hd
    rw [carried_edge, cross_edges] at hd
    unfold EdgeBetween
    simp only [cross_edges]
    split_ifs at hd with h1 h2 h3 h4 <;> simp at hd <;> subst hd
    all_goals first | obtain ⟨rfl, rfl⟩ := Prod.mk.inj h1 | obtain ⟨rfl, rfl⟩ := Prod.mk.inj h2 |
      obtain ⟨rfl, rfl⟩ := Prod.mk.inj h3 | obtain ⟨rfl, rfl⟩ := Prod.mk.inj h4
    · exact ⟨_, Or.inl rfl, rfl, fun _ => ⟨rfl, rfl⟩, fun h => by simp at h⟩
    · exact ⟨_, Or.inl rfl, rfl, fun _ => ⟨rfl, rfl⟩, fun h => by simp at h⟩
    · exact ⟨_, Or.inl rfl, rfl, fun h => by simp at h, fun _ => rfl⟩
    · exact ⟨_, Or.inl rfl, rfl, fun h => by simp at h, fun _ => rfl⟩
  · rw [carried_edge_keys]
    show ∀ e' ∈ [((0 : Int), (1 : Int)), (2, 3), (0, 3), (2, 1)], ∃ e ∈ [((0 : Int), (1 : Int)), (2, 3), (0, 3), (2, 1)], _
    decide

theorem cross_seqs : cross.trailsSequences = .ok [(0, [(0, 0), (1, 1)]), (2, [(0, 2), (1, 3)])] := rfl
theorem cross_number : cross.numberOfSequences = .ok 2 := rfl
theorem cross_sched : sched cross [(0, [(0, 0), (1, 1)]), (2, [(0, 2), (1, 3)])] 2 = [0, 2, 1, 3] := rfl

theorem cross_good : GoodSeqs cross [(0, [(0, 0), (1, 1)]), (2, [(0, 2), (1, 3)])] ∧ GoodSched cross none [0, 2, 1, 3] := by
  obtain ⟨T, N, hT, hN, hg, hlt⟩ := goodSeqs_of_valid valid_cross.wf valid_cross.trails valid_cross.nonempty
  rw [cross_seqs] at hT
  rw [cross_number] at hN
  obtain rfl := Except.ok.inj hT
  obtain rfl := Except.ok.inj hN
  exact ⟨hg, by rw [← cross_sched]; exact goodSched valid_cross.wf valid_cross.trails hg none hlt⟩

theorem cross_next : nxtK cross none 0 = some 1 ∧ nxtK cross none 1 = none ∧ nxtK cross none 2 = some 3 ∧
    nxtK cross none 3 = none := ⟨rfl, rfl, rfl, rfl⟩

theorem cross_dir : dirNbrs cross 0 = [] ∧ indNbrs cross 0 = [3] ∧ dirNbrs cross 2 = [] ∧ indNbrs cross 2 = [1] :=
  ⟨rfl, rfl, rfl, rfl⟩

theorem cross_data : edgeData cross 0 1 = ⟨.trail, 3, 0, none⟩ ∧ edgeData cross 2 3 = ⟨.trail, 3, 0, none⟩ ∧
    edgeData cross 0 3 = ⟨.deviation, 0, -2, none⟩ ∧ edgeData cross 2 1 = ⟨.deviation, 0, -2, none⟩ :=
  ⟨rfl, rfl, rfl, rfl⟩

theorem unit_axis {a : ℝ} (ha : a ≠ 0) : Vec.normalize (⟨a, 0, 0⟩ : Vec ℝ) = ⟨|a|⁻¹ * a, 0, 0⟩ := by
  have h2 : Vec.length (⟨a, 0, 0⟩ : Vec ℝ) = |a| := by
    simp [Vec.length, Vec.dot, PySqrt.sqrt, Real.sqrt_mul_self_eq_abs]
  rw [normalize_eq_unit, unit, h2]
  ext <;> simp

/-- From the second sweep on node 1 is on the other side. -/
theorem cross_iter (m : Nat) : (iter cross none [0, 2, 1, 3] (m + 1)).pos 3 = ⟨-4, 0, 0⟩ ∧
    (iter cross none [0, 2, 1, 3] (m + 1)).pos 1 = (if m = 0 then ⟨4, 0, 0⟩ else ⟨-2, 0, 0⟩) ∧
    (iter cross none [0, 2, 1, 3] (m + 1)).pos 0 = ⟨1, 0, 0⟩ ∧ (iter cross none [0, 2, 1, 3] (m + 1)).pos 2 = ⟨-1, 0, 0⟩ := by
  obtain ⟨hg, G⟩ := cross_good
  obtain ⟨n0, n1, n2, n3⟩ := cross_next
  obtain ⟨e0, f0, e2, f2⟩ := cross_dir
  obtain ⟨d0, d2, d3, d4⟩ := cross_data
  have k : ∀ n : Int, n = 0 ∨ n = 1 ∨ n = 2 ∨ n = 3 → n ∈ cross.nodes.keys := by
    intro n hn; rw [cross_keys]; simp; omega
  have none_of : ∀ x : Int, x = 0 ∨ x = 2 → ∀ a ∈ cross.nodes.keys, nxtK cross none a ≠ some x := by
    intro x hx a ha
    rw [cross_keys] at ha
    simp only [List.mem_cons, List.not_mem_nil, or_false] at ha
    rcases ha with rfl | rfl | rfl | rfl <;> simp only [n0, n1, n2, n3] <;> rcases hx with rfl | rfl <;> simp
  have hq : loadOf cross 0 = ⟨-1, 0, 0⟩ ∧ loadOf cross 2 = ⟨1, 0, 0⟩ := ⟨rfl, rfl⟩
  have hres : ∀ n, (initState cross).res n = 0 := by
    intro n
    unfold EqState.res initState
    rw [get?_map_val cross.nodes (fun d => d.reaction), cross_nodes]
    split_ifs <;> rfl
  have keep : ∀ (b : Bool) (s : EqState ℝ) (a x : Int), nxtK cross none a ≠ some x →
      (proc cross (nxtK cross none) b s a).pos x = s.pos x := by
    intro b s a x h
    cases hx : nxtK cross none a with
    | none => rw [proc_none hx]; rfl
    | some c =>
      have hb : x ≠ c := by rintro rfl; exact h hx
      rw [proc_some hx]
      unfold EqState.pos
      simp [Dict.get?_set, hb, Ne.symm hb]
  have seen : ∀ m, (stateAt cross (nxtK cross none) (decide (m ≠ 0)) [0, 2, 1, 3] (iter cross none [0, 2, 1, 3] m) 2).pos 1 =
      (iter cross none [0, 2, 1, 3] (m + 1)).pos 1 := by
    intro m
    have a1 : stateAt cross (nxtK cross none) (decide (m ≠ 0)) [0, 2, 1, 3] (iter cross none [0, 2, 1, 3] m) 2 =
      proc cross (nxtK cross none) (decide (m ≠ 0)) (iter cross none [0, 2, 1, 3] m) 0 := rfl
    have a2 : iter cross none [0, 2, 1, 3] (m + 1) =
      [0, 2, 1, 3].foldl (proc cross (nxtK cross none) (decide (m ≠ 0))) (iter cross none [0, 2, 1, 3] m) := rfl
    rw [a1, a2]
    simp only [List.foldl_cons, List.foldl_nil]
    rw [keep _ _ 3 _ (by rw [n3]; simp), keep _ _ 1 _ (by rw [n1]; simp), keep _ _ 2 _ (by rw [n2]; simp)]
  have start : ∀ m, (iter cross none [0, 2, 1, 3] (m + 1)).pos 0 = ⟨1, 0, 0⟩ ∧
      (iter cross none [0, 2, 1, 3] (m + 1)).pos 2 = ⟨-1, 0, 0⟩ ∧ (iter cross none [0, 2, 1, 3] (m + 1)).res 0 = 0 ∧
      (iter cross none [0, 2, 1, 3] (m + 1)).res 2 = 0 := by
    intro m
    have S := finalSpec_sched valid_cross.wf valid_cross.trails G m
    obtain ⟨s0, t0⟩ := S.start 0 (none_of 0 (Or.inl rfl))
    obtain ⟨s2, t2⟩ := S.start 2 (none_of 2 (Or.inr rfl))
    rw [s0, s2, t0, t2, hres, hres, posOf_init, posOf_init]
    exact ⟨rfl, rfl, rfl, rfl⟩
  suffices H : (iter cross none [0, 2, 1, 3] (m + 1)).pos 3 = ⟨-4, 0, 0⟩ ∧
      (iter cross none [0, 2, 1, 3] (m + 1)).pos 1 = (if m = 0 then ⟨4, 0, 0⟩ else ⟨-2, 0, 0⟩) from
    ⟨H.1, H.2, (start m).1, (start m).2.1⟩
  induction m with
  | zero =>
    have S := finalSpec_sched valid_cross.wf valid_cross.trails G 0
    obtain ⟨s0, s2, t0, t2⟩ := start 0
    simp only [ne_eq, not_true_eq_false, decide_false] at S
    have r0 := S.out 0 (k 0 (by simp))
    have r2 := S.out 2 (k 2 (by simp))
    simp only [outVec, t0, t2, e0, e2, hq.1, hq.2, devSum, List.map_nil, List.sum_nil, Bool.false_eq_true, if_false] at r0 r2
    have r0' : rAt cross (nxtK cross none) false [0, 2, 1, 3] (iter cross none [0, 2, 1, 3] 0) 0 = ⟨1, 0, 0⟩ := by
      rw [r0]; ext <;> simp
    have r2' : rAt cross (nxtK cross none) false [0, 2, 1, 3] (iter cross none [0, 2, 1, 3] 0) 2 = ⟨-1, 0, 0⟩ := by
      rw [r2]; ext <;> simp
    have p1 := (S.next 0 (k 0 (by simp)) 1 n0).1
    have p3 := (S.next 2 (k 2 (by simp)) 3 n2).1
    rw [s0, r0', d0, unit_axis one_ne_zero] at p1
    rw [s2, r2', d2, unit_axis (by norm_num)] at p3
    rw [p1, p3]
    constructor <;> ext <;> simp [effectiveLength] <;> norm_num
  | succ m ih =>
    have S := finalSpec_sched valid_cross.wf valid_cross.trails G (m + 1)
    obtain ⟨s0, s2, t0, t2⟩ := start (m + 1)
    have hdec : decide (m + 1 ≠ 0) = true := by simp
    have sn := seen (m + 1)
    rw [hdec] at S sn
    have r0 := S.out 0 (k 0 (by simp))
    have q00 := S.seen 0 (k 0 (by simp)) 0 le_rfl
    have q03 : (stateAt cross (nxtK cross none) true [0, 2, 1, 3] (iter cross none [0, 2, 1, 3] (m + 1)) 0).pos 3 = ⟨-4, 0, 0⟩ :=
      ih.1
    rw [s0] at q00
    simp only [outVec, t0, e0, f0, hq.1, devSum, devTerm, List.map_cons, List.map_nil, List.sum_cons, List.sum_nil, if_true, q00,
      q03, d3] at r0
    have v1 : (⟨-4, 0, 0⟩ : Vec ℝ) - ⟨1, 0, 0⟩ = ⟨-5, 0, 0⟩ := by ext <;> simp; norm_num
    rw [v1, unit_axis (by norm_num)] at r0
    have r0' : rAt cross (nxtK cross none) true [0, 2, 1, 3] (iter cross none [0, 2, 1, 3] (m + 1)) 0 = ⟨-1, 0, 0⟩ := by
      rw [r0]; ext <;> simp; norm_num
    have p1 := (S.next 0 (k 0 (by simp)) 1 n0).1
    rw [s0, r0', d0, unit_axis (by norm_num)] at p1
    have p1' : (iter cross none [0, 2, 1, 3] (m + 1 + 1)).pos 1 = ⟨-2, 0, 0⟩ := by
      rw [p1]; ext <;> simp [effectiveLength]; norm_num
    rw [p1'] at sn
    have q22 := S.seen 2 (k 2 (by simp)) 2 le_rfl
    rw [s2] at q22
    have r2 := S.out 2 (k 2 (by simp))
    simp only [outVec, t2, e2, f2, hq.2, devSum, devTerm, List.map_cons, List.map_nil, List.sum_cons, List.sum_nil, if_true, q22,
      sn, d4] at r2
    have v2 : (⟨-2, 0, 0⟩ : Vec ℝ) - ⟨-1, 0, 0⟩ = ⟨-1, 0, 0⟩ := by ext <;> simp; norm_num
    rw [v2, unit_axis (by norm_num)] at r2
    have r2' : rAt cross (nxtK cross none) true [0, 2, 1, 3] (iter cross none [0, 2, 1, 3] (m + 1)) 2 = ⟨-3, 0, 0⟩ := by
      rw [r2]; ext <;> simp; norm_num
    have p3 := (S.next 2 (k 2 (by simp)) 3 n2).1
    rw [s2, r2', d2, unit_axis (by norm_num)] at p3
    refine ⟨?_, by rw [p1', if_neg (by omega)]⟩
    rw [p3]; ext <;> simp [effectiveLength]; norm_num

/-- With three iterations or more a form is returned. -/
theorem cross_returns {tmax : Nat} (ht : 3 ≤ tmax) {eta : ℝ} (he : 0 ≤ eta) (verbose : Bool) :
    ∃ F, staticEquilibrium cross none tmax eta verbose = .ok F ∧ posOf F 1 = ⟨-2, 0, 0⟩ ∧ posOf F 3 = ⟨-4, 0, 0⟩ := by
  obtain ⟨hg, G⟩ := cross_good
  have w := valid_cross.wf
  have V := valid_cross.trails
  obtain ⟨m, h2, -, -, hor, hr⟩ :=
    (equilibriumState_sched valid_cross (kmax := none) (by simp) cross_seqs cross_number hg tmax eta verbose).2.2 (by omega)
  rw [cross_sched] at hor hr
  obtain ⟨j, rfl⟩ : ∃ j, m = j + 1 + 1 := ⟨m - 2, by omega⟩
  have hle : residualDistance (iter cross none [0, 2, 1, 3] (j + 1 + 1 - 1)).xyz (iter cross none [0, 2, 1, 3] (j + 1 + 1)).xyz ≤
      eta := by
    rcases hor with h | h
    · exact h.le
    · obtain ⟨i, rfl⟩ : ∃ i, j = i + 1 := ⟨j - 1, by omega⟩
      rw [residual_zero w (goodState_iter w V none _ _)]
      · exact he
      · intro n hn
        obtain ⟨a1, a2, a3, a4⟩ := cross_iter (i + 1)
        obtain ⟨b1, b2, b3, b4⟩ := cross_iter (i + 1 + 1)
        rw [cross_keys] at hn
        simp only [List.mem_cons, List.not_mem_nil, or_false] at hn
        rw [if_neg (by omega)] at a2 b2
        rcases hn with rfl | rfl | rfl | rfl <;> simp only [Nat.add_sub_cancel]
        · rw [a3, b3]
        · rw [a2, b2]
        · rw [a4, b4]
        · rw [a1, b1]
  unfold staticEquilibrium
  rw [hr, if_neg (not_lt.2 hle)]
  have S := finalSpec_sched w V G (j + 1)
  obtain ⟨b1, b2, -, -⟩ := cross_iter (j + 1)
  refine ⟨_, rfl, (posOf_form w S 1).trans ?_, (posOf_form w S 3).trans b1⟩
  rw [b2, if_neg (by omega)]

end CrossEx

open CrossEx MirrorEx in
/-- **C88.**  If positions need themselves, the form of a symmetric problem can be different on both sides, however small
the threshold is and however many iterations are made: a node that comes later sees where its counterpart has just
been placed. -/
theorem C88_feedback : ∃ D : Diagram ℝ, ValidInput D ∧ SymmetricProblem mirror 0 turnAround D ∧
    ∀ tmax eta verbose, 3 ≤ tmax → 0 ≤ eta → ∃ F, staticEquilibrium D none tmax eta verbose = .ok F ∧
      ¬ SymmetricForm mirror 0 turnAround F := by
  refine ⟨cross, valid_cross, symmetric_cross, fun tmax eta verbose ht he => ?_⟩
  obtain ⟨F, hF, h1, h3⟩ := cross_returns ht he verbose
  refine ⟨F, hF, fun S => ?_⟩
  have := congrArg Vec.x (S.position 1 (by rw [(C25_keeps_data valid_cross hF).1, cross_keys]; simp))
  rw [show turnAround 1 = 3 from rfl, h1, h3] at this
  simp [mirror] at this
  norm_num at this

end Props
end CEM
