import Verif.Props.NumpyApart

/-!
# Forms of both solvers without indirect deviation edges (C91), and symmetric forms of the numpy solver (C88)
-/

set_option linter.unusedSectionVars false
set_option linter.unusedSimpArgs false

namespace CEM
namespace Props
open Diagram Spec

theorem upToNames_refl {D : Diagram ℝ} : ProblemUpToNames id D D where
  inj := fun _ _ _ _ h => h
  nodes := fun m => ⟨fun h => ⟨m, h, rfl⟩, fun ⟨_, h, e⟩ => e ▸ h⟩
  load := fun _ _ => rfl
  sequence := fun _ _ => rfl
  origin := fun _ _ _ => rfl
  trails := fun q => ⟨fun h => ⟨q, h, by simp⟩, fun ⟨p, h, e⟩ => by simp at e; rw [e]; exact h⟩
  edge := fun e d h => ⟨d, Or.inl h, rfl, fun _ => ⟨rfl, rfl⟩, fun _ => rfl⟩
  edges := fun e h => ⟨e, h, Or.inl rfl⟩

/-- Without indirect deviation edges a diagram has one form. -/
theorem computed_unique {D F G : Diagram ℝ} (I : ValidInput D) (hd : DirectOnly D) (hF : Computed D F)
    (hG : Computed D G) : F = G := by
  obtain ⟨kn, ke, dn, de⟩ := computed_keeps_data I hF
  obtain ⟨kn', ke', dn', de'⟩ := computed_keeps_data I hG
  obtain ⟨i, p, s, r, Q, rfl, S⟩ := hF
  obtain ⟨i', p', s', r', Q', rfl, S'⟩ := hG
  have U : FormUpToNames id (formOf D s) (formOf D s') :=
    same_form I I upToNames_refl (fun _ h => h) (stage_zero hd) (N := 0) (fun _ _ => le_rfl) S S'
      (rounds_direct I hd S) (rounds_direct I hd S')
  have hn : (formOf D s).nodes = (formOf D s').nodes := by
    apply Dict.ext_get? (by rw [kn]; exact I.wf.nodesNodup) (by rw [kn, kn'])
    intro n hn
    have hp := U.position n hn
    have hr := U.reaction n hn
    rw [kn] at hn
    obtain ⟨d, hd⟩ := (Dict.exists_get?_iff _ _).2 hn
    obtain ⟨a, ha, a1, a2, a3, _⟩ := dn n d hd
    obtain ⟨b, hb, b1, b2, b3, _⟩ := dn' n d hd
    simp only [id, posOf, reactionAt, ha, hb, Option.map_some, Option.getD_some] at hp hr
    rw [ha, hb]
    congr 1
    cases a; cases b
    simp only at a1 a2 a3 b1 b2 b3 hp hr
    subst a1 a2 a3 hp hr
    rw [← b1, ← b2, ← b3]
  have he : (formOf D s).edges = (formOf D s').edges := by
    apply Dict.ext_get? (by rw [ke]; exact I.wf.edgesNodup) (by rw [ke, ke'])
    intro e hm
    obtain ⟨a, ha⟩ := (Dict.exists_get?_iff _ _).2 hm
    obtain ⟨b, hb, t1, t2, t3⟩ := U.edge e a ha
    rw [ke] at hm
    obtain ⟨d, hd⟩ := (Dict.exists_get?_iff _ _).2 hm
    obtain ⟨a', ha', a1, a2, _⟩ := de e d hd
    obtain ⟨b', hb', b1, b2, _⟩ := de' e d hd
    rw [ha] at ha'
    obtain rfl := Option.some.inj ha'
    have hbb : b = b' := by
      rcases hb with hb | hb
      · simp only [id] at hb
        rw [show (e.1, e.2) = e from rfl, hb'] at hb
        exact (Option.some.inj hb).symm
      · simp only [id] at hb
        have : (e.2, e.1) ∈ D.edges.keys := by rw [← ke']; exact Dict.mem_keys_of_get? hb
        exact absurd this (I.simple.noAnti e.1 e.2 hm)
    subst hbb
    rw [ha, hb']
    congr 1
    cases a; cases b
    simp only at a1 a2 b1 b2 t1 t2 t3
    subst t2 t3 a1 a2
    rw [← b1, ← b2]
  unfold formOf formUpdate at hn he ⊢
  simp only at hn he ⊢
  rw [hn] at he ⊢
  rw [he]

/-- **C91.**  Without indirect deviation edges, a form without NaN that the numpy solver returns, with any settings, is
the form that the plain solver returns, with all settings with which it does. -/
theorem C91_same {D : Diagram ℝ} (I : ValidInput D) (hd : DirectOnly D) {tmax : Nat} {eta : ℝ} {verbose : Bool}
    {F : Diagram ℝ} (h : staticEquilibriumNumpy D tmax eta verbose = .ok F.num) :
    (∀ tmax' eta', 1 ≤ tmax' → 0 ≤ eta' → staticEquilibrium D none tmax' eta' false = .ok F) ∧
    ∀ tmax' eta' verbose' G, staticEquilibrium D none tmax' eta' verbose' = .ok G → G = F := by
  have key : ∀ tmax' eta' verbose' G, staticEquilibrium D none tmax' eta' verbose' = .ok G → G = F :=
    fun _ _ _ _ hG => computed_unique I hd (computed_of_returned I hG) (computed_of_numpy I h)
  refine ⟨fun tmax' eta' ht he => ?_, key⟩
  obtain ⟨G, hG⟩ := C20_returns_without_indirect I hd ht he
  rw [hG, key _ _ _ _ hG]

section
variable {A : Vec ℝ → Vec ℝ} {c : Vec ℝ} {f : Int → Int} {D : Diagram ℝ}

/-- **C88.**  Symmetric problems without indirect deviation edges: forms of the numpy solver. -/
theorem C88_symmetric_numpy (hA : Orthogonal A) (I : ValidInput D) (h : SymmetricProblem A c f D) (hd : DirectOnly D)
    {tmax : Nat} {eta : ℝ} {verbose : Bool} {F : Diagram ℝ}
    (hF : staticEquilibriumNumpy D tmax eta verbose = .ok F.num) : SymmetricForm A c f F :=
  C88_symmetric hA I h hd ((C91_same I hd hF).1 1 0 le_rfl le_rfl)

/-- **C88.**  The same if no position needs itself, for more iterations than nodes and threshold zero. -/
theorem C88_symmetric_numpy_acyclic (hA : Orthogonal A) (I : ValidInput D) (h : SymmetricProblem A c f D)
    (hc : Acyclic D) {tmax : Nat} (ht : D.nodes.length < tmax) {verbose : Bool} {F : Diagram ℝ}
    (hF : staticEquilibriumNumpy D tmax 0 verbose = .ok F.num) : SymmetricForm A c f F := by
  obtain ⟨F', G, h1, h2, h3, h4⟩ := C33_acyclic I hc ht verbose
  rw [hF] at h2
  obtain rfl := Except.ok.inj h2
  have hn : Nondegenerate F' := by
    by_contra hn
    exact not_hasNaN_num F (h4 hn)
  obtain rfl := num_inj (h3 hn)
  have := nodes_pos I
  exact C88_symmetric_acyclic hA I h hc (by omega) le_rfl h1

end

/-! ## Examples -/

namespace MirrorEx
open TrailEx

local instance levelSqrt : PySqrt ℚ := ⟨id⟩

abbrev levelledQ : Diagram ℚ := mirrorQ [dev 0 4, dev 2 0, dev 4 2]

theorem levelled_plane_free : NoPlanes levelled := by
  intro e d hd _
  have hpl : ∀ p ∈ levelledQ.edges, p.2.plane = none := by decide +kernel
  unfold levelled Diagram.real at hd
  rw [map_edges_get?] at hd
  obtain ⟨q, hq, rfl⟩ := Option.map_eq_some_iff.1 hd
  have := hpl _ (Dict.mem_of_get? hq)
  simp only at this
  simp [EdgeData.map, this]

theorem levelled_trails : levelled.trails = [(0, [0, 1]), (4, [4, 3]), (2, [2, 5])] := by
  unfold levelled Diagram.real
  rw [map_trails]
  decide +kernel

theorem levelled_pos {n : Int} {p : Vec ℚ} (h : (levelledQ.nodes.get? n).map (·.pos) = some p) :
    posOf levelled n = p.map fun q : ℚ => (q : ℝ) := by
  obtain ⟨q, hq, rfl⟩ := Option.map_eq_some_iff.1 h
  unfold posOf levelled Diagram.real
  rw [map_nodes_get?, hq]
  rfl

theorem levelled_apart : KeptApart levelled := by
  intro e d hd ht ka la qa kb lb qb ha hb
  have hdev : ∀ p ∈ levelledQ.edges, p.2.type = .deviation → p.1 = (0, 4) ∨ p.1 = (2, 0) ∨ p.1 = (4, 2) := by decide +kernel
  have he : e = (0, 4) ∨ e = (2, 0) ∨ e = (4, 2) := by
    unfold levelled Diagram.real at hd
    rw [map_edges_get?] at hd
    obtain ⟨q, hq, rfl⟩ := Option.map_eq_some_iff.1 hd
    exact hdev _ (Dict.mem_of_get? hq) ht
  have p0 := levelled_pos (n := 0) (p := ⟨0, 0, 0⟩) (by decide +kernel)
  have p2 := levelled_pos (n := 2) (p := ⟨2, 0, 0⟩) (by decide +kernel)
  have p4 := levelled_pos (n := 4) (p := ⟨4, 0, 0⟩) (by decide +kernel)
  have w0 : ∀ n, walked levelled [n] = 0 := fun _ => rfl
  rw [levelled_trails] at ha hb
  simp only [List.mem_cons, List.not_mem_nil, or_false, Prod.mk.injEq] at ha hb
  have start : ∀ {k x : Int} {l q : List Int}, (k = 0 ∧ l ++ x :: q = [0, 1] ∨ k = 4 ∧ l ++ x :: q = [4, 3] ∨
      k = 2 ∧ l ++ x :: q = [2, 5]) → (x = 0 ∨ x = 2 ∨ x = 4) → k = x ∧ l = [] := by
    intro k x l q h hx
    rcases h with ⟨_, h⟩ | ⟨_, h⟩ | ⟨_, h⟩ <;> rcases split_pair h.symm with ⟨h1, h2⟩ | ⟨h1, h2⟩ <;> simp_all
  obtain ⟨rfl, rfl⟩ := start ha (by rcases he with rfl | rfl | rfl <;> simp)
  obtain ⟨rfl, rfl⟩ := start hb (by rcases he with rfl | rfl | rfl <;> simp)
  simp only [List.nil_append, w0, add_zero]
  apply Vec.length_pos
  intro h0
  have h1 := sub_eq_zero.1 h0
  rcases he with rfl | rfl | rfl
  · simp only [p0, p4] at h1
    have := congrArg Vec.x h1
    norm_num [Vec.map] at this
  · simp only [p0, p2] at h1
    have := congrArg Vec.x h1
    norm_num [Vec.map] at this
  · simp only [p4, p2] at h1
    have := congrArg Vec.x h1
    norm_num [Vec.map] at this

end MirrorEx

open MirrorEx in
/-- Without indirect deviation edges both solvers return one symmetric form. -/
example : ∃ F : Diagram ℝ, staticEquilibriumNumpy levelled 100 0 false = .ok F.num ∧
    staticEquilibrium levelled none 7 1 false = .ok F ∧ SymmetricForm mirror ⟨4, 0, 0⟩ swap F := by
  obtain ⟨F, hF⟩ := C20_returns_without_indirect valid_levelled direct_levelled (show 1 ≤ 100 by norm_num) (le_refl (0 : ℝ))
  obtain ⟨F', hF'⟩ := C92_returns valid_levelled levelled_plane_free levelled_apart (by norm_num) hF
  exact ⟨F', hF', (C91_same valid_levelled direct_levelled hF').1 7 1 (by norm_num) (by norm_num),
    C88_symmetric_numpy orthogonal_mirror valid_levelled symmetric_levelled direct_levelled hF'⟩

open MirrorEx in
/-- With indirect deviation edges. -/
example : ∃ F : Diagram ℝ, staticEquilibriumNumpy stepped 100 0 false = .ok F.num ∧
    SymmetricForm mirror ⟨4, 0, 0⟩ swap F := by
  have hlt : stepped.nodes.length < 100 := by rw [stepped_nodes]; norm_num
  obtain ⟨_, G, _, hG, _⟩ := C33_acyclic valid_stepped acyclic_stepped hlt false
  obtain ⟨F, rfl⟩ := C92_no_nan valid_stepped stepped_plane_free stepped_apart hG
  exact ⟨F, hG, C88_symmetric_numpy_acyclic orthogonal_mirror valid_stepped symmetric_stepped acyclic_stepped hlt hG⟩

end Props
end CEM
