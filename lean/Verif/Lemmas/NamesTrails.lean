import Verif.Lemmas.Names
import Verif.Lemmas.Trails2

/-!
# Trails of a diagram with other names of nodes
-/

set_option linter.unusedSectionVars false
set_option linter.unusedSimpArgs false

namespace CEM
open Diagram Spec

namespace Names

variable {R : Type} {f : Int → Int} {g : Int × Int → Int × Int} {D E : Diagram R}

/-- At most one neighbour along trail edges has not been visited. -/
def OneLeft (D : Diagram R) (acc : List Int) (n : Int) : Prop :=
  ∀ a b, TrailAdj D n a → a ∉ acc → TrailAdj D n b → b ∉ acc → a = b

theorem nextInWalk_eq (sg : SimpleGraph D) {acc : List Int} {n x : Int} (h : OneLeft D acc n)
    (hx : TrailAdj D n x) (ha : x ∉ acc) : D.nextInWalk acc n = some x := by
  cases hn : D.nextInWalk acc n with
  | none => exact absurd (nextInWalk_none hn (adj_mem_neighbors hx) ((isTrailPair_iff sg).2 hx)) ha
  | some y =>
    obtain ⟨hv, ht⟩ := nextInWalk_some hn
    rw [h y x ((isTrailPair_iff sg).1 ht) hv hx ha]

theorem walk_names (w : WF D) (rg : Regular D) (h : SameUpToNames f g D E) (fuel : Nat) (acc : List Int)
    (n : Int) (hm : ∀ x ∈ n :: acc, x ∈ D.nodes.keys) (ho : OneLeft D acc n) :
    E.walk fuel (acc.map f) (f n) = (D.walk fuel acc n).map (List.map f) := by
  have sg := rg.toSimpleGraph
  have sg' := simple w sg h
  induction fuel generalizing acc n with
  | zero => rfl
  | succ fuel ih =>
    have hn := hm n (by simp)
    have hnot : ∀ x ∈ D.nodes.keys, f x ∈ acc.map f → x ∈ acc := by
      intro x hx hfx
      obtain ⟨y, hy, e⟩ := List.mem_map.1 hfx
      rw [← h.inj y (hm y (by simp [hy])) x hx e]
      exact hy
    have hadj : ∀ {y}, TrailAdj E (f n) y → ∃ x, TrailAdj D n x ∧ f x = y := by
      intro y hy
      obtain ⟨a, b, hab, ha, hb⟩ := trailAdj_of h hy
      have := h.inj a (hab.symm.mem_right w) n hn ha
      subst this
      exact ⟨b, hab, hb⟩
    have ho' : OneLeft E (acc.map f) (f n) := by
      intro a b ha ha' hb hb'
      obtain ⟨x, hx, rfl⟩ := hadj ha
      obtain ⟨y, hy, rfl⟩ := hadj hb
      rw [ho x y hx (fun m => ha' (List.mem_map_of_mem m)) hy fun m => hb' (List.mem_map_of_mem m)]
    simp only [walk]
    cases hnx : D.nextInWalk acc n with
    | none =>
      have : E.nextInWalk (acc.map f) (f n) = none := by
        cases hny : E.nextInWalk (acc.map f) (f n) with
        | none => rfl
        | some y =>
          obtain ⟨hv, ht⟩ := nextInWalk_some hny
          obtain ⟨x, hx, rfl⟩ := hadj ((isTrailPair_iff sg').1 ht)
          have := nextInWalk_none hnx (adj_mem_neighbors hx) ((isTrailPair_iff sg).2 hx)
          exact absurd (List.mem_map_of_mem this) hv
      rw [this]
      rfl
    | some x =>
      obtain ⟨hv, ht⟩ := nextInWalk_some hnx
      have hx := (isTrailPair_iff sg).1 ht
      have hxk := hx.mem_right w
      rw [nextInWalk_eq sg' ho' (trailAdj_map h hx) fun m => hv (hnot x hxk m)]
      have hne : x ≠ n := by
        rintro rfl
        rcases hx with ⟨d, hd, _⟩ | ⟨d, hd, _⟩ <;> exact sg.noLoop _ (Dict.mem_keys_of_get? hd)
      simp only [if_neg hne, if_neg fun e => hne (h.inj x hxk n hn e)]
      have := ih (n :: acc) x (by
        intro y hy
        rcases List.mem_cons.1 hy with rfl | hy
        · exact hxk
        · exact hm y hy) ?_
      · rw [List.map_cons] at this
        exact this
      · intro a b ha ha' hb hb'
        simp only [List.mem_cons, not_or] at ha' hb'
        rcases rg.deg x a b n ha hb hx.symm with e | e | e
        · exact e
        · exact absurd e hb'.1
        · exact absurd e ha'.1

theorem modify_names (h : SameUpToNames f g D E) {n : Int} (hn : n ∈ D.nodes.keys)
    (F : NodeData R → NodeData R) :
    SameUpToNames f g { D with nodes := D.nodes.modify n F }
      { E with nodes := E.nodes.modify (f n) F } := by
  refine ⟨?_, ?_, ?_, h.ends, h.edge, h.edges, h.trails⟩
  · simp only [Dict.keys_modify]; exact h.inj
  · intro m d hd
    have hm := Dict.mem_keys_of_get? hd
    rw [Dict.keys_modify] at hm
    simp only [Dict.get?_modify] at hd ⊢
    by_cases hnm : n = m
    · rw [if_pos hnm] at hd; rw [if_pos (by rw [hnm]), get_node h hn, hd]
    · rw [if_neg hnm] at hd; rw [if_neg fun e => hnm (h.inj n hn m hm e), get_node h hm, hd]
  · simp only [Dict.keys_modify]; exact h.nodes

theorem assign_names (l : List Int) {D E : Diagram R} (h : SameUpToNames f g D E)
    (hl : ∀ n ∈ l, n ∈ D.nodes.keys) (k : Int) :
    SameUpToNames f g (D.assignSequences l k) (E.assignSequences (l.map f) k) := by
  induction l generalizing D E k with
  | nil => exact h
  | cons n l ih =>
    rw [List.map_cons, assignSequences, assignSequences]
    refine ih (modify_names h (hl n (by simp)) _) (fun m hm => ?_) _
    simp only [setK, Dict.keys_modify]
    exact hl m (by simp [hm])

theorem set_names {α β : Type} (F : α → β) (d : Dict Int α) {A : List Int}
    (inj : ∀ a ∈ A, ∀ b ∈ A, f a = f b → a = b) (hd : ∀ k ∈ d.keys, k ∈ A) {k : Int} (hk : k ∈ A) (v : α) :
    (Dict.set d k v).map (fun p => (f p.1, F p.2)) =
      Dict.set (d.map fun p => (f p.1, F p.2)) (f k) (F v) := by
  induction d with
  | nil => rfl
  | cons p d ih =>
    obtain ⟨a, b⟩ := p
    have ha : a ∈ A := hd a (by simp [Dict.keys])
    have ih := ih fun x hx => hd x (by simp only [Dict.keys, List.map_cons, List.mem_cons] at hx ⊢; exact Or.inr hx)
    simp only [List.map_cons, Dict.set]
    by_cases e : a = k
    · rw [if_pos e, if_pos (by rw [e])]; rfl
    · rw [if_neg e, if_neg fun x => e (inj a ha k hk x), List.map_cons, ih]

/-- The loops correspond. -/
structure SameBuild (f : Int → Int) (g : Int × Int → Int × Int) (D E : Diagram R) (s t : BuildState R) : Prop where
  names : SameUpToNames f g s.D t.D
  edges : s.D.edges = D.edges
  edges' : t.D.edges = E.edges
  keys : s.D.nodes.keys = D.nodes.keys
  typ : ∀ n, typeOf s.D n = some .support → typeOf D n = some .support
  typ' : ∀ n, typeOf t.D n = some .support → typeOf E n = some .support
  trails : t.trails = s.trails.map fun p => (f p.1, p.2.map f)
  heads : ∀ k ∈ s.trails.keys, k ∈ D.nodes.keys
  inTrails : t.inTrails = s.inTrails.map f
  inside : ∀ n ∈ s.inTrails, n ∈ D.nodes.keys

theorem keys_assign (D : Diagram R) (l : List Int) (k : Int) :
    (D.assignSequences l k).nodes.keys = D.nodes.keys := by
  induction l generalizing D k with
  | nil => rfl
  | cons n l ih => rw [assignSequences, ih]; simp only [setK, Dict.keys_modify]

theorem edges_assign (D : Diagram R) (l : List Int) (k : Int) :
    (D.assignSequences l k).edges = D.edges := by
  induction l generalizing D k with
  | nil => rfl
  | cons n l ih => rw [assignSequences, ih]; rfl

theorem type_step (D : Diagram R) (o : Int) (l : List Int) {n : Int}
    (h : typeOf ((D.setOrigin o).assignSequences l 0) n = some .support) : typeOf D n = some .support := by
  rw [typeOf_assignSequences, typeOf_setOrigin] at h
  split_ifs at h
  · cases ho : typeOf D o <;> rw [ho] at h <;> simp at h
  · exact h

theorem step_names (w : WF D) (rg : Regular D) (h : SameUpToNames f g D E) {s t : BuildState R}
    (hst : SameBuild f g D E s t) {fuel : Nat} {S : Int} (hS : typeOf s.D S = some .support) :
    (buildStep fuel s S = none ∧ buildStep fuel t (f S) = none) ∨
    ∃ s' t', buildStep fuel s S = some s' ∧ buildStep fuel t (f S) = some t' ∧ SameBuild f g D E s' t' := by
  have hSD := hst.typ S hS
  have hSk := typeOf_isSome_mem hSD
  have hw := walk_names w rg h fuel [] S (by simpa using hSk) (by
    obtain ⟨x, _, hu⟩ := rg.supportDeg S hSD
    intro a b ha _ hb _
    rw [hu a ha, hu b hb])
  unfold buildStep
  rw [walk_congr hst.edges, walk_congr hst.edges', show ([] : List Int) = ([] : List Int).map f from rfl, hw]
  simp only [List.map_nil]
  cases hwk : D.walk fuel [] S with
  | none => exact Or.inl ⟨rfl, rfl⟩
  | some tr =>
    obtain ⟨key, G, m, rfl⟩ := walk_good rg hSD hwk
    have hsub := G.subset w
    have hsub' : ∀ n ∈ key :: (m ++ [S]), n ∈ s.D.nodes.keys := fun n hn => by
      rw [hst.keys]; exact hsub n hn
    refine Or.inr ⟨_, _, rfl, rfl, ?_⟩
    have hkey := hsub key (by simp)
    constructor
    · exact assign_names (key :: (m ++ [S])) (modify_names hst.names (hsub' key (by simp)) _)
        (fun n hn => by simp only [Dict.keys_modify]; exact hsub' n hn) 0
    · rw [edges_assign]; exact hst.edges
    · rw [edges_assign]; exact hst.edges'
    · rw [keys_assign]; simp only [setOrigin, Dict.keys_modify]; exact hst.keys
    · exact fun n hn => hst.typ n (type_step _ _ _ hn)
    · exact fun n hn => hst.typ' n (type_step _ _ _ hn)
    · simp only
      rw [set_names (List.map f) s.trails h.inj hst.heads hkey, hst.trails]
      rfl
    · intro k hk
      rcases Dict.mem_keys_set.1 hk with rfl | hk
      · exact hkey
      · exact hst.heads k hk
    · simp only
      rw [hst.inTrails]
      simp
    · intro n hn
      rcases List.mem_append.1 hn with hn | hn
      · exact hsub n hn
      · exact hst.inside n hn

theorem loop_names (w : WF D) (rg : Regular D) (h : SameUpToNames f g D E) {fuel : Nat} (l : List Int)
    (hl : ∀ n ∈ l, n ∈ D.nodes.keys) {s t : BuildState R} (hst : SameBuild f g D E s t) :
    (buildLoop fuel l s = none ∧ buildLoop fuel (l.map f) t = none) ∨
    ∃ s' t', buildLoop fuel l s = some s' ∧ buildLoop fuel (l.map f) t = some t' ∧ SameBuild f g D E s' t' := by
  induction l generalizing s t with
  | nil => exact Or.inr ⟨s, t, rfl, rfl, hst⟩
  | cons n l ih =>
    have hn : n ∈ s.D.nodes.keys := by rw [hst.keys]; exact hl n (by simp)
    rw [List.map_cons, buildLoop_cons, buildLoop_cons, typeOf_eq hst.names hn]
    have hl' : ∀ m ∈ l, m ∈ D.nodes.keys := fun m hm => hl m (by simp [hm])
    by_cases hS : typeOf s.D n = some .support
    · rw [if_pos hS, if_pos hS]
      rcases step_names w rg h hst (fuel := fuel) hS with ⟨e1, e2⟩ | ⟨s', t', e1, e2, hs'⟩
      · rw [e1, e2]; exact Or.inl ⟨rfl, rfl⟩
      · rw [e1, e2]; exact ih hl' hs'
    · rw [if_neg hS, if_neg hS]; exact ih hl' hst

/-- Nodes that are not supports when the search begins are skipped. -/
theorem loop_supports (D : Diagram R) {fuel : Nat} (l : List Int) (s : BuildState R)
    (hs : ∀ n, typeOf s.D n = some .support → typeOf D n = some .support) :
    buildLoop fuel l s = buildLoop fuel (l.filter fun n => (D.nodes.get? n).map (·.type) = some .support) s := by
  induction l generalizing s with
  | nil => rfl
  | cons n l ih =>
    rw [buildLoop_cons, List.filter_cons]
    by_cases hD : typeOf D n = some .support
    · have : decide ((D.nodes.get? n).map (·.type) = some .support) = true := decide_eq_true hD
      rw [if_pos this, buildLoop_cons]
      by_cases hS : typeOf s.D n = some .support
      · rw [if_pos hS, if_pos hS]
        cases hb : buildStep fuel s n with
        | none => rfl
        | some s' =>
          refine ih s' fun m hm => ?_
          unfold buildStep at hb
          split at hb
          · cases hb
          · cases hb
          · cases hb
            exact hs m (type_step _ _ _ hm)
      · rw [if_neg hS, if_neg hS]; exact ih s hs
    · have : ¬ decide ((D.nodes.get? n).map (·.type) = some .support) = true := by
        simpa [typeOf] using hD
      rw [if_neg this, if_neg fun x => hD (hs n x)]
      exact ih s hs

/-- The outcome of `build_trails` is the same. -/
theorem build_names (w : WF D) (rg : Regular D) (w' : WF E) (h : SameUpToNames f g D E)
    (hS : E.supportNodes = D.supportNodes.map f) :
    E.buildTrails.2 = D.buildTrails.2 ∧ SameUpToNames f g D.buildTrails.1 E.buildTrails.1 := by
  have hlen : E.walkFuel = D.walkFuel := by
    unfold walkFuel
    rw [← Dict.length_keys, ← Dict.length_keys, ← (nodes_perm w w' h).length_eq, List.length_map]
  have hloop := loop_names w rg h (fuel := D.walkFuel) D.supportNodes
    (fun n hn => typeOf_isSome_mem (mem_supportNodes.1 hn)) (s := ⟨D, [], []⟩) (t := ⟨E, [], []⟩)
    ⟨h, rfl, rfl, rfl, fun _ => id, fun _ => id, rfl, by simp [Dict.keys], rfl, by simp⟩
  obtain ⟨s, hs⟩ := searchTrails_terminates w
  obtain ⟨t, ht⟩ := searchTrails_terminates w'
  have hs' : buildLoop D.walkFuel D.supportNodes ⟨D, [], []⟩ = some s := by
    rw [← hs]; exact (loop_supports D _ _ fun _ => id).symm
  have ht' : buildLoop D.walkFuel (D.supportNodes.map f) ⟨E, [], []⟩ = some t := by
    rw [← ht, ← hS, ← hlen]; exact (loop_supports E _ _ fun _ => id).symm
  rw [hs', ht'] at hloop
  rcases hloop with ⟨x, _⟩ | ⟨s0, t0, e1, e2, hst⟩
  · cases x
  cases e1
  cases e2
  have ws : WF s.D := w.of_sameBase (GenInv.search w hs).base
  have wt : WF t.D := w'.of_sameBase (GenInv.search w' ht).base
  have c1 : t.D.trailEdges.length = 0 ↔ s.D.trailEdges.length = 0 := by
    rw [← not_iff_not]
    change t.D.trailEdges.length ≠ 0 ↔ s.D.trailEdges.length ≠ 0
    rw [trailEdges_length_ne wt, trailEdges_length_ne ws]
    constructor
    · rintro ⟨a, b, hab⟩
      obtain ⟨x, y, hxy, _⟩ := trailAdj_of hst.names (Or.inl hab : TrailAdj t.D a b)
      rcases hxy with hxy | hxy
      · exact ⟨x, y, hxy⟩
      · exact ⟨y, x, hxy⟩
    · rintro ⟨a, b, hab⟩
      rcases trailAdj_map hst.names (Or.inl hab : TrailAdj s.D a b) with hxy | hxy
      · exact ⟨_, _, hxy⟩
      · exact ⟨_, _, hxy⟩
  have c2 : t.D.supportNodes.length = 0 ↔ s.D.supportNodes.length = 0 := by
    rw [← not_iff_not]
    change t.D.supportNodes.length ≠ 0 ↔ s.D.supportNodes.length ≠ 0
    rw [supportNodes_length_ne, supportNodes_length_ne]
    constructor
    · rintro ⟨a, ha⟩
      obtain ⟨n, hn, rfl⟩ := hst.names.nodes a (typeOf_isSome_mem ha)
      exact ⟨n, by rw [← typeOf_eq hst.names hn]; exact ha⟩
    · rintro ⟨a, ha⟩
      exact ⟨f a, by rw [typeOf_eq hst.names (typeOf_isSome_mem ha)]; exact ha⟩
  have c3 : (unassigned t).length = 0 ↔ (unassigned s).length = 0 := by
    rw [unassigned_length_eq, unassigned_length_eq]
    constructor
    · intro hall n hn
      have := hall (f n) (mem_node hst.names hn)
      rw [hst.inTrails] at this
      obtain ⟨m, hm, e⟩ := List.mem_map.1 this
      rw [← hst.names.inj m (by rw [hst.keys]; exact hst.inside m hm) n hn e]
      exact hm
    · intro hall m hm
      obtain ⟨n, hn, rfl⟩ := hst.names.nodes m hm
      rw [hst.inTrails]
      exact List.mem_map_of_mem (hall n hn)
  unfold buildTrails
  simp only [hs, ht, c1, c2, c3, ne_eq]
  split_ifs
  · exact ⟨rfl, hst.names⟩
  · exact ⟨rfl, hst.names⟩
  · exact ⟨rfl, hst.names.inj, hst.names.node, hst.names.nodes, hst.names.ends, hst.names.edge,
      hst.names.edges, hst.trails⟩
  · exact ⟨rfl, hst.names⟩

end Names
end CEM
