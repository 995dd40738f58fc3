import Verif.Model.Artists
import Verif.Props.Arrows
import Verif.Props.Selections

/-!
# C68: the drawing components of Grasshopper
-/

set_option linter.unusedSectionVars false
set_option linter.unusedSimpArgs false

namespace CEM
namespace Props
open Diagram Spec Drawing Component TrailEx

variable {R : Type}

local instance artistSqrt : PySqrt ℚ := ⟨id⟩

/-- The objects a drawing is about: all of them without a selection and with an empty one. -/
def chosen {K : Type} (all : List K) (s : Option (List K)) : List K :=
  if s.getD [] = [] then all else s.getD []

/-- A number given to a component: a default replaces nothing and zero. -/
def settled [Field R] [DecidableEq R] (default : R) (s : Option R) : R :=
  if s.getD 0 = 0 then default else s.getD 0

private theorem orElse_settled [Field R] [DecidableEq R] (default : R) (s : Option R) :
    orElse s default = settled default s := by
  cases s with
  | none => simp [orElse, settled]
  | some a => by_cases h : a = 0 <;> simp [orElse, settled, h]

private theorem orAll_chosen {K : Type} [DecidableEq K] (all : List K) (s : Option (List K)) :
    orAll all (orNone s) = chosen all s := by
  rcases s with _ | _ | ⟨a, l⟩ <;> simp [orNone, orAll, chosen]

private theorem getD_chosen {K : Type} [DecidableEq K] (all : List K) (s : Option (List K)) :
    (orNone s).getD all = chosen all s := by
  rcases s with _ | _ | ⟨a, l⟩ <;> simp [orNone, chosen]

private theorem orNone_mem {K : Type} {s : Option (List K)} {l : List K} (h : orNone s = some l) :
    s = some l ∧ l ≠ [] := by
  rcases s with _ | _ | ⟨a, l'⟩ <;> simp [orNone] at h
  subst h; simp

private theorem drawForces_list [Field R] [LinearOrder R] [PySqrt R] {D : Diagram R}
    {vec : NodeData R → Vec R} {vecAt : Int → Vec R}
    (hv : ∀ n d, D.nodes.get? n = some d → vec d = vecAt n) (scale tol : R) (gap : Int → R)
    {shift : Dict Int Bool} {sh : Int → Bool} {nodes : List Int}
    (hn : ∀ n ∈ nodes, n ∈ D.nodes.keys) (hs : ∀ n ∈ nodes, shift.get? n = some (sh n)) :
    ∃ arrows, drawForces D vec scale tol gap shift nodes = .ok arrows ∧
      arrows.map Prod.fst = nodes.filter (fun n => tol ≤ Vec.length (vecAt n)) ∧
      ∀ p ∈ arrows, forceArrow (vecAt p.1) (posOf D p.1) scale (gap p.1) tol (sh p.1) = some p.2 := by
  induction nodes with
  | nil => exact ⟨[], rfl, rfl, by simp⟩
  | cons n l ih =>
    obtain ⟨d, hd⟩ := (Dict.exists_get?_iff _ _).2 (hn n (by simp))
    obtain ⟨arrows, h1, h2, h3⟩ := ih (fun m hm => hn m (by simp [hm])) (fun m hm => hs m (by simp [hm]))
    have hp : d.pos = posOf D n := by simp [posOf, hd]
    unfold drawForces
    rw [hd]
    simp only [hv n d hd]
    by_cases hl : Vec.length (vecAt n) < tol
    · rw [if_pos hl]
      exact ⟨arrows, h1, by rw [h2, List.filter_cons_of_neg (by simpa using hl)], h3⟩
    · rw [if_neg hl]
      obtain ⟨a, ha⟩ : ∃ a, forceArrow (vecAt n) d.pos scale (gap n) tol (sh n) = some a := by
        cases hf : forceArrow (vecAt n) d.pos scale (gap n) tol (sh n) with
        | none => exact absurd ((C52_to_scale _ _ _ _ _ _).1.1 hf) hl
        | some a => exact ⟨a, rfl⟩
      refine ⟨(n, a) :: arrows, ?_, ?_, ?_⟩
      · simp [Dict.getE, hs n (by simp), h1, ha]
      · rw [List.map_cons, h2, List.filter_cons_of_pos (by simpa using hl)]
      · rintro p (_ | ⟨_, hp'⟩)
        · rw [← hp]; exact ha
        · exact h3 p hp'

private theorem unshifted_zero [Field R] [LinearOrder R] [PySqrt R] {f pos : Vec R} {scale tol : R}
    {a : Arrow R} (h : forceArrow f pos scale 0 tol false = some a) :
    a = ⟨pos, pos + scale • f⟩ := by
  unfold forceArrow at h
  by_cases h1 : Vec.length f < tol
  · simp [h1] at h
  · simp only [h1, if_false, Bool.false_eq_true, zero_smul, add_zero, Option.some.injEq] at h
    exact h.symm

private theorem drawLoads_list [Field R] [LinearOrder R] [PySqrt R] (D : Diagram R) (scale tol : R)
    {nodes : List Int} (hn : ∀ n ∈ nodes, n ∈ D.nodes.keys) :
    ∃ arrows, drawLoads D scale tol (fun _ => 0) nodes = .ok arrows ∧
      arrows.map Prod.fst = nodes.filter (fun n => tol ≤ Vec.length (loadAt D n)) ∧
      ∀ p ∈ arrows, p.2 = ⟨posOf D p.1, posOf D p.1 + scale • loadAt D p.1⟩ := by
  obtain ⟨arrows, h1, h2, h3⟩ := drawForces_list (vec := (·.load)) (vecAt := loadAt D)
    (fun n d hd => by simp [loadAt, hd]) scale tol (fun _ => 0) (shift := noShifts nodes)
    (sh := fun _ => false) hn (fun n hm => by
      have : ∀ (l : List Int) (acc : Dict Int Bool),
          (l.foldl (fun acc e => acc.set e false) acc).get? n =
            if n ∈ l then some false else acc.get? n := by
        intro l
        induction l with
        | nil => intro acc; simp
        | cons a l ih =>
          intro acc
          rw [List.foldl_cons, ih, Dict.get?_set]
          by_cases h1 : n ∈ l
          · simp [h1]
          · by_cases h2 : n = a
            · simp [h2]
            · simp [h1, h2, Ne.symm h2]
      rw [noShifts, this, if_pos hm])
  exact ⟨arrows, h1, h2, fun p hp => unshifted_zero (h3 p hp)⟩

private theorem chain_neighbour {S : Int → Int → Prop} (hS : ∀ a b, S a b → S b a) :
    ∀ {l : List Int}, l.IsChain S → 2 ≤ l.length → ∀ n ∈ l, ∃ m, S n m
  | [], _, h, _, _ => by simp at h
  | [_], _, h, _, _ => by simp at h
  | [a, b], hc, _, n, hn => by
    have hab := hc.rel
    rcases List.mem_cons.1 hn with rfl | hn
    · exact ⟨b, hab⟩
    · rw [List.mem_singleton.1 hn]; exact ⟨a, hS _ _ hab⟩
  | a :: b :: c :: l, hc, _, n, hn => by
    rw [List.isChain_cons_cons] at hc
    rcases List.mem_cons.1 hn with rfl | hn
    · exact ⟨b, hc.1⟩
    · exact chain_neighbour hS hc.2 (by simp) n hn

/-- Every node of a valid diagram is the end of an edge, a trail edge. -/
theorem valid_node_edge [Zero (Vec R)] {D : Diagram R} (I : ValidInput D) {n : Int} (hn : n ∈ D.nodes.keys) :
    ∃ e ∈ D.edges.keys, e.1 = n ∨ e.2 = n := by
  have V := I.trails
  obtain ⟨p, hp, hnp⟩ := List.mem_flatMap.1 (V.partition.mem_iff.2 hn)
  obtain ⟨key, tr⟩ := p
  obtain ⟨rest, rfl⟩ := V.head key tr hp
  have h2 : 2 ≤ (key :: rest).length := by
    cases rest with
    | nil =>
      have := (V.support key [key] hp key (by simp)).2 rfl
      rw [V.origin key [key] hp] at this
      simp at this
    | cons b l => simp
  have hS : ∀ a b, TrailAdj D a b → TrailAdj D b a := fun a b h => h.symm
  obtain ⟨m, hm⟩ := chain_neighbour hS (V.chain key _ hp) h2 n hnp
  rcases hm with ⟨d, hd, -⟩ | ⟨d, hd, -⟩
  · exact ⟨_, Dict.mem_keys_of_get? hd, Or.inl rfl⟩
  · exact ⟨_, Dict.mem_keys_of_get? hd, Or.inr rfl⟩

/-- C68. Whatever is selected, a form found from a valid topology diagram is drawn: the selected nodes
and edges in order (all of them if none are selected), the supports among these nodes (but all nodes of the form if none of
them is a support), a load for each
of them that is not smaller than the minimum, from the node to its tip, and likewise the reactions,
which touch the node with one end. -/
theorem C68_form {D F : Diagram ℝ} (I : ValidInput D) {tmax : Nat} {eta : ℝ} {verbose : Bool}
    (hF : staticEquilibrium D none tmax eta verbose = .ok F) {nodes : Option (List Int)}
    {edges : Option (List (Int × Int))} (hn : ∀ n ∈ nodes.getD [], n ∈ D.nodes.keys)
    (he : ∀ e ∈ edges.getD [], e ∈ D.edges.keys) (forceMin forceScale : Option ℝ)
    (hs : ∀ s, forceScale = some s → 0 ≤ s) :
    ∃ P, artistForm F nodes edges forceMin forceScale = .ok P ∧
      P.nodes = (chosen D.nodes.keys nodes).map (posOf F) ∧
      (∃ es : List (Int × Int), es.Perm D.edges.keys ∧
        P.edges = (chosen es edges).map fun e => (posOf F e.1, posOf F e.2)) ∧
      ((∃ n ∈ chosen D.nodes.keys nodes, typeOf D n = some .support) →
        P.supports = ((chosen D.nodes.keys nodes).filter fun n => typeOf D n = some .support).map
          (posOf F)) ∧
      ((∀ n ∈ chosen D.nodes.keys nodes, typeOf D n ≠ some .support) →
        P.supports = D.nodes.keys.map (posOf F)) ∧
      P.loads.map Prod.fst = (chosen D.nodes.keys nodes).filter
        (fun n => settled (1 / 1000) forceMin ≤ Vec.length (loadAt D n)) ∧
      (∀ p ∈ P.loads, p.2.start = posOf F p.1 ∧
        p.2.stop = posOf F p.1 + settled 1 forceScale • loadAt D p.1) ∧
      P.reactions.map Prod.fst = (chosen D.nodes.keys nodes).filter
        (fun n => settled (1 / 1000) forceMin ≤ Vec.length (reactionAt F n)) ∧
      (∀ p ∈ P.reactions,
        p.2.stop - p.2.start = settled 1 forceScale • reactionAt F p.1 ∧
        (p.2.start = posOf F p.1 ∨ p.2.stop = posOf F p.1) ∧
        (0 < settled (1 / 1000) forceMin → typeOf D p.1 = some .support)) := by
  obtain ⟨k1, k2, k3, -⟩ := C25_keeps_data I hF
  have w : WF F := by
    obtain ⟨_, _, s, _, _, rfl, _, _⟩ := returned_final I (by simp) hF
    exact WF.formUpdate (WF.form I.wf) s
  have g : SimpleGraph F := ⟨by rw [k2]; exact I.simple.noLoop, by rw [k2]; exact I.simple.noAnti⟩
  have hc : ∀ n ∈ chosen D.nodes.keys nodes, n ∈ F.nodes.keys := by
    rw [k1]
    intro n h
    unfold chosen at h
    split_ifs at h
    · exact h
    · exact hn n h
  have hN : ∀ l, orNone nodes = some l → ∀ n ∈ l, n ∈ F.nodes.keys := by
    intro l h n hl
    rw [k1]
    obtain ⟨rfl, -⟩ := orNone_mem h
    exact hn n hl
  have hT : ∀ n ∈ D.nodes.keys, typeOf F n = typeOf D n := by
    intro n h
    obtain ⟨d, hd⟩ := (Dict.exists_get?_iff _ _).2 h
    obtain ⟨d', hd', -, ht, -⟩ := k3 n d hd
    simp [typeOf, hd, hd', ht]
  have hL : ∀ n ∈ D.nodes.keys, loadAt F n = loadAt D n := by
    intro n h
    obtain ⟨d, hd⟩ := (Dict.exists_get?_iff _ _).2 h
    obtain ⟨d', hd', ht, -⟩ := k3 n d hd
    simp [loadAt, hd, hd', ht]
  have hD : ∀ n ∈ chosen D.nodes.keys nodes, n ∈ D.nodes.keys := by
    intro n h; have := hc n h; rwa [k1] at this
  have hE : ∀ n ∈ chosen D.nodes.keys nodes, ∃ e ∈ F.edges.keys, e.1 = n ∨ e.2 = n := by
    rw [k2]; exact fun n h => valid_node_edge I (hD n h)
  set tol := settled (1 / 1000) forceMin with htol
  set scale := settled 1 forceScale with hscale
  have hsc : 0 ≤ scale := by
    rw [hscale]; unfold settled
    split_ifs with h
    · norm_num
    · cases forceScale with
      | none => simp at h
      | some s => exact hs s rfl
  -- nodes
  have a1 : ghNodes F (orNone nodes) = .ok ((chosen D.nodes.keys nodes).map (posOf F)) := by
    have hsel := C54_selection w
    rw [← k1] at hc ⊢
    rcases nodes with _ | _ | ⟨a, l⟩
    · exact hsel.2.2.1 none (Or.inl rfl)
    · exact hsel.2.2.1 none (Or.inl rfl)
    · exact hsel.1 a l (by simpa [chosen] using hc)
  -- edges
  obtain ⟨es, hes, a2⟩ : ∃ es : List (Int × Int), es.Perm D.edges.keys ∧
      ghEdges F (orNone edges) = .ok ((chosen es edges).map fun e => (posOf F e.1, posOf F e.2)) := by
    have hsel := C54_selection w
    rw [← k2]
    rcases edges with _ | _ | ⟨a, l⟩
    · exact hsel.2.2.2 none (Or.inl rfl)
    · exact hsel.2.2.2 none (Or.inl rfl)
    · refine ⟨F.edges.keys, List.Perm.refl _, ?_⟩
      exact hsel.2.1 a l (by rw [k2]; simpa using he)
  -- supports
  obtain ⟨sup, a3, hsup, hsup0⟩ : ∃ sup, ghNodesSupport F (orNone nodes) = .ok sup ∧
      ((∃ n ∈ chosen D.nodes.keys nodes, typeOf D n = some .support) →
        sup = ((chosen D.nodes.keys nodes).filter fun n => typeOf D n = some .support).map
          (posOf F)) ∧
      ((∀ n ∈ chosen D.nodes.keys nodes, typeOf D n ≠ some .support) →
        sup = D.nodes.keys.map (posOf F)) := by
    by_cases hex : ∃ n ∈ chosen D.nodes.keys nodes, typeOf D n = some .support
    · refine ⟨_, C54_supports hN ?_, fun _ => ?_, fun h => ?_⟩
      · obtain ⟨n, h1, h2⟩ := hex
        refine ⟨n, by rw [getD_chosen, k1]; exact h1, by rw [hT n (hD n h1)]; exact h2⟩
      · rw [getD_chosen, k1]
        congr 1
        apply List.filter_congr
        intro n h
        rw [hT n (hD n h)]
      · obtain ⟨n, h1, h2⟩ := hex
        exact absurd h2 (h n h1)
    · refine ⟨_, C54_no_supports hN ?_, fun h => absurd h hex, fun _ => by rw [k1]⟩
      intro n h
      rw [getD_chosen, k1] at h
      rw [hT n (hD n h)]
      exact fun h' => hex ⟨n, h, h'⟩
  -- loads
  obtain ⟨ls, a4, hl1, hl2⟩ := drawLoads_list F scale tol hc
  -- reactions
  have hok : ∀ n ∈ chosen D.nodes.keys nodes, ∃ s, reactionShift F n = .ok s := by
    intro n h
    obtain ⟨s, _, _, hs', _⟩ := (C52_shift_rule g n).2 (hE n h)
    exact ⟨s, hs'⟩
  obtain ⟨shift, hshift⟩ := reactionShifts_ok (acc := []) hok
  obtain ⟨rs, a5, hr1, hr2⟩ := drawForces_list (vec := (·.reaction)) (vecAt := reactionAt F)
    (fun n d hd => by simp [reactionAt, hd]) scale tol (fun _ => 0) (shift := shift)
    (sh := fun n => (shift.get? n).getD false) hc (fun n h => by
      obtain ⟨s, -, h2⟩ := (reactionShifts_get? hshift n).1 h
      simp [h2])
  refine ⟨⟨_, sup, _, ls, rs⟩, ?_, rfl, ⟨es, hes, rfl⟩, hsup, hsup0, ?_, ?_, hr1, ?_⟩
  · unfold artistForm
    simp only [orElse_settled, orAll_chosen, k1, a1, a2, a3]
    rw [← htol, ← hscale, a4]
    simp only [ghReactions, hshift, a5]
  · rw [hl1]
    apply List.filter_congr
    intro n h
    rw [hL n (hD n h)]
  · intro p hp
    have h : p.1 ∈ chosen D.nodes.keys nodes := by
      have : p.1 ∈ ls.map Prod.fst := List.mem_map_of_mem hp
      rw [hl1] at this
      exact (List.mem_filter.1 this).1
    rw [hl2 p hp, hL p.1 (hD _ h)]
    exact ⟨rfl, rfl⟩
  · intro p hp
    have h0 : p.1 ∈ (chosen D.nodes.keys nodes).filter
        (fun n => tol ≤ Vec.length (reactionAt F n)) := by
      rw [← hr1]; exact List.mem_map_of_mem hp
    obtain ⟨h, ht⟩ := List.mem_filter.1 h0
    have ha := hr2 p hp
    refine ⟨(C52_to_scale _ _ _ _ _ _).2 _ ha, ?_, ?_⟩
    · cases hb : (shift.get? p.1).getD false with
      | false =>
        rw [hb] at ha
        left
        simpa using (C52_unshifted ha).1
      | true =>
        rw [hb] at ha
        right
        simpa using (C52_shifted hsc ha).2
    · intro hpos
      by_contra hne
      obtain ⟨d, hd⟩ := (Dict.exists_get?_iff _ _).2 (hD _ h)
      obtain ⟨d', hd', -, -, -, -, hr⟩ := k3 p.1 d hd
      have : reactionAt F p.1 = 0 := by
        simp only [reactionAt, hd', Option.map_some, Option.getD_some]
        exact hr fun h' => hne (by simp [typeOf, hd, h'])
      rw [this] at ht
      simp only [Vec.length_zero, decide_eq_true_eq] at ht
      linarith

/-- The form of a diagram with two trails is drawn, alone and with a selection. -/
example : ∃ F P, staticEquilibrium EqEx.direct none 1 0 false = .ok F ∧
    artistForm F (some [0, 2]) none none none = .ok P ∧
    P.nodes = [posOf F 0, posOf F 2] := by
  obtain ⟨F, h⟩ := C20_returns_without_indirect EqEx.valid_direct EqEx.directOnly_direct (le_refl 1)
    (le_refl (0 : ℝ))
  have hk : EqEx.direct.nodes.keys = [0, 1, 2, 3, 4] := by
    unfold EqEx.direct Diagram.real; rw [map_nodes_keys]; decide +kernel
  obtain ⟨P, h1, h2, -⟩ := C68_form EqEx.valid_direct h (nodes := some [0, 2]) (edges := none)
    (by rw [hk]; simp) (by simp) none none (by simp)
  exact ⟨F, P, h, h1, by rw [h2]; simp [chosen]⟩

/-- A valid diagram has as many supports as trails. -/
theorem support_count [Zero (Vec R)] {D : Diagram R} (I : ValidInput D) :
    (D.nodes.keys.filter fun n => typeOf D n = some .support).length = D.trails.length := by
  have V := I.trails
  rw [← (V.partition.filter _).length_eq]
  have hnd : (D.trails.flatMap (·.2)).Nodup := V.partition.nodup_iff.2 I.wf.nodesNodup
  have key : ∀ l : List (Int × List Int), (∀ p ∈ l, p ∈ D.trails) → (l.flatMap (·.2)).Nodup →
      ((l.flatMap (·.2)).filter fun n => typeOf D n = some .support).length = l.length := by
    intro l
    induction l with
    | nil => intro _ _; rfl
    | cons p l ih =>
      intro hl hn
      rw [List.flatMap_cons] at hn ⊢
      rw [List.filter_append, List.length_append, List.length_cons,
        ih (fun q hq => hl q (by simp [hq])) (List.nodup_append.1 hn).2.1, Nat.add_comm]
      congr 1
      have hp := hl p (by simp)
      obtain ⟨rest, hr⟩ := V.head p.1 p.2 hp
      obtain ⟨x, hx⟩ : ∃ x, p.2.getLast? = some x := by
        rw [hr, List.getLast?_cons]; exact ⟨_, rfl⟩
      have : p.2.filter (fun n => typeOf D n = some .support) = p.2.filter (fun n => n == x) := by
        apply List.filter_congr
        intro n hn'
        have := V.support p.1 p.2 hp n hn'
        rw [hx, Option.some.injEq] at this
        by_cases h : typeOf D n = some .support
        · simp [h, (this.1 h)]
        · have : n ≠ x := fun h' => h (this.2 h'.symm)
          simp [h, this]
      rw [this, ← List.countP_eq_length_filter]
      exact List.count_eq_one_of_mem (List.nodup_append.1 hn).1 (List.mem_of_getLast? hx)
  exact key D.trails (fun _ h => h) hnd

/-- C68. With nothing selected the complete form is drawn, each trail at its support. -/
theorem C68_complete {D F : Diagram ℝ} (I : ValidInput D) {tmax : Nat} {eta : ℝ} {verbose : Bool}
    (hF : staticEquilibrium D none tmax eta verbose = .ok F) {nodes : Option (List Int)}
    {edges : Option (List (Int × Int))} (hn : nodes = none ∨ nodes = some [])
    (he : edges = none ∨ edges = some []) :
    ∃ P, artistForm F nodes edges none none = .ok P ∧
      P.nodes = D.nodes.keys.map (posOf F) ∧
      (P.edges).Perm (D.edges.keys.map fun e => (posOf F e.1, posOf F e.2)) ∧
      P.supports = (D.nodes.keys.filter fun n => typeOf D n = some .support).map (posOf F) ∧
      P.supports.length = D.trails.length ∧
      P.loads.map Prod.fst = D.nodes.keys.filter (fun n => 1 / 1000 ≤ Vec.length (loadAt D n)) ∧
      P.reactions.map Prod.fst = D.nodes.keys.filter
        (fun n => typeOf D n = some .support ∧ 1 / 1000 ≤ Vec.length (reactionAt F n)) := by
  have c1 : ∀ {K : Type} (all : List K) (s : Option (List K)), s = none ∨ s = some [] →
      chosen all s = all := by
    rintro K all s (rfl | rfl) <;> simp [chosen]
  have V := I.trails
  obtain ⟨P, h1, h2, ⟨es, h3, h3'⟩, h4, -, h5, -, h6, h7⟩ := C68_form I hF (nodes := nodes) (edges := edges)
    (by rcases hn with rfl | rfl <;> simp) (by rcases he with rfl | rfl <;> simp) none none (by simp)
  have t1 : settled (1 / 1000 : ℝ) none = 1 / 1000 := by simp [settled]
  rw [c1 _ _ hn] at h2 h4 h5 h6
  rw [c1 _ _ he] at h3'
  rw [t1] at h5 h6
  obtain ⟨key, tr, hkt⟩ : ∃ key tr, (key, tr) ∈ D.trails := by
    obtain ⟨p, hp⟩ := List.exists_mem_of_ne_nil _ I.nonempty
    exact ⟨p.1, p.2, hp⟩
  have hex : ∃ n ∈ D.nodes.keys, typeOf D n = some .support := by
    obtain ⟨rest, rfl⟩ := V.head key tr hkt
    obtain ⟨n, hl⟩ : ∃ n, (key :: rest).getLast? = some n := by
      rw [List.getLast?_cons]; exact ⟨_, rfl⟩
    have hm : n ∈ key :: rest := List.mem_of_getLast? hl
    exact ⟨n, V.partition.mem_iff.1 (List.mem_flatMap.2 ⟨_, hkt, hm⟩), (V.support _ _ hkt n hm).2 hl⟩
  refine ⟨P, h1, h2, ?_, h4 hex, ?_, h5, ?_⟩
  · rw [h3']; exact h3.map _
  · rw [h4 hex, List.length_map, support_count I]
  · rw [h6]
    apply List.filter_congr
    intro n hn'
    by_cases hs : typeOf D n = some .support
    · simp [hs]
    · have hr : ¬ 1 / 1000 ≤ Vec.length (reactionAt F n) := by
        intro hr
        have : n ∈ P.reactions.map Prod.fst := by
          rw [h6]; exact List.mem_filter.2 ⟨hn', by simpa using hr⟩
        obtain ⟨p, hp, rfl⟩ := List.mem_map.1 this
        exact hs ((h7 p hp).2.2 (by rw [t1]; norm_num))
      simp only [hs, false_and, decide_false, decide_eq_false_iff_not]
      exact hr

/-- C68. One selected node or edge that is not in the diagram keeps both components from drawing
anything. -/
theorem C68_unknown [Field R] [LinearOrder R] [PySqrt R] {D : Diagram R}
    {nodes : Option (List Int)} {edges : Option (List (Int × Int))}
    (h : (∃ n ∈ nodes.getD [], n ∉ D.nodes.keys) ∨
      ∃ e ∈ edges.getD [], e.1 ∉ D.nodes.keys ∨ e.2 ∉ D.nodes.keys)
    (forceMin forceScale : Option R) :
    (∃ err, artistForm D nodes edges forceMin forceScale = .error err) ∧
    ∃ err, artistTopology D nodes edges forceMin forceScale = .error err := by
  have hx : ∀ n, n ∉ D.nodes.keys → ∃ err, D.nodeXyz n = .error err := by
    intro n hn
    cases hd : D.nodes.get? n with
    | some d => exact absurd (Dict.mem_keys_of_get? hd) hn
    | none => exact ⟨_, by simp [nodeXyz, Dict.getE, hd]; rfl⟩
  have hm : ∀ {A B : Type} (f : A → Except PyErr B) (l : List A) (a : A), a ∈ l →
      (∃ err, f a = .error err) → ∃ err, mapE f l = .error err := by
    intro A B f l a ha he
    cases hr : mapE f l with
    | error err => exact ⟨err, rfl⟩
    | ok r =>
      obtain ⟨err, he⟩ := he
      exfalso
      induction l generalizing r with
      | nil => simp at ha
      | cons b l ih =>
        unfold mapE at hr
        cases hb : f b with
        | error e => simp [hb] at hr
        | ok y =>
          cases hl : mapE f l with
          | error e => simp [hb, hl] at hr
          | ok ys =>
            rcases List.mem_cons.1 ha with rfl | ha
            · rw [he] at hb; simp at hb
            · exact ih ha ys hl
  have hnodes : (∃ n ∈ nodes.getD [], n ∉ D.nodes.keys) →
      ∃ err, ghNodes D (orNone nodes) = .error err := by
    rintro ⟨n, hn, hk⟩
    rcases nodes with _ | _ | ⟨a, l⟩
    · simp at hn
    · simp at hn
    · exact hm _ _ n hn (hx n hk)
  have hedges : (∃ e ∈ edges.getD [], e.1 ∉ D.nodes.keys ∨ e.2 ∉ D.nodes.keys) →
      ∃ err, ghEdges D (orNone edges) = .error err := by
    rintro ⟨e, he, hk⟩
    rcases edges with _ | _ | ⟨a, l⟩
    · simp at he
    · simp at he
    · refine hm _ _ e he ?_
      unfold edgeCoordinates
      cases h1 : D.nodeXyz e.1 with
      | error err => exact ⟨err, rfl⟩
      | ok p =>
        cases h2 : D.nodeXyz e.2 with
        | error err => exact ⟨err, rfl⟩
        | ok q =>
          rcases hk with hk | hk
          · obtain ⟨err, h⟩ := hx _ hk; rw [h] at h1; simp at h1
          · obtain ⟨err, h⟩ := hx _ hk; rw [h] at h2; simp at h2
  unfold artistForm artistTopology
  constructor
  · cases h1 : ghNodes D (orNone nodes) with
    | error err => exact ⟨err, by simp only [h1]⟩
    | ok p =>
      cases h2 : ghEdges D (orNone edges) with
      | error err => exact ⟨err, by simp only [h1, h2]⟩
      | ok q =>
        rcases h with h | h
        · obtain ⟨err, h⟩ := hnodes h; rw [h] at h1; simp at h1
        · obtain ⟨err, h⟩ := hedges h; rw [h] at h2; simp at h2
  · cases h1 : ghNodes D (orNone nodes) with
    | error err => exact ⟨err, by simp only [h1]⟩
    | ok p =>
      cases h2 : ghEdges D (orNone edges) with
      | error err =>
        simp only [h1, h2]
        cases ghNodesOrigin D (orNone nodes) with
        | error err => exact ⟨err, rfl⟩
        | ok _ =>
          cases ghNodesSupport D (orNone nodes) with
          | error err => exact ⟨err, rfl⟩
          | ok _ => exact ⟨err, rfl⟩
      | ok q =>
        rcases h with h | h
        · obtain ⟨err, h⟩ := hnodes h; rw [h] at h1; simp at h1
        · obtain ⟨err, h⟩ := hedges h; rw [h] at h2; simp at h2

/-- C68. A node without edges keeps a form from being drawn, unless nodes are selected and it is not
among them. -/
theorem C68_isolated [Field R] [LinearOrder R] [IsStrictOrderedRing R] [PySqrt R] {F : Diagram R}
    (g : SimpleGraph F) {n : Int}
    (hn : n ∈ F.nodes.keys) (hi : ∀ e ∈ F.edges.keys, e.1 ≠ n ∧ e.2 ≠ n)
    {nodes : Option (List Int)} (hsel : n ∈ chosen F.nodes.keys nodes)
    (edges : Option (List (Int × Int))) (forceMin forceScale : Option R) :
    ∃ err, artistForm F nodes edges forceMin forceScale = .error err := by
  have h := (C52_isolated g hn hi (orElse forceScale 1) (orElse forceMin (1 / 1000)) (fun _ => 0)
    (chosen F.nodes.keys nodes)).2 hsel
  unfold artistForm
  simp only [orAll_chosen, h]
  cases ghNodes F (orNone nodes) with
  | error err => exact ⟨err, rfl⟩
  | ok _ =>
    cases ghEdges F (orNone edges) with
    | error err => exact ⟨err, rfl⟩
    | ok _ =>
      cases ghNodesSupport F (orNone nodes) with
      | error err => exact ⟨err, rfl⟩
      | ok _ =>
        dsimp only
        cases drawLoads F (orElse forceScale 1) (orElse forceMin (1 / 1000)) (fun _ => 0)
          (chosen F.nodes.keys nodes) with
        | error err => exact ⟨err, rfl⟩
        | ok _ => exact ⟨_, rfl⟩

example : artistForm EqEx.directQ (some [0, 9]) none none none = .error .keyError ∧
    artistTopology EqEx.directQ none (some [(0, 9)]) none none = .error .keyError ∧
    artistForm (after key (nodes 3 ++ [trail 0 1])) none none none none = .error .valueError ∧
    (artistForm (after key (nodes 3 ++ [trail 0 1])) (some [0, 1]) none none none).toOption.isSome := by
  decide +kernel

/-- C68. Whatever is selected, a topology diagram that is ready for form finding is drawn: the selected
nodes and edges in order, the origins, supports, trail edges and deviation edges among them (no
output if there are none, but all nodes as supports), all trails, and the loads that are not smaller than the minimum. -/
theorem C68_topology [Field R] [LinearOrder R] [PySqrt R] {D : Diagram R} (I : ValidInput D)
    {nodes : Option (List Int)} {edges : Option (List (Int × Int))}
    (hn : ∀ n ∈ nodes.getD [], n ∈ D.nodes.keys) (he : ∀ e ∈ edges.getD [], e ∈ D.edges.keys)
    (forceMin forceScale : Option R) :
    ∃ P, artistTopology D nodes edges forceMin forceScale = .ok P ∧
      P.nodes = (chosen D.nodes.keys nodes).map (posOf D) ∧
      P.origins.getD [] = ((chosen D.nodes.keys nodes).filter fun n => typeOf D n = some .origin).map
        (posOf D) ∧
      ((∃ n ∈ chosen D.nodes.keys nodes, typeOf D n = some .support) →
        P.supports = ((chosen D.nodes.keys nodes).filter fun n => typeOf D n = some .support).map
          (posOf D)) ∧
      ((∀ n ∈ chosen D.nodes.keys nodes, typeOf D n ≠ some .support) →
        P.supports = D.nodes.keys.map (posOf D)) ∧
      (∃ es : List (Int × Int), es.Perm D.edges.keys ∧
        P.edges = (chosen es edges).map fun e => (posOf D e.1, posOf D e.2)) ∧
      (∃ es : List (Int × Int), es.Perm D.edges.keys ∧
        P.trailEdges.getD [] = ((chosen es edges).filter fun e =>
          (D.edges.get? e).map (·.type) = some .trail).map (fun e => (posOf D e.1, posOf D e.2)) ∧
        P.deviationEdges.getD [] = ((chosen es edges).filter fun e =>
          (D.edges.get? e).map (·.type) = some .deviation).map (fun e => (posOf D e.1, posOf D e.2))) ∧
      P.trails = D.trails.map (fun p => p.2.map (posOf D)) ∧
      P.loads.map Prod.fst = (chosen D.nodes.keys nodes).filter
        (fun n => settled (1 / 1000) forceMin ≤ Vec.length (loadAt D n)) ∧
      (∀ p ∈ P.loads, p.2.start = posOf D p.1 ∧
        p.2.stop = posOf D p.1 + settled 1 forceScale • loadAt D p.1) := by
  have w := I.wf
  have hc : ∀ n ∈ chosen D.nodes.keys nodes, n ∈ D.nodes.keys := by
    intro n h
    unfold chosen at h
    split_ifs at h
    · exact h
    · exact hn n h
  have hN : ∀ l, orNone nodes = some l → ∀ n ∈ l, n ∈ D.nodes.keys := by
    intro l h n hl
    obtain ⟨rfl, -⟩ := orNone_mem h
    exact hn n hl
  have hE : ∀ l, orNone edges = some l → ∀ n ∈ l, n ∈ D.edges.keys := by
    intro l h n hl
    obtain ⟨rfl, -⟩ := orNone_mem h
    exact he n hl
  have hsel := C54_selection w
  have a1 : ghNodes D (orNone nodes) = .ok ((chosen D.nodes.keys nodes).map (posOf D)) := by
    rcases nodes with _ | _ | ⟨a, l⟩
    · exact hsel.2.2.1 none (Or.inl rfl)
    · exact hsel.2.2.1 none (Or.inl rfl)
    · exact hsel.1 a l (by simpa [chosen] using hc)
  obtain ⟨es, hes, a2⟩ : ∃ es : List (Int × Int), es.Perm D.edges.keys ∧
      ghEdges D (orNone edges) = .ok ((chosen es edges).map fun e => (posOf D e.1, posOf D e.2)) := by
    rcases edges with _ | _ | ⟨a, l⟩
    · exact hsel.2.2.2 none (Or.inl rfl)
    · exact hsel.2.2.2 none (Or.inl rfl)
    · exact ⟨D.edges.keys, List.Perm.refl _, hsel.2.1 a l (by simpa using he)⟩
  obtain ⟨sup, a3, hsup, hsup0⟩ : ∃ sup, ghNodesSupport D (orNone nodes) = .ok sup ∧
      ((∃ n ∈ chosen D.nodes.keys nodes, typeOf D n = some .support) →
        sup = ((chosen D.nodes.keys nodes).filter fun n => typeOf D n = some .support).map
          (posOf D)) ∧
      ((∀ n ∈ chosen D.nodes.keys nodes, typeOf D n ≠ some .support) →
        sup = D.nodes.keys.map (posOf D)) := by
    by_cases hex : ∃ n ∈ chosen D.nodes.keys nodes, typeOf D n = some .support
    · exact ⟨_, C54_supports hN (by rw [getD_chosen]; exact hex), fun _ => by rw [getD_chosen],
        fun h => by obtain ⟨n, h1, h2⟩ := hex; exact absurd h2 (h n h1)⟩
    · refine ⟨_, C54_no_supports hN ?_, fun h => absurd h hex, fun _ => rfl⟩
      intro n h
      rw [getD_chosen] at h
      exact fun h' => hex ⟨n, h, h'⟩
  have hk := C54_kinds w
  have a4 := hk.1 (orNone nodes) hN
  obtain ⟨es', hes', a5, a6⟩ := hk.2 (orNone edges) hE
  rw [getD_chosen] at a4 a5 a6
  obtain ⟨ls, a7, hl1, hl2⟩ := drawLoads_list D (settled 1 forceScale) (settled (1 / 1000) forceMin) hc
  have opt : ∀ {A B : Type} [DecidableEq A] (l : List A) (f : A → B),
      (if l = [] then none else some (l.map f)).getD [] = l.map f := by
    intro A B _ l f
    by_cases h : l = [] <;> simp [h]
  obtain ⟨o, a4, ho⟩ : ∃ o, ghNodesOrigin D (orNone nodes) = .ok o ∧ o.getD [] =
      ((chosen D.nodes.keys nodes).filter fun n => typeOf D n = some .origin).map (posOf D) :=
    ⟨_, a4, opt _ _⟩
  obtain ⟨t, a5, hto⟩ : ∃ t, ghEdgesTrail D (orNone edges) = .ok t ∧ t.getD [] =
      ((chosen es' edges).filter fun e => (D.edges.get? e).map (·.type) = some .trail).map
        (fun e => (posOf D e.1, posOf D e.2)) := ⟨_, a5, opt _ _⟩
  obtain ⟨v, a6, hvo⟩ : ∃ t, ghEdgesDeviation D (orNone edges) = .ok t ∧ t.getD [] =
      ((chosen es' edges).filter fun e => (D.edges.get? e).map (·.type) = some .deviation).map
        (fun e => (posOf D e.1, posOf D e.2)) := ⟨_, a6, opt _ _⟩
  refine ⟨⟨_, o, sup, _, t, v, _, ls⟩, ?_, rfl, ho, hsup, hsup0, ⟨es, hes, rfl⟩, ⟨es', hes', hto, hvo⟩, rfl,
    hl1, ?_⟩
  · unfold artistTopology
    simp only [orElse_settled, orAll_chosen, a1, a2, a3, a4, a5, a6, (C54_trails I).1, a7]
  · intro p hp
    rw [hl2 p hp]
    exact ⟨rfl, rfl⟩

/-- Node 0 is no support: selected alone, all nodes are drawn as supports.  The selected deviation edge
leaves the output of trail edges empty. -/
example : artistTopology EqEx.directQ (some [0]) (some [(0, 4)]) none none = .ok
    { nodes := [⟨0, 0, 0⟩], origins := some [⟨0, 0, 0⟩],
      supports := [⟨0, 0, 0⟩, ⟨1, 0, 0⟩, ⟨2, 0, 0⟩, ⟨3, 0, 0⟩, ⟨4, 0, 0⟩],
      edges := [(⟨0, 0, 0⟩, ⟨4, 0, 0⟩)], trailEdges := none,
      deviationEdges := some [(⟨0, 0, 0⟩, ⟨4, 0, 0⟩)],
      trails := [[⟨0, 0, 0⟩, ⟨1, 0, 0⟩, ⟨2, 0, 0⟩], [⟨4, 0, 0⟩, ⟨3, 0, 0⟩]],
      loads := [(0, ⟨⟨0, 0, 0⟩, ⟨0, 0, -1⟩⟩)] } := by decide +kernel

/-- A load of size 1/10000 (sizes are squared here) is drawn with a minimum of 1/1000000, but not with
zero. -/
example :
    let D : Diagram ℚ := after key (nodes 1 ++ [.addLoad (.key 0) ⟨0, 0, -1 / 100⟩])
    (artistTopology D none none (some (1 / 1000000)) none).map (·.loads) =
      .ok [(0, ⟨⟨0, 0, 0⟩, ⟨0, 0, -1 / 100⟩⟩)] ∧
    (artistTopology D none none (some 0) none).map (·.loads) = .ok [] := by decide +kernel

/-- C68. A minimum of zero is replaced by 1/1000, a scale of zero by one. So smaller loads and
reactions are not drawn even if they are asked for. -/
theorem C68_zero [Field R] [LinearOrder R] [PySqrt R] (F : Diagram R) (nodes : Option (List Int))
    (edges : Option (List (Int × Int))) (m s : Option R) :
    artistForm F nodes edges (some 0) s = artistForm F nodes edges (some (1 / 1000)) s ∧
    artistForm F nodes edges m (some 0) = artistForm F nodes edges m (some 1) ∧
    ∀ P, artistForm F nodes edges (some 0) s = .ok P → ∀ p ∈ P.loads,
      ¬ Vec.length (loadAt F p.1) < 1 / 1000 := by
  have h0 : orElse (some (0 : R)) (1 / 1000) = 1 / 1000 := by simp [orElse]
  have h1 : orElse (some (1 / 1000 : R)) (1 / 1000) = 1 / 1000 := by
    unfold orElse; simp
  have h2 : orElse (some (0 : R)) 1 = 1 := by simp [orElse]
  have h3 : orElse (some (1 : R)) 1 = 1 := by simp [orElse]
  refine ⟨by unfold artistForm; rw [h0, h1], by unfold artistForm; rw [h2, h3], ?_⟩
  intro P hP p hp
  unfold artistForm at hP
  simp only [h0] at hP
  cases e1 : ghNodes F (orNone nodes) with
  | error e => simp [e1] at hP
  | ok _ =>
    cases e2 : ghEdges F (orNone edges) with
    | error e => simp [e1, e2] at hP
    | ok _ =>
      cases e3 : ghNodesSupport F (orNone nodes) with
      | error e => simp [e1, e2, e3] at hP
      | ok _ =>
        cases e4 : drawLoads F (orElse s 1) (1 / 1000) (fun _ => 0) (orAll F.nodes.keys (orNone nodes)) with
        | error e => simp only [e1, e2, e3, e4] at hP; cases hP
        | ok ls =>
          cases e5 : ghReactions F (orElse s 1) (1 / 1000) (fun _ => 0)
              (orAll F.nodes.keys (orNone nodes)) with
          | error e => simp only [e1, e2, e3, e4, e5] at hP; cases hP
          | ok rs =>
            simp only [e1, e2, e3, e4, e5, Except.ok.injEq] at hP
            subst hP
            obtain ⟨-, d, _, hd, hlt, -⟩ := (mem_drawForces e4 (n := p.1) (a := p.2)).1 hp
            simpa [loadAt, hd] using hlt

end Props
end CEM
