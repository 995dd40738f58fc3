import Mathlib.Analysis.Calculus.Deriv.Inv
import Verif.Props.Threshold

/-!
# Property C79: a threshold as large as the step
-/

set_option linter.unusedSectionVars false
set_option linter.unusedSimpArgs false

namespace CEM
namespace Props
open Diagram Spec EqEx Filter Topology

section
variable {A : Arith ℝ} {u : ℝ} {D : Diagram ℝ} {L : List Int}

/-- A sweep that begins with numbers ends with numbers, if it meets no deviation edge without length and no
trail edge with a plane but without force. -/
theorem flN_numbers (H : Precise A u) (hu : u ≤ 1 / 100) (hz : ZeroAdds A) (I : ValidInput D)
    (G : GoodSched D none L) {i : Nat} (h1 : ∀ n ∈ D.nodes.keys, (flNIter A D L i).pos n ≠ none)
    (hd : ∀ n ∈ D.nodes.keys, ∀ b ∈ dirNbrs D n,
      (flStateAt A D (nxtK D none) (decide (i ≠ 0)) L (flIter A D none L i) n).pos b ≠
        (flStateAt A D (nxtK D none) (decide (i ≠ 0)) L (flIter A D none L i) n).pos n)
    (hi : i ≠ 0 → ∀ n ∈ D.nodes.keys, ∀ b ∈ indNbrs D n,
      (flStateAt A D (nxtK D none) (decide (i ≠ 0)) L (flIter A D none L i) n).pos b ≠
        (flStateAt A D (nxtK D none) (decide (i ≠ 0)) L (flIter A D none L i) n).pos n)
    (hp : ∀ n ∈ D.nodes.keys, ∀ m, nxtK D none n = some m → (edgeData D n m).plane ≠ none →
      flRAt A D (nxtK D none) (decide (i ≠ 0)) L (flIter A D none L i) n ≠ 0) :
    (∀ n ∈ D.nodes.keys, (flNIter A D L (i + 1)).pos n ≠ none) ∧
      ∀ n ∈ D.nodes.keys, flNRAt A D (nxtK D none) (decide (i ≠ 0)) L (flNIter A D L i) n ≠ none := by
  have w := I.wf
  have hx := (flN_pos_ne (A := A) (L := L) I i).2 h1
  have hr0 := flN_res_ne H hu hz G hx
  have B := NBelow.iter H hu hz G i
  have K : ∀ L1 L2 : List Int, L = L1 ++ L2 →
      (∀ x ∈ D.nodes.keys, (L1.foldl (flNproc A D (nxtK D none) (decide (i ≠ 0))) (flNIter A D L i)).pos x ≠ none ∧
        (L1.foldl (flNproc A D (nxtK D none) (decide (i ≠ 0))) (flNIter A D L i)).res x ≠ none) ∧
      ∀ n ∈ L1, flNRAt A D (nxtK D none) (decide (i ≠ 0)) L (flNIter A D L i) n ≠ none := by
    intro L1
    induction L1 using List.reverseRecOn with
    | nil => exact fun L2 _ => ⟨fun x hx => ⟨h1 x hx, hr0 x⟩, by simp⟩
    | append_singleton L1 n ih =>
      intro L2 h
      have hsplit : L = L1 ++ n :: L2 := by simpa using h
      obtain ⟨k1, k2⟩ := ih _ hsplit
      have hnk : n ∈ D.nodes.keys := (G.mem n).1 (by rw [hsplit]; simp)
      have hst : flNStateAt A D (nxtK D none) (decide (i ≠ 0)) L (flNIter A D L i) n =
          L1.foldl (flNproc A D (nxtK D none) (decide (i ≠ 0))) (flNIter A D L i) := by
        unfold flNStateAt; rw [takeWhile_of_split G.sched.nodup hsplit]
      have hr : flNRAt A D (nxtK D none) (decide (i ≠ 0)) L (flNIter A D L i) n ≠ none := by
        unfold flNRAt
        refine (flOutN_ne_none H hu (below_seen H hu hz G i n)).2 ⟨?_, fun b hb => ?_, fun h0 b hb => ?_⟩
        · rw [hst]; exact (k1 n hnk).2
        · have hbk := (mem_keys_of_nbr w (List.mem_filter.1 hb).1).1
          refine ⟨?_, ?_, hd n hnk b hb⟩ <;> rw [hst]
          · exact (k1 b hbk).1
          · exact (k1 n hnk).1
        · have hbk := (mem_keys_of_nbr w (List.mem_filter.1 hb).1).1
          refine ⟨?_, ?_, hi (by simpa using h0) n hnk b hb⟩ <;> rw [hst]
          · exact (k1 b hbk).1
          · exact (k1 n hnk).1
      refine ⟨?_, fun a ha => ?_⟩
      · rw [List.foldl_append, List.foldl_cons, List.foldl_nil]
        have hout : flOutN A D (decide (i ≠ 0)) (L1.foldl (flNproc A D (nxtK D none) (decide (i ≠ 0))) (flNIter A D L i)).pos
            ((L1.foldl (flNproc A D (nxtK D none) (decide (i ≠ 0))) (flNIter A D L i)).res n) n =
            flNRAt A D (nxtK D none) (decide (i ≠ 0)) L (flNIter A D L i) n := by
          unfold flNRAt; rw [hst]
        cases hn : nxtK D none n with
        | none =>
          rw [fl_nproc_none hn]
          exact k1
        | some m =>
          rw [fl_nproc_some hn, hout]
          have hrb : flNRAt A D (nxtK D none) (decide (i ≠ 0)) L (flNIter A D L i) n =
              some (flRAt A D (nxtK D none) (decide (i ≠ 0)) L (flIter A D none L i) n) := by
            refine Below.eq_some ?_ hr
            unfold flNRAt flRAt
            exact flOutN_below hz (below_seen H hu hz G i n)
              ((B.fold H hu hz G.sched.inj (decide (i ≠ 0)) (L.takeWhile (· ≠ n))).res n) n
          intro x hxk
          unfold NState.pos NState.res
          simp only [Dict.get?_set]
          by_cases e : m = x
          · simp only [e, if_true, Option.getD_some]
            refine ⟨?_, hr⟩
            obtain ⟨v, hv⟩ := Option.ne_none_iff_exists'.1 (k1 n hnk).1
            unfold NState.pos at hv
            rw [hrb, hv, lift2_ne_none, lift2_ne_none, flNpDirection_some]
            refine ⟨by simp, (flLenN_ne_none H hu).2 fun hpl => ?_, by simp⟩
            subst e
            exact hp n hnk m hn hpl
          · simp only [e, if_false]
            exact k1 x hxk
      · rcases List.mem_append.1 ha with ha | ha
        · exact k2 a ha
        · rw [List.mem_singleton.1 ha]; exact hr
  obtain ⟨k1, k2⟩ := K L [] (by simp)
  have hb : decide (i > 0) = decide (i ≠ 0) := by
    simp only [gt_iff_lt, ne_eq, Nat.pos_iff_ne_zero]
  refine ⟨fun n hn => ?_, fun n hn => k2 n ((G.mem n).2 hn)⟩
  rw [flNIter, hb]
  exact (k1 n hn).1

end

namespace StaleEx
open TrailEx

local instance staleSqrt : PySqrt ℚ := ⟨id⟩

/-- Calls that make three trails; the first hangs from the end of the second, which hangs from the end of
the third. -/
def staleOps : List (Op ℚ) := [.addNode none ⟨0, 0, -1⟩, .addNode none ⟨0, 0, -2⟩, .addNode none ⟨0, 0, 0⟩,
  .addNode none ⟨0, 0, 1⟩, .addNode none ⟨1, 0, -1⟩, .addNode none ⟨1, 0, 0⟩,
  .addEdge (.trail (.key 0) (.key 1) 1 (some (⟨0, 0, -2⟩, ⟨0, 0, 1⟩))),
  .addEdge (.trail (.key 2) (.key 3) 1 (some (⟨0, 0, 1⟩, ⟨0, 0, 1⟩))),
  .addEdge (.trail (.key 4) (.key 5) 1 none),
  .addEdge (.deviation (.key 0) (.key 3) 1), .addEdge (.deviation (.key 2) (.key 5) 0),
  sup 1, sup 3, sup 5, load 0 ⟨0, 0, 1⟩, load 2 ⟨0, 0, -2⟩, load 4 ⟨0, 0, -1⟩]

def staleQ : Diagram ℚ := after key (staleOps ++ [.buildTrails])

/-- The same with force `x` between the second and the third trail. -/
noncomputable def stale (x : ℝ) : Diagram ℝ where
  nodes := [(0, ⟨⟨0, 0, -1⟩, ⟨0, 0, 1⟩, ⟨0, 0, 0⟩, some 0, .origin⟩),
    (1, ⟨⟨0, 0, -2⟩, ⟨0, 0, 0⟩, ⟨0, 0, 0⟩, some 1, .support⟩),
    (2, ⟨⟨0, 0, 0⟩, ⟨0, 0, -2⟩, ⟨0, 0, 0⟩, some 0, .origin⟩),
    (3, ⟨⟨0, 0, 1⟩, ⟨0, 0, 0⟩, ⟨0, 0, 0⟩, some 1, .support⟩),
    (4, ⟨⟨1, 0, -1⟩, ⟨0, 0, -1⟩, ⟨0, 0, 0⟩, some 0, .origin⟩),
    (5, ⟨⟨1, 0, 0⟩, ⟨0, 0, 0⟩, ⟨0, 0, 0⟩, some 1, .support⟩)]
  edges := [((0, 1), ⟨.trail, 1, 0, some (⟨0, 0, -2⟩, ⟨0, 0, 1⟩)⟩),
    ((2, 3), ⟨.trail, 1, 0, some (⟨0, 0, 1⟩, ⟨0, 0, 1⟩)⟩), ((4, 5), ⟨.trail, 1, 0, none⟩),
    ((0, 3), ⟨.deviation, 0, 1, none⟩), ((2, 5), ⟨.deviation, 0, x, none⟩)]
  maxNode := 5
  gkeyNode := staleQ.gkeyNode
  trails := [(0, [0, 1]), (2, [2, 3]), (4, [4, 5])]
  auxTrails := []
  auxLength := -1
  auxVector := ⟨1, 1, 1⟩

theorem stale_eq : staleQ.real = stale 0 := by
  have h : staleQ = { staleQ with
      nodes := [(0, ⟨⟨0, 0, -1⟩, ⟨0, 0, 1⟩, ⟨0, 0, 0⟩, some 0, .origin⟩),
        (1, ⟨⟨0, 0, -2⟩, ⟨0, 0, 0⟩, ⟨0, 0, 0⟩, some 1, .support⟩),
        (2, ⟨⟨0, 0, 0⟩, ⟨0, 0, -2⟩, ⟨0, 0, 0⟩, some 0, .origin⟩),
        (3, ⟨⟨0, 0, 1⟩, ⟨0, 0, 0⟩, ⟨0, 0, 0⟩, some 1, .support⟩),
        (4, ⟨⟨1, 0, -1⟩, ⟨0, 0, -1⟩, ⟨0, 0, 0⟩, some 0, .origin⟩),
        (5, ⟨⟨1, 0, 0⟩, ⟨0, 0, 0⟩, ⟨0, 0, 0⟩, some 1, .support⟩)]
      edges := [((0, 1), ⟨.trail, 1, 0, some (⟨0, 0, -2⟩, ⟨0, 0, 1⟩)⟩),
        ((2, 3), ⟨.trail, 1, 0, some (⟨0, 0, 1⟩, ⟨0, 0, 1⟩)⟩), ((4, 5), ⟨.trail, 1, 0, none⟩),
        ((0, 3), ⟨.deviation, 0, 1, none⟩), ((2, 5), ⟨.deviation, 0, 0, none⟩)]
      maxNode := 5
      trails := [(0, [0, 1]), (2, [2, 3]), (4, [4, 5])]
      auxTrails := []
      auxLength := -1
      auxVector := ⟨1, 1, 1⟩ } := by
    decide +kernel
  rw [h]
  simp [stale, Diagram.real, Diagram.map, NodeData.map, EdgeData.map, Vec.map]

variable (x : ℝ)

theorem stale_nodes (n : Int) : (stale x).nodes.get? n =
    if n = 0 then some ⟨⟨0, 0, -1⟩, ⟨0, 0, 1⟩, ⟨0, 0, 0⟩, some 0, .origin⟩
    else if n = 1 then some ⟨⟨0, 0, -2⟩, ⟨0, 0, 0⟩, ⟨0, 0, 0⟩, some 1, .support⟩
    else if n = 2 then some ⟨⟨0, 0, 0⟩, ⟨0, 0, -2⟩, ⟨0, 0, 0⟩, some 0, .origin⟩
    else if n = 3 then some ⟨⟨0, 0, 1⟩, ⟨0, 0, 0⟩, ⟨0, 0, 0⟩, some 1, .support⟩
    else if n = 4 then some ⟨⟨1, 0, -1⟩, ⟨0, 0, -1⟩, ⟨0, 0, 0⟩, some 0, .origin⟩
    else if n = 5 then some ⟨⟨1, 0, 0⟩, ⟨0, 0, 0⟩, ⟨0, 0, 0⟩, some 1, .support⟩ else none := by
  simp only [stale, Dict.get?, eq_comm (b := n)]

theorem stale_edges (e : Int × Int) : (stale x).edges.get? e =
    if e = (0, 1) then some ⟨.trail, 1, 0, some (⟨0, 0, -2⟩, ⟨0, 0, 1⟩)⟩
    else if e = (2, 3) then some ⟨.trail, 1, 0, some (⟨0, 0, 1⟩, ⟨0, 0, 1⟩)⟩
    else if e = (4, 5) then some ⟨.trail, 1, 0, none⟩ else if e = (0, 3) then some ⟨.deviation, 0, 1, none⟩
    else if e = (2, 5) then some ⟨.deviation, 0, x, none⟩ else none := by
  simp only [stale, Dict.get?, eq_comm (b := e)]

theorem stale_keys : (stale x).nodes.keys = [0, 1, 2, 3, 4, 5] := rfl
theorem stale_edge_keys : (stale x).edges.keys = [(0, 1), (2, 3), (4, 5), (0, 3), (2, 5)] := rfl
theorem stale_trails : (stale x).trails = [(0, [0, 1]), (2, [2, 3]), (4, [4, 5])] := rfl

theorem same_stale (y : ℝ) : SameExcept (fun _ => True) (stale x) (stale y) := by
  refine ⟨rfl, rfl, ?_, ?_, rfl, rfl, rfl, rfl, rfl, rfl⟩
  · intro n d d' h h'
    rw [stale_nodes] at h h'
    split_ifs at h h' <;> simp at h h' <;> subst h <;> subst h' <;> simp
  · intro e d d' h h'
    rw [stale_edges] at h h'
    split_ifs at h h' <;> simp at h h' <;> subst h <;> subst h' <;> simp

theorem valid_stale : ValidInput (stale x) := by
  refine validInput_same (same_stale 0 x) ?_
  rw [← stale_eq]
  exact validInput_real (validInput_of_history key staleOps
    (RegularCheck.regular (WF.after _ _) (by decide +kernel)) (by decide +kernel))

theorem nonzero_stale : NonzeroTrails (stale x) := by
  intro e d h ht
  rw [stale_edges] at h
  split_ifs at h <;> simp at h <;> subst h <;> simp at ht ⊢

theorem acyclic_stale : Acyclic (stale x) := by
  refine acyclic_of_measure (fun n => if n = 1 then 3 else if n = 3 then 2 else if n = 5 then 1 else 0) ?_
  rintro b y ⟨a, ⟨key, tr, htr, hc⟩, hx⟩
  rw [stale_trails] at htr
  have hx' : y = a ∨ (a = 0 ∧ y = 3) ∨ (a = 3 ∧ y = 0) ∨ (a = 2 ∧ y = 5) ∨ (a = 5 ∧ y = 2) := by
    refine hx.imp id ?_
    rintro ⟨d, hd | hd, ht⟩ <;> rw [stale_edges] at hd <;> split_ifs at hd with h1 h2 h3 h4 h5 <;>
      simp at hd <;> subst hd <;> simp at ht <;> simp_all
  simp only [List.mem_cons, Prod.mk.injEq, List.not_mem_nil, or_false] at htr
  rcases htr with ⟨_, rfl⟩ | ⟨_, rfl⟩ | ⟨_, rfl⟩ <;>
  · obtain ⟨l1, l2, h⟩ := hc
    rcases l1 with _ | ⟨z, _ | ⟨z', l1⟩⟩ <;> simp at h
    obtain ⟨rfl, rfl, _⟩ := h
    rcases hx' with rfl | ⟨h, rfl⟩ | ⟨h, rfl⟩ | ⟨h, rfl⟩ | ⟨h, rfl⟩ <;> simp_all

theorem stale_seqs : (stale x).trailsSequences =
    .ok [(0, [(0, 0), (1, 1)]), (2, [(0, 2), (1, 3)]), (4, [(0, 4), (1, 5)])] := rfl
theorem stale_number : (stale x).numberOfSequences = .ok 2 := rfl
theorem stale_sched : sched (stale x) [(0, [(0, 0), (1, 1)]), (2, [(0, 2), (1, 3)]), (4, [(0, 4), (1, 5)])] 2 =
    [0, 2, 4, 1, 3, 5] := rfl

theorem stale_next : nxtK (stale x) none 0 = some 1 ∧ nxtK (stale x) none 1 = none ∧
    nxtK (stale x) none 2 = some 3 ∧ nxtK (stale x) none 3 = none ∧ nxtK (stale x) none 4 = some 5 ∧
    nxtK (stale x) none 5 = none := ⟨rfl, rfl, rfl, rfl, rfl, rfl⟩

theorem stale_data : edgeData (stale x) 0 1 = ⟨.trail, 1, 0, some (⟨0, 0, -2⟩, ⟨0, 0, 1⟩)⟩ ∧
    edgeData (stale x) 2 3 = ⟨.trail, 1, 0, some (⟨0, 0, 1⟩, ⟨0, 0, 1⟩)⟩ ∧
    edgeData (stale x) 4 5 = ⟨.trail, 1, 0, none⟩ ∧ edgeData (stale x) 0 3 = ⟨.deviation, 0, 1, none⟩ ∧
    edgeData (stale x) 2 5 = ⟨.deviation, 0, x, none⟩ := by
  have hh : ∀ e, (stale x).edges.has e = decide (e ∈ (stale x).edges.keys) := by
    intro e
    rw [Bool.eq_iff_iff, Dict.has_iff, decide_eq_true_iff]
  unfold edgeData edgeKey
  simp only [hh, stale_edge_keys, stale_edges]
  simp

theorem stale_dir : (dirNbrs (stale x) 0 = [] ∧ indNbrs (stale x) 0 = [3]) ∧
    (dirNbrs (stale x) 1 = [] ∧ indNbrs (stale x) 1 = []) ∧
    (dirNbrs (stale x) 2 = [] ∧ indNbrs (stale x) 2 = [5]) ∧
    (dirNbrs (stale x) 3 = [] ∧ indNbrs (stale x) 3 = [0]) ∧
    (dirNbrs (stale x) 4 = [] ∧ indNbrs (stale x) 4 = []) ∧
    (dirNbrs (stale x) 5 = [] ∧ indNbrs (stale x) 5 = [2]) :=
  ⟨⟨rfl, rfl⟩, ⟨rfl, rfl⟩, ⟨rfl, rfl⟩, ⟨rfl, rfl⟩, ⟨rfl, rfl⟩, rfl, rfl⟩

theorem stale_good : GoodSeqs (stale x) [(0, [(0, 0), (1, 1)]), (2, [(0, 2), (1, 3)]), (4, [(0, 4), (1, 5)])] ∧
    GoodSched (stale x) none [0, 2, 4, 1, 3, 5] := by
  have I := valid_stale x
  obtain ⟨T, N, hT, hN, hg, hlt⟩ := goodSeqs_of_valid I.wf I.trails I.nonempty
  rw [stale_seqs] at hT
  rw [stale_number] at hN
  obtain rfl := Except.ok.inj hT
  obtain rfl := Except.ok.inj hN
  exact ⟨hg, by rw [← stale_sched x]; exact goodSched I.wf I.trails hg none hlt⟩

theorem length_sq (v : Vec ℝ) : Vec.length v * Vec.length v = v.x * v.x + v.y * v.y + v.z * v.z := by
  rw [Vec.length_def, Real.mul_self_sqrt (Vec.dot_self_nonneg v)]
  rfl

/-- A steep vector has a steep direction. -/
theorem steep_unit {v : Vec ℝ} (hz : v.z ≠ 0) (hy : v.y = 0) (hx : |v.x| ≤ |v.z|) : 1 / 2 ≤ |(unit v).z| := by
  have hv : v ≠ 0 := fun h => hz (by rw [h]; rfl)
  have hp := Vec.length_pos hv
  have hs := length_sq v
  have h1 : Vec.length v ≤ 2 * |v.z| := by
    have h2 := abs_mul_abs_self v.x
    have h3 := abs_mul_abs_self v.z
    have h4 := mul_self_le_mul_self (abs_nonneg _) hx
    have h5 := abs_nonneg v.z
    rw [hy] at hs
    by_contra hc
    push Not at hc
    nlinarith
  unfold unit
  simp only [Vec.smul_z, abs_mul, abs_inv, abs_of_pos hp]
  rw [inv_mul_eq_div, le_div_iff₀ hp]
  linarith

/-- A trail edge that ends on a level plane. -/
theorem level_step {d : EdgeData ℝ} {o : Vec ℝ} (hd : d.plane = some (o, ⟨0, 0, 1⟩)) {P r : Vec ℝ}
    (hz : r.z ≠ 0) (hy : r.y = 0) (hx : |r.x| ≤ |r.z|) (ho : o.z ≠ P.z) :
    P + effectiveLength d P r • Vec.normalize r = P + ((o.z - P.z) / r.z) • r := by
  have hs := steep_unit hz hy hx
  have hv : r ≠ 0 := fun h => hz (by rw [h]; rfl)
  have hp := Vec.length_pos hv
  have hc : Vec.dot (⟨0, 0, 1⟩ : Vec ℝ) (unit r) = (unit r).z := by simp [Vec.dot]
  have hc' : Vec.dot (⟨0, 0, 1⟩ : Vec ℝ) (o - P) = o.z - P.z := by simp [Vec.dot]
  have hne : (unit r).z ≠ 0 := by
    intro h
    rw [h, abs_zero] at hs
    norm_num at hs
  have hl : effectiveLength d P r = (o.z - P.z) / (unit r).z := by
    unfold effectiveLength planeLength
    rw [hd]
    simp only [normalize_eq_unit, hc, hc']
    rw [if_neg (by unfold planeTol; push Not; linarith)]
    simp only
    rw [if_neg (div_ne_zero (sub_ne_zero.2 ho) hne)]
  rw [hl, normalize_eq_unit]
  have hu : (unit r).z = (Vec.length r)⁻¹ * r.z := rfl
  rw [hu]
  unfold unit
  congr 1
  rw [smul_smul]
  congr 1
  field_simp

theorem unit_up {a : ℝ} (h : 0 < a) : unit (⟨0, 0, a⟩ : Vec ℝ) = ⟨0, 0, 1⟩ := by
  have e : (⟨0, 0, a⟩ : Vec ℝ) = a • ⟨0, 0, 1⟩ := by ext <;> simp
  have : Vec.length (⟨0, 0, 1⟩ : Vec ℝ) = 1 := by simp [Vec.length_def, Vec.dot]
  rw [e, unit_smul_pos h]
  unfold unit; rw [this]; simp

theorem unit_side : unit (⟨1, 0, 0⟩ : Vec ℝ) = ⟨1, 0, 0⟩ := by
  have : Vec.length (⟨1, 0, 0⟩ : Vec ℝ) = 1 := by simp [Vec.length_def, Vec.dot]
  unfold unit; rw [this]; simp

/-- What one sweep does. -/
theorem stale_round {ind : Bool} {P T r : Int → Vec ℝ} {Q : Int → Int → Vec ℝ}
    (self : ∀ n ∈ (stale x).nodes.keys, Q n n = P n)
    (out : ∀ n ∈ (stale x).nodes.keys, r n = outVec (stale x) ind (Q n) (T n) n)
    (next : ∀ n ∈ (stale x).nodes.keys, ∀ m, nxtK (stale x) none n = some m →
      P m = P n + effectiveLength (edgeData (stale x) n m) (P n) (r n) • Vec.normalize (r n) ∧ T m = r n)
    (start : ∀ n, n = 0 ∨ n = 2 ∨ n = 4 → P n = posOf (stale x) n ∧ T n = 0) :
    (P 0 = ⟨0, 0, -1⟩ ∧ P 2 = ⟨0, 0, 0⟩ ∧ P 4 = ⟨1, 0, -1⟩) ∧ P 5 = ⟨1, 0, 0⟩ ∧ r 4 = ⟨0, 0, 1⟩ ∧
    (ind = false → r 0 = ⟨0, 0, -1⟩ ∧ r 2 = ⟨0, 0, 2⟩) ∧
    (ind = true → r 0 = ⟨0, 0, -1⟩ - unit (Q 0 3 - ⟨0, 0, -1⟩) ∧
      (Q 2 5 = ⟨1, 0, 0⟩ → r 2 = ⟨-x, 0, 2⟩)) ∧
    (r 2 = ⟨0, 0, 2⟩ → P 3 = ⟨0, 0, 1⟩) ∧
    (|x| ≤ 1 → r 2 = ⟨-x, 0, 2⟩ → P 3 = ⟨-x / 2, 0, 1⟩) ∧
    ((r 0).z ≠ 0 → (r 0).y = 0 → |(r 0).x| ≤ |(r 0).z| → P 1 = ⟨0, 0, -1⟩ + (-1 / (r 0).z) • r 0) := by
  obtain ⟨d1, d2, d3, d4, d5⟩ := stale_data x
  obtain ⟨⟨b1, c1⟩, -, ⟨b2, c2⟩, -, ⟨b4, c4⟩, -⟩ := stale_dir x
  obtain ⟨x0, -, x2, -, x4, -⟩ := stale_next x
  have k : ∀ n : Int, n = 0 ∨ n = 2 ∨ n = 4 → n ∈ (stale x).nodes.keys := by
    intro n hn; rw [stale_keys]; rcases hn with rfl | rfl | rfl <;> simp
  have ld : loadOf (stale x) 0 = ⟨0, 0, 1⟩ ∧ loadOf (stale x) 2 = ⟨0, 0, -2⟩ ∧ loadOf (stale x) 4 = ⟨0, 0, -1⟩ := by
    unfold loadOf; simp [stale_nodes]
  have ps : posOf (stale x) 0 = ⟨0, 0, -1⟩ ∧ posOf (stale x) 2 = ⟨0, 0, 0⟩ ∧ posOf (stale x) 4 = ⟨1, 0, -1⟩ := by
    unfold posOf; simp [stale_nodes]
  obtain ⟨p0, t0⟩ := start 0 (by simp)
  obtain ⟨p2, t2⟩ := start 2 (by simp)
  obtain ⟨p4, t4⟩ := start 4 (by simp)
  rw [ps.1] at p0
  rw [ps.2.1] at p2
  rw [ps.2.2] at p4
  have s0 := self 0 (k 0 (by simp))
  have s2 := self 2 (k 2 (by simp))
  have o0 := out 0 (k 0 (by simp))
  have o2 := out 2 (k 2 (by simp))
  have o4 := out 4 (k 4 (by simp))
  obtain ⟨q1, -⟩ := next 0 (k 0 (by simp)) 1 x0
  obtain ⟨q3, -⟩ := next 2 (k 2 (by simp)) 3 x2
  obtain ⟨q5, -⟩ := next 4 (k 4 (by simp)) 5 x4
  unfold outVec at o0 o2 o4
  rw [t0, ld.1, b1, c1] at o0
  rw [t2, ld.2.1, b2, c2] at o2
  rw [t4, ld.2.2, b4, c4] at o4
  have r4 : r 4 = ⟨0, 0, 1⟩ := by
    rw [o4]
    ext <;> simp [devSum]
  refine ⟨⟨p0, p2, p4⟩, ?_, r4, ?_, ?_, ?_, ?_, ?_⟩
  · rw [q5, d3, r4, p4, normalize_eq_unit, unit_up one_pos]
    ext <;> simp [effectiveLength]
  · rintro rfl
    rw [o0, o2]
    constructor <;> ext <;> simp [devSum]
  · rintro rfl
    refine ⟨?_, fun h => ?_⟩
    · rw [o0]
      simp [devSum, devTerm_real, d4, s0, p0]
      ext <;> simp
    · rw [o2]
      simp [devSum, devTerm_real, d5, s2, p2, h]
      rw [show (⟨1, 0, 0⟩ - ⟨0, 0, 0⟩ : Vec ℝ) = ⟨1, 0, 0⟩ by ext <;> simp, unit_side]
      ext <;> simp
  · intro h
    rw [q3, d2, p2, h, level_step rfl (by norm_num) rfl (by norm_num) (by norm_num)]
    ext <;> norm_num
  · intro hx h
    rw [q3, d2, p2, h, level_step rfl (by norm_num) rfl (by
      simp only [abs_neg]; rw [abs_of_pos (by norm_num : (0 : ℝ) < 2)]; linarith) (by norm_num)]
    ext <;> norm_num
    ring
  · intro hz hy hx
    rw [q1, d1, p0, level_step rfl hz hy hx (by norm_num)]
    norm_num

theorem stale_final {ind : Bool} {p s : EqState ℝ} {r : Int → Vec ℝ} {Q : Int → Int → Vec ℝ}
    (S : FinalSpec (stale x) none ind p s r Q) :
    (s.pos 0 = ⟨0, 0, -1⟩ ∧ s.pos 2 = ⟨0, 0, 0⟩ ∧ s.pos 4 = ⟨1, 0, -1⟩) ∧ s.pos 5 = ⟨1, 0, 0⟩ ∧ r 4 = ⟨0, 0, 1⟩ ∧
    (ind = false → r 0 = ⟨0, 0, -1⟩ ∧ r 2 = ⟨0, 0, 2⟩) ∧
    (ind = true → r 0 = ⟨0, 0, -1⟩ - unit (Q 0 3 - ⟨0, 0, -1⟩) ∧
      (Q 2 5 = ⟨1, 0, 0⟩ → r 2 = ⟨-x, 0, 2⟩)) ∧
    (r 2 = ⟨0, 0, 2⟩ → s.pos 3 = ⟨0, 0, 1⟩) ∧
    (|x| ≤ 1 → r 2 = ⟨-x, 0, 2⟩ → s.pos 3 = ⟨-x / 2, 0, 1⟩) ∧
    ((r 0).z ≠ 0 → (r 0).y = 0 → |(r 0).x| ≤ |(r 0).z| → s.pos 1 = ⟨0, 0, -1⟩ + (-1 / (r 0).z) • r 0) := by
  refine stale_round x (T := s.res) (fun n hn => S.seen n hn n le_rfl) S.out
    (fun n hn m hm => ⟨(S.next n hn m hm).1, (S.next n hn m hm).2.1⟩) fun n hn => ?_
  obtain ⟨x0, x1, x2, x3, x4, x5⟩ := stale_next x
  obtain ⟨h1, h2⟩ := S.start n fun a ha => by
    rw [stale_keys] at ha
    simp only [List.mem_cons, List.not_mem_nil, or_false] at ha
    rcases ha with rfl | rfl | rfl | rfl | rfl | rfl <;> rcases hn with rfl | rfl | rfl <;>
      simp [x0, x1, x2, x3, x4, x5]
  rw [h1, h2]
  rcases hn with rfl | rfl | rfl <;> exact ⟨rfl, rfl⟩

/-- The sweeps of the plain solver. -/
noncomputable abbrev pass (j : Nat) : EqState ℝ := iter (stale x) none [0, 2, 4, 1, 3, 5] j

theorem pass_one : ((pass x 1).pos 0 = ⟨0, 0, -1⟩ ∧ (pass x 1).pos 2 = ⟨0, 0, 0⟩ ∧ (pass x 1).pos 4 = ⟨1, 0, -1⟩) ∧
    (pass x 1).pos 5 = ⟨1, 0, 0⟩ ∧ (pass x 1).pos 3 = ⟨0, 0, 1⟩ ∧ (pass x 1).pos 1 = ⟨0, 0, -2⟩ ∧
    (pass x 1).res 1 ≠ 0 ∧ (pass x 1).res 3 ≠ 0 := by
  have I := valid_stale x
  have S := finalSpec_sched I.wf I.trails (stale_good x).2 0
  obtain ⟨h0, h5, h4, hr, -, h3, -, h1⟩ := stale_final x S
  obtain ⟨r0, r2⟩ := hr (by simp)
  obtain ⟨x0, x1, x2, x3, x4, x5⟩ := stale_next x
  obtain ⟨-, t1, -⟩ := S.next 0 (by rw [stale_keys]; simp) 1 x0
  obtain ⟨-, t3, -⟩ := S.next 2 (by rw [stale_keys]; simp) 3 x2
  refine ⟨h0, h5, h3 r2, ?_, ?_, ?_⟩
  · rw [h1 (by rw [r0]; norm_num) (by rw [r0]) (by rw [r0]; norm_num), r0]
    ext <;> norm_num
  · rw [show (pass x 1).res 1 = _ from t1, r0]
    intro h
    simpa using congrArg Vec.z h
  · rw [show (pass x 1).res 3 = _ from t3, r2]
    intro h
    simpa using congrArg Vec.z h

theorem pass_two (hx : |x| ≤ 1) : ((pass x 2).pos 0 = ⟨0, 0, -1⟩ ∧ (pass x 2).pos 2 = ⟨0, 0, 0⟩ ∧
      (pass x 2).pos 4 = ⟨1, 0, -1⟩) ∧
    (pass x 2).pos 5 = ⟨1, 0, 0⟩ ∧ (pass x 2).pos 3 = ⟨-x / 2, 0, 1⟩ ∧ (pass x 2).pos 1 = ⟨0, 0, -2⟩ ∧
    (pass x 2).res 1 ≠ 0 ∧ (pass x 2).res 3 ≠ 0 := by
  have I := valid_stale x
  have S := finalSpec_sched I.wf I.trails (stale_good x).2 1
  obtain ⟨-, a5, a3, -⟩ := pass_one x
  obtain ⟨h0, h5, h4, -, hr, -, h3, h1⟩ := stale_final x S
  obtain ⟨r0, r2⟩ := hr (by simp)
  obtain ⟨x0, x1, x2, x3, x4, x5⟩ := stale_next x
  obtain ⟨-, t1, -⟩ := S.next 0 (by rw [stale_keys]; simp) 1 x0
  obtain ⟨-, t3, -⟩ := S.next 2 (by rw [stale_keys]; simp) 3 x2
  have r2 := r2 (by
    rcases S.seen_any 2 (by rw [stale_keys]; simp) 5 with h | h
    · rw [h]; exact a5
    · rw [h]; exact h5)
  have e : (stateAt (stale x) (nxtK (stale x) none) (decide (1 ≠ 0)) [0, 2, 4, 1, 3, 5] (pass x 1) 0).pos 3 =
      ⟨0, 0, 1⟩ := a3
  rw [e, show (⟨0, 0, 1⟩ - ⟨0, 0, -1⟩ : Vec ℝ) = ⟨0, 0, 2⟩ by ext <;> norm_num, unit_up two_pos,
    show (⟨0, 0, -1⟩ - ⟨0, 0, 1⟩ : Vec ℝ) = ⟨0, 0, -2⟩ by ext <;> norm_num] at r0
  refine ⟨h0, h5, h3 hx r2, ?_, ?_, ?_⟩
  · rw [h1 (by rw [r0]; norm_num) (by rw [r0]) (by rw [r0]; norm_num), r0]
    ext <;> norm_num
  · rw [show (pass x 2).res 1 = _ from t1, r0]
    intro h
    simpa using congrArg Vec.z h
  · rw [show (pass x 2).res 3 = _ from t3, r2]
    intro h
    simpa using congrArg Vec.z h

theorem pass_exact (j : Nat) : flIter Arith.exact (stale x) none [0, 2, 4, 1, 3, 5] j = pass x j := by
  have := flIter_exact (valid_stale x) (stale_good x).1 2 j
  rwa [stale_sched] at this

/-- Neither of the first two sweeps divides by zero. -/
theorem stale_numbers (hx : |x| ≤ 1) :
    (∀ n ∈ (stale x).nodes.keys, (flNIter Arith.exact (stale x) [0, 2, 4, 1, 3, 5] 1).pos n ≠ none) ∧
    (∀ n ∈ (stale x).nodes.keys, (flNIter Arith.exact (stale x) [0, 2, 4, 1, 3, 5] 2).pos n ≠ none) ∧
    NoNaN (flNIter Arith.exact (stale x) [0, 2, 4, 1, 3, 5] 2) := by
  have I := valid_stale x
  have G := (stale_good x).2
  have H := precise_exact
  have hu : (0 : ℝ) ≤ 1 / 100 := by norm_num
  have hz := zeroAdds_exact
  obtain ⟨a0, a5, a3, a1, ar1, ar3⟩ := pass_one x
  obtain ⟨b0, b5, b3, b1, br1, br3⟩ := pass_two x hx
  obtain ⟨⟨d0, i0⟩, ⟨d1, i1⟩, ⟨d2, i2⟩, ⟨d3, i3⟩, ⟨d4, i4⟩, d5, i5⟩ := stale_dir x
  obtain ⟨e1, e2, e3, -⟩ := stale_data x
  obtain ⟨x0, x1, x2, x3, x4, x5⟩ := stale_next x
  have hdir : ∀ n ∈ (stale x).nodes.keys, dirNbrs (stale x) n = [] := by
    intro n hn
    rw [stale_keys] at hn
    simp only [List.mem_cons, List.not_mem_nil, or_false] at hn
    rcases hn with rfl | rfl | rfl | rfl | rfl | rfl <;> assumption
  have plane : ∀ i, (pass x (i + 1)).res 1 ≠ 0 → (pass x (i + 1)).res 3 ≠ 0 → ∀ n ∈ (stale x).nodes.keys, ∀ m,
      nxtK (stale x) none n = some m → (edgeData (stale x) n m).plane ≠ none →
      flRAt Arith.exact (stale x) (nxtK (stale x) none) (decide (i ≠ 0)) [0, 2, 4, 1, 3, 5]
        (flIter Arith.exact (stale x) none [0, 2, 4, 1, 3, 5] i) n ≠ 0 := by
    intro i h1 h3 n hn m hm hp
    obtain ⟨-, t, -⟩ := (fl_finalSpec_sched (A := Arith.exact) I.wf I.trails G i).next n hn m hm
    rw [← t, pass_exact]
    rw [stale_keys] at hn
    simp only [List.mem_cons, List.not_mem_nil, or_false] at hn
    rcases hn with rfl | rfl | rfl | rfl | rfl | rfl
    · rw [x0] at hm; cases hm; exact h1
    · rw [x1] at hm; cases hm
    · rw [x2] at hm; cases hm; exact h3
    · rw [x3] at hm; cases hm
    · rw [x4] at hm; cases hm; rw [e3] at hp; simp at hp
    · rw [x5] at hm; cases hm
  have ind : ∀ n ∈ (stale x).nodes.keys, ∀ b, b ∈ indNbrs (stale x) n →
      (flStateAt Arith.exact (stale x) (nxtK (stale x) none) (decide (1 ≠ 0)) [0, 2, 4, 1, 3, 5]
        (flIter Arith.exact (stale x) none [0, 2, 4, 1, 3, 5] 1) n).pos b ≠
      (flStateAt Arith.exact (stale x) (nxtK (stale x) none) (decide (1 ≠ 0)) [0, 2, 4, 1, 3, 5]
        (flIter Arith.exact (stale x) none [0, 2, 4, 1, 3, 5] 1) n).pos n := by
    intro n hn b hb
    have S := fl_finalSpec_sched (A := Arith.exact) I.wf I.trails G 1
    have g1 := S.seen_any n hn b
    have g2 := S.seen n hn n le_rfl
    simp only [pass_exact] at g1 g2 ⊢
    rw [g2]
    rw [stale_keys] at hn
    simp only [List.mem_cons, List.not_mem_nil, or_false] at hn
    rcases hn with rfl | rfl | rfl | rfl | rfl | rfl
    · rw [i0, List.mem_singleton] at hb
      subst hb
      rw [b0.1]
      rcases g1 with g1 | g1 <;> rw [g1]
      · rw [a3]; intro h; have := congrArg Vec.z h; norm_num at this
      · rw [b3]; intro h; have := congrArg Vec.z h; norm_num at this
    · rw [i1] at hb; simp at hb
    · rw [i2, List.mem_singleton] at hb
      subst hb
      rw [b0.2.1]
      rcases g1 with g1 | g1 <;> rw [g1]
      · rw [a5]; intro h; have := congrArg Vec.x h; norm_num at this
      · rw [b5]; intro h; have := congrArg Vec.x h; norm_num at this
    · rw [i3, List.mem_singleton] at hb
      subst hb
      rw [b3]
      rcases g1 with g1 | g1 <;> rw [g1]
      · rw [a0.1]; intro h; have := congrArg Vec.z h; norm_num at this
      · rw [b0.1]; intro h; have := congrArg Vec.z h; norm_num at this
    · rw [i4] at hb; simp at hb
    · rw [i5, List.mem_singleton] at hb
      subst hb
      rw [b5]
      rcases g1 with g1 | g1 <;> rw [g1]
      · rw [a0.2.1]; intro h; have := congrArg Vec.x h; norm_num at this
      · rw [b0.2.1]; intro h; have := congrArg Vec.x h; norm_num at this
  have n1 := (flN_numbers H hu hz I G (i := 0) (fun n hn => by
    obtain ⟨d, hd⟩ := (Dict.exists_get?_iff _ _).2 hn
    unfold flNIter npInit NState.pos
    rw [get?_map_val (stale x).nodes (fun d => some d.pos), hd]
    simp) (fun n hn b hb => by rw [hdir n hn] at hb; simp at hb) (fun h => absurd rfl h) (plane 0 ar1 ar3)).1
  have n2 := (flN_numbers H hu hz I G (i := 1) n1 (fun n hn b hb => by rw [hdir n hn] at hb; simp at hb)
    (fun _ => ind) (plane 1 br1 br3)).1
  refine ⟨n1, n2, flN_noNaN_of H hu hz I G n1 n2 fun n hn b hb hty => ?_⟩
  refine ind n hn b ?_
  have := hdir n hn
  unfold dirNbrs at this
  unfold indNbrs
  rw [List.filter_eq_nil_iff] at this
  have h := this b hb
  refine List.mem_filter.2 ⟨hb, ?_⟩
  simp only [decide_eq_true_eq] at h ⊢
  exact ⟨hty, fun e => h ⟨hty, e⟩⟩

theorem stale_stops (hx : |x| ≤ 1) {tmax : Nat} (ht : 2 ≤ tmax) {eta : ℝ} (he : |x| / 2 < eta) :
    ∃ z, npEquilibriumState (stale x) tmax eta false = .ok z ∧
      StateOf (stale x) (formOf (stale x) (pass x 2)) z := by
  have I := valid_stale x
  have G := (stale_good x).2
  have H := precise_exact
  have hu : (0 : ℝ) ≤ 1 / 100 := by norm_num
  have hz := zeroAdds_exact
  obtain ⟨a0, a5, a3, a1, -⟩ := pass_one x
  obtain ⟨b0, b5, b3, b1, -⟩ := pass_two x hx
  obtain ⟨n1, n2, hn⟩ := stale_numbers x hx
  have gk : ∀ j, (pass x j).xyz.keys = (stale x).nodes.keys := fun j => (goodState_iter I.wf I.trails none _ j).1
  have e1 : ∀ j, (∀ n ∈ (stale x).nodes.keys, (flNIter Arith.exact (stale x) [0, 2, 4, 1, 3, 5] j).pos n ≠ none) →
      (flNIter Arith.exact (stale x) [0, 2, 4, 1, 3, 5] j).xyz = mapVal some (pass x j).xyz := by
    intro j h
    rw [← pass_exact]
    exact (NBelow.iter H hu hz G j).xyz.eq_lift (by rw [pass_exact, gk]; exact I.wf.nodesNodup)
      ((flN_pos_ne (L := [0, 2, 4, 1, 3, 5]) I _).2 h)
  have hdist : flNDist Arith.exact List.sum (stale x) [0, 2, 4, 1, 3, 5] 2 = some (|x| / 2) := by
    unfold flNDist flNpDistance
    rw [show 2 - 1 = 1 from rfl, e1 1 n1, e1 2 n2,
      flNpSquares_lift _ _ fun q hq => by rw [gk, ← gk 2]; exact Dict.mem_keys_of_mem hq]
    have hc : changeSquares Arith.exact (pass x 1).xyz (pass x 2).xyz =
        (pass x 2).xyz.keys.flatMap fun k =>
          [((pass x 1).pos k - (pass x 2).pos k).x * ((pass x 1).pos k - (pass x 2).pos k).x,
            ((pass x 1).pos k - (pass x 2).pos k).y * ((pass x 1).pos k - (pass x 2).pos k).y,
            ((pass x 1).pos k - (pass x 2).pos k).z * ((pass x 1).pos k - (pass x 2).pos k).z] := by
      unfold changeSquares Dict.keys
      rw [List.flatMap_map]
      refine List.flatMap_congr fun q hq => ?_
      have h2 : (pass x 2).pos q.1 = q.2 := by
        unfold EqState.pos
        rw [Dict.get?_of_mem (by rw [gk]; exact I.wf.nodesNodup) (k := q.1) (v := q.2) hq]
        rfl
      rw [h2]
      rfl
    rw [hc, gk, stale_keys]
    simp only [List.flatMap_cons, List.flatMap_nil, a0.1, a0.2.1, a0.2.2, a1, a3, a5, b0.1, b0.2.1, b0.2.2, b1, b3,
      b5, Option.map_some, Option.some.injEq, List.cons_append, List.nil_append, List.sum_cons, List.sum_nil,
      Vec.sub_x, Vec.sub_y, Vec.sub_z, sub_self, mul_zero, zero_add, add_zero, zero_sub]
    change Real.sqrt _ = _
    rw [show -(-x / 2) * -(-x / 2) = x / 2 * (x / 2) by ring, Real.sqrt_mul_self_eq_abs, abs_div, abs_two]
  obtain ⟨m, hm2, hmt, hj, hl, heq⟩ := (flNpEquilibriumState_cases (A := Arith.exact) (total := List.sum) I
    (stale_seqs x) (stale_number x) (stale_good x).1 tmax eta false).2.2 ht
  rw [stale_sched] at hj hl heq
  have hlt : (flNDist Arith.exact List.sum (stale x) [0, 2, 4, 1, 3, 5] 2).lt eta = true := by
    rw [hdist]
    simpa [Num.lt] using he
  have hm : m = 2 := by
    by_contra hne
    exact hj 2 le_rfl (by omega) hlt
  subst hm
  have hgt : ¬ (flNDist Arith.exact List.sum (stale x) [0, 2, 4, 1, 3, 5] 2).gt eta = true := by
    rw [hdist]
    simp only [Num.gt, decide_eq_true_eq, not_lt]
    exact he.le
  rw [if_neg hgt, flNpEquilibriumState_exact] at heq
  refine ⟨_, heq, ?_⟩
  have e := flNIter_eq H hu hz I G hn
  rw [pass_exact] at e
  rw [e]
  exact stateOf_iter I G 1 rfl rfl rfl

/-- The force between the second and the third trail is the parameter, and the end of the first trail has a goal. -/
def staleHistory : List (RegOp (Param ℝ)) := [.add (deviationEdgeParameter (2, 5) none none)]

def staleOpt : Optimizer ℝ :=
  (runOps Optimizer.empty staleHistory).addConstraint (.point 1 ⟨1, 0, -2⟩ 1)

theorem stale_registered : staleOpt.parameters = [(0, deviationEdgeParameter (2, 5) none none)] := by
  simp [staleOpt, staleHistory, runOps, Optimizer.addConstraint, Optimizer.addParameter, Optimizer.empty, Dict.set]

theorem stale_goals : staleOpt.constraints.vals = [.point 1 ⟨1, 0, -2⟩ 1] := by
  simp [staleOpt, staleHistory, runOps, Optimizer.addConstraint, Optimizer.addParameter, Optimizer.empty, Dict.set,
    Dict.vals]

theorem stale_write (f : ℝ) : staleOpt.updateParameters (stale f) [x] = (stale x, .ok ()) := by
  unfold Optimizer.updateParameters
  rw [stale_registered]
  simp [Optimizer.writeParameters, npGet, npIndex, deviationEdgeParameter,
    Diagram.setAttribute, stale, Dict.has, Dict.get?, Dict.modify, Dict.set, EdgeAttr.set]

theorem stale_posed : ∀ c ∈ staleOpt.constraints.vals, Posed (stale x) c := by
  rw [stale_goals]
  simp [Posed, stale_keys]

/-- With a threshold above half the force, the goal does not notice the force. -/
theorem stale_value (f : ℝ) (hx : |x| ≤ 1) {tmax : Nat} (ht : 2 ≤ tmax) {eta : ℝ} (he : |x| / 2 < eta) :
    staleOpt.optimizeForm tmax eta (stale f) [x] = (stale x, .ok (some 1)) := by
  obtain ⟨z, h1, h2⟩ := stale_stops x hx ht he
  have I := valid_stale x
  have S := finalSpec_sched I.wf I.trails (stale_good x).2 1
  unfold Optimizer.optimizeForm
  rw [stale_write]
  simp only [h1]
  rw [penalties_form (k := 1) h2 fun c hc => ⟨stale_posed x c hc, by
    rw [stale_goals] at hc
    rw [List.mem_singleton.1 hc]
    trivial⟩, stale_goals]
  have hp : posOf (formOf (stale x) (pass x 2)) 1 = ⟨0, 0, -2⟩ :=
    (posOf_form I.wf S 1).trans (pass_two x hx).2.2.2.1
  norm_num [formPenalty, hp, distSq, Vec.dot]

/-- How far the force moves the end of the first trail. -/
noncomputable def reach : ℝ := x / (2 * (Real.sqrt (x * x / 4 + 4) + 2))

theorem stale_settled (hx : |x| ≤ 1) {F : Diagram ℝ} {s : EqState ℝ} {r : Int → Vec ℝ}
    (S : SettledForm (stale x) F s r) :
    (s.pos 0 = ⟨0, 0, -1⟩ ∧ s.pos 2 = ⟨0, 0, 0⟩ ∧ s.pos 4 = ⟨1, 0, -1⟩) ∧ s.pos 5 = ⟨1, 0, 0⟩ ∧
    s.pos 3 = ⟨-x / 2, 0, 1⟩ ∧ s.pos 1 = ⟨reach x, 0, -2⟩ ∧ (r 0).z < 0 ∧ (r 2).z = 2 ∧ (r 4).z = 1 := by
  have I := valid_stale x
  obtain ⟨x0, x1, x2, x3, x4, x5⟩ := stale_next x
  have hnx := nxtK_none I.wf I.trails
  obtain ⟨h0, h5, h4, -, hr, -, h3, h1⟩ := stale_round x (ind := true) (P := s.pos) (T := s.res) (r := r)
    (Q := fun _ => s.pos) (fun _ _ => rfl) (fun n hn => by
      rw [S.settled.out n hn]; simp [outVec]) (fun n hn m hm => S.settled.next n hn m (by rw [← hnx]; exact hm))
    (fun n hn => by
      refine S.settled.start n (by rw [stale_keys]; rcases hn with rfl | rfl | rfl <;> simp) fun a ha => ?_
      rw [← hnx] at ha
      have hak : a ∈ (stale x).nodes.keys := by
        rw [hnx] at ha
        exact (Follows.mem I.trails ((trailNext_iff I.wf I.trails).1 ha)).1
      rw [stale_keys] at hak
      simp only [List.mem_cons, List.not_mem_nil, or_false] at hak
      rcases hak with rfl | rfl | rfl | rfl | rfl | rfl <;> rcases hn with rfl | rfl | rfl <;>
        simp [x0, x1, x2, x3, x4, x5] at ha)
  obtain ⟨r0, r2⟩ := hr rfl
  have r2 := r2 h5
  have p3 := h3 hx r2
  rw [p3] at r0
  have hl : (0 : ℝ) < x * x / 4 + 4 := by nlinarith [mul_self_nonneg x]
  have hq := Real.sqrt_pos.2 hl
  have hlen : Vec.length (⟨-x / 2, 0, 1⟩ - ⟨0, 0, -1⟩ : Vec ℝ) = Real.sqrt (x * x / 4 + 4) := by
    rw [Vec.length_def]
    congr 1
    simp only [Vec.dot, Vec.sub_x, Vec.sub_y, Vec.sub_z]
    ring
  have e : r 0 = ⟨x / (2 * Real.sqrt (x * x / 4 + 4)), 0, -(1 + 2 / Real.sqrt (x * x / 4 + 4))⟩ := by
    rw [r0]
    unfold unit
    rw [hlen]
    ext
    · simp only [Vec.sub_x, Vec.smul_x]
      field_simp
      ring
    · simp
    · simp only [Vec.sub_z, Vec.smul_z]
      field_simp
      ring
  have hneg : (r 0).z < 0 := by
    rw [e]
    have : 0 < 2 / Real.sqrt (x * x / 4 + 4) := by positivity
    simp only
    linarith
  have hs : |(r 0).x| ≤ |(r 0).z| := by
    have h2 : 0 < 2 / Real.sqrt (x * x / 4 + 4) := by positivity
    rw [e]
    simp only
    rw [abs_neg, abs_of_pos (by linarith : 0 < 1 + 2 / Real.sqrt (x * x / 4 + 4)), abs_div,
      abs_of_pos (by positivity : 0 < 2 * Real.sqrt (x * x / 4 + 4))]
    have : |x| / (2 * Real.sqrt (x * x / 4 + 4)) ≤ 2 / Real.sqrt (x * x / 4 + 4) := by
      rw [div_le_div_iff₀ (by positivity) hq]
      nlinarith
    linarith
  refine ⟨h0, h5, p3, ?_, hneg, by rw [r2], by rw [h4]⟩
  rw [h1 hneg.ne (by rw [e]) hs, e]
  unfold reach
  ext
  · simp only [Vec.add_x, Vec.smul_x]
    field_simp
    ring
  · simp
  · simp only [Vec.add_z, Vec.smul_z]
    field_simp
    ring

theorem reach_deriv : HasDerivAt reach (1 / 8) 0 := by
  have h1 : HasDerivAt (fun x : ℝ => x * x / 4 + 4) 0 0 := by
    have := (((hasDerivAt_id (0 : ℝ)).mul (hasDerivAt_id (0 : ℝ))).div_const 4).add_const 4
    simpa using this
  have h2 := h1.sqrt (by norm_num)
  have h3 := (h2.add_const 2).const_mul 2
  have h4 := (hasDerivAt_id' (0 : ℝ)).div h3 (by positivity)
  have e : Real.sqrt (0 * 0 / 4 + 4) = 2 := by
    rw [show (0 * 0 / 4 + 4 : ℝ) = 2 * 2 by norm_num, Real.sqrt_mul_self (by norm_num)]
  have h5 : HasDerivAt reach _ 0 := h4
  convert h5 using 1
  rw [e]
  norm_num

theorem stale_carries {F : Diagram ℝ} {s : EqState ℝ} {r : Int → Vec ℝ} (S : SettledForm (stale x) F s r)
    (h0 : r 0 ≠ 0) (h2 : r 2 ≠ 0) (h4 : r 4 ≠ 0) : TrailsCarry F := by
  have I := valid_stale x
  obtain ⟨x0, -, x2, -, x4, -⟩ := stale_next x
  rw [nxtK_none I.wf I.trails] at x0 x2 x4
  intro e d hd ht
  have hk : F.edges.keys = (stale x).edges.keys := by
    obtain ⟨rfl, _, _⟩ := S
    exact formEdges_keys _ _
  have hm := Dict.mem_keys_of_get? hd
  rw [hk, stale_edge_keys] at hm
  have cs : ∀ {v : Vec ℝ} {l : ℝ}, v ≠ 0 → copysign (Vec.length v) l ≠ 0 := by
    intro v l hv
    have := Vec.length_pos hv
    unfold copysign
    rw [abs_of_pos this]
    split_ifs <;> linarith
  have dev : ∀ d0, (stale x).edges.get? e = some d0 → d0.type = .deviation → False := by
    intro d0 h hty
    obtain ⟨eF, ⟨ind, p, Q, G⟩, -⟩ := S
    obtain ⟨d', h1, h2, _⟩ := (computed_keeps_data I ⟨_, _, _, _, _, eF, G⟩).2.2.2 _ _ h
    rw [hd] at h1
    rw [Option.some.inj h1, h2, hty] at ht
    simp at ht
  have trail : ∀ a b, e = (a, b) → (a, b) ∈ (stale x).edges.keys → trailNext (stale x) a = some b → r a ≠ 0 →
      d.force ≠ 0 := by
    intro a b he hmem hn hr
    obtain ⟨d', e1, _, e3⟩ := settled_edge I S hn
    rw [(edgeKey_of_mem I.simple hmem).1, ← he, hd] at e1
    rw [Option.some.inj e1, e3]
    exact cs hr
  simp only [List.mem_cons, List.not_mem_nil, or_false] at hm
  rcases hm with rfl | rfl | rfl | rfl | rfl
  · exact trail 0 1 rfl (by rw [stale_edge_keys]; simp) x0 h0
  · exact trail 2 3 rfl (by rw [stale_edge_keys]; simp) x2 h2
  · exact trail 4 5 rfl (by rw [stale_edge_keys]; simp) x4 h4
  · exact (dev ⟨.deviation, 0, 1, none⟩ (by rw [stale_edges]; simp) rfl).elim
  · exact (dev ⟨.deviation, 0, x, none⟩ (by rw [stale_edges]; simp) rfl).elim

theorem stale_point (k : WithTop ℕ∞) {tmax : Nat} (ht : 6 < tmax) :
    ∃ F, SmoothPoint k staleOpt staleHistory (stale 0) (stale 0) F ![0] tmax 0 := by
  have I := valid_stale 0
  obtain ⟨F, hF, -⟩ := C65_acyclic I (nonzero_stale 0) (acyclic_stale 0) (tmax := tmax) (by change 6 < _; exact ht) false
  obtain ⟨q, S⟩ := settled_zero I (by omega) le_rfl hF
  obtain ⟨⟨p0, p2, p4⟩, p5, p3, p1, r0, r2, r4⟩ := stale_settled 0 (by simp) S
  have hpos : ∀ n, posOf F n = q.1.pos n := by
    intro n
    obtain ⟨eF, ⟨ind, p, Q, G⟩, -⟩ := S
    rw [eF, posOf_form I.wf G]
  have hc : TrailsCarry F := stale_carries 0 S (fun h => by rw [h] at r0; simp at r0)
    (fun h => by rw [h] at r2; simp at r2) (fun h => by rw [h] at r4; simp at r4)
  have hr : reach 0 = 0 := by simp [reach]
  have hlow : unit (⟨0, 0, -2⟩ - ⟨0, 0, -1⟩ : Vec ℝ) = ⟨0, 0, -1⟩ := by
    rw [show (⟨0, 0, -2⟩ - ⟨0, 0, -1⟩ : Vec ℝ) = -⟨0, 0, 1⟩ by ext <;> norm_num, unit_neg, unit_up one_pos]
    ext <;> simp
  have hX : Distinct (stale 0) F := by
    refine ⟨?_, ?_⟩
    · intro e d hd hty
      rw [hpos, hpos]
      rw [stale_edges] at hd
      split_ifs at hd with h1 h2 h3 h4 h5 <;> simp at hd <;> subst hd <;> simp at hty
      · subst h4
        simp only [p0, p3]
        intro h
        have := congrArg Vec.z h
        norm_num at this
      · subst h5
        simp only [p2, p5]
        intro h
        have := congrArg Vec.x h
        norm_num at this
    · intro a b d o N hf hb hp
      right
      rw [hpos, hpos]
      have hab : (a = 0 ∧ b = 1) ∨ (a = 2 ∧ b = 3) ∨ (a = 4 ∧ b = 5) := by
        obtain ⟨key, tr, htr, l1, l2, h⟩ := hf
        rw [stale_trails] at htr
        simp only [List.mem_cons, Prod.mk.injEq, List.not_mem_nil, or_false] at htr
        rcases htr with ⟨_, rfl⟩ | ⟨_, rfl⟩ | ⟨_, rfl⟩ <;>
        · rcases l1 with _ | ⟨z, _ | ⟨z', l1⟩⟩ <;> simp at h
          obtain ⟨rfl, rfl, _⟩ := h
          simp
      unfold EdgeBetween at hb
      rw [stale_edges, stale_edges] at hb
      rcases hab with ⟨rfl, rfl⟩ | ⟨rfl, rfl⟩ | ⟨rfl, rfl⟩ <;> simp at hb <;> subst hb <;> simp at hp <;>
        obtain ⟨rfl, rfl⟩ := hp
      · rw [p0, p1, hr, hlow]
        norm_num [Vec.dot]
      · rw [p2, p3, show (⟨-0 / 2, 0, 1⟩ - ⟨0, 0, 0⟩ : Vec ℝ) = ⟨0, 0, 1⟩ by ext <;> norm_num, unit_up one_pos]
        norm_num [Vec.dot]
  refine ⟨F, ?_, ?_, I, Or.inr ⟨acyclic_stale 0, by change 6 < tmax; exact ht, rfl⟩,
    ⟨SameExcept.refl _ _, ?_⟩, nonzero_stale 0, hF, hc, hX, stale_posed 0, ?_⟩
  · unfold HasHistory
    rw [stale_registered]
    simp [staleHistory, runOps, Optimizer.addParameter, Optimizer.empty, Dict.set]
  · intro j p hr
    rw [← (regInv staleHistory).get] at hr
    have e : (runOps (Optimizer.empty : Optimizer ℝ) staleHistory).parameters =
        [(0, deviationEdgeParameter (2, 5) none none)] := by
      simp [staleHistory, runOps, Optimizer.addParameter, Optimizer.empty, Dict.set]
    rw [e] at hr
    simp only [Dict.get?] at hr
    split_ifs at hr with h1
    cases hr
    subst h1
    exact ⟨by norm_num, by simp [deviationEdgeParameter, HasSlot, stale_edge_keys]⟩
  · intro l1 j p l2 e _
    have hm : (j, p) ∈ staleOpt.parameters := by rw [e]; simp
    rw [stale_registered] at hm
    simp only [List.mem_cons, Prod.mk.injEq, List.not_mem_nil, or_false] at hm
    obtain ⟨rfl, rfl⟩ := hm
    exact ⟨0, by simp, ⟨_, by rw [stale_edges]; simp; rfl, rfl⟩⟩
  · rw [stale_goals]
    simp [Clear]

end StaleEx

open StaleEx in
/-- **C79, thresholds as large as the step.**  If the threshold exceeds half the step, as it does with the
default values 1e-6 of both, the finite difference gradient can be zero where the objective has slope -1/4. -/
theorem C79_stale {tmax : Nat} (ht : 6 < tmax) (k : WithTop ℕ∞) :
    (∃ F, SmoothPoint k staleOpt staleHistory (stale 0) (stale 0) F ![0] tmax 0) ∧ Acyclic (stale 0) ∧
    (∀ step eta : ℝ, step ≠ 0 → |step| ≤ 1 → |step| < 2 * eta → ∀ g : Num ℝ,
      gradFiniteDifferences (staleOpt.optimizeForm tmax eta) step (stale 0) [0] [g] =
        ((stale step, [0]), .ok [some 0])) ∧
    ∃ f : (Fin 1 → ℝ) → ℝ, ContDiffAt ℝ k f ![0] ∧
      (∀ᶠ x in 𝓝 ![0], (staleOpt.optimizeForm tmax 0 (stale 0) (List.ofFn x)).2 = .ok (some (f x))) ∧
      partialAt f ![0] 0 = -1 / 4 := by
  refine ⟨stale_point k ht, acyclic_stale 0, fun step eta h0 h1 h2 g => ?_, ?_⟩
  · rw [C42_trace _ _ _ _ _ rfl]
    simp only [List.length_cons, List.length_nil, List.range_one, List.map_cons, List.map_nil, bump,
      List.mapIdx_cons, List.mapIdx_nil, if_true, zero_add, evalAll,
      stale_value 0 _ (by simp) (by omega : 2 ≤ tmax) (eta := eta) (by
        have := abs_nonneg step
        simp only [abs_zero, zero_div]
        linarith),
      stale_value step _ h1 (by omega : 2 ≤ tmax) (eta := eta) (by linarith)]
    simp [fdQuotient, lift2, h0]
  · obtain ⟨F, P⟩ := stale_point k ht
    obtain ⟨G, hG, hs, hv⟩ := smooth_objective P
    have hw : ∀ x : Fin 1 → ℝ, staleOpt.updateParameters (stale 0) (List.ofFn x) = (stale (x 0), .ok ()) := by
      intro x
      rw [show List.ofFn x = [x 0] by simp]
      exact stale_write (x 0) 0
    have key : ∀ x : Fin 1 → ℝ, |x 0| ≤ 1 →
        (staleOpt.constraints.vals.map (formPenalty (G x))).sum = (1 - reach (x 0)) * (1 - reach (x 0)) := by
      intro x hx
      have h := hG x
      rw [hw] at h
      obtain ⟨q, S⟩ := settled_zero (valid_stale (x 0)) (by omega) le_rfl h
      obtain ⟨-, -, -, p1, -⟩ := stale_settled (x 0) hx S
      have hp : posOf (G x) 1 = ⟨reach (x 0), 0, -2⟩ := by
        obtain ⟨eF, ⟨ind, p, Q, G'⟩, -⟩ := S
        rw [eF, posOf_form (valid_stale (x 0)).wf G', p1]
      rw [stale_goals]
      simp only [List.map_cons, List.map_nil, List.sum_cons, List.sum_nil, formPenalty, hp, distSq, Vec.dot,
        Vec.sub_x, Vec.sub_y, Vec.sub_z]
      ring
    have hev : ∀ᶠ x : Fin 1 → ℝ in 𝓝 ![0], |x 0| ≤ 1 := by
      have hc : ContinuousAt (fun x : Fin 1 → ℝ => |x 0|) ![0] :=
        (continuous_apply (0 : Fin 1)).abs.continuousAt
      have := hc.eventually_lt (continuousAt_const (y := (1 : ℝ))) (by simp)
      exact this.mono fun x hx => hx.le
    have heq : (fun x => (staleOpt.constraints.vals.map (formPenalty (G x))).sum) =ᶠ[𝓝 ![0]]
        fun x => (1 - reach (x 0)) * (1 - reach (x 0)) := hev.mono fun x hx => key x hx
    refine ⟨fun x => (1 - reach (x 0)) * (1 - reach (x 0)), hs.congr_of_eventuallyEq heq.symm, ?_, ?_⟩
    · filter_upwards [hv, heq] with x h1 h2
      rw [h1, ← h2]
    · have hr : reach 0 = 0 := by simp [reach]
      have d1 : HasDerivAt (fun y => (1 - reach y) * (1 - reach y)) (-1 / 4) ((![0] : Fin 1 → ℝ) 0) := by
        have h := reach_deriv.const_sub 1
        have h2 : HasDerivAt (fun y => (1 - reach y) * (1 - reach y)) _ 0 := h.mul h
        rw [hr, show (-(1 / 8) * (1 - 0) + (1 - 0) * -(1 / 8) : ℝ) = -1 / 4 by norm_num] at h2
        exact h2
      have d2 : HasFDerivAt (fun x : Fin 1 → ℝ => x 0)
          (ContinuousLinearMap.proj (R := ℝ) (φ := fun _ : Fin 1 => ℝ) 0) ![0] :=
        (ContinuousLinearMap.proj (R := ℝ) (φ := fun _ : Fin 1 => ℝ) 0).hasFDerivAt
      have d3 := d1.comp_hasFDerivAt (![0] : Fin 1 → ℝ) d2
      unfold partialAt
      rw [show (fun x : Fin 1 → ℝ => (1 - reach (x 0)) * (1 - reach (x 0))) =
        (fun y => (1 - reach y) * (1 - reach y)) ∘ fun x : Fin 1 → ℝ => x 0 from rfl, d3.fderiv]
      simp

open StaleEx in
/-- The default values of the optimizer. -/
example : gradFiniteDifferences (staleOpt.optimizeForm 100 (1 / 1000000)) (1 / 1000000) (stale 0) [0] [none] =
    ((stale (1 / 1000000), [0]), .ok [some 0]) :=
  (C79_stale (tmax := 100) (by norm_num) 1).2.2.1 _ _ (by norm_num)
    (by rw [abs_of_pos] <;> norm_num) (by rw [abs_of_pos] <;> norm_num) none

end Props
end CEM
