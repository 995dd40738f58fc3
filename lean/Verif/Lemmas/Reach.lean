import Verif.Spec.Reach
import Verif.Props.TrailEdges
import Verif.Props.Limit

/-!
# Bounds of forms
-/

set_option linter.unusedSectionVars false
set_option linter.unusedSimpArgs false

namespace CEM
open Diagram Spec Props

theorem deviationsAt_nonneg (D : Diagram ℝ) (n : Int) : 0 ≤ deviationsAt D n := by
  unfold deviationsAt
  apply List.sum_nonneg
  intro x hx
  obtain ⟨p, _, rfl⟩ := List.mem_map.1 hx
  split_ifs
  · exact abs_nonneg _
  · exact le_rfl

theorem pushAt_nonneg (D : Diagram ℝ) (n : Int) : 0 ≤ pushAt D n :=
  add_nonneg (Vec.length_nonneg _) (deviationsAt_nonneg D n)

/-- The same sum over neighbours. -/
theorem deviationsAt_eq {D : Diagram ℝ} (w : WF D) (g : SimpleGraph D) (n : Int) : deviationsAt D n =
    ((D.neighbors n).map fun m =>
      if (edgeData D n m).type = .deviation then |(edgeData D n m).force| else 0).sum := by
  rw [sum_neighbors w g]
  unfold deviationsAt Dict.keys
  rw [List.map_map]
  congr 1
  apply List.map_congr_left
  rintro ⟨⟨a, b⟩, d⟩ hm
  have hd := Dict.get?_of_mem w.edgesNodup hm
  have hmem := Dict.mem_keys_of_get? hd
  obtain ⟨k1, k2⟩ := edgeKey_of_mem g hmem
  have e1 : edgeData D a b = d := by unfold edgeData; rw [k1, hd]; rfl
  have e2 : edgeData D b a = d := by unfold edgeData; rw [k2, hd]; rfl
  have hab : a ≠ b := by rintro rfl; exact g.noLoop _ hmem
  simp only [Function.comp]
  by_cases h1 : a = n
  · subst h1
    have h2 : b ≠ a := fun h => hab h.symm
    simp [h2, e1]
  · by_cases h2 : b = n
    · subst h2; simp [h1, e2]
    · simp [h1, h2]

theorem length_devSum_le (D : Diagram ℝ) (P : Int → Vec ℝ) (n : Int) (l : List Int) :
    Vec.length (devSum D P n l) ≤ (l.map fun m => |(edgeData D n m).force|).sum := by
  unfold devSum
  refine (Vec.length_list_sum_le _).trans ?_
  rw [List.map_map]
  apply List.sum_le_sum
  intro m _
  simp only [Function.comp, devTerm_real, Vec.length_smul]
  have := length_unit_le (P m - P n)
  nlinarith [abs_nonneg (edgeData D n m).force]

theorem neighbours_split (D : Diagram ℝ) (n : Int) :
    ((D.neighbors n).map fun m =>
      if (edgeData D n m).type = .deviation then |(edgeData D n m).force| else 0).sum =
    ((dirNbrs D n).map fun m => |(edgeData D n m).force|).sum +
    ((indNbrs D n).map fun m => |(edgeData D n m).force|).sum := by
  unfold dirNbrs indNbrs
  generalize D.neighbors n = l
  induction l with
  | nil => simp
  | cons m l ih =>
    by_cases h1 : (edgeData D n m).type = .deviation <;> by_cases h2 : seqOf D n = seqOf D m <;>
      simp [List.filter_cons, h1, h2] at ih ⊢ <;> linarith

/-- What a node adds to the vector passed on along a trail. -/
theorem length_outVec_le {D : Diagram ℝ} (w : WF D) (g : SimpleGraph D) (ind : Bool) (P : Int → Vec ℝ)
    (t : Vec ℝ) (n : Int) : Vec.length (outVec D ind P t n) ≤ Vec.length t + pushAt D n := by
  unfold pushAt
  rw [deviationsAt_eq w g, neighbours_split]
  unfold outVec
  have h1 := length_devSum_le D P n (dirNbrs D n)
  have h2 : Vec.length (if ind then devSum D P n (indNbrs D n) else 0) ≤
      ((indNbrs D n).map fun m => |(edgeData D n m).force|).sum := by
    split_ifs
    · exact length_devSum_le D P n _
    · rw [Vec.length_zero]
      apply List.sum_nonneg
      intro x hx
      obtain ⟨p, _, rfl⟩ := List.mem_map.1 hx
      exact abs_nonneg _
  have h3 : loadOf D n = loadAt D n := rfl
  rw [h3]
  have a1 := Vec.length_sub_le (t - loadAt D n - devSum D P n (dirNbrs D n))
    (if ind then devSum D P n (indNbrs D n) else 0)
  have a2 := Vec.length_sub_le (t - loadAt D n) (devSum D P n (dirNbrs D n))
  have a3 := Vec.length_sub_le t (loadAt D n)
  linarith

section
variable {D : Diagram ℝ} (I : ValidInput D) {ind : Bool} {p s : EqState ℝ} {r : Int → Vec ℝ}
  {Q : Int → Int → Vec ℝ} (S : FinalSpec D none ind p s r Q) {key : Int} {tr : List Int}
  (htr : (key, tr) ∈ D.trails)
include I S htr

/-- The vector that a node passes on. -/
theorem length_passed_le : ∀ (l : List Int) (n : Int) (q : List Int), tr = l ++ n :: q →
    Vec.length (r n) ≤ pushes D (l ++ [n]) := by
  intro l
  induction l using List.reverseRecOn with
  | nil =>
    intro n q h
    obtain ⟨rest, hr⟩ := I.trails.head key tr htr
    have hn : n = key := by rw [hr] at h; exact (List.cons.inj h).1.symm
    subst hn
    have hk : n ∈ D.nodes.keys := I.trails.mem_keys htr (by rw [h]; simp)
    have hs := S.start n fun a _ ha => head_not_next I.wf I.trails htr a (nxtK_trail ha)
    have h0 : s.res n = 0 := by
      rw [hs.2]
      obtain ⟨d, hd⟩ := (Dict.exists_get?_iff _ _).2 hk
      unfold EqState.res initState
      rw [get?_map_val D.nodes (fun d => d.reaction), hd]
      exact I.reaction n d hd
    rw [S.out n hk]
    refine (length_outVec_le I.wf I.simple _ _ _ n).trans ?_
    rw [h0, Vec.length_zero]
    simp [pushes]
  | append_singleton l a ih =>
    intro n q h
    have h' : tr = l ++ a :: (n :: q) := by rw [h]; simp
    have hc : Consecutive tr a n := ⟨l, q, h'⟩
    have hk : n ∈ D.nodes.keys := I.trails.mem_keys htr (by rw [h]; simp)
    have hnx : nxtK D none a = some n := by
      rw [nxtK_none I.wf I.trails]; exact (trailNext_iff I.wf I.trails).2 ⟨key, tr, htr, hc⟩
    have hres := (S.next a (I.trails.mem_keys htr hc.mem_left) n hnx).2.1
    rw [S.out n hk]
    refine (length_outVec_le I.wf I.simple _ _ _ n).trans ?_
    rw [hres]
    have := ih a (n :: q) h'
    simp only [pushes, List.map_append, List.sum_append, List.map_cons, List.map_nil, List.sum_cons,
      List.sum_nil, add_zero] at this ⊢
    linarith

end

theorem walked_concat (D : Diagram ℝ) (a b : Int) : ∀ l : List Int,
    walked D (l ++ [a, b]) = walked D (l ++ [a]) + lengthBetween D a b
  | [] => by simp [walked]
  | [c] => by simp [walked]
  | c :: d :: l => by
    have := walked_concat D a b (d :: l)
    simp only [List.cons_append, walked] at this ⊢
    linarith

theorem abs_copysign_length (v : Vec ℝ) (l : ℝ) : |copysign (Vec.length v) l| = Vec.length v := by
  unfold copysign
  split_ifs <;> simp [abs_of_nonneg (Vec.length_nonneg v)]

end CEM
