import Verif.Spec.Callback
import Verif.Lemmas.Numpy
import Verif.Lemmas.Form

/-! # Callbacks: lemmas -/

namespace CEM
open Diagram Spec
set_option linter.unusedSectionVars false

theorem times_add {A : Type} (f : A → Except PyErr A) (m n : Nat) (a : A) :
    times f (m + n) a = (times f m a).bind (times f n) := by
  induction m generalizing a with
  | zero => simp [times, Except.bind]
  | succ m ih =>
    rw [Nat.succ_add]
    simp only [times]
    cases f a with
    | error e => rfl
    | ok b => exact ih b

theorem times_watching {R W : Type} (g : W → Except PyErr W) (n : Nat) (D : Diagram R) (x : W) :
    times (watching g) n (D, x) = (times g n x).map fun y => (D, y) := by
  induction n generalizing x with
  | zero => rfl
  | succ n ih =>
    simp only [times, watching]
    cases hg : g x with
    | error e => rfl
    | ok y => exact ih y

/-- A loop of which every round does what it does without a callback, and calls it. -/
theorem forE_times {α σ A : Type} {f : A → Except PyErr A} {F : σ × A → α → Except PyErr (σ × A)} {G : σ → α → σ}
    {c : α → Nat} {Inv : σ → Prop} {J : A → Prop} {l : List α} {s : σ} {x : A} (h0 : Inv s) (hx : J x)
    (hF : ∀ s x a, Inv s → J x → a ∈ l → F (s, x) a = (times f (c a) x).map fun y => (G s a, y))
    (hi : ∀ s a, Inv s → a ∈ l → Inv (G s a)) (hJ : ∀ x y, J x → f x = .ok y → J y) :
    forE F l (s, x) = (times f (l.map c).sum x).map fun y => (l.foldl G s, y) := by
  have hJn : ∀ n x y, J x → times f n x = .ok y → J y := by
    intro n
    induction n with
    | zero => intro x y h e; cases e; exact h
    | succ n ih =>
      intro x y h e
      simp only [times] at e
      cases hf : f x with
      | error err => rw [hf] at e; cases e
      | ok z => rw [hf] at e; exact ih z y (hJ x z h hf) e
  induction l generalizing s x with
  | nil => rfl
  | cons a l ih =>
    simp only [forE, hF s x a h0 hx (by simp), List.map_cons, List.sum_cons, times_add, List.foldl_cons]
    cases ht : times f (c a) x with
    | error e => rfl
    | ok y =>
      exact ih (hi s a h0 (by simp)) (hJn _ _ _ hx ht) (fun s x b h1 h2 hb => hF s x b h1 h2 (by simp [hb]))
        (fun s b h1 hb => hi s b h1 (by simp [hb]))

theorem times_inv {A : Type} {f : A → Except PyErr A} {J : A → Prop} (hJ : ∀ x y, J x → f x = .ok y → J y) (n : Nat)
    {x y : A} (hx : J x) (h : times f n x = .ok y) : J y := by
  induction n generalizing x with
  | zero => cases h; exact hx
  | succ n ih =>
    simp only [times] at h
    cases hf : f x with
    | error err => rw [hf] at h; cases h
    | ok z => rw [hf] at h; exact ih (hJ x z hx hf) h

section
variable {R W : Type} [Field R] [LinearOrder R] [IsStrictOrderedRing R] [PySqrt R]

/-- 1 for a node that is not the last one of the computation. -/
def callsAt (D : Diagram R) (kmax : Option Int) (n : Int) : Nat := if (nxtK D kmax n).isSome then 1 else 0

def callsOf (D : Diagram R) (kmax : Option Int) : Option Int → Nat
  | none => 0
  | some n => callsAt D kmax n

theorem cbStep_eq {D : Diagram R} (w : WF D) (V : ValidTrails D) {T : Dict Int (Dict Int Int)}
    (hT : GoodSeqs D T) (kmax : Option Int) (ind : Bool) (k : Int) {s : EqState R} (hg : GoodState D s) {key : Int}
    (hkey : key ∈ D.trails.keys) (f : Callback R W) (x : W) :
    cbStep (some f) T kmax ind k (s, (D, x)) key =
      (times f (callsOf D kmax ((T.get? key).bind (·.get? k))) (D, x)).map fun y =>
        (match (T.get? key).bind (·.get? k) with
          | none => s
          | some n => proc D (nxtK D kmax) ind s n, y) := by
  obtain ⟨tr, ht⟩ := Dict.mem_keys_iff.1 hkey
  obtain ⟨m, hm, hspec⟩ := hT key tr ht
  have hs : ∀ n ∈ D.nodes.keys, ∃ k, seqOf D n = some k := fun n hn =>
    let ⟨k, h, _⟩ := allSequenced_of_valid V n hn; ⟨k, h⟩
  unfold cbStep
  simp only [Dict.getE, hm, Option.bind_some]
  cases hn : m.get? k with
  | none => rfl
  | some n =>
    obtain ⟨hntr, hseq⟩ := (hspec k n).1 hn
    have hnk := V.mem_keys ht hntr
    obtain ⟨p, hp⟩ := (Dict.exists_get?_iff s.xyz n).2 (by rw [hg.1]; exact hnk)
    obtain ⟨r, hr⟩ := (Dict.exists_get?_iff s.residual n).2 (by rw [hg.2]; exact hnk)
    have hpos : s.pos n = p := by simp [EqState.pos, hp]
    have hres : s.res n = r := by simp [EqState.res, hr]
    simp only [hp, hr]
    rw [nodeEquilibrium_eq w hs ind hg.1 hnk]
    have hsup : D.isNodeSupport n = .ok (decide (typeOf D n = some .support)) := by
      obtain ⟨d, hd⟩ := (Dict.exists_get?_iff _ _).2 hnk
      simp [isNodeSupport, typeOf, hd]
    simp only [hsup, decide_eq_true_eq, callsOf, callsAt]
    by_cases hstop : typeOf D n = some .support ∨ kmax = some k
    · have hx : nxtK D kmax n = none := by
        unfold nxtK
        rw [if_pos]
        rcases hstop with h | h
        · exact Or.inl h
        · exact Or.inr ⟨by simp [h], by rw [h, hseq]⟩
      rw [if_pos hstop, proc_none hx, hres, hx]
      rfl
    · rw [if_neg hstop]
      push Not at hstop
      obtain ⟨n', hn'⟩ := trailNext_isSome w V hnk hstop.1
      have hx : nxtK D kmax n = some n' := by
        unfold nxtK
        rw [if_neg, hn']
        rintro (h | ⟨h1, h2⟩)
        · exact hstop.1 h
        · rw [hseq] at h2; exact hstop.2 h2
      obtain ⟨key', tr', ht', hc⟩ := (trailNext_iff w V).1 hn'
      have he := V.unique w ht ht' hntr hc.mem_left
      obtain ⟨rfl, rfl⟩ := Prod.mk.inj he
      obtain ⟨j, _, hj1, hj2⟩ := seqOf_next V ht hc
      rw [hseq] at hj1
      obtain rfl := Option.some.inj hj1
      have hnext : m.get? (k + 1) = some n' := (hspec _ _).2 ⟨hc.mem_right, hj2⟩
      have hadj := trailNext_adj w V hn'
      have hed := edgeKey_mem (adj_mem_neighbors hadj)
      unfold edgeKey at hed
      simp only [hnext, hed, callE]
      rw [proc_some hx, hres, hpos, hx]
      simp only [Option.isSome_some, if_true, times]
      cases f (D, x) <;> rfl

/-- The number of calls in a sweep. -/
def callsIn (D : Diagram R) (kmax : Option Int) (L : List Int) : Nat := (L.map (callsAt D kmax)).sum

theorem callsIn_level (D : Diagram R) (kmax : Option Int) (T : Dict Int (Dict Int Int)) (k : Int) (l : List Int) :
    (l.map fun key => callsOf D kmax ((T.get? key).bind (·.get? k))).sum =
      callsIn D kmax (l.filterMap fun key => (T.get? key).bind (·.get? k)) := by
  induction l with
  | nil => rfl
  | cons a l ih =>
    rw [List.map_cons, List.sum_cons, List.filterMap_cons, ih]
    cases (T.get? a).bind (·.get? k) with
    | none => simp [callsOf]
    | some n => simp [callsOf, callsIn]

theorem callsIn_flatMap (D : Diagram R) (kmax : Option Int) (f : Int → List Int) (l : List Int) :
    (l.map fun k => callsIn D kmax (f k)).sum = callsIn D kmax (l.flatMap f) := by
  induction l with
  | nil => rfl
  | cons a l ih => rw [List.map_cons, List.sum_cons, ih, List.flatMap_cons]; simp [callsIn]

/-- A sweep with a callback that leaves this diagram alone. -/
theorem cbSweep_gen {D : Diagram R} (w : WF D) (V : ValidTrails D) {T : Dict Int (Dict Int Int)}
    (hT : GoodSeqs D T) (kmax : Option Int) (ind : Bool) (N : Int) {s : EqState R} (hg : GoodState D s)
    {f : Callback R W} (hJ : ∀ p q : Diagram R × W, p.1 = D → f p = .ok q → q.1 = D) (x : W) :
    cbSweep (some f) T kmax ind N (s, (D, x)) =
      (times f (callsIn D kmax (sched D T N)) (D, x)).map fun y =>
        ((sched D T N).foldl (proc D (nxtK D kmax) ind) s, y) := by
  have inner : ∀ (k : Int) (s : EqState R) (p : Diagram R × W), GoodState D s → p.1 = D →
      forE (cbStep (some f) T kmax ind k) p.1.trails.keys (s, p) =
        (times f (callsIn D kmax (level D T k)) p).map fun y =>
          ((level D T k).foldl (proc D (nxtK D kmax) ind) s, y) := by
    rintro k s ⟨E, x⟩ hs rfl
    have := forE_times (f := f) (F := cbStep (some f) T kmax ind k) (l := E.trails.keys)
      (G := fun s key => match (T.get? key).bind (·.get? k) with
        | none => s
        | some n => proc E (nxtK E kmax) ind s n)
      (c := fun key => callsOf E kmax ((T.get? key).bind (·.get? k))) (Inv := GoodState E) (J := fun p => p.1 = E)
      (s := s) (x := (E, x)) hs rfl
      (fun s p key h1 h2 hk => by
        obtain ⟨E', x'⟩ := p
        obtain rfl : E' = E := h2
        exact cbStep_eq w V hT kmax ind k h1 hk _ x')
      (fun s key h hk => by
        show GoodState E (match (T.get? key).bind (·.get? k) with
          | none => s
          | some n => proc E (nxtK E kmax) ind s n)
        cases (T.get? key).bind (·.get? k) with
        | none => exact h
        | some n => exact h.proc w V n) hJ
    rw [this, callsIn_level]
    congr 2
    funext y
    congr 1
    unfold level
    rw [List.foldl_filterMap]
    refine congrArg (fun f => List.foldl f s E.trails.keys) ?_
    funext s key
    cases (T.get? key).bind (·.get? k) <;> rfl
  have := forE_times (f := f) (F := fun p k => forE (cbStep (some f) T kmax ind k) p.2.1.trails.keys p)
    (l := pyRange N) (G := fun s k => (level D T k).foldl (proc D (nxtK D kmax) ind) s)
    (c := fun k => callsIn D kmax (level D T k)) (Inv := GoodState D) (J := fun p => p.1 = D) (s := s) (x := (D, x)) hg rfl
    (fun s p k h1 h2 _ => inner k s p h1 h2) (fun s k h _ => h.fold w V _) hJ
  unfold cbSweep
  rw [this, callsIn_flatMap]
  unfold sched
  congr 2
  funext y
  rw [List.foldl_flatMap]

theorem cbSweep_eq {D : Diagram R} (w : WF D) (V : ValidTrails D) {T : Dict Int (Dict Int Int)}
    (hT : GoodSeqs D T) (kmax : Option Int) (ind : Bool) (N : Int) {s : EqState R} (hg : GoodState D s)
    (g : W → Except PyErr W) (x : W) :
    cbSweep (some (watching g)) T kmax ind N (s, (D, x)) =
      (times (watching g) (callsIn D kmax (sched D T N)) (D, x)).map fun y =>
        ((sched D T N).foldl (proc D (nxtK D kmax) ind) s, y) := by
  refine cbSweep_gen w V hT kmax ind N hg ?_ x
  rintro ⟨E, x⟩ q rfl h
  unfold watching at h
  cases hx : g x with
  | error e => simp only [hx] at h; cases h
  | ok y => simp only [hx] at h; cases h; rfl

/-- The change in sweep `m`. -/
def eDist (D : Diagram R) (kmax : Option Int) (L : List Int) (m : Nat) : R :=
  residualDistance (iter D kmax L (m - 1)).xyz (iter D kmax L m).xyz

/-- The loop with a callback that does not change the diagram. -/
theorem cbLoop_eq {D : Diagram R} (w : WF D) (V : ValidTrails D) {T : Dict Int (Dict Int Int)}
    (hT : GoodSeqs D T) (kmax : Option Int) {N : Int} (hN : D.numberOfSequences = .ok N) (eta : R) (fuel t : Nat)
    (info : Option (LoopInfo R)) :
    ∃ r j, eqLoop D T kmax eta N fuel t (iter D kmax (sched D T N) t) info = .ok r ∧ j ≤ fuel ∧
      (∀ i, t < i → 2 ≤ i → i < t + j → ¬ eDist D kmax (sched D T N) i < eta) ∧
      ((1 ≤ j ∧ 2 ≤ t + j ∧ eDist D kmax (sched D T N) (t + j) < eta) ∨ j = fuel) ∧
      ∀ (g : W → Except PyErr W) (x : W),
        cbLoop (some (watching g)) T kmax eta fuel t (iter D kmax (sched D T N) t, (D, x)) info =
        (times (watching g) (j * callsIn D kmax (sched D T N)) (D, x)).map fun y => (r, y) := by
  induction fuel generalizing t info with
  | zero => exact ⟨_, 0, rfl, le_rfl, fun i h1 _ h2 => absurd h2 (by omega), Or.inr rfl,
      fun g x => by simp [cbLoop, times, Except.map]⟩
  | succ fuel ih =>
    have hg := goodState_iter w V kmax (sched D T N) t
    have hsw : sweep D T kmax (decide (t ≠ 0)) N (iter D kmax (sched D T N) t) =
        .ok (iter D kmax (sched D T N) (t + 1)) := sweep_eq w V hT kmax (decide (t ≠ 0)) N hg
    have hcb : ∀ (g : W → Except PyErr W) (x : W),
        cbSweep (some (watching g)) T kmax (decide (t ≠ 0)) N (iter D kmax (sched D T N) t, (D, x)) =
          (times (watching g) (callsIn D kmax (sched D T N)) (D, x)).map fun y =>
            (iter D kmax (sched D T N) (t + 1), y) :=
      fun g x => cbSweep_eq w V hT kmax (decide (t ≠ 0)) N hg g x
    have hd : residualDistance (iter D kmax (sched D T N) t).xyz (iter D kmax (sched D T N) (t + 1)).xyz =
        eDist D kmax (sched D T N) (t + 1) := rfl
    have next : ∀ info', ∃ r j, eqLoop D T kmax eta N fuel (t + 1) (iter D kmax (sched D T N) (t + 1)) info' = .ok r ∧
        j ≤ fuel ∧ (∀ i, t + 1 < i → 2 ≤ i → i < t + (j + 1) → ¬ eDist D kmax (sched D T N) i < eta) ∧
        ((1 ≤ j + 1 ∧ 2 ≤ t + (j + 1) ∧ eDist D kmax (sched D T N) (t + (j + 1)) < eta) ∨ j + 1 = fuel + 1) ∧
        ∀ (g : W → Except PyErr W) (x : W),
          (match (times (watching g) (callsIn D kmax (sched D T N)) (D, x)).map fun y =>
              (iter D kmax (sched D T N) (t + 1), y) with
            | .error err => .error err
            | .ok p' => cbLoop (some (watching g)) T kmax eta fuel (t + 1) p' info') =
          (times (watching g) ((j + 1) * callsIn D kmax (sched D T N)) (D, x)).map fun y => (r, y) := by
      intro info'
      obtain ⟨r, j, h1, h2, h3, h4, h5⟩ := ih (t + 1) info'
      refine ⟨r, j, h1, h2, fun i i1 i2 i3 => h3 i i1 i2 (by omega), ?_, fun g x => ?_⟩
      · rcases h4 with ⟨k1, k2, k3⟩ | h4
        · exact Or.inl ⟨by omega, by omega, by rwa [show t + (j + 1) = t + 1 + j by omega]⟩
        · exact Or.inr (by omega)
      · rw [show (j + 1) * callsIn D kmax (sched D T N) =
          callsIn D kmax (sched D T N) + j * callsIn D kmax (sched D T N) by ring, times_add, times_watching]
        cases times g (callsIn D kmax (sched D T N)) x with
        | error e => rfl
        | ok y => exact h5 g y
    simp only [eqLoop, cbLoop, hN, hsw, hcb]
    by_cases ht : t = 0
    · obtain ⟨r, j, h1, h2, h3, h4, h5⟩ := next (some ⟨0, none⟩)
      refine ⟨r, j + 1, by rw [if_pos ht, h1], by omega, fun i i1 i2 i3 => h3 i (by omega) i2 i3, h4, fun g x => ?_⟩
      rw [← h5]
      cases times (watching g) (callsIn D kmax (sched D T N)) (D, x) with
      | error e => rfl
      | ok y => simp only [Except.map, if_pos ht]
    · simp only [ht, if_false, hd]
      by_cases hlt : eDist D kmax (sched D T N) (t + 1) < eta
      · refine ⟨_, 1, by rw [if_pos hlt], by omega, fun i i1 _ i2 => absurd i2 (by omega),
          Or.inl ⟨le_rfl, by omega, hlt⟩, fun g x => ?_⟩
        rw [one_mul]
        cases times (watching g) (callsIn D kmax (sched D T N)) (D, x) with
        | error e => rfl
        | ok y => simp only [Except.map, hd, if_pos hlt]
      · obtain ⟨r, j, h1, h2, h3, h4, h5⟩ := next (some ⟨t, some (eDist D kmax (sched D T N) (t + 1))⟩)
        refine ⟨r, j + 1, by rw [if_neg hlt, h1], by omega, fun i i1 i2 i3 => ?_, h4, fun g x => ?_⟩
        · rcases Nat.lt_or_ge (t + 1) i with hi | hi
          · exact h3 i hi i2 i3
          · obtain rfl : i = t + 1 := by omega
            exact hlt
        · rw [← h5]
          cases times (watching g) (callsIn D kmax (sched D T N)) (D, x) with
          | error e => rfl
          | ok y => simp only [Except.map, hd, if_neg hlt]

/-- The number of calls in a sweep is the number of trail edges. -/
theorem callsIn_edges {D : Diagram R} (I : ValidInput D) {kmax : Option Int} {L : List Int} (G : GoodSched D kmax L) :
    callsIn D kmax L = trailEdgesBut D kmax := by
  have w := I.wf
  have V := I.trails
  have h1 : callsIn D kmax L = (L.filterMap fun n => (nxtK D kmax n).map (edgeKey D n)).length := by
    unfold callsIn
    clear G
    induction L with
    | nil => rfl
    | cons n L ih =>
      rw [List.map_cons, List.sum_cons, ih, List.filterMap_cons]
      unfold callsAt
      cases nxtK D kmax n <;> simp [Nat.add_comm]
  have h2 : trailEdgesBut D kmax = ((D.edges.filter fun p =>
      decide (p.2.type = .trail ∧ (kmax = none ∨ kmax ≠ lowerEnd D p.1))).map (·.1)).length := by
    rw [trailEdgesBut, List.countP_eq_length_filter, List.length_map]
  rw [h1, h2]
  refine List.Perm.length_eq ((List.perm_ext_iff_of_nodup ?_ ?_).2 fun e => ?_)
  · rw [List.Nodup, List.pairwise_filterMap]
    refine List.Pairwise.imp ?_ G.sched.nodup
    intro a b hab e he e' he' hee
    subst hee
    obtain ⟨m, hm, rfl⟩ := Option.map_eq_some_iff.1 he
    obtain ⟨m', hm', h⟩ := Option.map_eq_some_iff.1 he'
    exact hab (edgeKey_inj G.sched hm hm' h.symm).1
  · exact (w.edgesNodup).sublist (List.Sublist.map _ List.filter_sublist)
  · rw [List.mem_filterMap, List.mem_map]
    have low : ∀ a b, trailNext D a = some b → ∃ k : Int, seqOf D a = some k ∧ lowerEnd D (edgeKey D a b) = some k := by
      intro a b h
      obtain ⟨key, tr, ht, hc⟩ := (trailNext_iff w V).1 h
      obtain ⟨k, -, e1, e2⟩ := seqOf_next V ht hc
      refine ⟨k, e1, ?_⟩
      rcases edgeKey_ends D a b with e | e <;> rw [e] <;> simp [lowerEnd, e1, e2]
    have next : ∀ a b, trailNext D a = some b → typeOf D a ≠ some .support := by
      intro a b h hs
      rw [← nxtK_none w V] at h
      unfold nxtK at h
      rw [if_pos (Or.inl hs)] at h
      cases h
    constructor
    · rintro ⟨n, -, h⟩
      obtain ⟨m, hm, rfl⟩ := Option.map_eq_some_iff.1 h
      have ht := nxtK_trail hm
      have hed := edgeKey_mem (adj_mem_neighbors (trailNext_adj w V ht))
      refine ⟨(edgeKey D n m, edgeData D n m), ?_, rfl⟩
      rw [List.mem_filter]
      refine ⟨Dict.mem_of_get? hed, ?_⟩
      obtain ⟨k, k1, k2⟩ := low n m ht
      simp only [decide_eq_true_eq]
      refine ⟨?_, ?_⟩
      · exact edgeData_trail' w V I.simple ht
      · unfold nxtK at hm
        split_ifs at hm with hc
        push Not at hc
        cases hk : kmax with
        | none => exact Or.inl rfl
        | some k' =>
          refine Or.inr ?_
          rw [k2, ← k1, ← hk]
          exact hc.2 (by simp [hk])
    · rintro ⟨⟨e', d⟩, he, rfl⟩
      rw [List.mem_filter] at he
      obtain ⟨he, hc⟩ := he
      simp only [decide_eq_true_eq] at hc
      have hd := Dict.get?_of_mem w.edgesNodup he
      have out : ∀ a b, trailNext D a = some b → edgeKey D a b = e' →
          ∃ n, n ∈ L ∧ (nxtK D kmax n).map (edgeKey D n) = some e' := by
        intro a b h hk
        have ha := (mem_keys_of_nbr w (adj_mem_neighbors (trailNext_adj w V h))).2
        refine ⟨a, (G.mem a).2 ha, ?_⟩
        obtain ⟨k, k1, k2⟩ := low a b h
        have : nxtK D kmax a = some b := by
          unfold nxtK
          rw [if_neg, h]
          rintro (h' | ⟨h1, h2⟩)
          · exact next a b h h'
          · rcases hc.2 with h3 | h3
            · rw [h3] at h1; cases h1
            · exact h3 (by rw [h2, k1, ← k2, hk])
        rw [this, Option.map_some, hk]
      have hmem : e' ∈ D.edges.keys := Dict.mem_keys_of_get? hd
      obtain ⟨key, tr, ht, hcon⟩ := V.complete e'.1 e'.2 (Or.inl ⟨d, hd, hc.1⟩)
      obtain ⟨k1, k2⟩ : edgeKey D e'.1 e'.2 = e' ∧ edgeKey D e'.2 e'.1 = e' := by
        unfold edgeKey
        exact ⟨if_pos ((Dict.has_iff _ _).2 hmem),
          if_neg fun h => I.simple.noAnti _ _ hmem ((Dict.has_iff _ _).1 h)⟩
      rcases hcon with h | h
      · exact out _ _ ((trailNext_iff w V).2 ⟨key, tr, ht, h⟩) k1
      · exact out _ _ ((trailNext_iff w V).2 ⟨key, tr, ht, h⟩) k2


/-! ## numpy -/

theorem Spec.SamePlan.refl (D : Diagram R) : SamePlan D D := ⟨rfl, rfl, rfl⟩

theorem Spec.SamePlan.trans {D E F : Diagram R} (h : SamePlan D E) (h' : SamePlan E F) : SamePlan D F :=
  ⟨h'.nodes.trans h.nodes, h'.trails.trans h.trails, h'.edges.trans h.edges⟩

theorem Spec.SamePlan.support {D E : Diagram R} (h : SamePlan D E) (n : Int) : E.isNodeSupport n = D.isNodeSupport n := by
  have key : ∀ l l' : Dict Int (NodeData R), (l.map fun p => (p.1, p.2.type, p.2.k)) =
      l'.map (fun p => (p.1, p.2.type, p.2.k)) → (l.get? n).map (·.type) = (l'.get? n).map (·.type) := by
    intro l
    induction l with
    | nil => intro l' e; cases l' with
      | nil => rfl
      | cons b l' => cases e
    | cons a l ih =>
      intro l' e
      cases l' with
      | nil => cases e
      | cons b l' =>
        rw [List.map_cons, List.map_cons, List.cons.injEq, Prod.mk.injEq, Prod.mk.injEq] at e
        simp only [Dict.get?, e.1.1]
        split_ifs
        · simp [e.1.2.1]
        · exact ih l' e.2
  have := key _ _ h.nodes
  unfold isNodeSupport
  cases h1 : E.nodes.get? n <;> cases h2 : D.nodes.get? n <;> simp_all

theorem Spec.SamePlan.sequences {D E : Diagram R} (h : SamePlan D E) : E.numberOfSequences = D.numberOfSequences := by
  have key : ∀ l l' : Dict Int (NodeData R), (l.map fun p => (p.1, p.2.type, p.2.k)) =
      l'.map (fun p => (p.1, p.2.type, p.2.k)) → allSequences l = allSequences l' := by
    intro l
    induction l with
    | nil => intro l' e; cases l' with
      | nil => rfl
      | cons b l' => cases e
    | cons a l ih =>
      intro l' e
      cases l' with
      | nil => cases e
      | cons b l' =>
        rw [List.map_cons, List.map_cons, List.cons.injEq, Prod.mk.injEq, Prod.mk.injEq] at e
        obtain ⟨a1, a2⟩ := a
        obtain ⟨b1, b2⟩ := b
        simp only [allSequences, ih l' e.2]
        rw [show a2.k = b2.k from e.1.2.2]
  unfold numberOfSequences sequenceLast
  rw [key _ _ h.nodes]

theorem npCbStep_eq {D E : Diagram R} (w : WF D) (V : ValidTrails D) (g : SimpleGraph D) (hE : SamePlan D E)
    {T : Dict Int (Dict Int Int)} (hT : GoodSeqs D T) {tab : NTables R} (G : GoodTab D tab) (ind : Bool) (k : Int)
    {s : NState R} (hg : GoodNState D s) {key : Int} (hkey : key ∈ D.trails.keys) (f : Callback R W) (x : W) :
    npCbStep (some f) tab T ind k (s, (E, x)) key =
      (times f (callsOf D none ((T.get? key).bind (·.get? k))) (E, x)).map fun y =>
        (match (T.get? key).bind (·.get? k) with
          | none => s
          | some n => nproc D (nxtK D none) ind s n, y) := by
  obtain ⟨tr, ht⟩ := Dict.mem_keys_iff.1 hkey
  obtain ⟨m, hm, hspec⟩ := hT key tr ht
  unfold npCbStep
  simp only [Dict.getE, hm, Option.bind_some]
  cases hn : m.get? k with
  | none => rfl
  | some n =>
    obtain ⟨hntr, hseq⟩ := (hspec k n).1 hn
    have hnk := V.mem_keys ht hntr
    obtain ⟨p, hp⟩ := (Dict.exists_get?_iff s.xyz n).2 (by rw [hg.1]; exact hnk)
    obtain ⟨r, hr⟩ := (Dict.exists_get?_iff s.residual n).2 (by rw [hg.2]; exact hnk)
    have hpos : s.pos n = p := by simp [NState.pos, hp]
    have hres : s.res n = r := by simp [NState.res, hr]
    simp only [hp, hr, G.loads n hnk, G.direct n hnk]
    rw [npResultant_eq w G hg.1 hnk (dirNbrs D n) (fun m hm => (List.mem_filter.1 hm).1)]
    have hind : npIndirect tab ind n s.xyz =
        .ok (if ind then devSumN D s.pos n (indNbrs D n) (some 0) else some 0) := by
      unfold npIndirect
      cases ind
      · rfl
      · simp only [if_true, Dict.getE, G.indirect n hnk]
        exact npResultant_eq w G hg.1 hnk (indNbrs D n) (fun m hm => (List.mem_filter.1 hm).1) _
    simp only [hind]
    have hsup : E.isNodeSupport n = .ok (decide (typeOf D n = some .support)) := by
      rw [hE.support]
      obtain ⟨d, hd⟩ := (Dict.exists_get?_iff _ _).2 hnk
      simp [isNodeSupport, typeOf, hd]
    simp only [hsup, decide_eq_true_eq, callsOf, callsAt]
    by_cases hstop : typeOf D n = some .support
    · have hx : nxtK D none n = none := by
        unfold nxtK
        rw [if_pos (Or.inl hstop)]
      rw [if_pos hstop]
      simp only [nproc, hx, outVecN, hres]
      rfl
    · rw [if_neg hstop]
      obtain ⟨n', hn'⟩ := trailNext_isSome w V hnk hstop
      have hx : nxtK D none n = some n' := by
        unfold nxtK
        rw [if_neg, hn']
        rintro (h | ⟨h1, h2⟩)
        · exact hstop h
        · simp at h1
      obtain ⟨key', tr', ht', hc⟩ := (trailNext_iff w V).1 hn'
      have he := V.unique w ht ht' hntr hc.mem_left
      obtain ⟨rfl, rfl⟩ := Prod.mk.inj he
      obtain ⟨j, _, hj1, hj2⟩ := seqOf_next V ht hc
      rw [hseq] at hj1
      obtain rfl := Option.some.inj hj1
      have hnext : m.get? (k + 1) = some n' := (hspec _ _).2 ⟨hc.mem_right, hj2⟩
      have hadj := trailNext_adj w V hn'
      have hed := edgeKey_mem (adj_mem_neighbors hadj)
      have hkk : (if (n, n') ∈ tab.edgeKeys then (n, n') else (n', n)) = edgeKey D n n' := by
        unfold edgeKey
        simp only [G.edgeKeys]
      have htt := edgeData_trail' w V g hn'
      simp only [hnext, hkk, G.lengths _ _ hed, G.planes _ _ hed htt, callE]
      simp only [nproc, hx, hres, hpos, lenN, Option.isSome_some, if_true, times]
      cases f (E, x) <;> rfl

theorem npCbSweep_eq {D E : Diagram R} (w : WF D) (V : ValidTrails D) (g : SimpleGraph D) (hE : SamePlan D E)
    {T : Dict Int (Dict Int Int)} (hT : GoodSeqs D T) {tab : NTables R} (G : GoodTab D tab) (ind : Bool) (N : Int)
    {s : NState R} (hg : GoodNState D s) {f : Callback R W} (hf : KeepsPlan f) (x : W) :
    npCbSweep (some f) tab T ind N (s, (E, x)) =
      (times f (callsIn D none (sched D T N)) (E, x)).map fun y =>
        ((sched D T N).foldl (nproc D (nxtK D none) ind) s, y) := by
  have hJ : ∀ p q : Diagram R × W, SamePlan D p.1 → f p = .ok q → SamePlan D q.1 := fun p q h e =>
    h.trans (hf p q e)
  have inner : ∀ (k : Int) (s : NState R) (p : Diagram R × W), GoodNState D s → SamePlan D p.1 →
      forE (npCbStep (some f) tab T ind k) p.1.trails.keys (s, p) =
        (times f (callsIn D none (level D T k)) p).map fun y =>
          ((level D T k).foldl (nproc D (nxtK D none) ind) s, y) := by
    intro k s p hs hp
    have := forE_times (f := f) (F := npCbStep (some f) tab T ind k) (l := D.trails.keys)
      (G := fun s key => match (T.get? key).bind (·.get? k) with
        | none => s
        | some n => nproc D (nxtK D none) ind s n)
      (c := fun key => callsOf D none ((T.get? key).bind (·.get? k))) (Inv := GoodNState D) (J := fun p => SamePlan D p.1)
      (s := s) (x := p) hs hp
      (fun s p key h1 h2 hk => npCbStep_eq w V g h2 hT G ind k h1 hk f p.2)
      (fun s key h hk => by
        show GoodNState D (match (T.get? key).bind (·.get? k) with
          | none => s
          | some n => nproc D (nxtK D none) ind s n)
        cases (T.get? key).bind (·.get? k) with
        | none => exact h
        | some n => exact h.nproc w V n) hJ
    rw [hp.trails, this, callsIn_level]
    congr 2
    funext y
    congr 1
    unfold level
    rw [List.foldl_filterMap]
    refine congrArg (fun f => List.foldl f s D.trails.keys) ?_
    funext s key
    cases (T.get? key).bind (·.get? k) <;> rfl
  have := forE_times (f := f) (F := fun p k => forE (npCbStep (some f) tab T ind k) p.2.1.trails.keys p)
    (l := pyRange N) (G := fun s k => (level D T k).foldl (nproc D (nxtK D none) ind) s)
    (c := fun k => callsIn D none (level D T k)) (Inv := GoodNState D) (J := fun p => SamePlan D p.1)
    (s := s) (x := (E, x)) hg hE
    (fun s p k h1 h2 _ => inner k s p h1 h2) (fun s k h _ => h.fold w V _) hJ
  unfold npCbSweep
  rw [this, callsIn_flatMap]
  unfold sched
  congr 2
  funext y
  rw [List.foldl_flatMap]

theorem npCbLoop_eq {D : Diagram R} (w : WF D) (V : ValidTrails D) (g : SimpleGraph D)
    {T : Dict Int (Dict Int Int)} (hT : GoodSeqs D T) {tab : NTables R} (G : GoodTab D tab)
    {N : Int} (hN : D.numberOfSequences = .ok N) (eta : R) (fuel t : Nat) (info : Option (NLoopInfo R)) :
    ∃ r j, npLoop D tab T eta N fuel t (nIter D (sched D T N) t) info = .ok r ∧ j ≤ fuel ∧
      (∀ i, t < i → 2 ≤ i → i < t + j → ¬ (nDist D (sched D T N) i).lt eta = true) ∧
      ((1 ≤ j ∧ 2 ≤ t + j ∧ (nDist D (sched D T N) (t + j)).lt eta = true) ∨ j = fuel) ∧
      ∀ (f : Callback R W), KeepsPlan f → ∀ p, SamePlan D p.1 →
        npCbLoop (some f) tab T eta fuel t (nIter D (sched D T N) t, p) info =
        (times f (j * callsIn D none (sched D T N)) p).map fun y => (r, y) := by
  induction fuel generalizing t info with
  | zero => exact ⟨_, 0, rfl, le_rfl, fun i h1 _ h2 => absurd h2 (by omega), Or.inr rfl,
      fun f _ p _ => by simp [npCbLoop, times, Except.map]⟩
  | succ fuel ih =>
    have hg := goodNState_iter w V (sched D T N) t
    have hsw : npSweep D tab T (decide (t > 0)) N (nIter D (sched D T N) t) =
        .ok (nIter D (sched D T N) (t + 1)) := npSweep_eq w V g hT G (decide (t > 0)) N hg
    have hcb : ∀ (f : Callback R W), KeepsPlan f → ∀ p : Diagram R × W, SamePlan D p.1 →
        npCbSweep (some f) tab T (decide (t > 0)) N (nIter D (sched D T N) t, p) =
          (times f (callsIn D none (sched D T N)) p).map fun y => (nIter D (sched D T N) (t + 1), y) :=
      fun f hf p hp => npCbSweep_eq w V g hp hT G (decide (t > 0)) N hg hf p.2
    have hd : npDistance (nIter D (sched D T N) t).xyz (nIter D (sched D T N) (t + 1)).xyz =
        nDist D (sched D T N) (t + 1) := rfl
    have next : ∀ info', ∃ r j, npLoop D tab T eta N fuel (t + 1) (nIter D (sched D T N) (t + 1)) info' = .ok r ∧
        j ≤ fuel ∧ (∀ i, t + 1 < i → 2 ≤ i → i < t + (j + 1) → ¬ (nDist D (sched D T N) i).lt eta = true) ∧
        ((1 ≤ j + 1 ∧ 2 ≤ t + (j + 1) ∧ (nDist D (sched D T N) (t + (j + 1))).lt eta = true) ∨ j + 1 = fuel + 1) ∧
        ∀ (f : Callback R W), KeepsPlan f → ∀ p : Diagram R × W, SamePlan D p.1 →
          (match (times f (callsIn D none (sched D T N)) p).map fun y => (nIter D (sched D T N) (t + 1), y) with
            | .error err => .error err
            | .ok p' => npCbLoop (some f) tab T eta fuel (t + 1) p' info') =
          (times f ((j + 1) * callsIn D none (sched D T N)) p).map fun y => (r, y) := by
      intro info'
      obtain ⟨r, j, h1, h2, h3, h4, h5⟩ := ih (t + 1) info'
      refine ⟨r, j, h1, h2, fun i i1 i2 i3 => h3 i i1 i2 (by omega), ?_, fun f hf p hp => ?_⟩
      · rcases h4 with ⟨k1, k2, k3⟩ | h4
        · exact Or.inl ⟨by omega, by omega, by rwa [show t + (j + 1) = t + 1 + j by omega]⟩
        · exact Or.inr (by omega)
      · rw [show (j + 1) * callsIn D none (sched D T N) =
          callsIn D none (sched D T N) + j * callsIn D none (sched D T N) by ring, times_add]
        cases ht : times f (callsIn D none (sched D T N)) p with
        | error e => rfl
        | ok y => exact h5 f hf y (times_inv (J := fun p => SamePlan D p.1) (fun p q h e => h.trans (hf p q e)) _ hp ht)
    by_cases ht : t = 0
    · obtain ⟨r, j, h1, h2, h3, h4, h5⟩ := next (some ⟨0, none⟩)
      refine ⟨r, j + 1, by rw [npLoop, hsw]; simp only; rw [if_pos ht, h1], by omega,
        fun i i1 i2 i3 => h3 i (by omega) i2 i3, h4, fun f hf p hp => ?_⟩
      rw [← h5 f hf p hp, npCbLoop, hp.sequences, hN]
      simp only
      rw [hcb f hf p hp]
      cases times f (callsIn D none (sched D T N)) p with
      | error e => rfl
      | ok y => simp only [Except.map, if_pos ht]
    · by_cases hlt : (nDist D (sched D T N) (t + 1)).lt eta = true
      · refine ⟨_, 1, by rw [npLoop, hsw]; simp only; rw [if_neg ht, hd, if_pos hlt], by omega,
          fun i i1 _ i2 => absurd i2 (by omega), Or.inl ⟨le_rfl, by omega, hlt⟩, fun f hf p hp => ?_⟩
        rw [one_mul, npCbLoop, hp.sequences, hN]
        simp only
        rw [hcb f hf p hp]
        cases times f (callsIn D none (sched D T N)) p with
        | error e => rfl
        | ok y => simp only [Except.map, if_neg ht, hd, if_pos hlt]
      · obtain ⟨r, j, h1, h2, h3, h4, h5⟩ := next (some ⟨t, some (nDist D (sched D T N) (t + 1))⟩)
        refine ⟨r, j + 1, by rw [npLoop, hsw]; simp only; rw [if_neg ht, hd, if_neg hlt, h1], by omega,
          fun i i1 i2 i3 => ?_, h4, fun f hf p hp => ?_⟩
        · rcases Nat.lt_or_ge (t + 1) i with hi | hi
          · exact h3 i hi i2 i3
          · obtain rfl : i = t + 1 := by omega
            exact hlt
        · rw [← h5 f hf p hp, npCbLoop, hp.sequences, hN]
          simp only
          rw [hcb f hf p hp]
          cases times f (callsIn D none (sched D T N)) p with
          | error e => rfl
          | ok y => simp only [Except.map, if_neg ht, hd, if_neg hlt]

end
end CEM
