import Verif.Model.Json
import Verif.Lemmas.Dict
import Verif.Lemmas.Serialization

/-! # Lemmas on diagrams whose trails are stored under other keys -/

namespace CEM
open Diagram

set_option linter.unusedSimpArgs false
set_option linter.unusedSectionVars false

namespace Dict
variable {K L V : Type} [DecidableEq K] [DecidableEq L]

theorem get?_rekey {f : K → L} (hf : Function.Injective f) (d : Dict K V) (k : K) :
    (d.rekey f).get? (f k) = d.get? k := by
  induction d with
  | nil => rfl
  | cons p d ih =>
    have ih' : get? (List.map (fun p => (f p.1, p.2)) d) (f k) = get? d k := ih
    simp [rekey, get?, hf.eq_iff, ih']

theorem getE_rekey {f : K → L} (hf : Function.Injective f) (d : Dict K V) (k : K) :
    (d.rekey f).getE (f k) = d.getE k := by
  simp [getE, get?_rekey hf]

theorem set_rekey {f : K → L} (hf : Function.Injective f) (d : Dict K V) (k : K) (v : V) :
    (d.rekey f).set (f k) v = (d.set k v).rekey f := by
  induction d with
  | nil => rfl
  | cons p d ih =>
    have ih' : set (List.map (fun p => (f p.1, p.2)) d) (f k) v =
        List.map (fun p => (f p.1, p.2)) (set d k v) := ih
    simp only [rekey, List.map_cons, set, hf.eq_iff]
    split <;> simp [ih']

theorem keys_rekey (f : K → L) (d : Dict K V) : (d.rekey f).keys = d.keys.map f := by
  simp [rekey, keys]

theorem vals_rekey (f : K → L) (d : Dict K V) : (d.rekey f).vals = d.vals := by
  simp [rekey, vals]

theorem rekey_rekey {M : Type} (f : K → L) (g : L → M) (d : Dict K V) :
    (d.rekey f).rekey g = d.rekey fun k => g (f k) := by
  simp [rekey]

end Dict

theorem intOfText_digits (ds : List Char) (h : ∀ c ∈ ds, c.isDigit = true) (hne : ds ≠ []) :
    intOfText ds = .ok (natOfDigits ds) := by
  have hall : ds.all Char.isDigit = true := List.all_eq_true.2 h
  unfold intOfText
  split
  · next cs => exact absurd (h '-' (by simp)) (by decide)
  · simp [hall, hne]

theorem reprNat_ne_nil (n : Nat) : reprNat n ≠ [] := by
  rw [reprNat]; split <;> simp

theorem intOfText_repr (i : Int) : intOfText (reprInt i) = .ok i := by
  unfold reprInt
  split
  · next h =>
    have hall : (reprNat i.natAbs).all Char.isDigit = true := List.all_eq_true.2 (reprNat_digits _)
    simp only [intOfText, hall, natOfDigits_repr, List.isEmpty_iff, Bool.true_and,
      decide_eq_true_eq]
    rw [if_pos (by simp [reprNat_ne_nil])]
    congr 1
    omega
  · next h =>
    rw [intOfText_digits _ (reprNat_digits _) (reprNat_ne_nil _), natOfDigits_repr]
    congr 1
    omega

theorem reprInt_injective : Function.Injective reprInt := by
  intro i j h
  have := intOfText_repr i
  rw [h, intOfText_repr j] at this
  exact (Except.ok.inj this).symm

theorem text_injective : Function.Injective fun i => PyKey.text (reprInt i) := by
  intro i j h
  exact reprInt_injective (PyKey.text.inj h)

theorem int_injective : Function.Injective PyKey.int := fun _ _ h => PyKey.int.inj h

theorem readKeys_rekey {K L V : Type} (f : K → Except PyErr L) (g : L → K)
    (h : ∀ l, f (g l) = .ok l) (d : Dict L V) : readKeys f (d.rekey g) = .ok d := by
  induction d with
  | nil => rfl
  | cons p d ih =>
    have ih' : readKeys f (d.map fun p => (g p.1, p.2)) = .ok d := ih
    simp [Dict.rekey, readKeys, h, ih']

theorem edgeOfText_repr (e : Int × Int) : edgeOfText (reprInt e.1, reprInt e.2) = .ok e := by
  simp [edgeOfText, intOfText_repr]

/-- A diagram arrives with the same nodes and edges, and the trails under texts. -/
theorem KeyedDiagram.trip_eq {R : Type} (X : KeyedDiagram R) (ht : X.base.trails = [])
    (ha : X.base.auxTrails = []) :
    X.trip = .ok ⟨X.base, X.trails.rekey fun k => .text k.json,
      X.auxTrails.rekey fun k => .text k.json⟩ := by
  unfold KeyedDiagram.trip SavedDiagram.load KeyedDiagram.save
  simp only [readKeys_rekey _ _ intOfText_repr, readKeys_rekey _ _ edgeOfText_repr,
    Dict.rekey_rekey]
  rcases X with ⟨⟨_, _, _, _, _, _, _, _⟩, _, _⟩
  simp only at ht ha
  subst ht ha
  rfl

section
variable {R : Type} {f : Int → PyKey} (hf : Function.Injective f) (D : Diagram R)
include hf

theorem trailSequences_rekeyed (key : Int) :
    (D.rekeyed f).trailSequences (f key) = D.trailSequences key := by
  have hl : ∀ (l : List Int) (acc : Dict Int Int),
      (D.rekeyed f).base.trailSequencesLoop l acc = D.trailSequencesLoop l acc := by
    intro l
    induction l with
    | nil => intro acc; rfl
    | cons n l ih =>
      intro acc
      simp only [Diagram.trailSequencesLoop]
      have : (D.rekeyed f).base.nodeSequence n = D.nodeSequence n := rfl
      rw [this]
      cases D.nodeSequence n with
      | error e => rfl
      | ok k => exact ih _
  simp only [KeyedDiagram.trailSequences, KeyedDiagram.trail, Diagram.trailSequences]
  have : (D.rekeyed f).trails.getE (f key) = D.trails.getE key := Dict.getE_rekey hf _ _
  rw [this, Dict.getE]
  cases D.trails.get? key with
  | none => rfl
  | some tr => exact hl _ _

theorem trailsSequencesLoop_rekeyed (l : List Int) (acc : Dict Int (Dict Int Int)) :
    (D.rekeyed f).trailsSequencesLoop (l.map f) (acc.rekey f) =
      (D.trailsSequencesLoop l acc).map (Dict.rekey f) := by
  induction l generalizing acc with
  | nil => rfl
  | cons key l ih =>
    simp only [List.map_cons, KeyedDiagram.trailsSequencesLoop, Diagram.trailsSequencesLoop,
      trailSequences_rekeyed hf]
    cases D.trailSequences key with
    | error e => rfl
    | ok s =>
      simp only [Dict.set_rekey hf]
      exact ih _

theorem trailsSequences_rekeyed :
    (D.rekeyed f).trailsSequences = D.trailsSequences.map (Dict.rekey f) := by
  have := trailsSequencesLoop_rekeyed hf D D.trails.keys []
  rw [KeyedDiagram.trailsSequences, Diagram.trailsSequences, ← this]
  have hk : (D.rekeyed f).trails.keys = D.trails.keys.map f := Dict.keys_rekey f _
  rw [hk]
  rfl

end

theorem numberOfTrails_rekeyed {R : Type} (f : Int → PyKey) (D : Diagram R) :
    (D.rekeyed f).numberOfTrails = D.numberOfTrails := by
  have : (D.rekeyed f).trails.vals = D.trails.vals := Dict.vals_rekey f _
  simp [KeyedDiagram.numberOfTrails, Diagram.numberOfTrails, this]

theorem forE_map {α β σ : Type} (g : α → β) (F : σ → β → Except PyErr σ) (G : σ → α → Except PyErr σ)
    (h : ∀ s a, F s (g a) = G s a) (l : List α) (s : σ) : forE F (l.map g) s = forE G l s := by
  induction l generalizing s with
  | nil => rfl
  | cons a l ih =>
    simp only [List.map_cons, forE, h]
    cases G s a with
    | error e => rfl
    | ok s' => exact ih s'

section
variable {R : Type} [Field R] [LinearOrder R] [PySqrt R]
variable {f : Int → PyKey} (hf : Function.Injective f) (D : Diagram R)

theorem deviationResultantLoop_rekeyed (f : Int → PyKey) (node : Int) (xyz : Dict Int (Vec R))
    (l : List (Int × Int)) (acc : Vec R) :
    deviationResultantLoop (D.rekeyed f).base node xyz l acc =
      deviationResultantLoop D node xyz l acc := by
  induction l generalizing acc with
  | nil => rfl
  | cons e l ih =>
    have : (D.rekeyed f).base.edges = D.edges := rfl
    simp only [deviationResultantLoop, ih, this]

theorem nodeEquilibrium_rekeyed (f : Int → PyKey) (node : Int) (t : Vec R) (xyz : Dict Int (Vec R))
    (indirect : Bool) :
    nodeEquilibrium (D.rekeyed f).base node t xyz indirect = nodeEquilibrium D node t xyz indirect := by
  have h1 : (D.rekeyed f).base.connectedDirectDeviationEdges node =
      D.connectedDirectDeviationEdges node := rfl
  have h2 : (D.rekeyed f).base.connectedIndirectDeviationEdges node =
      D.connectedIndirectDeviationEdges node := rfl
  have h3 : (D.rekeyed f).base.nodes = D.nodes := rfl
  simp only [nodeEquilibrium, directResultant, indirectResultant, h1, h2, h3,
    deviationResultantLoop_rekeyed]

theorem eqStep_base (f : Int → PyKey) (tseq : Dict Int (Dict Int Int)) (kmax : Option Int)
    (indirect : Bool) (k : Int) (s : EqState R) (key : Int) :
    eqStep (D.rekeyed f).base tseq kmax indirect k s key = eqStep D tseq kmax indirect k s key := by
  have h1 : (D.rekeyed f).base.edges = D.edges := rfl
  have h2 : ∀ n, (D.rekeyed f).base.isNodeSupport n = D.isNodeSupport n := fun n => rfl
  simp only [eqStep, nodeEquilibrium_rekeyed, h1, h2]

/-- The step looks at the trails only to find the sequences of one of them. -/
theorem eqStep_lookup (tseq : Dict Int (Dict Int Int)) (kmax : Option Int) (indirect : Bool) (k : Int)
    (s : EqState R) (key : Int) :
    eqStep D tseq kmax indirect k s key =
      match tseq.getE key with
      | .error err => .error err
      | .ok seqs => eqStep D [(0, seqs)] kmax indirect k s 0 := by
  unfold eqStep
  cases tseq.getE key with
  | error e => rfl
  | ok seqs => rfl

theorem npStep_lookup (tab : NTables R) (tseq : Dict Int (Dict Int Int)) (indirect : Bool) (k : Int)
    (s : NState R) (key : Int) :
    npStep D tab tseq indirect k s key =
      match tseq.getE key with
      | .error err => .error err
      | .ok seqs => npStep D tab [(0, seqs)] indirect k s 0 := by
  unfold npStep
  cases tseq.getE key with
  | error e => rfl
  | ok seqs => rfl

include hf

theorem eqStep_rekeyed (tseq : Dict Int (Dict Int Int)) (kmax : Option Int) (indirect : Bool)
    (k : Int) (s : EqState R) (key : Int) :
    (D.rekeyed f).eqStep (tseq.rekey f) kmax indirect k s (f key) =
      eqStep D tseq kmax indirect k s key := by
  rw [eqStep_lookup, KeyedDiagram.eqStep, Dict.getE_rekey hf]
  cases tseq.getE key with
  | error e => rfl
  | ok seqs => exact eqStep_base D f _ _ _ _ _ _

theorem sweep_rekeyed (tseq : Dict Int (Dict Int Int)) (kmax : Option Int) (indirect : Bool) (n : Int)
    (s : EqState R) :
    (D.rekeyed f).sweep (tseq.rekey f) kmax indirect n s = sweep D tseq kmax indirect n s := by
  have hk : (D.rekeyed f).trails.keys = D.trails.keys.map f := Dict.keys_rekey f _
  simp only [KeyedDiagram.sweep, sweep, hk]
  congr 1
  funext s k
  exact forE_map f _ _ (fun s a => eqStep_rekeyed hf D tseq kmax indirect k s a) _ _

theorem eqLoop_rekeyed (tseq : Dict Int (Dict Int Int)) (kmax : Option Int) (eta : R) (n : Int)
    (fuel t : Nat) (s : EqState R) (info : Option (LoopInfo R)) :
    (D.rekeyed f).eqLoop (tseq.rekey f) kmax eta n fuel t s info =
      eqLoop D tseq kmax eta n fuel t s info := by
  induction fuel generalizing t s info with
  | zero => rfl
  | succ m ih =>
    simp only [KeyedDiagram.eqLoop, eqLoop, sweep_rekeyed hf, ih]
    all_goals rfl

theorem equilibriumState_rekeyed (kmax : Option Int) (tmax : Nat) (eta : R) (verbose : Bool) :
    (D.rekeyed f).equilibriumState kmax tmax eta verbose =
      equilibriumState D kmax tmax eta verbose := by
  simp only [KeyedDiagram.equilibriumState, equilibriumState, numberOfTrails_rekeyed,
    trailsSequences_rekeyed hf]
  have hn : (D.rekeyed f).base.numberOfSequences = D.numberOfSequences := rfl
  have hi : initState (D.rekeyed f).base = initState D := rfl
  rw [hn, hi]
  cases D.trailsSequences with
  | error e => rfl
  | ok tseq =>
    simp only [Except.map, eqLoop_rekeyed hf]
    all_goals rfl

theorem staticEquilibrium_rekeyed (kmax : Option Int) (tmax : Nat) (eta : R) (verbose : Bool) :
    (D.rekeyed f).staticEquilibrium kmax tmax eta verbose =
      staticEquilibrium D kmax tmax eta verbose := by
  simp only [KeyedDiagram.staticEquilibrium, staticEquilibrium, equilibriumState_rekeyed hf]
  rfl

theorem npStep_rekeyed (tab : NTables R) (tseq : Dict Int (Dict Int Int)) (indirect : Bool)
    (k : Int) (s : NState R) (key : Int) :
    (D.rekeyed f).npStep tab (tseq.rekey f) indirect k s (f key) =
      npStep D tab tseq indirect k s key := by
  rw [npStep_lookup, KeyedDiagram.npStep, Dict.getE_rekey hf]
  cases tseq.getE key with
  | error e => rfl
  | ok seqs => rfl

theorem npSweep_rekeyed (tab : NTables R) (tseq : Dict Int (Dict Int Int)) (indirect : Bool) (n : Int)
    (s : NState R) :
    (D.rekeyed f).npSweep tab (tseq.rekey f) indirect n s = npSweep D tab tseq indirect n s := by
  have hk : (D.rekeyed f).trails.keys = D.trails.keys.map f := Dict.keys_rekey f _
  simp only [KeyedDiagram.npSweep, npSweep, hk]
  congr 1
  funext s k
  exact forE_map f _ _ (fun s a => npStep_rekeyed hf D tab tseq indirect k s a) _ _

theorem npLoop_rekeyed (tab : NTables R) (tseq : Dict Int (Dict Int Int)) (eta : R) (n : Int)
    (fuel t : Nat) (s : NState R) (info : Option (NLoopInfo R)) :
    (D.rekeyed f).npLoop tab (tseq.rekey f) eta n fuel t s info =
      npLoop D tab tseq eta n fuel t s info := by
  induction fuel generalizing t s info with
  | zero => rfl
  | succ m ih =>
    simp only [KeyedDiagram.npLoop, npLoop, npSweep_rekeyed hf, ih]
    all_goals rfl

theorem npEquilibriumState_rekeyed (tmax : Nat) (eta : R) (verbose : Bool) :
    (D.rekeyed f).npEquilibriumState tmax eta verbose = npEquilibriumState D tmax eta verbose := by
  simp only [KeyedDiagram.npEquilibriumState, npEquilibriumState, numberOfTrails_rekeyed,
    trailsSequences_rekeyed hf]
  have hn : (D.rekeyed f).base.numberOfSequences = D.numberOfSequences := rfl
  have hi : npInit (D.rekeyed f).base = npInit D := rfl
  have ht : npTables (D.rekeyed f).base = npTables D := rfl
  rw [hn, hi, ht]
  cases D.trailsSequences with
  | error e => rfl
  | ok tseq =>
    simp only [Except.map, npLoop_rekeyed hf]
    all_goals rfl

theorem staticEquilibriumNumpy_rekeyed (tmax : Nat) (eta : R) (verbose : Bool) :
    (D.rekeyed f).staticEquilibriumNumpy tmax eta verbose =
      staticEquilibriumNumpy D tmax eta verbose := by
  simp only [KeyedDiagram.staticEquilibriumNumpy, staticEquilibriumNumpy,
    npEquilibriumState_rekeyed hf]
  rfl

end

/-! ## Sequences and trails -/

section
variable {R : Type}

/-- The diagram without its two dictionaries of trails. -/
def bare (D : Diagram R) : Diagram R := { D with trails := [], auxTrails := [] }

theorem assignSequences_bare (D : Diagram R) (l : List Int) (k : Int) :
    (bare D).assignSequences l k = bare (D.assignSequences l k) := by
  induction l generalizing D k with
  | nil => rfl
  | cons n l ih => exact ih (D.setK n k) (k + 1)

theorem assignSequences_trails (D : Diagram R) (l : List Int) (k : Int) :
    (D.assignSequences l k).trails = D.trails ∧ (D.assignSequences l k).auxTrails = D.auxTrails := by
  induction l generalizing D k with
  | nil => exact ⟨rfl, rfl⟩
  | cons n l ih => exact ih (D.setK n k) (k + 1)

theorem shiftTrail_rekeyed (D : Diagram R) (n k : Int) :
    D.keyed.shiftTrail (.int n) k = ((D.shiftTrail n k).1.keyed, (D.shiftTrail n k).2) := by
  have h1 : D.keyed.isNodeOrigin (.int n) = D.isNodeOrigin n := rfl
  have h2 : D.keyed.numberOfTrails = D.numberOfTrails := numberOfTrails_rekeyed _ D
  have h3 : D.keyed.trail (.int n) = D.trails.getE n := Dict.getE_rekey int_injective D.trails n
  simp only [KeyedDiagram.shiftTrail, Diagram.shiftTrail, h1, h2, h3, Diagram.hasTrails, Dict.getE]
  rcases D.isNodeOrigin n with e | b
  · rfl
  · cases b
    · rfl
    · by_cases h0 : D.numberOfTrails = 0
      · simp [h0]
      · have : 0 < D.numberOfTrails := Nat.pos_of_ne_zero h0
        simp only [h0, if_false, this, decide_true, Bool.not_true, Bool.false_eq_true]
        cases D.trails.get? n with
        | none => rfl
        | some tr =>
          obtain ⟨ht, ha⟩ := assignSequences_trails D tr k
          have hb : D.keyed.base.assignSequences tr k = bare (D.assignSequences tr k) :=
            assignSequences_bare D tr k
          simp only [hb]
          simp only [Diagram.keyed, Diagram.rekeyed, ht, ha]
          rfl

theorem walk_bare (D : Diagram R) (fuel : Nat) (acc : List Int) (n : Int) :
    (bare D).walk fuel acc n = D.walk fuel acc n := by
  induction fuel generalizing acc n with
  | zero => rfl
  | succ m ih =>
    have : (bare D).nextInWalk acc n = D.nextInWalk acc n := rfl
    simp only [Diagram.walk, this, ih]

/-- The state of the search without the old trails. -/
def bareState (s : BuildState R) : BuildState R := { s with D := bare s.D }

theorem buildStep_bare (fuel : Nat) (s : BuildState R) (n : Int) :
    buildStep fuel (bareState s) n = (buildStep fuel s n).map bareState := by
  have hw : (bareState s).D.walk fuel [] n = s.D.walk fuel [] n := walk_bare s.D fuel [] n
  simp only [buildStep, hw]
  rcases s.D.walk fuel [] n with _ | (_ | ⟨origin, rest⟩)
  · rfl
  · rfl
  · have : ((bareState s).D.setOrigin origin).assignSequences (origin :: rest) 0 =
        bare ((s.D.setOrigin origin).assignSequences (origin :: rest) 0) :=
      assignSequences_bare (s.D.setOrigin origin) _ _
    simp only [Option.map, this]
    rfl

theorem buildLoop_bare (fuel : Nat) (l : List Int) (s : BuildState R) :
    buildLoop fuel l (bareState s) = (buildLoop fuel l s).map bareState := by
  induction l generalizing s with
  | nil => rfl
  | cons n l ih =>
    have hn : (bareState s).D.nodes = s.D.nodes := rfl
    simp only [buildLoop, hn, buildStep_bare]
    cases s.D.nodes.get? n with
    | none => exact ih s
    | some d =>
      simp only
      split
      · cases buildStep fuel s n with
        | none => rfl
        | some s' => exact ih s'
      · exact ih s

theorem buildStep_trails {fuel : Nat} {s s' : BuildState R} {n : Int}
    (h : buildStep fuel s n = some s') :
    s'.D.trails = s.D.trails ∧ s'.D.auxTrails = s.D.auxTrails := by
  simp only [buildStep] at h
  rcases hw : s.D.walk fuel [] n with _ | (_ | ⟨origin, rest⟩)
  · simp [hw] at h
  · simp [hw] at h
  · simp only [hw, Option.some.injEq] at h
    subst h
    exact assignSequences_trails (s.D.setOrigin origin) _ _

theorem buildLoop_trails {fuel : Nat} {l : List Int} {s s' : BuildState R}
    (h : buildLoop fuel l s = some s') :
    s'.D.trails = s.D.trails ∧ s'.D.auxTrails = s.D.auxTrails := by
  induction l generalizing s with
  | nil => simp only [buildLoop, Option.some.injEq] at h; subst h; exact ⟨rfl, rfl⟩
  | cons n l ih =>
    simp only [buildLoop] at h
    cases hd : s.D.nodes.get? n with
    | none => rw [hd] at h; exact ih h
    | some d =>
      rw [hd] at h
      simp only at h
      split at h
      · cases hs : buildStep fuel s n with
        | none => simp [hs] at h
        | some s1 =>
          simp only [hs] at h
          have h1 := buildStep_trails hs
          have h2 := ih h
          exact ⟨h2.1.trans h1.1, h2.2.trans h1.2⟩
      · exact ih h

theorem buildTrails_bare (D : Diagram R) :
    (bare D).buildTrails =
      ({ bare D.buildTrails.1 with
          trails := match D.buildTrails.2 with
            | .ok _ => D.buildTrails.1.trails
            | .error _ => [] }, D.buildTrails.2) := by
  have h := buildLoop_bare D.walkFuel D.nodes.keys ⟨D, [], []⟩
  have hs : (bare D).searchTrails = D.searchTrails.map bareState := h
  simp only [Diagram.buildTrails, hs]
  cases D.searchTrails with
  | none => rfl
  | some s =>
    simp only [Option.map]
    have e1 : (bareState s).D.trailEdges = s.D.trailEdges := rfl
    have e2 : (bareState s).D.supportNodes = s.D.supportNodes := rfl
    have e3 : unassigned (bareState s) = unassigned s := rfl
    simp only [e1, e2, e3]
    split_ifs <;> rfl

theorem buildTrails_auxTrails (D : Diagram R) : D.buildTrails.1.auxTrails = D.auxTrails := by
  simp only [Diagram.buildTrails]
  cases hs : D.searchTrails with
  | none => rfl
  | some s =>
    have := (buildLoop_trails (l := D.nodes.keys) (s := ⟨D, [], []⟩) hs).2
    simp only
    split_ifs <;> exact this

/-- Building trails on a diagram with other keys: the new trails are under integers. -/
theorem buildTrails_rekeyed (f : Int → PyKey) (D : Diagram R) (h : D.buildTrails.2 = .ok ()) :
    (D.rekeyed f).buildTrails =
      ({ D.buildTrails.1.keyed with auxTrails := D.auxTrails.rekey f }, .ok ()) := by
  have hb : (D.rekeyed f).base.buildTrails = _ := buildTrails_bare D
  simp only [KeyedDiagram.buildTrails, hb, h]
  rfl

end

/-! ## Optimization -/

section
variable {R : Type} [Field R] [LinearOrder R] [PySqrt R]
variable {f : Int → PyKey} (hf : Function.Injective f) (D : Diagram R)

theorem setAttribute_bare (v : R) (sl : Slot) :
    (bare D).setAttribute v sl = (D.setAttribute v sl).map bare := by
  cases sl with
  | node n a =>
    have : (bare D).nodes = D.nodes := rfl
    simp only [Diagram.setAttribute, this]
    split_ifs <;> rfl
  | edge e a =>
    have : (bare D).edges = D.edges := rfl
    simp only [Diagram.setAttribute, this]
    split_ifs <;> rfl

theorem setAttribute_trails {D D' : Diagram R} {v : R} {sl : Slot} (h : D.setAttribute v sl = .ok D') :
    D'.trails = D.trails ∧ D'.auxTrails = D.auxTrails := by
  cases sl <;> simp only [Diagram.setAttribute] at h <;> split_ifs at h <;>
    simp only [Except.ok.injEq, reduceCtorEq] at h <;> subst h <;> exact ⟨rfl, rfl⟩

theorem writeParameters_bare (x : List R) (ps : Dict Int (Param R)) :
    Optimizer.writeParameters x ps (bare D) =
      (bare (Optimizer.writeParameters x ps D).1, (Optimizer.writeParameters x ps D).2) := by
  induction ps generalizing D with
  | nil => rfl
  | cons q ps ih =>
    obtain ⟨k, p⟩ := q
    simp only [Optimizer.writeParameters]
    cases npGet x k with
    | error e => rfl
    | ok v =>
      simp only [setAttribute_bare]
      cases D.setAttribute v p.slot with
      | error e => rfl
      | ok D' => exact ih D'

theorem writeParameters_trails (x : List R) (ps : Dict Int (Param R)) :
    (Optimizer.writeParameters x ps D).1.trails = D.trails ∧
      (Optimizer.writeParameters x ps D).1.auxTrails = D.auxTrails := by
  induction ps generalizing D with
  | nil => exact ⟨rfl, rfl⟩
  | cons q ps ih =>
    obtain ⟨k, p⟩ := q
    simp only [Optimizer.writeParameters]
    cases npGet x k with
    | error e => exact ⟨rfl, rfl⟩
    | ok v =>
      simp only
      cases hD : D.setAttribute v p.slot with
      | error e => exact ⟨rfl, rfl⟩
      | ok D' =>
        obtain ⟨h1, h2⟩ := setAttribute_trails hD
        obtain ⟨h3, h4⟩ := ih D'
        exact ⟨h3.trans h1, h4.trans h2⟩

include hf in
theorem optimizeForm_rekeyed (o : Optimizer R) (tmax : Nat) (eta : R) (x : List R) :
    KeyedDiagram.optimizeForm o tmax eta (D.rekeyed f) x =
      ((o.optimizeForm tmax eta D x).1.rekeyed f, (o.optimizeForm tmax eta D x).2) := by
  have hw : o.updateParameters (D.rekeyed f).base x =
      (bare (o.updateParameters D x).1, (o.updateParameters D x).2) :=
    writeParameters_bare D x o.parameters
  have ht : (o.updateParameters D x).1.trails = D.trails ∧
      (o.updateParameters D x).1.auxTrails = D.auxTrails := writeParameters_trails D x o.parameters
  simp only [KeyedDiagram.optimizeForm, Optimizer.optimizeForm, hw]
  rcases hu : o.updateParameters D x with ⟨D', r⟩
  rw [hu] at ht
  obtain ⟨ht1, ht2⟩ : D'.trails = D.trails ∧ D'.auxTrails = D.auxTrails := ht
  have hX : ({ D.rekeyed f with base := bare D' } : KeyedDiagram R) = D'.rekeyed f := by
    simp only [Diagram.rekeyed, ht1, ht2]
    rfl
  cases r with
  | error e => simp only [hX]
  | ok u =>
    simp only [hX, npEquilibriumState_rekeyed hf]
    cases npEquilibriumState D' tmax eta false with
    | error e => rfl
    | ok s => rfl

variable (ad : GradFunc R)
  (ad' : KeyedDiagram R → List R → KeyedDiagram R × Except PyErr (List (Num R)))

include hf in
theorem exec_rekeyed (o : Optimizer R) (tmax : Nat) (eta : R) (g : GradFunc R)
    (g' : KeyedDiagram R → List R → KeyedDiagram R × Except PyErr (List (Num R)))
    (hg : ∀ C x, g' (C.rekeyed f) x = ((g C x).1.rekeyed f, (g C x).2))
    (run : Run R) (D C : Diagram R) (xs : List (List R)) :
    KeyedDiagram.exec (KeyedDiagram.optimizeForm o tmax eta) g' run (D.rekeyed f) (C.rekeyed f) xs =
      (((Optimizer.exec (o.optimizeForm tmax eta) g run D C xs).1.1.rekeyed f,
        (Optimizer.exec (o.optimizeForm tmax eta) g run D C xs).1.2.1.rekeyed f,
        (Optimizer.exec (o.optimizeForm tmax eta) g run D C xs).1.2.2),
        (Optimizer.exec (o.optimizeForm tmax eta) g run D C xs).2) := by
  induction run generalizing D C xs with
  | done x v n c => rfl
  | roundoff v n c => rfl
  | raised e => rfl
  | eval x wants next ih =>
    simp only [KeyedDiagram.exec, Optimizer.exec, optimizeForm_rekeyed hf, hg]
    rcases o.optimizeForm tmax eta D x with ⟨D', e | v⟩
    · rfl
    · simp only
      cases wants with
      | false => exact ih v [] D' C (x :: xs)
      | true =>
        simp only [if_true]
        rcases g C x with ⟨C', e | dv⟩
        · rfl
        · exact ih v dv D' C' (x :: xs)

theorem gradFunc_rekeyed
    (had : ∀ C x, ad' (C.rekeyed f) x = ((ad C x).1.rekeyed f, (ad C x).2))
    (o : Optimizer R) (a : SolveArgs R) (ha : a.grad = "AD") (C : Diagram R) (x : List R) :
    KeyedDiagram.gradFunc ad' (C.rekeyed f) x =
      ((o.gradFunc ad a C x).1.rekeyed f, (o.gradFunc ad a C x).2) := by
  simp only [KeyedDiagram.gradFunc, Optimizer.gradFunc, ha, if_true, had]
  rcases ad C x with ⟨C', e | v⟩ <;> rfl

/-- A result with the trails of the diagram stored under `f` of their keys. -/
def Solved.rekeyed (f : Int → PyKey) (s : Solved R) : KeyedSolved R :=
  ⟨s.topology.rekeyed f, s.attrs, s.points, s.ended, s.form⟩

include hf in
theorem finish_rekeyed (g : GradFunc R)
    (g' : KeyedDiagram R → List R → KeyedDiagram R × Except PyErr (List (Num R)))
    (hg : ∀ C x, g' (C.rekeyed f) x = ((g C x).1.rekeyed f, (g C x).2)) (tol : R) (old : Attrs R)
    (D C : Diagram R) (points : List (List R)) (ended : Ended R) (x : List R) (value : Num R)
    (evals : Nat) (result : Int) :
    KeyedDiagram.finish g' tol old (D.rekeyed f) (C.rekeyed f) points ended x value evals result =
      (Optimizer.finish g tol old D C points ended x value evals result).rekeyed f := by
  simp only [KeyedDiagram.finish, Optimizer.finish, hg, staticEquilibrium_rekeyed hf]
  cases nloptStatus result with
  | error e => rfl
  | ok st =>
    simp only
    cases (g C x).2 <;> rfl

include hf in
theorem optimize_rekeyed (o : Optimizer R) (old : Attrs R) (g : GradFunc R)
    (g' : KeyedDiagram R → List R → KeyedDiagram R × Except PyErr (List (Num R)))
    (hg : ∀ C x, g' (C.rekeyed f) x = ((g C x).1.rekeyed f, (g C x).2)) (tol : R)
    (a : SolveArgs R) (run : Run R) (D : Diagram R) :
    KeyedDiagram.optimize o old g' tol a.tmax a.eta run (D.rekeyed f) =
      (o.optimize old g tol a run D).rekeyed f := by
  simp only [KeyedDiagram.optimize, Optimizer.optimize, exec_rekeyed hf o a.tmax a.eta g g' hg]
  rcases Optimizer.exec (o.optimizeForm a.tmax a.eta) g run D D [] with
    ⟨⟨D', C, xs⟩, (⟨y, v, n, c⟩ | ⟨v, n, c⟩ | err)⟩
  · exact finish_rekeyed hf g g' hg tol old D' C xs _ y v n c
  · have hp : o.optimizationParameters (D'.rekeyed f).base = o.optimizationParameters D' := by
      have : ∀ (ps : Dict Int (Param R)) (acc : List R),
          Optimizer.assemble (fun p => p.startValue (D'.rekeyed f).base) ps acc =
            Optimizer.assemble (fun p => p.startValue D') ps acc := fun ps acc => rfl
      exact this _ _
    simp only [hp]
    cases o.optimizationParameters D' with
    | error e => rfl
    | ok y => exact finish_rekeyed hf g g' hg tol old D' C xs _ y v n c
  · simp only
    split_ifs with h
    · simp only [staticEquilibrium_rekeyed hf]; rfl
    · rfl

include hf in
theorem solveProxy_rekeyed
    (had : ∀ C x, ad' (C.rekeyed f) x = ((ad C x).1.rekeyed f, (ad C x).2))
    (constraints : List (Constraint R)) (parameters : List (Param R)) (nlopt : Problem R → Run R)
    (tol step : R) (algorithm : String) (iters : Int) (eps kappa : R) (tmax : Nat) (eta : R)
    (D : Diagram R) :
    KeyedDiagram.solveProxy constraints parameters nlopt ad' tol algorithm iters eps kappa tmax eta
        (D.rekeyed f) =
      (Optimizer.solveProxy constraints parameters nlopt ad tol step algorithm iters eps kappa tmax
        eta D).rekeyed f := by
  simp only [KeyedDiagram.solveProxy, Optimizer.solveProxy, Optimizer.solve]
  have hp : ∀ o : Optimizer R, o.optimizationParameters (D.rekeyed f).base =
      o.optimizationParameters D := fun o => rfl
  have hb : ∀ o : Optimizer R, o.optimizationBounds (D.rekeyed f).base =
      o.optimizationBounds D := fun o => rfl
  simp only [hp, hb]
  set o : Optimizer R := Optimizer.ofLists constraints parameters
  cases o.checkSanity with
  | error e => rfl
  | ok u =>
    simp only [ne_eq, not_true_eq_false, false_and, if_false]
    cases o.optimizationParameters D with
    | error e => rfl
    | ok x =>
      simp only
      cases o.optimizationBounds D with
      | error e => rfl
      | ok bounds =>
        simp only
        split_ifs with h
        · exact optimize_rekeyed hf o _ _ _
            (fun C x => gradFunc_rekeyed ad ad' had o
              ⟨algorithm, "AD", iters, eps, kappa, step, tmax, eta⟩ rfl C x) tol
            ⟨algorithm, "AD", iters, eps, kappa, step, tmax, eta⟩ _ D
        · rfl

end
end CEM
