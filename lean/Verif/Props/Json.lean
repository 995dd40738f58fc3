import Verif.Spec.Json
import Verif.Lemmas.Json
import Verif.Props.Returned
import Verif.Props.Sequences
import Verif.Props.Solve

/-!
# C66: diagrams that were saved to JSON and read again
-/

set_option linter.unusedSectionVars false
set_option linter.unusedSimpArgs false

namespace CEM
namespace Props
open Diagram Spec TrailEx EqEx KEx

variable {R : Type}

private theorem reprNat_digits10 (n : Nat) : reprNat n = Nat.toDigits 10 n := by
  have hd : ∀ d < 10, digitChar d = Nat.digitChar d := by decide
  induction n using Nat.strong_induction_on with
  | _ n ih =>
    rw [reprNat, Nat.toDigits_eq_if (by decide)]
    split
    · next h => rw [hd n h]
    · next h => rw [ih _ (by omega), hd _ (by omega)]

theorem reprInt_decimal (i : Int) : reprInt i = decimal i := by
  unfold decimal reprInt
  rw [Int.toString_eq_repr, Int.repr_eq_if]
  split
  · next h =>
    rw [if_neg (by omega), reprNat_digits10, String.toList_append, Nat.toList_repr]
    have : (-i).toNat = i.natAbs := by omega
    rw [this]
    rfl
  · next h =>
    rw [if_pos (by omega), reprNat_digits10, Nat.toList_repr]
    congr 1
    omega

/-- The key under which a trail is found after reading. -/
private def under (i : Int) : PyKey := .text (reprInt i)

private theorem under_injective : Function.Injective under := text_injective

private theorem trip_keyed (D : Diagram R) : D.keyed.trip = .ok (D.rekeyed under) := by
  rw [KeyedDiagram.trip_eq D.keyed rfl rfl]
  simp only [Diagram.keyed, Diagram.rekeyed, Dict.rekey_rekey]
  rfl

private theorem trip_rekeyed (D : Diagram R) : (D.rekeyed under).trip = .ok (D.rekeyed under) := by
  rw [KeyedDiagram.trip_eq _ rfl rfl]
  simp only [Diagram.rekeyed, Dict.rekey_rekey]
  rfl

private theorem readBack_iff (D : Diagram R) (X : KeyedDiagram R) :
    ReadBack D X ↔ X = D.rekeyed under := by
  have hk : ∀ {V : Type} (d : Dict Int V), d.rekey under =
      d.map fun p => (PyKey.text (decimal p.1), p.2) := by
    intro V d
    simp only [Dict.rekey, under, reprInt_decimal]
  constructor
  · rintro ⟨h1, h2, h3⟩
    rcases X with ⟨_, _, _⟩
    simp only at *
    simp [Diagram.rekeyed, hk, *]
  · rintro rfl
    exact ⟨rfl, hk _, hk _⟩

/-- C66. Saving a topology diagram and reading the file always succeeds.  What is read has the same
nodes, edges, geometric keys and settings, and the same trails under the decimal texts of their
keys.  Saving and reading it once more changes nothing. -/
theorem C66_round_trip (D : Diagram R) :
    ∃ X, D.keyed.trip = .ok X ∧ ReadBack D X ∧ X.trip = .ok X :=
  ⟨_, trip_keyed D, (readBack_iff D _).2 rfl, trip_rekeyed D⟩

/-- The chain is read with its one trail under the text "0". -/
example : ∃ X, chainQ.keyed.trip = .ok X ∧ X.trails = [(.text ['0'], [0, 1, 2])] := by
  obtain ⟨X, h, hX, -⟩ := C66_round_trip chainQ
  refine ⟨X, h, ?_⟩
  rw [hX.trails, chainQ_eq]
  decide

/-- C66. The file determines the diagram: diagrams with the same file are equal. -/
theorem C66_file_injective (D E : Diagram R) (h : D.keyed.save = E.keyed.save) : D = E := by
  have h' : D.rekeyed under = E.rekeyed under := by
    have hD := trip_keyed D
    have hE := trip_keyed E
    rw [KeyedDiagram.trip, h] at hD
    rw [KeyedDiagram.trip] at hE
    exact Except.ok.inj (hD.symm.trans hE)
  have hinj : ∀ {V : Type} (d e : Dict Int V), d.rekey under = e.rekey under → d = e := by
    intro V d e he
    refine List.map_injective_iff.2 ?_ he
    rintro ⟨a, b⟩ ⟨c, d⟩ hp
    simp only [Prod.mk.injEq] at hp
    rw [under_injective hp.1, hp.2]
  have hb := congrArg KeyedDiagram.base h'
  have ht := hinj _ _ (congrArg KeyedDiagram.trails h')
  have ha := hinj _ _ (congrArg KeyedDiagram.auxTrails h')
  rcases D with ⟨_, _, _, _, _, _, _, _⟩
  rcases E with ⟨_, _, _, _, _, _, _, _⟩
  simp only [Diagram.rekeyed, Diagram.mk.injEq] at hb ht ha
  simp [hb, ht, ha]

/-- Two different diagrams have different files. -/
example : chainQ.keyed.save ≠ { chainQ with auxLength := 7 }.keyed.save := by
  intro h
  have := C66_file_injective _ _ h
  have h7 := congrArg Diagram.auxLength this
  rw [chainQ_eq] at h7
  revert h7
  decide

/-- C66. A form diagram is read exactly as it was saved. -/
theorem C66_form_file [Field R] [LinearOrder R] [PySqrt R] {D F : Diagram R} {kmax : Option Int}
    {tmax : Nat} {eta : R} {verbose : Bool}
    (h : staticEquilibrium D kmax tmax eta verbose = .ok F) : F.keyed.trip = .ok F.keyed := by
  unfold staticEquilibrium at h
  cases hs : equilibriumState D kmax tmax eta verbose with
  | error e => rw [hs] at h; exact absurd h (by simp)
  | ok s =>
    rw [hs] at h
    simp only [Except.ok.injEq] at h
    subst h
    rw [trip_keyed]
    rfl

example : ∃ F, staticEquilibrium chain (some 2) 1 0 false = .ok F ∧ F.keyed.trip = .ok F.keyed := by
  obtain ⟨F, hF⟩ := chain_returns 2 (by decide)
  exact ⟨F, hF, C66_form_file hF⟩

/-- C66. Form finding does not notice that a diagram was read from a file: both solvers return the
same form, or raise the same error, for all settings and for every diagram, whether its trails are
valid or not. -/
theorem C66_form [Field R] [LinearOrder R] [PySqrt R] {D : Diagram R} {X : KeyedDiagram R}
    (h : D.keyed.trip = .ok X) (kmax : Option Int) (tmax : Nat) (eta : R) (verbose : Bool) :
    X.staticEquilibrium kmax tmax eta verbose = staticEquilibrium D kmax tmax eta verbose ∧
    X.staticEquilibriumNumpy tmax eta verbose = staticEquilibriumNumpy D tmax eta verbose := by
  rw [trip_keyed] at h
  cases h
  exact ⟨staticEquilibrium_rekeyed under_injective D kmax tmax eta verbose,
    staticEquilibriumNumpy_rekeyed under_injective D tmax eta verbose⟩

/-- The chain is solved after it was read. -/
example : ∃ X F, chain.keyed.trip = .ok X ∧ X.staticEquilibrium (some 2) 1 0 false = .ok F ∧
    staticEquilibrium chain (some 2) 1 0 false = .ok F := by
  obtain ⟨X, h, -⟩ := C66_round_trip chain
  obtain ⟨F, hF⟩ := chain_returns 2 (by decide)
  exact ⟨X, F, h, by rw [(C66_form h _ _ _ _).1, hF], hF⟩

/-- C66. The model of diagrams with arbitrary keys agrees with the one of diagrams with integer
keys on everything that is stated here. -/
theorem C66_agrees [Field R] [LinearOrder R] [PySqrt R] (D : Diagram R) :
    (∀ kmax tmax eta verbose,
      D.keyed.staticEquilibrium kmax tmax eta verbose = staticEquilibrium D kmax tmax eta verbose) ∧
    (∀ tmax eta verbose,
      D.keyed.staticEquilibriumNumpy tmax eta verbose = staticEquilibriumNumpy D tmax eta verbose) ∧
    (∀ n k, D.keyed.shiftTrail (.int n) k = ((D.shiftTrail n k).1.keyed, (D.shiftTrail n k).2)) ∧
    (D.buildTrails.2 = .ok () → D.keyed.buildTrails = (D.buildTrails.1.keyed, .ok ())) := by
  refine ⟨fun kmax tmax eta verbose => staticEquilibrium_rekeyed int_injective D kmax tmax eta verbose,
    fun tmax eta verbose => staticEquilibriumNumpy_rekeyed int_injective D tmax eta verbose,
    fun n k => shiftTrail_rekeyed D n k, fun h => ?_⟩
  have := buildTrails_rekeyed .int D h
  rw [Diagram.keyed, this, ← buildTrails_auxTrails D]
  rfl

example : chainQ.buildTrails.2 = .ok () := by rw [chainQ_eq]; decide +kernel

/-- C66. After reading, no trail can be looked up or shifted by an integer, and no trail can be
shifted at all: `trail` and `shift_trail` raise for every integer or text, and leave the diagram as
it is.  On the diagram that was saved, both succeed for the key of every trail. -/
theorem C66_shift_fails {D : Diagram R} {X : KeyedDiagram R} (h : D.keyed.trip = .ok X) :
    (∀ n, X.trail (.int n) = .error .keyError) ∧
    (∀ key k, (X.shiftTrail key k).1 = X ∧ ∃ err, (X.shiftTrail key k).2 = .error err) ∧
    (WF D → ValidTrails D → ∀ n tr, (n, tr) ∈ D.trails → ∀ k,
      D.keyed.trail (.int n) = .ok tr ∧ (D.keyed.shiftTrail (.int n) k).2 = .ok () ∧
      (X.shiftTrail (.int n) k).2 = .error .keyError) := by
  rw [trip_keyed] at h
  cases h
  have hmiss : ∀ n, (D.rekeyed under).trail (.int n) = .error .keyError := by
    intro n
    have : ∀ d : Dict Int (List Int), (d.rekey under).get? (.int n) = none := by
      intro d
      induction d with
      | nil => rfl
      | cons p d ih =>
        have ih' : Dict.get? (List.map (fun p => (under p.1, p.2)) d) (.int n) = none := ih
        simp [Dict.rekey, Dict.get?, under, ih'] 
        exact ih'
    simp [KeyedDiagram.trail, Dict.getE, Diagram.rekeyed, this]
  refine ⟨hmiss, ?_, ?_⟩
  · intro key k
    cases key with
    | text cs => exact ⟨rfl, _, rfl⟩
    | int n =>
      simp only [KeyedDiagram.shiftTrail, hmiss]
      rcases (D.rekeyed under).isNodeOrigin (.int n) with e | (_ | _)
      · exact ⟨rfl, _, rfl⟩
      · exact ⟨rfl, _, rfl⟩
      · simp only
        split_ifs
        · exact ⟨rfl, _, rfl⟩
        · exact ⟨rfl, _, rfl⟩
  · intro w V n tr hn k
    have hnd : D.trails.keys.Nodup := V.keys_nodup w
    have hg := Dict.get?_of_mem hnd hn
    refine ⟨?_, ?_, ?_⟩
    · have : D.keyed.trail (.int n) = D.trails.getE n := Dict.getE_rekey int_injective D.trails n
      rw [this, Dict.getE, hg]
    · rw [shiftTrail_rekeyed]
      exact (C16_shift w V hn k).1
    · have ho : (D.rekeyed under).isNodeOrigin (.int n) = .ok true := by
        have h1 := V.origin n tr hn
        have : D.isNodeOrigin n = .ok true := by
          rw [typeOf] at h1
          cases hd : D.nodes.get? n with
          | none => rw [hd] at h1; exact absurd h1 (by simp)
          | some d =>
            rw [hd] at h1
            simp only [Option.map_some, Option.some.injEq] at h1
            simp [Diagram.isNodeOrigin, Dict.getE, hd, h1]
        exact this
      have hpos : (D.rekeyed under).numberOfTrails ≠ 0 := by
        rw [numberOfTrails_rekeyed, Diagram.numberOfTrails]
        simp only [Dict.vals, List.length_map, ne_eq, List.length_eq_zero_iff]
        exact List.ne_nil_of_mem hn
      simp only [KeyedDiagram.shiftTrail, ho, hmiss, if_neg hpos]

/-- The trail of the chain can be shifted before, and not after. -/
example : ∃ X, chainQ.keyed.trip = .ok X ∧ (chainQ.keyed.shiftTrail (.int 0) 5).2 = .ok () ∧
    (X.shiftTrail (.int 0) 5).2 = .error .keyError := by
  obtain ⟨X, h, -⟩ := C66_round_trip chainQ
  have I := valid_chainQ
  have := (C66_shift_fails h).2.2 I.wf I.trails 0 [0, 1, 2] (by rw [chainQ_eq]; decide) 5
  exact ⟨X, h, this.2.1, this.2.2⟩

/-- C66. Building the trails again gives them their integer keys back: the result has the nodes,
edges and trails of the diagram that was saved, with its trails built again, and shifting acts on it
as on that diagram. -/
theorem C66_rebuild {D : Diagram R} {X : KeyedDiagram R} (h : D.keyed.trip = .ok X)
    (hb : D.buildTrails.2 = .ok ()) :
    ∃ Y, X.buildTrails = (Y, .ok ()) ∧ Y.base = D.buildTrails.1.keyed.base ∧
      Y.trails = D.buildTrails.1.keyed.trails ∧ Y.auxTrails = X.auxTrails ∧
      ∀ n k, (Y.shiftTrail (.int n) k).2 = (D.buildTrails.1.shiftTrail n k).2 ∧
        (Y.shiftTrail (.int n) k).1.base = (D.buildTrails.1.shiftTrail n k).1.keyed.base := by
  rw [trip_keyed] at h
  cases h
  refine ⟨_, buildTrails_rekeyed under D hb, rfl, rfl, rfl, fun n k => ?_⟩
  set E := D.buildTrails.1 with hE
  have key : ∀ a, ({ E.keyed with auxTrails := a } : KeyedDiagram R).shiftTrail (.int n) k =
      ({ (E.keyed.shiftTrail (.int n) k).1 with auxTrails := a },
        (E.keyed.shiftTrail (.int n) k).2) := by
    intro a
    have e1 : ({ E.keyed with auxTrails := a } : KeyedDiagram R).isNodeOrigin (.int n) =
      E.keyed.isNodeOrigin (.int n) := rfl
    have e2 : ({ E.keyed with auxTrails := a } : KeyedDiagram R).numberOfTrails =
      E.keyed.numberOfTrails := rfl
    have e3 : ({ E.keyed with auxTrails := a } : KeyedDiagram R).trail (.int n) =
      E.keyed.trail (.int n) := rfl
    simp only [KeyedDiagram.shiftTrail, e1, e2, e3]
    rcases E.keyed.isNodeOrigin (.int n) with e | (_ | _)
    · rfl
    · rfl
    · simp only
      split_ifs
      · rfl
      · cases E.keyed.trail (.int n) <;> rfl
  rw [key, shiftTrail_rekeyed]
  exact ⟨rfl, rfl⟩

/-- On the chain, the trail can be shifted again after building the trails. -/
example : ∃ X, chainQ.keyed.trip = .ok X ∧ X.buildTrails.2 = .ok () ∧
    (X.buildTrails.1.shiftTrail (.int 0) 5).2 = .ok () := by
  obtain ⟨X, h, -⟩ := C66_round_trip chainQ
  obtain ⟨Y, hY, -, -, -, hs⟩ := C66_rebuild h (by rw [chainQ_eq]; decide +kernel)
  refine ⟨X, h, by rw [hY], ?_⟩
  rw [hY, (hs 0 5).1, chainQ_eq]
  decide +kernel

/-- C66. Constrained form finding through the proxy gives what a direct call gives: the same form or
error, the same points tried by NLopt, and the same attributes of the optimizer.  The diagram that
comes back is the one of the direct call, read from a file.  Automatic differentiation is assumed not
to depend on the keys of the trails. -/
theorem C66_proxy [Field R] [LinearOrder R] [PySqrt R] {D : Diagram R} {X : KeyedDiagram R}
    (h : D.keyed.trip = .ok X) (ad : GradFunc R)
    (ad' : KeyedDiagram R → List R → KeyedDiagram R × Except PyErr (List (Num R)))
    (had : ∀ C Y x, ReadBack C Y → ReadBack (ad C x).1 (ad' Y x).1 ∧ (ad' Y x).2 = (ad C x).2)
    (constraints : List (Constraint R)) (parameters : List (Param R)) (nlopt : Problem R → Run R)
    (tol step : R) (algorithm : String) (iters : Int) (eps kappa : R) (tmax : Nat) (eta : R) :
    let direct := Optimizer.solveProxy constraints parameters nlopt ad tol step algorithm iters eps
      kappa tmax eta D
    let remote := KeyedDiagram.solveProxy constraints parameters nlopt ad' tol algorithm iters eps
      kappa tmax eta X
    remote.form = direct.form ∧ remote.attrs = direct.attrs ∧ remote.points = direct.points ∧
      remote.ended = direct.ended ∧ ReadBack direct.topology remote.topology ∧
      remote.topology.trip = .ok remote.topology := by
  rw [trip_keyed] at h
  cases h
  have had' : ∀ C x, ad' (C.rekeyed under) x = ((ad C x).1.rekeyed under, (ad C x).2) := by
    intro C x
    obtain ⟨h1, h2⟩ := had C _ x ((readBack_iff C _).2 rfl)
    exact Prod.ext ((readBack_iff _ _).1 h1) h2
  intro direct remote
  have e : remote = direct.rekeyed under :=
    solveProxy_rekeyed under_injective ad ad' had' constraints parameters nlopt tol step algorithm
      iters eps kappa tmax eta D
  rw [e]
  exact ⟨rfl, rfl, rfl, rfl, (readBack_iff _ _).2 rfl, trip_rekeyed _⟩

/-- The assumption holds for a gradient that leaves the diagram as it is, and NLopt is run on the
example of `Optimizer.solve`. -/
example (X : KeyedDiagram ℝ) (h : EqEx.direct.keyed.trip = .ok X) :
    (KeyedDiagram.solveProxy [.point 0 ⟨-1, 0, 0⟩ 1] [originNodeXParameter 0 none none]
      (fun _ => SolveEx.run) (fun Y x => (Y, .ok (x.map fun t => some (2 * (t + 1))))) 1 "SLSQP" 2 0 0
      100 1 X).points = [[5], [0]] := by
  have := C66_proxy h SolveEx.gradient (fun Y x => (Y, .ok (x.map fun t => some (2 * (t + 1)))))
    (fun C Y x hC => ⟨hC, rfl⟩) [.point 0 ⟨-1, 0, 0⟩ 1] [originNodeXParameter 0 none none]
    (fun _ => SolveEx.run) 1 1 "SLSQP" 2 0 0 100 1
  rw [this.2.2.1]
  obtain ⟨D, F, dv, -, -, hS⟩ := SolveEx.solved
  exact congrArg Solved.points hS

end Props
end CEM
