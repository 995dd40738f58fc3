import Verif.Spec.Serialization
import Mathlib.Tactic.IntervalCases

/-! # Lemmas on `repr` and `literal_eval` -/

namespace CEM
open Spec

set_option linter.unusedSimpArgs false
set_option linter.unusedSectionVars false

theorem digitChar_isDigit (d : Nat) (h : d < 10) : (digitChar d).isDigit = true := by
  interval_cases d <;> decide

theorem digitVal_digitChar (d : Nat) (h : d < 10) : digitVal (digitChar d) = d := by
  interval_cases d <;> decide

theorem natOfDigits_append (cs : List Char) (c : Char) :
    natOfDigits (cs ++ [c]) = 10 * natOfDigits cs + digitVal c := by
  simp [natOfDigits, List.foldl_append]

theorem natOfDigits_repr (n : Nat) : natOfDigits (reprNat n) = n := by
  induction n using Nat.strong_induction_on with
  | _ n ih =>
    rw [reprNat]
    split
    · next h => simp [natOfDigits, digitVal_digitChar n h]
    · next h =>
      rw [natOfDigits_append, ih (n / 10) (by omega), digitVal_digitChar _ (by omega)]
      omega

theorem reprNat_digits (n : Nat) : ∀ c ∈ reprNat n, c.isDigit = true := by
  induction n using Nat.strong_induction_on with
  | _ n ih =>
    rw [reprNat]
    split
    · next h => simpa using digitChar_isDigit n h
    · next h =>
      intro c hc
      rcases List.mem_append.1 hc with hc | hc
      · exact ih _ (by omega) c hc
      · rw [List.mem_singleton.1 hc]; exact digitChar_isDigit _ (by omega)

theorem reprNat_head (n : Nat) (hn : 0 < n) : ∃ c cs, reprNat n = c :: cs ∧ c ≠ '0' := by
  induction n using Nat.strong_induction_on with
  | _ n ih =>
    rw [reprNat]
    split
    · next h =>
      refine ⟨_, _, rfl, ?_⟩
      interval_cases n <;> decide
    · next h =>
      obtain ⟨c, cs, hc, h0⟩ := ih (n / 10) (by omega) (by omega)
      exact ⟨c, cs ++ [digitChar (n % 10)], by rw [hc]; rfl, h0⟩

theorem reprNat_zero : reprNat 0 = ['0'] := by
  rw [reprNat]; decide

theorem isDigit_numChar (c : Char) (h : c.isDigit = true) : isNumChar c = true := by
  simp [isNumChar, h]

section
variable {F : Type} [PyFloat F]

theorem numToken_reprNat (n : Nat) : numToken (F := F) (reprNat n) = some (.int n) := by
  have hall : (reprNat n).all Char.isDigit = true := List.all_eq_true.2 (reprNat_digits n)
  rw [numToken.eq_def, if_pos hall]
  rcases Nat.eq_zero_or_pos n with h | h
  · subst h
    rw [reprNat_zero]
    rfl
  · obtain ⟨c, cs, hc, h0⟩ := reprNat_head n h
    have hv := natOfDigits_repr n
    rw [hc] at hv ⊢
    cases cs with
    | nil =>
      simp [natOfDigits] at hv
      simp [hv]
    | cons d ds => simp [h0, hv]

/-- Where a value may end in a text. -/
def Ends : List Char → Prop
  | [] => True
  | c :: _ => c = ',' ∨ c = ')' ∨ c = ']'

theorem numChars {t : List Char} (h : ∀ c ∈ t, c.isDigit = true ∨ c ∈ ['.', 'e', '+', '-']) :
    ∀ c ∈ t, isNumChar c = true := by
  intro c hc
  unfold isNumChar
  rcases h c hc with h | h
  · simp [h]
  · simp only [List.mem_cons, List.not_mem_nil, or_false] at h
    rcases h with rfl | rfl | rfl | rfl <;> decide

theorem takeWhile_ends (t rest : List Char) (ht : ∀ c ∈ t, isNumChar c = true) (hr : Ends rest) :
    (t ++ rest).takeWhile isNumChar = t ∧ (t ++ rest).dropWhile isNumChar = rest := by
  induction t with
  | nil =>
    cases rest with
    | nil => simp
    | cons c cs =>
      have : isNumChar c = false := by
        rcases hr with rfl | rfl | rfl <;> decide
      simp [this]
  | cons c cs ih =>
    have hc := ht c (by simp)
    have := ih (fun d hd => ht d (by simp [hd]))
    simp [hc, this.1, this.2]

theorem parseNum_token (t rest : List Char) (v : PyVal F) (ht : ∀ c ∈ t, isNumChar c = true)
    (hr : Ends rest) (hv : numToken t = some v) : parseNum (t ++ rest) = some (v, rest) := by
  obtain ⟨h1, h2⟩ := takeWhile_ends t rest ht hr
  simp [parseNum, h1, h2, hv]

theorem skip_head (c : Char) (cs : List Char) (h : c ≠ ' ') : skipBlanks (c :: cs) = c :: cs := by
  unfold skipBlanks
  split
  · next heq => simp at heq; exact absurd heq.1 h
  · rfl

theorem skip_ends {rest : List Char} (h : Ends rest) : skipBlanks rest = rest := by
  cases rest with
  | nil => rfl
  | cons c cs => exact skip_head c cs (by rcases h with rfl | rfl | rfl <;> decide)

theorem parseVal_digit (n : Nat) (c : Char) (cs : List Char) (h : c.isDigit = true) :
    parseVal (F := F) (n + 1) (c :: cs) = parseNum (c :: cs) := by
  have hb : c ≠ ' ' := by rintro rfl; exact absurd h (by decide)
  simp only [parseVal]
  rw [skip_head c cs hb]
  split
  · next heq => simp at heq; rw [heq.1] at h; exact absurd h (by decide)
  · next heq => simp at heq; rw [heq.1] at h; exact absurd h (by decide)
  · next heq => simp at heq; rw [heq.1] at h; exact absurd h (by decide)
  · next heq => simp at heq; rw [heq.1] at h; exact absurd h (by decide)
  · rfl

theorem parseVal_minus (n : Nat) (cs : List Char) :
    parseVal (F := F) (n + 1) ('-' :: cs) = (parseNum cs).map fun p => (negVal p.1, p.2) := by
  simp only [parseVal]
  rw [skip_head '-' cs (by decide)]
  rfl

theorem parseVal_list (n : Nat) (cs : List Char) :
    parseVal (F := F) (n + 1) ('[' :: cs) = (parseTail n ']' cs).map fun p => (.list p.1, p.2) := by
  simp only [parseVal]
  rw [skip_head '[' cs (by decide)]
  rfl

theorem parseVal_unit (n : Nat) (cs : List Char) :
    parseVal (F := F) (n + 1) ('(' :: ')' :: cs) = some (.tuple [], cs) := by
  simp only [parseVal]
  rw [skip_head '(' _ (by decide)]
  simp only
  rw [skip_head ')' _ (by decide)]
  rfl

theorem parseVal_paren (n : Nat) (c : Char) (cs : List Char) (h1 : c ≠ ' ') (h2 : c ≠ ')') :
    parseVal (F := F) (n + 1) ('(' :: c :: cs) =
      match parseVal n (c :: cs) with
      | Option.none => Option.none
      | some (v, r'') =>
        match skipBlanks r'' with
        | ')' :: q => some (v, q)
        | ',' :: q => (parseTail n ')' q).map fun p => (.tuple (v :: p.1), p.2)
        | _ => Option.none := by
  simp only [parseVal]
  rw [skip_head '(' _ (by decide)]
  simp only
  rw [skip_head c _ h1]
  split
  · next heq => simp at heq; exact absurd heq.1 h2
  · rfl

variable [FloatLaws F]

theorem numToken_float {t : List Char} (h : FloatText t) :
    numToken (F := F) t = (PyFloat.parse t).map .float := by
  obtain ⟨_, _, c, hc, hd⟩ := h
  rw [numToken.eq_def, if_neg]
  intro hall
  have := List.all_eq_true.1 hall c hc
  rw [hd] at this; cases this

theorem reprVal_head {v : PyVal F} (h : Literal v) :
    ∃ c cs, reprVal v = c :: cs ∧ c ≠ ' ' ∧ c ≠ ')' ∧ c ≠ ']' := by
  have dig : ∀ c : Char, c.isDigit = true → c ≠ ' ' ∧ c ≠ ')' ∧ c ≠ ']' := by
    intro c hc
    refine ⟨?_, ?_, ?_⟩ <;> (rintro rfl; exact absurd hc (by decide))
  cases h with
  | none => exact ⟨'N', ['o', 'n', 'e'], by simp [reprVal], by decide, by decide, by decide⟩
  | int i =>
    rw [reprVal, reprInt]
    split
    · exact ⟨'-', _, rfl, by decide, by decide, by decide⟩
    · have hne : reprNat i.natAbs ≠ [] := by
        rw [reprNat]; split <;> simp
      cases hc : reprNat i.natAbs with
      | nil => exact absurd hc hne
      | cons c cs =>
        exact ⟨c, cs, rfl, dig c (reprNat_digits i.natAbs c (by rw [hc]; simp))⟩
  | float x q hx =>
    obtain ⟨t, ⟨⟨c, cs, hc, hd⟩, _⟩, h | h⟩ := FloatLaws.repr_finite x q hx
    · exact ⟨c, cs, by rw [reprVal, h.1, hc], dig c hd⟩
    · exact ⟨'-', t, by rw [reprVal, h.1], by decide, by decide, by decide⟩
  | tuple vs hvs =>
    rcases vs with _ | ⟨a, _ | ⟨b, l⟩⟩
    · exact ⟨'(', _, by simp only [reprVal]; rfl, by decide, by decide, by decide⟩
    · exact ⟨'(', _, by simp only [reprVal]; rfl, by decide, by decide, by decide⟩
    · exact ⟨'(', _, by simp only [reprVal]; rfl, by decide, by decide, by decide⟩
  | list vs hvs => exact ⟨'[', _, by simp only [reprVal]; rfl, by decide, by decide, by decide⟩

/-- The text of a value parses back, wherever it stands. -/
def Parses (v : PyVal F) : Prop :=
  Literal v ∧ ∀ n rest, Ends rest → (reprVal v).length ≤ n →
    parseVal n (reprVal v ++ rest) = some (v, rest)

theorem Parses.pos {v : PyVal F} (h : Parses v) : 0 < (reprVal v).length := by
  obtain ⟨c, cs, hc, _⟩ := reprVal_head h.1
  rw [hc]; simp

theorem parseTail_nil (n : Nat) (close : Char) (rest : List Char) (hb : close ≠ ' ') :
    parseTail (F := F) (n + 1) close (close :: rest) = some ([], rest) := by
  simp only [parseTail]
  rw [skip_head close rest hb]
  simp

theorem parseTail_blank (n : Nat) (close : Char) (rest : List Char) :
    parseTail (F := F) n close (' ' :: rest) = parseTail n close rest := by
  cases n with
  | zero => simp [parseTail]
  | succ n => simp only [parseTail]; rfl

theorem parseTail_items (vs : List (PyVal F)) (hvs : ∀ v ∈ vs, Parses v) :
    ∀ (n : Nat) (close : Char) (rest : List Char), close = ')' ∨ close = ']' →
      (reprItems vs).length + 1 ≤ n →
      parseTail n close (reprItems vs ++ close :: rest) = some (vs, rest) := by
  induction vs with
  | nil =>
    intro n close rest hcl hn
    obtain ⟨m, rfl⟩ : ∃ m, n = m + 1 := ⟨n - 1, by simp [reprItems] at hn; omega⟩
    rw [reprItems]
    exact parseTail_nil m close rest (by rcases hcl with rfl | rfl <;> decide)
  | cons v ws ih =>
    intro n close rest hcl hn
    obtain ⟨m, rfl⟩ : ∃ m, n = m + 1 := ⟨n - 1, by omega⟩
    have hv := hvs v (by simp)
    obtain ⟨c, cs, hc, hb, h1, h2⟩ := reprVal_head hv.1
    have hcc : c ≠ close := by rcases hcl with rfl | rfl <;> assumption
    have hclb : close ≠ ' ' := by rcases hcl with rfl | rfl <;> decide
    have hclc : close ≠ ',' := by rcases hcl with rfl | rfl <;> decide
    have key : ∀ tl, Ends tl → (reprVal v).length ≤ m →
        parseTail (F := F) (m + 1) close (reprVal v ++ tl) =
          match skipBlanks tl with
          | ',' :: q => (parseTail m close q).map fun p => (v :: p.1, p.2)
          | d :: q => if d = close then some ([v], q) else Option.none
          | [] => Option.none := by
      intro tl htl hm
      have hp := hv.2 m tl htl hm
      simp only [parseTail]
      rw [hc] at hp ⊢
      rw [List.cons_append, skip_head c _ hb]
      simp only [if_neg hcc]
      rw [List.cons_append] at hp
      rw [hp]
      try rfl
    cases ws with
    | nil =>
      rw [reprItems] at hn ⊢
      rw [key (close :: rest) (Or.inr hcl) (by omega), skip_head close rest hclb]
      split
      · next heq => simp at heq; exact absurd heq.1 hclc
      · next heq => simp at heq; obtain ⟨rfl, rfl⟩ := heq; simp
      · next heq => simp at heq
    | cons w ws =>
      rw [reprItems] at hn ⊢
      simp only [List.length_append, List.length_cons, List.length_nil] at hn
      have e : reprVal v ++ [',', ' '] ++ reprItems (w :: ws) ++ close :: rest =
          reprVal v ++ (',' :: ' ' :: (reprItems (w :: ws) ++ close :: rest)) := by simp
      rw [e, key (',' :: _) (Or.inl rfl) (by omega), skip_head ',' _ (by decide)]
      simp only
      rw [parseTail_blank, ih (fun u hu => hvs u (by simp [hu])) m close rest hcl (by omega)]
      rfl

theorem parses {v : PyVal F} (h : Literal v) : Parses v := by
  induction h with
  | none =>
    refine ⟨.none, fun n rest _ hn => ?_⟩
    obtain ⟨m, rfl⟩ : ∃ m, n = m + 1 := ⟨n - 1, by simp [reprVal] at hn; omega⟩
    simp only [reprVal, parseVal, List.cons_append, List.nil_append]
    rw [skip_head 'N' _ (by decide)]
    rfl
  | int i =>
    refine ⟨.int i, fun n rest hr hn => ?_⟩
    have hnum : ∀ k : Nat, ∀ c ∈ reprNat k, isNumChar c = true := fun k c hc =>
      isDigit_numChar c (reprNat_digits k c hc)
    rw [reprVal, reprInt] at hn ⊢
    by_cases hi : i < 0
    · rw [if_pos hi] at hn ⊢
      obtain ⟨m, rfl⟩ : ∃ m, n = m + 1 := ⟨n - 1, by simp at hn; omega⟩
      rw [List.cons_append, parseVal_minus,
        parseNum_token _ rest _ (hnum _) hr (numToken_reprNat i.natAbs)]
      simp only [Option.map_some, negVal]
      congr 3
      omega
    · rw [if_neg hi] at hn ⊢
      cases hcs : reprNat i.natAbs with
      | nil =>
        exfalso
        have : natOfDigits (reprNat i.natAbs) = i.natAbs := natOfDigits_repr _
        rw [reprNat] at hcs
        split at hcs <;> simp at hcs
      | cons c cs =>
        rw [hcs] at hn
        obtain ⟨m, rfl⟩ : ∃ m, n = m + 1 := ⟨n - 1, by simp at hn; omega⟩
        rw [List.cons_append, parseVal_digit m c _
          (reprNat_digits i.natAbs c (by rw [hcs]; simp)), ← List.cons_append, ← hcs,
          parseNum_token _ rest _ (hnum _) hr (numToken_reprNat i.natAbs)]
        congr 3
        omega
  | float x q hx =>
    refine ⟨.float x q hx, fun n rest hr hn => ?_⟩
    obtain ⟨t, ht, h | h⟩ := FloatLaws.repr_finite x q hx
    · rw [reprVal, h.1] at hn ⊢
      obtain ⟨c, cs, hc, hd⟩ := ht.1
      obtain ⟨m, rfl⟩ : ∃ m, n = m + 1 := ⟨n - 1, by rw [hc] at hn; simp at hn; omega⟩
      rw [hc, List.cons_append, parseVal_digit m c _ hd, ← List.cons_append, ← hc]
      exact parseNum_token t rest _ (numChars ht.2.1) hr (by rw [numToken_float ht, h.2]; rfl)
    · obtain ⟨h1, y, hy, hyx⟩ := h
      rw [reprVal, h1] at hn ⊢
      obtain ⟨m, rfl⟩ : ∃ m, n = m + 1 := ⟨n - 1, by simp at hn; omega⟩
      rw [List.cons_append, parseVal_minus,
        parseNum_token t rest (.float y) (numChars ht.2.1) hr (by rw [numToken_float ht, hy]; rfl)]
      simp [negVal, hyx]
  | list vs hvs ih =>
    refine ⟨.list vs hvs, fun n rest hr hn => ?_⟩
    rw [reprVal] at hn ⊢
    simp only [List.length_append, List.length_cons, List.length_nil] at hn
    obtain ⟨m, rfl⟩ : ∃ m, n = m + 1 := ⟨n - 1, by omega⟩
    have e : '[' :: reprItems vs ++ [']'] ++ rest = '[' :: (reprItems vs ++ ']' :: rest) := by simp
    rw [e, parseVal_list, parseTail_items vs ih m ']' rest (Or.inr rfl) (by omega)]
    rfl
  | tuple vs hvs ih =>
    refine ⟨.tuple vs hvs, fun n rest hr hn => ?_⟩
    rcases vs with _ | ⟨v, ws⟩
    · rw [reprVal, reprItems] at hn ⊢
      · simp only [List.length_append, List.length_cons, List.length_nil] at hn
        obtain ⟨m, rfl⟩ : ∃ m, n = m + 1 := ⟨n - 1, by omega⟩
        exact parseVal_unit m rest
      · intro v; simp
      · intro v; simp
    have hv := ih v (by simp)
    obtain ⟨c, cs, hc, hb, h1, h2⟩ := reprVal_head hv.1
    have key : ∀ m tl, Ends tl → (reprVal v).length ≤ m →
        parseVal (F := F) (m + 1) ('(' :: (reprVal v ++ tl)) =
          match skipBlanks tl with
          | ')' :: q => some (v, q)
          | ',' :: q => (parseTail m ')' q).map fun p => (.tuple (v :: p.1), p.2)
          | _ => Option.none := by
      intro m tl htl hm
      have hp := hv.2 m tl htl hm
      rw [hc] at hp ⊢
      rw [List.cons_append] at hp ⊢
      rw [parseVal_paren m c _ hb h1, hp]
    cases ws with
    | nil =>
      rw [reprVal] at hn ⊢
      simp only [List.length_append, List.length_cons, List.length_nil] at hn
      obtain ⟨m, rfl⟩ : ∃ m, n = m + 1 + 1 := ⟨n - 2, by omega⟩
      have e : '(' :: reprVal v ++ [',', ')'] ++ rest = '(' :: (reprVal v ++ ',' :: ')' :: rest) := by
        simp
      rw [e, key (m + 1) (',' :: _) (Or.inl rfl) (by omega), skip_head ',' _ (by decide)]
      simp only
      rw [parseTail_nil m ')' rest (by decide)]
      rfl
    | cons w ws =>
      rw [reprVal, reprItems] at hn ⊢
      · simp only [List.length_append, List.length_cons, List.length_nil] at hn
        obtain ⟨m, rfl⟩ : ∃ m, n = m + 1 := ⟨n - 1, by omega⟩
        have e : '(' :: (reprVal v ++ [',', ' '] ++ reprItems (w :: ws)) ++ [')'] ++ rest =
            '(' :: (reprVal v ++ ',' :: ' ' :: (reprItems (w :: ws) ++ ')' :: rest)) := by simp
        rw [e, key m (',' :: _) (Or.inl rfl) (by omega), skip_head ',' _ (by decide)]
        simp only
        rw [parseTail_blank, parseTail_items (w :: ws) (fun u hu => ih u (by simp [hu])) m ')' rest
          (Or.inl rfl) (by omega)]
        rfl
      · intro u; simp
      · intro u; simp

theorem literalEval_repr {v : PyVal F} (h : Literal v) : literalEval (reprVal v) = .ok v := by
  have hp := (parses h).2 (2 * (reprVal v).length + 1) [] trivial (by omega)
  rw [List.append_nil] at hp
  rw [literalEval, hp]
  rfl

end
end CEM
