import Verif.Model.Py

/-! # Lemmas about `Dict` -/

set_option linter.unusedSectionVars false

namespace CEM.Dict
variable {K V : Type} [DecidableEq K]

@[simp] theorem get?_nil (k : K) : get? ([] : Dict K V) k = none := rfl

@[simp] theorem keys_nil : keys ([] : Dict K V) = [] := rfl
@[simp] theorem keys_cons (p : K × V) (d : Dict K V) : keys (p :: d) = p.1 :: keys d := rfl
@[simp] theorem vals_nil : vals ([] : Dict K V) = [] := rfl
@[simp] theorem vals_cons (p : K × V) (d : Dict K V) : vals (p :: d) = p.2 :: vals d := rfl

theorem get?_set (d : Dict K V) (k k' : K) (v : V) :
    get? (set d k v) k' = if k = k' then some v else get? d k' := by
  induction d with
  | nil => simp [set, get?]
  | cons p d ih =>
    obtain ⟨a, b⟩ := p
    by_cases h : a = k
    · subst h; by_cases h' : a = k' <;> simp [set, get?, h']
    · by_cases h' : a = k'
      · subst h'; simp [set, get?, h, Ne.symm h]
      · simp [set, get?, h, h', ih]

@[simp] theorem get?_set_self (d : Dict K V) (k : K) (v : V) : get? (set d k v) k = some v := by
  simp [get?_set]

theorem get?_set_ne (d : Dict K V) {k k' : K} (v : V) (h : k ≠ k') :
    get? (set d k v) k' = get? d k' := by simp [get?_set, h]

theorem get?_eq_none_iff (d : Dict K V) (k : K) : get? d k = none ↔ k ∉ keys d := by
  induction d with
  | nil => simp
  | cons p d ih =>
    obtain ⟨a, b⟩ := p
    by_cases h : a = k
    · simp [get?, h]
    · simp [get?, h, ih, Ne.symm h]

theorem get?_isSome_iff (d : Dict K V) (k : K) : (get? d k).isSome ↔ k ∈ keys d := by
  rw [← not_iff_not, ← get?_eq_none_iff]; simp

theorem exists_get?_iff (d : Dict K V) (k : K) : (∃ v, get? d k = some v) ↔ k ∈ keys d := by
  rw [← get?_isSome_iff, Option.isSome_iff_exists]

theorem has_iff (d : Dict K V) (k : K) : has d k = true ↔ k ∈ keys d := get?_isSome_iff d k

theorem mem_keys_of_get? {d : Dict K V} {k : K} {v : V} (h : get? d k = some v) : k ∈ keys d :=
  (exists_get?_iff d k).1 ⟨v, h⟩

theorem mem_of_get? {d : Dict K V} {k : K} {v : V} (h : get? d k = some v) : (k, v) ∈ d := by
  induction d with
  | nil => simp at h
  | cons p d ih =>
    obtain ⟨a, b⟩ := p
    by_cases hk : a = k
    · simp [get?, hk] at h; simp [hk, h]
    · simp [get?, hk] at h; exact List.mem_cons_of_mem _ (ih h)

theorem mem_keys_of_mem {d : Dict K V} {p : K × V} (h : p ∈ d) : p.1 ∈ keys d :=
  List.mem_map_of_mem h

theorem mem_keys_iff {d : Dict K V} {k : K} : k ∈ keys d ↔ ∃ v, (k, v) ∈ d := by
  simp [keys]

theorem get?_of_mem {d : Dict K V} (hn : (keys d).Nodup) {k : K} {v : V} (h : (k, v) ∈ d) :
    get? d k = some v := by
  induction d with
  | nil => simp at h
  | cons p d ih =>
    obtain ⟨a, b⟩ := p
    rw [keys_cons, List.nodup_cons] at hn
    rcases List.mem_cons.1 h with h | h
    · obtain ⟨rfl, rfl⟩ := Prod.mk.inj h; simp [get?]
    · have : a ≠ k := by
        intro hak; rw [hak] at hn; exact hn.1 (mem_keys_iff.2 ⟨v, h⟩)
      simp [get?, this, ih hn.2 h]

theorem get?_eq_some_iff {d : Dict K V} (hn : (keys d).Nodup) {k : K} {v : V} :
    get? d k = some v ↔ (k, v) ∈ d := ⟨mem_of_get?, get?_of_mem hn⟩

theorem keys_set (d : Dict K V) (k : K) (v : V) :
    keys (set d k v) = if k ∈ keys d then keys d else keys d ++ [k] := by
  induction d with
  | nil => simp [set]
  | cons p d ih =>
    obtain ⟨a, b⟩ := p
    by_cases h : a = k
    · simp [set, h]
    · simp only [set, h, if_false, keys_cons, ih, List.mem_cons, Ne.symm h, false_or]
      split <;> simp

theorem keys_set_of_mem {d : Dict K V} {k : K} (v : V) (h : k ∈ keys d) :
    keys (set d k v) = keys d := by simp [keys_set, h]

theorem keys_set_of_not_mem {d : Dict K V} {k : K} (v : V) (h : k ∉ keys d) :
    keys (set d k v) = keys d ++ [k] := by simp [keys_set, h]

theorem set_of_not_mem {d : Dict K V} {k : K} (v : V) (h : k ∉ keys d) :
    set d k v = d ++ [(k, v)] := by
  induction d with
  | nil => rfl
  | cons p d ih =>
    obtain ⟨a, b⟩ := p
    simp only [keys_cons, List.mem_cons, not_or] at h
    simp [set, Ne.symm h.1, ih h.2]

theorem mem_keys_set {d : Dict K V} {k k' : K} {v : V} :
    k' ∈ keys (set d k v) ↔ k' = k ∨ k' ∈ keys d := by
  rw [keys_set]; split
  · constructor
    · exact Or.inr
    · rintro (rfl | h) <;> assumption
  · simp [or_comm]

theorem nodup_keys_set {d : Dict K V} {k : K} {v : V} (hn : (keys d).Nodup) :
    (keys (set d k v)).Nodup := by
  rw [keys_set]; split
  · exact hn
  · rename_i h; exact List.nodup_append.2 ⟨hn, by simp, by
      intro a ha b hb; simp at hb; subst hb; rintro rfl; exact h ha⟩

theorem get?_erase {d : Dict K V} (hn : (keys d).Nodup) (k k' : K) :
    get? (erase d k) k' = if k = k' then none else get? d k' := by
  induction d with
  | nil => simp [erase]
  | cons p d ih =>
    obtain ⟨a, b⟩ := p
    rw [keys_cons, List.nodup_cons] at hn
    by_cases h : a = k
    · subst h
      by_cases h' : a = k'
      · subst h'; simp [erase, (get?_eq_none_iff d a).2 hn.1]
      · simp [erase, get?, h']
    · by_cases h' : a = k'
      · subst h'; simp [erase, get?, h, Ne.symm h]
      · simp [erase, get?, h, h', ih hn.2]

theorem keys_erase_sublist (d : Dict K V) (k : K) : (keys (erase d k)).Sublist (keys d) := by
  induction d with
  | nil => simp [erase]
  | cons p d ih =>
    obtain ⟨a, b⟩ := p
    by_cases h : a = k
    · simp [erase, h]
    · simpa [erase, h] using ih

theorem nodup_keys_erase {d : Dict K V} {k : K} (hn : (keys d).Nodup) :
    (keys (erase d k)).Nodup := hn.sublist (keys_erase_sublist d k)

theorem get?_modify (d : Dict K V) (k k' : K) (f : V → V) :
    get? (modify d k f) k' = if k = k' then (get? d k).map f else get? d k' := by
  unfold modify
  cases h : get? d k with
  | none => by_cases h' : k = k'
            · subst h'; simp [h]
            · simp [h']
  | some v => simp [get?_set]

@[simp] theorem keys_modify (d : Dict K V) (k : K) (f : V → V) : keys (modify d k f) = keys d := by
  unfold modify
  cases h : get? d k with
  | none => rfl
  | some v => exact keys_set_of_mem _ (mem_keys_of_get? h)

theorem getE_eq_ok_iff {d : Dict K V} {k : K} {v : V} : getE d k = .ok v ↔ get? d k = some v := by
  unfold getE; cases get? d k <;> simp

@[simp] theorem length_keys (d : Dict K V) : (keys d).length = d.length := by simp [keys]

/-- Two dictionaries with the same keys in the same order and the same lookups are equal. -/
theorem ext_get? {d d' : Dict K V} (hn : (keys d).Nodup) (hk : keys d = keys d')
    (hg : ∀ k ∈ keys d, get? d k = get? d' k) : d = d' := by
  induction d generalizing d' with
  | nil => cases d' with
    | nil => rfl
    | cons p d' => simp at hk
  | cons p d ih =>
    cases d' with
    | nil => simp at hk
    | cons p' d' =>
      obtain ⟨a, b⟩ := p
      obtain ⟨a', b'⟩ := p'
      simp only [keys_cons, List.cons.injEq] at hk
      obtain ⟨rfl, hk⟩ := hk
      rw [keys_cons, List.nodup_cons] at hn
      have h0 := hg a (by simp)
      simp [get?] at h0
      subst h0
      congr 1
      refine ih hn.2 hk fun k hkm => ?_
      have := hg k (by simp [hkm])
      have hne : a ≠ k := by rintro rfl; exact hn.1 hkm
      simpa [get?, hne] using this

theorem set_eq_self {d : Dict K V} {k : K} {v : V} (h : get? d k = some v) : set d k v = d := by
  induction d with
  | nil => simp at h
  | cons p d ih =>
    obtain ⟨a, b⟩ := p
    by_cases hk : a = k
    · simp [get?, hk] at h; simp [set, hk, h]
    · simp [get?, hk] at h; simp [set, hk, ih h]

theorem set_set (d : Dict K V) (k : K) (v w : V) : set (set d k v) k w = set d k w := by
  induction d with
  | nil => simp [set]
  | cons p d ih =>
    obtain ⟨a, b⟩ := p
    by_cases hk : a = k
    · simp [set, hk]
    · simp [set, hk, ih]

theorem get?_append (d d' : Dict K V) (k : K) :
    get? (d ++ d') k = (get? d k).or (get? d' k) := by
  induction d with
  | nil => simp
  | cons p d ih =>
    obtain ⟨a, b⟩ := p
    by_cases hk : a = k <;> simp [get?, hk, ih]

end CEM.Dict
