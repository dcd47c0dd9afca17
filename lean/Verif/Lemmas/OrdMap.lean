import Verif.Model.OrdMap

/-! # Lemmas about ordered maps -/

set_option linter.unusedSimpArgs false

namespace Verif

theorem Key.asymm {κ : Type} [Key κ] {a b : κ} (h : Key.lt a b) : ¬ Key.lt b a :=
  fun h' => Key.irrefl _ (Key.trans h h')

theorem Key.ne_of_lt {κ : Type} [Key κ] {a b : κ} (h : Key.lt a b) : a ≠ b := by
  rintro rfl; exact Key.irrefl _ h

theorem Key.cases {κ : Type} [Key κ] (a b : κ) : Key.lt a b ∨ a = b ∨ Key.lt b a := by
  by_cases h1 : Key.lt a b
  · exact Or.inl h1
  · by_cases h2 : Key.lt b a
    · exact Or.inr (Or.inr h2)
    · exact Or.inr (Or.inl (Key.tri h1 h2))

namespace OrdMap
variable {κ ν μ : Type} [Key κ]

theorem sorted_nil : Sorted ([] : OrdMap κ ν) := List.Pairwise.nil

theorem sorted_cons {k : κ} {v : ν} {m : OrdMap κ ν} :
    Sorted ((k, v) :: m) ↔ (∀ x ∈ m, Key.lt k x.1) ∧ Sorted m := List.pairwise_cons

theorem get_eq_none_of_lt {m : OrdMap κ ν} {k : κ} (h : ∀ x ∈ m, Key.lt k x.1) : m.get k = none := by
  cases m with
  | nil => rfl
  | cons x m =>
    obtain ⟨k', v⟩ := x
    rw [get, if_pos (h (k', v) (by simp))]

theorem get_eq_some {m : OrdMap κ ν} (hs : Sorted m) {k : κ} {v : ν} : m.get k = some v ↔ (k, v) ∈ m := by
  induction m with
  | nil => simp [get]
  | cons x m ih =>
    obtain ⟨k', v'⟩ := x
    rw [sorted_cons] at hs
    rw [get]
    rcases Key.cases k k' with h | h | h
    · rw [if_pos h]
      constructor
      · simp
      · intro hm
        rcases List.mem_cons.1 hm with h' | h'
        · cases h'; exact absurd h (Key.irrefl _)
        · exact absurd (Key.trans h (hs.1 _ h')) (Key.irrefl _)
    · subst h
      rw [if_neg (Key.irrefl _), if_neg (Key.irrefl _)]
      constructor
      · intro h; simp at h; subst h; simp
      · intro hm
        rcases List.mem_cons.1 hm with h' | h'
        · cases h'; rfl
        · exact absurd (hs.1 _ h') (Key.irrefl _)
    · rw [if_neg (Key.asymm h), if_pos h, ih hs.2, List.mem_cons]
      constructor
      · exact Or.inr
      · rintro (h' | h')
        · cases h'; exact absurd h (Key.irrefl _)
        · exact h'

theorem mem_insert_sub {m : OrdMap κ ν} {k : κ} {v : ν} {x : κ × ν} (h : x ∈ m.insert k v) : x = (k, v) ∨ x ∈ m := by
  induction m with
  | nil => simp [insert] at h; exact Or.inl h
  | cons y m ih =>
    obtain ⟨k', v'⟩ := y
    rw [insert] at h
    split at h
    · simpa using h
    · split at h
      · rcases List.mem_cons.1 h with h' | h'
        · exact Or.inr (by rw [h']; simp)
        · rcases ih h' with h'' | h''
          · exact Or.inl h''
          · exact Or.inr (List.mem_cons_of_mem _ h'')
      · rcases List.mem_cons.1 h with h' | h'
        · exact Or.inl h'
        · exact Or.inr (List.mem_cons_of_mem _ h')

theorem mem_remove_sub {m : OrdMap κ ν} {k : κ} {x : κ × ν} (h : x ∈ m.remove k) : x ∈ m := by
  induction m with
  | nil => simp [remove] at h
  | cons y m ih =>
    obtain ⟨k', v'⟩ := y
    rw [remove] at h
    split at h
    · exact h
    · split at h
      · rcases List.mem_cons.1 h with h' | h'
        · rw [h']; simp
        · exact List.mem_cons_of_mem _ (ih h')
      · exact List.mem_cons_of_mem _ h

theorem sorted_insert {m : OrdMap κ ν} (hs : Sorted m) (k : κ) (v : ν) : Sorted (m.insert k v) := by
  induction m with
  | nil => simp [insert, Sorted]
  | cons y m ih =>
    obtain ⟨k', v'⟩ := y
    have hs' := sorted_cons.1 hs
    rw [insert]
    rcases Key.cases k k' with h | h | h
    · rw [if_pos h, sorted_cons]
      refine ⟨fun x hx => ?_, hs⟩
      rcases List.mem_cons.1 hx with h' | h'
      · subst h'; exact h
      · exact Key.trans h (hs'.1 x h')
    · subst h
      rw [if_neg (Key.irrefl _), if_neg (Key.irrefl _), sorted_cons]
      exact hs'
    · rw [if_neg (Key.asymm h), if_pos h, sorted_cons]
      refine ⟨fun x hx => ?_, ih hs'.2⟩
      rcases mem_insert_sub hx with h' | h'
      · subst h'; exact h
      · exact hs'.1 x h'

theorem sorted_remove {m : OrdMap κ ν} (hs : Sorted m) (k : κ) : Sorted (m.remove k) := by
  induction m with
  | nil => simp [remove, Sorted]
  | cons y m ih =>
    obtain ⟨k', v'⟩ := y
    have hs' := sorted_cons.1 hs
    rw [remove]
    split
    · exact hs
    · split
      · rw [sorted_cons]
        exact ⟨fun x hx => hs'.1 x (mem_remove_sub hx), ih hs'.2⟩
      · exact hs'.2

/-- `insert` changes the value of `k` only. -/
theorem get_insert {m : OrdMap κ ν} (hs : Sorted m) (k : κ) (v : ν) (k' : κ) [Decidable (k' = k)] :
    (m.insert k v).get k' = if k' = k then some v else m.get k' := by
  induction m with
  | nil =>
    simp only [insert, get]
    rcases Key.cases k' k with h | h | h
    · rw [if_pos h, if_neg (Key.ne_of_lt h)]
    · subst h; rw [if_neg (Key.irrefl _), if_neg (Key.irrefl _), if_pos rfl]
    · rw [if_neg (Key.asymm h), if_pos h, if_neg (Key.ne_of_lt h).symm]
  | cons y m ih =>
    obtain ⟨k₀, v₀⟩ := y
    have hs' := sorted_cons.1 hs
    rw [insert]
    rcases Key.cases k k₀ with h | h | h
    · rw [if_pos h, get]
      rcases Key.cases k' k with h' | h' | h'
      · rw [if_pos h', if_neg (Key.ne_of_lt h'), get, if_pos (Key.trans h' h)]
      · subst h'; rw [if_neg (Key.irrefl _), if_neg (Key.irrefl _), if_pos rfl]
      · rw [if_neg (Key.asymm h'), if_pos h', if_neg (Key.ne_of_lt h').symm]
    · subst h
      rw [if_neg (Key.irrefl _), if_neg (Key.irrefl _), get, get]
      rcases Key.cases k' k with h' | h' | h'
      · rw [if_pos h', if_neg (Key.ne_of_lt h'), if_pos h']
      · subst h'; rw [if_neg (Key.irrefl _), if_neg (Key.irrefl _), if_pos rfl]
      · rw [if_neg (Key.asymm h'), if_pos h', if_neg (Key.ne_of_lt h').symm, if_neg (Key.asymm h'), if_pos h']
    · rw [if_neg (Key.asymm h), if_pos h, get, get, ih hs'.2]
      rcases Key.cases k' k₀ with h' | h' | h'
      · rw [if_pos h', if_pos h', if_neg (Key.ne_of_lt (Key.trans h' h))]
      · subst h'; rw [if_neg (Key.irrefl _), if_neg (Key.irrefl _), if_neg (Key.ne_of_lt h),
          if_neg (Key.irrefl _), if_neg (Key.irrefl _)]
      · rw [if_neg (Key.asymm h'), if_pos h', if_neg (Key.asymm h'), if_pos h']

theorem get_remove {m : OrdMap κ ν} (hs : Sorted m) (k : κ) (k' : κ) [Decidable (k' = k)] :
    (m.remove k).get k' = if k' = k then none else m.get k' := by
  induction m with
  | nil => simp [remove, get]
  | cons y m ih =>
    obtain ⟨k₀, v₀⟩ := y
    have hs' := sorted_cons.1 hs
    rw [remove]
    rcases Key.cases k k₀ with h | h | h
    · rw [if_pos h]
      split
      · next h' => subst h'; rw [get, if_pos h]
      · rfl
    · subst h
      rw [if_neg (Key.irrefl _), if_neg (Key.irrefl _), get]
      rcases Key.cases k' k with h' | h' | h'
      · rw [if_neg (Key.ne_of_lt h'), if_pos h']
        exact get_eq_none_of_lt fun x hx => Key.trans h' (hs'.1 x hx)
      · subst h'; rw [if_pos rfl]; exact get_eq_none_of_lt hs'.1
      · rw [if_neg (Key.ne_of_lt h').symm, if_neg (Key.asymm h'), if_pos h']
    · rw [if_neg (Key.asymm h), if_pos h, get, get, ih hs'.2]
      rcases Key.cases k' k₀ with h' | h' | h'
      · rw [if_pos h', if_pos h', if_neg (Key.ne_of_lt (Key.trans h' h))]
      · subst h'; rw [if_neg (Key.irrefl _), if_neg (Key.irrefl _), if_neg (Key.ne_of_lt h),
          if_neg (Key.irrefl _), if_neg (Key.irrefl _)]
      · rw [if_neg (Key.asymm h'), if_pos h', if_neg (Key.asymm h'), if_pos h']

/-- Sorted maps with the same lookups are equal. -/
theorem ext {m m' : OrdMap κ ν} (h : Sorted m) (h' : Sorted m') (hg : ∀ k, m.get k = m'.get k) : m = m' := by
  induction m generalizing m' with
  | nil =>
    cases m' with
    | nil => rfl
    | cons y m' =>
      obtain ⟨k, v⟩ := y
      have := hg k
      rw [get, get, if_neg (Key.irrefl _), if_neg (Key.irrefl _)] at this
      simp at this
  | cons x m ih =>
    obtain ⟨k, v⟩ := x
    have hs := sorted_cons.1 h
    cases m' with
    | nil =>
      have := hg k
      simp only [get] at this
      rw [if_neg (Key.irrefl _), if_neg (Key.irrefl _)] at this
      simp at this
    | cons y m' =>
      obtain ⟨k', v'⟩ := y
      have hs' := sorted_cons.1 h'
      have hk : k = k' := by
        rcases Key.cases k k' with h1 | h1 | h1
        · have := hg k
          rw [get, if_neg (Key.irrefl _), if_neg (Key.irrefl _), get, if_pos h1] at this
          simp at this
        · exact h1
        · have := hg k'
          rw [get, if_pos h1, get, if_neg (Key.irrefl _), if_neg (Key.irrefl _)] at this
          simp at this
      subst hk
      have hv : v = v' := by
        have := hg k
        rw [get, if_neg (Key.irrefl _), if_neg (Key.irrefl _), get, if_neg (Key.irrefl _), if_neg (Key.irrefl _)] at this
        simpa using this
      subst hv
      rw [ih hs.2 hs'.2]
      intro j
      have := hg j
      rw [get, get] at this
      rcases Key.cases j k with h1 | h1 | h1
      · rw [get_eq_none_of_lt fun x hx => Key.trans h1 (hs.1 x hx), get_eq_none_of_lt fun x hx => Key.trans h1 (hs'.1 x hx)]
      · subst h1
        rw [get_eq_none_of_lt hs.1, get_eq_none_of_lt hs'.1]
      · rw [if_neg (Key.asymm h1), if_pos h1, if_neg (Key.asymm h1), if_pos h1] at this
        exact this

theorem get_isSome {m : OrdMap κ ν} (hs : Sorted m) {k : κ} : (m.get k).isSome ↔ k ∈ m.map (·.1) := by
  rw [Option.isSome_iff_exists]
  constructor
  · rintro ⟨v, h⟩; exact List.mem_map.2 ⟨_, (get_eq_some hs).1 h, rfl⟩
  · intro h
    obtain ⟨⟨k', v⟩, hx, rfl⟩ := List.mem_map.1 h
    exact ⟨v, (get_eq_some hs).2 hx⟩

theorem length_insert_le (m : OrdMap κ ν) (k : κ) (v : ν) : (m.insert k v).length ≤ m.length + 1 := by
  induction m with
  | nil => simp [insert]
  | cons y m ih =>
    obtain ⟨k', v'⟩ := y
    rw [insert]
    split
    · simp
    · split
      · simp only [List.length_cons]; omega
      · simp

theorem length_remove_le (m : OrdMap κ ν) (k : κ) : (m.remove k).length ≤ m.length := by
  induction m with
  | nil => simp [remove]
  | cons y m ih =>
    obtain ⟨k', v'⟩ := y
    rw [remove]
    split
    · simp
    · split
      · simp only [List.length_cons]; omega
      · simp

theorem length_remove_of_mem {m : OrdMap κ ν} (hs : Sorted m) {k : κ} {v : ν} (h : (k, v) ∈ m) :
    (m.remove k).length + 1 = m.length := by
  induction m with
  | nil => simp at h
  | cons y m ih =>
    obtain ⟨k', v'⟩ := y
    have hs' := sorted_cons.1 hs
    rw [remove]
    rcases List.mem_cons.1 h with h' | h'
    · cases h'
      rw [if_neg (Key.irrefl _), if_neg (Key.irrefl _)]; simp
    · have hlt := hs'.1 _ h'
      rw [if_neg (Key.asymm hlt), if_pos hlt]
      have := ih hs'.2 h'
      simp only [List.length_cons]; omega

/-- keys decide equality -/
@[reducible] def decEq (a b : κ) : Decidable (a = b) :=
  if h1 : Key.lt a b then isFalse (Key.ne_of_lt h1)
  else if h2 : Key.lt b a then isFalse (Key.ne_of_lt h2).symm
  else isTrue (Key.tri h1 h2)

theorem mem_insert {m : OrdMap κ ν} (hs : Sorted m) {k : κ} {v : ν} {x : κ × ν} :
    x ∈ m.insert k v ↔ x = (k, v) ∨ (x ∈ m ∧ x.1 ≠ k) := by
  have := decEq (κ := κ)
  obtain ⟨k', v'⟩ := x
  rw [← get_eq_some (sorted_insert hs k v), get_insert hs]
  split
  · next h =>
    subst h
    constructor
    · intro h; simp at h; subst h; exact Or.inl rfl
    · rintro (h | ⟨_, h⟩)
      · cases h; rfl
      · exact absurd rfl h
  · next h =>
    rw [get_eq_some hs]
    constructor
    · intro h'; exact Or.inr ⟨h', h⟩
    · rintro (h' | ⟨h', _⟩)
      · cases h'; exact absurd rfl h
      · exact h'

theorem mem_remove {m : OrdMap κ ν} (hs : Sorted m) {k : κ} {x : κ × ν} :
    x ∈ m.remove k ↔ x ∈ m ∧ x.1 ≠ k := by
  have := decEq (κ := κ)
  obtain ⟨k', v'⟩ := x
  rw [← get_eq_some (sorted_remove hs k), get_remove hs]
  split
  · next h => subst h; simp
  · next h => rw [get_eq_some hs]; exact ⟨fun h' => ⟨h', h⟩, fun h' => h'.1⟩

end OrdMap

end Verif
