import Verif.Lemmas.Contain
import Verif.Spec.Partition

/-! # Lemmas about `partition_from` -/

set_option linter.unusedSimpArgs false

namespace Verif
open Spec

section
variable {T : Type} {S : SearchableMarker T}

/-- One round of the partition loop. -/
theorem partitionLoop_step (L : Lawful S) {bytes : Bytes} (hF : Fits bytes) {size c0 c1 : Nat} :
    (bytes.length < c1 ∨ bytes.length < c0) ∧ partitionLoop S bytes size c0 c1 = .ok [] ∨
    (c1 ≤ bytes.length ∧ c0 ≤ bytes.length ∧ ∃ r, containedBy S bytes c1 (c1 + 1) = .ok r ∧
      ∃ c, ((r = none ∧ c = c1) ∨ ∃ v, r = some (c, v) ∧ ReadableAt S bytes c v ∧ c < c1 ∧
              c1 < c + S.len v ∧ c1 ≤ c + S.maxLen) ∧
        ((c ≤ c0 ∧ partitionLoop S bytes size c0 c1 = .ok []) ∨
         (c0 < c ∧ bytes.length ≤ c + size / 4 ∧ partitionLoop S bytes size c0 c1 = .ok [(c0, bytes.length)]) ∨
         (c0 < c ∧ c + size / 4 < bytes.length ∧
          partitionLoop S bytes size c0 c1 =
            match partitionLoop S bytes size c (c + size) with
            | .panic => .panic
            | .ok rest => .ok ((c0, c) :: rest)))) := by
  by_cases h : c0 > bytes.length ∨ c1 > bytes.length
  · left; refine ⟨by omega, ?_⟩
    rw [partitionLoop, if_pos h]
  · right
    obtain ⟨r, hr, hs⟩ := containedBy_sound L hF c1 (c1 + 1)
    refine ⟨by omega, by omega, r, hr, ?_⟩
    rw [partitionLoop, if_neg h]
    simp only [hr]
    have key : ∀ c, c ≤ bytes.length →
        ((c ≤ c0 ∧ (if h0 : c0 ≥ c then Res.ok ([] : List (Nat × Nat))
          else if h1 : c + size / 4 ≥ bytes.length then
            match sliceFrom bytes c0 with
            | .panic => .panic
            | .ok _ => .ok [(c0, bytes.length)]
          else match slice bytes c0 c with
            | .panic => .panic
            | .ok _ => match partitionLoop S bytes size c (c + size) with
              | .panic => .panic
              | .ok rest => .ok ((c0, c) :: rest)) = .ok []) ∨
         (c0 < c ∧ bytes.length ≤ c + size / 4 ∧ (if h0 : c0 ≥ c then Res.ok ([] : List (Nat × Nat))
          else if h1 : c + size / 4 ≥ bytes.length then
            match sliceFrom bytes c0 with
            | .panic => .panic
            | .ok _ => .ok [(c0, bytes.length)]
          else match slice bytes c0 c with
            | .panic => .panic
            | .ok _ => match partitionLoop S bytes size c (c + size) with
              | .panic => .panic
              | .ok rest => .ok ((c0, c) :: rest)) = .ok [(c0, bytes.length)]) ∨
         (c0 < c ∧ c + size / 4 < bytes.length ∧
          (if h0 : c0 ≥ c then Res.ok ([] : List (Nat × Nat))
          else if h1 : c + size / 4 ≥ bytes.length then
            match sliceFrom bytes c0 with
            | .panic => .panic
            | .ok _ => .ok [(c0, bytes.length)]
          else match slice bytes c0 c with
            | .panic => .panic
            | .ok _ => match partitionLoop S bytes size c (c + size) with
              | .panic => .panic
              | .ok rest => .ok ((c0, c) :: rest)) =
            match partitionLoop S bytes size c (c + size) with
            | .panic => .panic
            | .ok rest => .ok ((c0, c) :: rest))) := by
      intro c hc
      by_cases h0 : c0 ≥ c
      · left; exact ⟨h0, by rw [dif_pos h0]⟩
      · by_cases h1 : c + size / 4 ≥ bytes.length
        · right; left
          refine ⟨by omega, h1, ?_⟩
          rw [dif_neg h0, dif_pos h1]
          simp only [sliceFrom_ok (show c0 ≤ bytes.length by omega)]
        · right; right
          refine ⟨by omega, by omega, ?_⟩
          rw [dif_neg h0, dif_neg h1]
          simp only [slice_ok (show c0 ≤ c by omega) hc]
    cases r with
    | none => exact ⟨c1, Or.inl ⟨rfl, rfl⟩, key c1 (by omega)⟩
    | some x =>
      obtain ⟨c, v⟩ := x
      obtain ⟨h1, h2, h3, h4, h5, h6⟩ := hs c v rfl
      exact ⟨c, Or.inr ⟨v, rfl, h1, h2, by omega, h4⟩, key c (by omega)⟩

theorem partitionLoop_tiles (L : Lawful S) {bytes : Bytes} (hF : Fits bytes) (size : Nat) :
    ∀ (k c0 c1 : Nat), bytes.length - c0 = k → c0 ≤ bytes.length →
      ∃ rs b, partitionLoop S bytes size c0 c1 = .ok rs ∧ Tiles c0 rs b ∧ b ≤ bytes.length := by
  intro k
  induction k using Nat.strongRecOn with
  | ind k ih =>
    intro c0 c1 hk h0
    rcases partitionLoop_step L hF (size := size) (c0 := c0) (c1 := c1) with ⟨_, h⟩ | ⟨h1, _, r, hr, c, hc, h⟩
    · exact ⟨[], c0, h, rfl, h0⟩
    · have hcl : c ≤ bytes.length := by
        rcases hc with ⟨_, rfl⟩ | ⟨v, _, _, h3, _⟩ <;> omega
      rcases h with ⟨_, h⟩ | ⟨h2, _, h⟩ | ⟨h2, h3, h⟩
      · exact ⟨[], c0, h, rfl, h0⟩
      · exact ⟨_, bytes.length, h, ⟨rfl, by omega, rfl⟩, Nat.le_refl _⟩
      · obtain ⟨rs, b, h4, h5, h6⟩ := ih (bytes.length - c) (by omega) c (c + size) rfl hcl
        rw [h4] at h
        exact ⟨_, b, h, ⟨rfl, h2, h5⟩, h6⟩

/-- Number of slices: if a cut is moved back by at most `D`, and `D` is small against the slice size. -/
theorem partitionLoop_count (L : Lawful S) {bytes : Bytes} (hF : Fits bytes) (size D r num : Nat)
    (hlag : ∀ p s v, containedBy S bytes p (p + 1) = .ok (some (s, v)) → p ≤ s + D)
    (hsmall : r + num * D ≤ size / 4) (hsize : 0 < size) :
    ∀ (m k c0 : Nat), 0 < m → m + k = num → c0 + m * size ≤ bytes.length →
      bytes.length ≤ c0 + m * size + r + k * D →
      ∃ rs, partitionLoop S bytes size c0 (c0 + size) = .ok rs ∧ rs.length = m ∧ Tiles c0 rs bytes.length := by
  intro m
  induction m with
  | zero => intro k c0 h; omega
  | succ m ih =>
    intro k c0 _ hmk h1 h2
    have hD : num * D = (k + 1) * D + m * D := by rw [← Nat.add_mul]; congr 1; omega
    have hk1 : (k + 1) * D = k * D + D := by rw [Nat.add_mul, Nat.one_mul]
    have hms : (m + 1) * size = m * size + size := by rw [Nat.add_mul, Nat.one_mul]
    rcases partitionLoop_step L hF (size := size) (c0 := c0) (c1 := c0 + size) with ⟨h, _⟩ | ⟨_, _, q, hq, c, hc, h⟩
    · omega
    · have hcb : c ≤ c0 + size ∧ c0 + size ≤ c + D := by
        rcases hc with ⟨_, rfl⟩ | ⟨v, h3, _, h4, _⟩
        · omega
        · rw [h3] at hq
          have := hlag _ _ _ hq
          omega
      cases m with
      | zero =>
        rcases h with ⟨h, _⟩ | ⟨h3, h4, h⟩ | ⟨h3, h4, h⟩
        · omega
        · exact ⟨_, h, rfl, rfl, by omega, rfl⟩
        · omega
      | succ m =>
        have hms' : (m + 1) * size = m * size + size := by rw [Nat.add_mul, Nat.one_mul]
        rcases h with ⟨h, _⟩ | ⟨h3, h4, h⟩ | ⟨h3, h4, h⟩
        · omega
        · omega
        · obtain ⟨rs, h5, h6, h7⟩ := ih (k + 1) c (by omega) (by omega) (by omega) (by omega)
          rw [h5] at h
          exact ⟨_, h, by simp [h6], rfl, h3, h7⟩

end

theorem tiles_slices {bytes : Bytes} : ∀ {rs : List (Nat × Nat)} {a b : Nat}, Tiles a rs b → b ≤ bytes.length →
    ((rs.map fun r => (bytes.take r.2).drop r.1).flatten = (bytes.take b).drop a ∧ a ≤ b ∧
    ∀ s ∈ rs.map fun r => (bytes.take r.2).drop r.1, s ≠ []) := by
  intro rs
  induction rs with
  | nil =>
    intro a b h hb
    have h : a = b := h
    subst h
    simp
  | cons r rs ih =>
    intro a b h hb
    obtain ⟨s, t⟩ := r
    obtain ⟨rfl, hlt, ht⟩ := h
    obtain ⟨h1, h2, h3⟩ := ih ht hb
    refine ⟨?_, by omega, ?_⟩
    · simp only [List.map_cons, List.flatten_cons, h1]
      have : bytes.take b = bytes.take t ++ (bytes.take b).drop t := by
        have h := List.take_append_drop t (bytes.take b)
        rw [List.take_take, Nat.min_eq_left h2] at h
        exact h.symm
      conv => rhs; rw [this]
      rw [List.drop_append_of_le_length (by rw [List.length_take]; omega)]
    · intro x hx
      rcases List.mem_cons.1 hx with h | h
      · subst h
        intro hnil
        have := congrArg List.length hnil
        simp at this; omega
      · exact h3 x h

end Verif
