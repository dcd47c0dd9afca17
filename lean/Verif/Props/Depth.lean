import Verif.Model.Cost
import Verif.Props.Grep

/-! # C74: how deep the search of `GrepIterator` recurses -/

set_option linter.unusedSimpArgs false

namespace Verif

open Spec

theorem grepStack_succ {T : Type} (S : SearchableMarker T) (re : Regex) (bytes : Bytes) (k off : Nat) :
    grepStack S re bytes (k + 1) off = grepBody S re bytes (grepStack S re bytes k) off := by
  rw [grepStack]; rfl

/-- **C74** the bounded stack only adds overflows: whatever the search returns with `k` frames, it returns. -/
theorem C74_stack_sound (re : Regex) (bytes : Bytes) (k off : Nat) (r : Res (Option (Nat × StorageEntry)))
    (h : grepStack dltStorage re bytes k off = some r) : grepSearch dltStorage re bytes off = some r := by
  induction k generalizing off with
  | zero => cases h
  | succ k ih =>
    rw [grepStack_succ] at h
    rw [grepSearch_unfold, ← h]
    unfold grepBody at h ⊢
    by_cases h0 : off ≥ bytes.length
    · rw [if_pos h0, if_pos h0]
    · rw [if_neg h0] at h ⊢
      rw [if_neg h0]
      cases hf : re.findAt bytes off with
      | none => rfl
      | some m =>
        obtain ⟨s, e⟩ := m
        rw [hf] at h
        simp only at h ⊢
        rcases hr : revSearch dltStorage bytes s with o | _
        · rw [hr] at h
          cases o with
          | none =>
            simp only at h ⊢
            by_cases h1 : e ≥ bytes.length
            · rw [if_pos h1, if_pos h1]
            · rw [if_neg h1] at h ⊢
              rw [if_neg h1, ih e h, h]
          | some x =>
            obtain ⟨i, v⟩ := x
            simp only at h ⊢
            rcases hu : uadd i (dltStorage.len v) with n | _
            · rw [hu] at h
              simp only at h ⊢
              by_cases h1 : i < s ∧ n < e
              · rw [if_pos h1] at h ⊢
                rw [if_pos h1, ih e h, h]
              · rw [if_neg h1, if_neg h1]
            · rfl
        · rfl

/-- **C74 (partial)** with a pattern that has no empty matches, one frame per byte behind the offset is enough (and one
more). -/
theorem C74_linear_depth_partial (re : Regex) (bytes : Bytes) (hF : Fits bytes) (hne : NonEmpty re bytes) (off k : Nat)
    (hk : bytes.length - off < k) : ∃ r, grepStack dltStorage re bytes k off = some r := by
  induction k generalizing off with
  | zero => omega
  | succ k ih =>
    rw [grepStack_succ]
    rcases grepBody_cases dlt_lawful (re := re) hF (grepStack dltStorage re bytes k) off with
      ⟨_, h⟩ | ⟨h0, s, e, g, hm, h1, h2, h3, _, hc⟩
    · exact ⟨_, h⟩
    · have := hne s e ⟨g, hm⟩
      have hrec := ih e (by omega)
      rcases hc with ⟨i, v, hrd, hlm, ⟨_, h⟩ | ⟨he, h⟩⟩ | ⟨_, ⟨_, h⟩ | ⟨_, h⟩⟩
      · rw [h]; exact hrec
      · exact ⟨_, h⟩
      · exact ⟨_, h⟩
      · rw [h]; exact hrec

/-- `n` times the letter x. -/
def xs (n : Nat) : Bytes := List.replicate n 120

theorem xs_matchAt (n j : Nat) (h : j < n) : (literal [120]).matchAt (xs n) j = some (j + 1, none) := by
  have h1 : (xs n).drop j = 120 :: xs (n - j - 1) := by
    unfold xs
    rw [List.drop_replicate, show n - j = (n - j - 1) + 1 by omega, List.replicate_succ]
    rfl
  simp only [literal, h1]
  rw [if_pos ⟨by exact ⟨xs (n - j - 1), rfl⟩, by unfold xs; rw [List.length_replicate]; omega⟩]
  rfl

/-- **C74 (violated)** the depth grows with the file: on `n` letters x, which hold no message, the search for `x` needs
exactly `n` frames. -/
theorem C74_depth_grows (n k off : Nat) (hn : n < 2 ^ 63) (hoff : off < n) :
    (grepStack dltStorage (literal [120]) (xs n) k off = none ↔ k < n - off) := by
  have hF : Fits (xs n) := by unfold Fits xs; rw [List.length_replicate]; exact hn
  have hl : (xs n).length = n := by unfold xs; rw [List.length_replicate]
  have hmk : ∀ j, ¬ MarkerAt dltStorage (xs n) j := by
    rintro j ⟨r, hr⟩
    have h1 : (68 : UInt8) ∈ (xs n).drop j := by rw [← hr]; simp [dltStorage, StorageEntry.marker]
    have h2 := List.mem_of_mem_drop h1
    unfold xs at h2
    have := List.eq_of_mem_replicate h2
    exact absurd this (by decide)
  induction k generalizing off with
  | zero => simp only [grepStack, true_iff]; omega
  | succ k ih =>
    rw [grepStack_succ]
    rcases grepBody_cases dlt_lawful (re := literal [120]) hF (grepStack dltStorage (literal [120]) (xs n) k) off with
      ⟨h, _⟩ | ⟨h0, s, e, g, hm, h1, h2, h3, h4, hc⟩
    · rcases h with h | h
      · omega
      · have := h off (Nat.le_refl _); rw [xs_matchAt n off hoff] at this; cases this
    · have hs : s = off := by
        apply Classical.byContradiction
        intro hne
        have := h4 off (Nat.le_refl _) (by omega)
        rw [xs_matchAt n off hoff] at this; cases this
      subst hs
      rw [xs_matchAt n s hoff] at hm
      cases hm
      rcases hc with ⟨i, v, _, hlm, _⟩ | ⟨_, ⟨h5, h⟩ | ⟨h5, h⟩⟩
      · exact absurd hlm.2.1 (hmk i)
      · rw [h]; simp only [reduceCtorEq, false_iff]; omega
      · have h6 := ih (s + 1) (by omega)
        rw [h]
        constructor
        · intro h7; have := h6.1 h7; omega
        · intro h7; exact h6.2 (by omega)

example : grepStack dltStorage (literal [120]) (xs 100000) 99999 0 = none ∧
    ∃ r, grepStack dltStorage (literal [120]) (xs 100000) 100001 0 = some r :=
  ⟨(C74_depth_grows 100000 99999 0 (by decide) (by decide)).2 (by decide),
   Option.ne_none_iff_exists'.1 fun h => absurd ((C74_depth_grows 100000 100001 0 (by decide) (by decide)).1 h) (by decide)⟩

end Verif
