import Verif.Props.Work
import Verif.Props.Search

/-! # C21, C97: `RevSearchIterator` asked again after `None` -/

set_option linter.unusedSimpArgs false

namespace Verif

open Spec

/-- Above the end of the file `RevSearchIterator::next` walks down by four. -/
theorem revNextW_above (bytes : Bytes) (off : Nat) (h : bytes.length < off) (h4 : 4 ≤ off) (hm : off ≤ usizeMax) :
    revNextW dltStorage bytes off =
      ((revNextW dltStorage bytes (off - 4)).1, Work.plus ⟨1, 0, 0⟩ (revNextW dltStorage bytes (off - 4)).2) := by
  have hl : dltStorage.marker.length = 4 := rfl
  have hs : revSearchW dltStorage bytes off = (.ok none, Work.zero) := by
    unfold revSearchW; rw [if_pos (Or.inl h)]
  rw [revNextW]
  simp only [hs, hl]
  rw [dif_pos h4, if_neg (by unfold usizeMax at *; omega)]
  rfl

theorem revNextW_walk (bytes : Bytes) (off k : Nat) (h : bytes.length < off + 4) (hm : off + 4 * k ≤ usizeMax) :
    (revNextW dltStorage bytes (off + 4 * k)).1 = (revNextW dltStorage bytes off).1 ∧
    k ≤ (revNextW dltStorage bytes (off + 4 * k)).2.frames := by
  induction k with
  | zero => exact ⟨rfl, Nat.zero_le _⟩
  | succ k ih =>
    obtain ⟨h1, h2⟩ := ih (by omega)
    rw [revNextW_above bytes (off + 4 * (k + 1)) (by omega) (by omega) hm, show off + 4 * (k + 1) - 4 = off + 4 * k by omega]
    refine ⟨h1, ?_⟩
    simp only [Work.plus]; omega

/-- **C97 (violated)** the call after the `None` that ends a `RevSearchIterator` nests more than 2^61 calls (it walks down
from `usize::MAX` in steps of four), on every file. -/
theorem C97_rev_after_none (bytes : Bytes) (hF : Fits bytes) (off off' : Nat) (hoff : off ≤ bytes.length)
    (h : revNext dltStorage bytes off = .ok (none, off')) :
    off' = usizeMax ∧ (revNextW dltStorage bytes off').1 = revNext dltStorage bytes off' ∧
    2 ^ 61 ≤ (revNextW dltStorage bytes off').2.frames := by
  have hF' := fits_le hF
  have ho : off' = usizeMax := by
    rcases revNext_spec dlt_lawful.toSearches hF off hoff with ⟨h1, _⟩ | ⟨i, v, h1, _⟩ <;> rw [h] at h1 <;> cases h1; rfl
  subst ho
  refine ⟨rfl, revNextW_erase bytes _, ?_⟩
  have hw3 := (revNextW_walk bytes (2 ^ 63 - 1) (2 ^ 61) (by omega) (by unfold usizeMax; omega)).2
  rw [show 2 ^ 63 - 1 + 4 * 2 ^ 61 = usizeMax by decide] at hw3
  exact hw3

/-- **C21 (exact)** what that call returns, if it ever does: the iteration stays ended exactly if the file holds no message
at all; otherwise it starts again with the last message. Partial, as the claim is false for every file with a message. -/
theorem C21_after_none_partial (bytes : Bytes) (hF : Fits bytes) (off off' : Nat) (hoff : off ≤ bytes.length)
    (h : revNext dltStorage bytes off = .ok (none, off')) :
    (revNext dltStorage bytes off' = .ok (none, usizeMax) ∧ ∀ i e, ¬ MsgAt bytes i e) ∨
    (∃ i e, revNext dltStorage bytes off' = .ok (some (i, e), i) ∧ MsgAt bytes i e ∧ ∀ j f, i < j → ¬ MsgAt bytes j f) := by
  have hF' := fits_le hF
  have hl : dltStorage.marker.length = 4 := rfl
  obtain ⟨rfl, _⟩ := C97_rev_after_none bytes hF off off' hoff h
  -- the first offset not above the end
  by_cases h3 : bytes.length < 3
  · left
    constructor
    · have hw := (revNextW_walk bytes 3 ((usizeMax - 3) / 4) (by omega) (by unfold usizeMax; omega)).1
      rw [show 3 + 4 * ((usizeMax - 3) / 4) = usizeMax by decide, revNextW_erase, revNextW_erase] at hw
      rw [hw, revNext]
      have hs : revSearch dltStorage bytes 3 = .ok none := by
        unfold revSearch; rw [if_pos (Or.inl (by omega))]
      simp only [hs, hl]
      rw [dif_neg (by omega)]
    · intro i e hm
      have := hm.bounds; omega
  · have hlow : ∃ o k, o + 4 * k = usizeMax ∧ o ≤ bytes.length ∧ bytes.length < o + 4 := by
      refine ⟨bytes.length - (bytes.length + 1) % 4, (usizeMax - (bytes.length - (bytes.length + 1) % 4)) / 4, ?_, ?_, ?_⟩
      · unfold usizeMax; omega
      · omega
      · omega
    obtain ⟨o, k, h1, h2, h4⟩ := hlow
    have hw := (revNextW_walk bytes o k h4 (by omega)).1
    rw [h1, revNextW_erase, revNextW_erase] at hw
    rw [hw]
    rcases revNext_spec dlt_lawful.toSearches hF o h2 with ⟨g1, g2⟩ | ⟨i, v, g1, g2, g3, g4⟩
    · left
      refine ⟨g1, fun i e hm => ?_⟩
      have hb := hm.bounds
      exact g2 i e (by rw [hl]; omega) (readableAt_iff_msgAt.2 hm)
    · right
      refine ⟨i, v, g1, readableAt_iff_msgAt.1 g3, fun j f hj hm => ?_⟩
      have hb := hm.bounds
      exact g4 j f hj (by rw [hl]; omega) (readableAt_iff_msgAt.2 hm)

/-- A file without messages stays ended; one with a message does not. -/
example : revNext dltStorage [1, 2, 3] 0 = .ok (none, usizeMax) ∧
    revNext dltStorage [1, 2, 3] usizeMax = .ok (none, usizeMax) := by
  have h0 : revNext dltStorage [1, 2, 3] 0 = .ok (none, usizeMax) := by decide +kernel
  refine ⟨h0, ?_⟩
  rcases C21_after_none_partial [1, 2, 3] (by decide) 0 usizeMax (by decide) h0 with ⟨h, _⟩ | ⟨i, e, _, hm, _⟩
  · exact h
  · have := hm.bounds
    simp only [List.length_cons, List.length_nil] at this
    omega

end Verif
