import Verif.Lemmas.Find
import Verif.Spec.Scan

/-! # C76: searching for the marker -/

namespace Verif

open Spec

/-- **C76** `search_marker` finds the first marker, and nothing exactly if there is none. -/
theorem C76_search_marker {T : Type} (S : SearchableMarker T) (bytes : Bytes) :
    (∀ i, searchMarker S bytes = some i ↔ MarkerAt S bytes i ∧ ∀ j, MarkerAt S bytes j → i ≤ j) ∧
    (searchMarker S bytes = none ↔ ∀ j, ¬ MarkerAt S bytes j) := by
  unfold searchMarker MarkerAt
  cases h : find S.marker bytes with
  | none =>
    have h1 := find_none h
    refine ⟨fun i => ⟨fun h2 => (by cases h2), fun h2 => absurd h2.1 (h1 i)⟩, by simpa using h1⟩
  | some k =>
    obtain ⟨_, h1, h2⟩ := find_some h
    refine ⟨fun i => ⟨fun h3 => ?_, fun h3 => ?_⟩, ?_⟩
    · cases h3
      exact ⟨h1, fun j hj => Nat.le_of_not_lt fun hlt => h2 j hlt hj⟩
    · have h4 := h3.2 k h1
      have h5 : ¬ i < k := fun hlt => h2 i hlt h3.1
      rw [show k = i by omega]
    · simp only [reduceCtorEq, false_iff]
      exact fun h3 => h3 k h1

/-- **C76** `search_last_marker` finds the last marker, and nothing exactly if there is none. -/
theorem C76_search_last_marker {T : Type} (S : SearchableMarker T) (bytes : Bytes) :
    (∀ i, searchLastMarker S bytes = some i ↔ MarkerAt S bytes i ∧ ∀ j, MarkerAt S bytes j → j ≤ i) ∧
    (searchLastMarker S bytes = none ↔ ∀ j, ¬ MarkerAt S bytes j) := by
  unfold searchLastMarker MarkerAt
  cases h : rfind S.marker bytes with
  | none =>
    have h1 := rfind_none h
    refine ⟨fun i => ⟨fun h2 => (by cases h2), fun h2 => absurd h2.1 (h1 i)⟩, by simpa using h1⟩
  | some k =>
    obtain ⟨h1, h2⟩ := rfind_some S.marker_pos h
    refine ⟨fun i => ⟨fun h3 => ?_, fun h3 => ?_⟩, ?_⟩
    · cases h3
      exact ⟨h1, fun j hj => Nat.le_of_not_lt fun hlt => h2 j hlt hj⟩
    · have h4 := h3.2 k h1
      have h5 : ¬ k < i := fun hlt => h2 i hlt h3.1
      rw [show k = i by omega]
    · simp only [reduceCtorEq, false_iff]
      exact fun h3 => h3 k h1

example : searchMarker dltStorage [0, 68, 76, 84, 1, 68, 76, 84, 1, 9] = some 1 ∧
    searchLastMarker dltStorage [0, 68, 76, 84, 1, 68, 76, 84, 1, 9] = some 5 := by decide

end Verif
