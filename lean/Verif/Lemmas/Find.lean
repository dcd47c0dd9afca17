import Verif.Spec.Scan

/-! # Lemmas about substring search -/

set_option linter.unusedSimpArgs false

namespace Verif
open Spec

theorem find_none {n : Bytes} : ∀ {h : Bytes}, find n h = none → ∀ j, ¬ n <+: h.drop j := by
  intro h
  induction h with
  | nil =>
    intro hf j
    unfold find at hf
    split at hf
    · simp at hf
    · next hp => simpa using hp
  | cons b bs ih =>
    intro hf j
    unfold find at hf
    split at hf
    · simp at hf
    · next hp =>
      simp only [Option.map_eq_none_iff] at hf
      cases j with
      | zero => simpa using hp
      | succ j => simpa using ih hf j

theorem find_some {n : Bytes} : ∀ {h : Bytes} {i : Nat}, find n h = some i →
    i ≤ h.length ∧ n <+: h.drop i ∧ ∀ j, j < i → ¬ n <+: h.drop j := by
  intro h
  induction h with
  | nil =>
    intro i hf
    unfold find at hf
    split at hf
    · next hp =>
      simp only [Option.some.injEq] at hf; subst hf
      exact ⟨by simp, by simpa using hp, fun j hj => by omega⟩
    · simp at hf
  | cons b bs ih =>
    intro i hf
    unfold find at hf
    split at hf
    · next hp =>
      simp only [Option.some.injEq] at hf; subst hf
      exact ⟨by simp, by simpa using hp, fun j hj => by omega⟩
    · next hp =>
      simp only [Option.map_eq_some_iff] at hf
      obtain ⟨k, hk, rfl⟩ := hf
      obtain ⟨h1, h2, h3⟩ := ih hk
      refine ⟨by simp; omega, by simpa using h2, ?_⟩
      intro j hj
      cases j with
      | zero => simpa using hp
      | succ j => simpa using h3 j (by omega)

theorem rfind_none {n : Bytes} : ∀ {h : Bytes}, rfind n h = none → ∀ j, ¬ n <+: h.drop j := by
  intro h
  induction h with
  | nil =>
    intro hf j
    unfold rfind at hf
    split at hf
    · simp at hf
    · next hp => simpa using hp
  | cons b bs ih =>
    intro hf j
    unfold rfind at hf
    split at hf
    · simp at hf
    · next hr =>
      split at hf
      · simp at hf
      · next hp =>
        cases j with
        | zero => simpa using hp
        | succ j => simpa using ih hr j

theorem rfind_some {n : Bytes} (hn : 0 < n.length) : ∀ {h : Bytes} {i : Nat}, rfind n h = some i →
    n <+: h.drop i ∧ ∀ j, i < j → ¬ n <+: h.drop j := by
  intro h
  induction h with
  | nil =>
    intro i hf
    unfold rfind at hf
    split at hf
    · next hp =>
      have hp' : n <+: [] := by simpa using hp
      have := hp'.length_le; simp at this; subst this; simp at hn
    · simp at hf
  | cons b bs ih =>
    intro i hf
    unfold rfind at hf
    split at hf
    · next k hr =>
      simp only [Option.some.injEq] at hf; subst hf
      obtain ⟨h1, h2⟩ := ih hr
      refine ⟨by simpa using h1, ?_⟩
      intro j hj
      cases j with
      | zero => omega
      | succ j => simpa using h2 j (by omega)
    · next hr =>
      split at hf
      · next hp =>
        simp only [Option.some.injEq] at hf; subst hf
        refine ⟨by simpa using hp, ?_⟩
        intro j hj
        cases j with
        | zero => omega
        | succ j => simpa using rfind_none hr j
      · simp at hf

section
variable {T : Type} {S : SearchableMarker T}

theorem Spec.MarkerAt.lt {bytes : Bytes} {i : Nat} (h : MarkerAt S bytes i) :
    i + S.marker.length ≤ bytes.length := by
  have := h.length_le
  have hp := S.marker_pos
  rw [List.length_drop] at this; omega

/-- Two marker occurrences do not overlap. -/
theorem Spec.Searches.apart (L : Searches S) {bytes : Bytes} {i j : Nat} (hi : MarkerAt S bytes i)
    (hj : MarkerAt S bytes j) (hij : i < j) : i + S.marker.length ≤ j := by
  apply Nat.le_of_not_lt
  intro hlt
  have hk : j - i < S.marker.length := by omega
  apply L.borderless (j - i) (by omega) hk
  obtain ⟨r, hr⟩ := hi
  have h1 : bytes.drop j = S.marker.drop (j - i) ++ r := by
    have : bytes.drop j = (bytes.drop i).drop (j - i) := by rw [List.drop_drop]; congr 1; omega
    rw [this, ← hr, List.drop_append_of_le_length (by omega)]
  have hj' : S.marker <+: S.marker.drop (j - i) ++ r := by rw [← h1]; exact hj
  have : S.marker.drop (j - i) <+: S.marker.drop (j - i) ++ r := List.prefix_append _ _
  exact List.prefix_of_prefix_length_le this hj' (by rw [List.length_drop]; omega)

theorem readableAt_iff (L : Reads S) {bytes : Bytes} {i : Nat} {v : T} :
    ReadableAt S bytes i v ↔ MarkerAt S bytes i ∧
      S.tryReadValidMarker (bytes.drop i) = .ok (some (S.len v, v)) := by
  unfold ReadableAt MarkerAt
  rw [L.tryRead_eq]
  constructor
  · rintro ⟨n, h⟩
    split at h
    · next hm =>
      have := (L.size _ _ _ h).1
      subst this
      exact ⟨hm, h⟩
    · simp at h
  · rintro ⟨hm, h⟩
    exact ⟨_, by rw [if_pos hm, h]⟩

theorem Spec.ReadableAt.marker (L : Reads S) {bytes : Bytes} {i : Nat} {v : T}
    (h : ReadableAt S bytes i v) : MarkerAt S bytes i := ((readableAt_iff L).1 h).1

theorem Spec.ReadableAt.bounds (L : Reads S) {bytes : Bytes} {i : Nat} {v : T}
    (h : ReadableAt S bytes i v) : S.marker.length < S.len v ∧ i + S.len v ≤ bytes.length := by
  have hp := S.marker_pos
  have h2 := L.size _ _ _ ((readableAt_iff L).1 h).2
  rw [List.length_drop] at h2
  omega

theorem Spec.ReadableAt.unique (L : Reads S) {bytes : Bytes} {i : Nat} {v w : T}
    (h : ReadableAt S bytes i v) (h' : ReadableAt S bytes i w) : v = w := by
  have h1 := ((readableAt_iff L).1 h).2
  rw [((readableAt_iff L).1 h').2] at h1
  simp only [Res.ok.injEq, Option.some.injEq, Prod.mk.injEq] at h1
  exact h1.2.symm

/-- Either the read behind a valid marker succeeds or nothing is readable there. -/
theorem Spec.Reads.cases (L : Reads S) {bytes : Bytes} {i : Nat} (hm : MarkerAt S bytes i) :
    (S.tryReadValidMarker (bytes.drop i) = .ok none ∧ ∀ v, ¬ ReadableAt S bytes i v) ∨
    (∃ v, S.tryReadValidMarker (bytes.drop i) = .ok (some (S.len v, v)) ∧ ReadableAt S bytes i v) := by
  obtain ⟨r, hr⟩ := L.total (bytes.drop i)
  rcases r with _ | ⟨n, v⟩
  · left
    refine ⟨hr, fun v hv => ?_⟩
    rw [((readableAt_iff L).1 hv).2] at hr; simp at hr
  · right
    have := (L.size _ _ _ hr).1
    subst this
    exact ⟨v, hr, (readableAt_iff L).2 ⟨hm, hr⟩⟩

end

end Verif
