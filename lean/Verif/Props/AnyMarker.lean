import Verif.Lemmas.AnyMarker
import Verif.Lemmas.Grep

/-! # C138: message types with an empty marker -/

set_option linter.unusedSimpArgs false
set_option linter.unusedVariables false

namespace Verif

open Spec

/-- **C138**: nothing else changes: for every type with a marker that is not empty this is the model the other claims are about. -/
theorem C138_other_markers {T : Type} (S : SearchableMarker T) (bytes : Bytes) (off p1 : Nat) :
    fallbackNextM S.any bytes off = some (readFallbackNext S bytes off) ∧
    searchNextM S.any bytes off = some (searchNext S bytes off) ∧
    revNextM S.any bytes off = some (revNext S bytes off) ∧
    containedByM S.any bytes off p1 = containedBy S bytes off p1 :=
  ⟨fallbackNextM_eq S bytes off, searchNextM_eq S bytes off, revNextM_eq S bytes off, (containedByM_eq S bytes off).1 p1⟩

section
variable {T : Type} {S : AnyMarker T}

/-- **C138**: with an empty marker `ReadFallbackIterator` never searches. It is `ReadIterator`, with `try_read_valid_marker` in place of
`try_read`: it always returns, and ends for good at the first position at which there is no value. -/
theorem C138_reader (hS : S.marker = []) (bytes : Bytes) (off : Nat) (hoff : off ≤ usizeMax) :
    fallbackNextM S bytes off = some (readNext { S.toFromBytesReadable with tryRead := S.tryReadValidMarker } bytes off) := by
  rw [fallbackNextM, hS]
  unfold readNext
  simp only [List.length_nil]
  rw [uadd_ok (by omega)]
  simp only [Nat.add_zero]
  by_cases h : off ≥ bytes.length
  · rw [if_pos h, if_pos h]
  · rw [if_neg h, if_neg h]
    have h1 : slice bytes off off = .ok [] := by
      unfold slice
      rw [if_pos ⟨Nat.le_refl _, by omega⟩]
      simp
    rw [h1, sliceFrom_ok (by omega)]
    simp only [if_true]
    rcases S.tryReadValidMarker (bytes.drop off) with o | _
    · rcases o with _ | ⟨n, v⟩
      · rfl
      · simp only
        rcases uadd off n with _ | _ <;> rfl
    · rfl

theorem searchSearchM_nil (hS : S.marker = []) (bytes : Bytes) (off : Nat) (hoff : off < bytes.length) (hF : bytes.length ≤ usizeMax) :
    searchSearchM S bytes off = match S.tryReadValidMarker (bytes.drop off) with
      | .panic => .panic
      | .ok none => .ok none
      | .ok (some (_, v)) => .ok (some (off, v)) := by
  unfold searchSearchM
  rw [if_neg (by omega), sliceFrom_ok (by omega), hS]
  simp only [find_nil]
  rw [uadd_ok (by omega), Nat.zero_add]
  simp only
  rw [sliceFrom_ok (by omega)]
  simp only
  rcases S.tryReadValidMarker (bytes.drop off) with o | _
  · rcases o with _ | ⟨n, v⟩ <;> rfl
  · rfl

/-- **C138**: with an empty marker `SearchIterator` does not search either: it takes the value at its position, and where there is none
`next` never returns. -/
theorem C138_search (hS : S.marker = []) (bytes : Bytes) (hF : Fits bytes) (off : Nat) :
    (bytes.length ≤ off → off ≤ usizeMax → searchNextM S bytes off = some (.ok (none, off))) ∧
    (∀ n v, off < bytes.length → S.tryReadValidMarker (bytes.drop off) = .ok (some (n, v)) → off + S.len v ≤ usizeMax →
      searchNextM S bytes off = some (.ok (some (off, v), off + S.len v))) ∧
    (off < bytes.length → (searchNextM S bytes off = none ↔ S.tryReadValidMarker (bytes.drop off) = .ok none)) := by
  have hF' := fits_le hF
  have hmax : bytes.length ≤ usizeMax := by unfold usizeMax; omega
  refine ⟨fun h h' => ?_, fun n v h hr hu => ?_, fun h => ⟨fun hn => ?_, fun hr => ?_⟩⟩
  · rw [searchNextM]
    have : searchSearchM S bytes off = .ok none := by unfold searchSearchM; rw [if_pos h]
    rw [this, hS]
    simp only [List.length_nil]
    rw [uadd_ok (by omega)]
    simp only [Nat.add_zero]
    rw [if_pos h]
  · rw [searchNextM, searchSearchM_nil hS bytes off h hmax, hr]
    simp only
    rw [uadd_ok hu]
  · rw [searchNextM, searchSearchM_nil hS bytes off h hmax] at hn
    rcases hr : S.tryReadValidMarker (bytes.drop off) with o | _
    · rcases o with _ | ⟨n, v⟩
      · rfl
      · rw [hr] at hn
        simp only at hn
        rcases hu : uadd off (S.len v) with _ | _ <;> (rw [hu] at hn; cases hn)
    · rw [hr] at hn; cases hn
  · have key : ∀ o q, searchNextM S bytes o = some q → o ≠ off := by
      apply searchNextM.partial_correctness S bytes
      intro f ih o q hq ho
      subst ho
      rw [searchSearchM_nil hS bytes o h hmax, hr] at hq
      simp only [hS, List.length_nil] at hq
      rw [uadd_ok (by omega)] at hq
      simp only [Nat.add_zero] at hq
      rw [if_neg (by omega)] at hq
      exact ih o q hq rfl
    rcases hq : searchNextM S bytes off with _ | q
    · rfl
    · exact absurd rfl (key off q hq)

theorem revSearchM_nil (hS : S.marker = []) (bytes : Bytes) (off : Nat) (hoff : off ≤ bytes.length) (hF : bytes.length < usizeMax) :
    revSearchM S bytes off = match S.tryReadValidMarker (bytes.drop off) with
      | .panic => .panic
      | .ok none => .ok none
      | .ok (some (_, v)) => .ok (some (off, v)) := by
  unfold revSearchM
  have h1 : sliceTo bytes off = .ok (bytes.take off) := by unfold sliceTo; rw [if_pos hoff]
  rw [if_neg (by omega), h1, hS]
  simp only [rfind_nil, List.length_take, Nat.min_eq_left hoff]
  rw [sliceFrom_ok hoff]
  simp only
  rcases S.tryReadValidMarker (bytes.drop off) with o | _
  · rcases o with _ | ⟨n, v⟩ <;> rfl
  · rfl

/-- **C138**: with an empty marker `RevSearchIterator` does not move: it gives the value at its position again and again, and where there is
none `next` never returns; a start behind the end of the slice is such a place. -/
theorem C138_rev (hS : S.marker = []) (bytes : Bytes) (hF : Fits bytes) (off : Nat) (hoff : off ≠ usizeMax) :
    (∀ n v, off ≤ bytes.length → S.tryReadValidMarker (bytes.drop off) = .ok (some (n, v)) →
      revNextM S bytes off = some (.ok (some (off, v), off))) ∧
    (off ≤ bytes.length → (revNextM S bytes off = none ↔ S.tryReadValidMarker (bytes.drop off) = .ok none)) ∧
    (bytes.length < off → revNextM S bytes off = none) := by
  have hF' := fits_le hF
  have hmax : bytes.length < usizeMax := by unfold usizeMax; omega
  have stuck : revSearchM S bytes off = .ok none → revNextM S bytes off = none := by
    intro h
    have key : ∀ o q, revNextM S bytes o = some q → o ≠ off := by
      apply revNextM.partial_correctness S bytes
      intro f ih o q hq ho
      subst ho
      rw [h] at hq
      simp only [hS, List.length_nil, Nat.zero_le, if_true, Nat.sub_zero] at hq
      rw [if_neg hoff] at hq
      exact ih o q hq rfl
    rcases hq : revNextM S bytes off with _ | q
    · rfl
    · exact absurd rfl (key off q hq)
  refine ⟨fun n v h hr => ?_, fun h => ⟨fun hn => ?_, fun hr => stuck ?_⟩, fun h => stuck ?_⟩
  · rw [revNextM, revSearchM_nil hS bytes off h hmax, hr]
  · rw [revNextM, revSearchM_nil hS bytes off h hmax] at hn
    rcases hr : S.tryReadValidMarker (bytes.drop off) with o | _
    · rcases o with _ | ⟨n, v⟩
      · rfl
      · rw [hr] at hn; cases hn
    · rw [hr] at hn; cases hn
  · rw [revSearchM_nil hS bytes off h hmax, hr]
  · unfold revSearchM
    rw [if_pos (.inl h)]

/-- **C138**: so a `RevSearchIterator` for such a type never comes to an end, on any file, from any start but `usize::MAX`. -/
theorem C138_rev_never_ends (hS : S.marker = []) (bytes : Bytes) (hF : Fits bytes) (off : Nat) (hoff : off ≠ usizeMax)
    (items : List (Nat × T)) : ¬ CollectsD (revNextM S bytes) off items := by
  obtain ⟨h1, h2, h3⟩ := C138_rev hS bytes hF off hoff
  rintro ⟨fuel, hc⟩
  induction fuel generalizing items with
  | zero => cases hc
  | succ fuel ih =>
    rw [collectDN] at hc
    by_cases h : off ≤ bytes.length
    · rcases hr : S.tryReadValidMarker (bytes.drop off) with o | _
      · rcases o with _ | ⟨n, v⟩
        · rw [(h2 h).2 hr] at hc; cases hc
        · rw [h1 n v h hr] at hc
          simp only at hc
          rcases hq : collectDN (revNextM S bytes) fuel off with _ | q | _
          · rw [hq] at hc; cases hc
          · exact ih q hq
          · rw [hq] at hc; cases hc
      · have hF' := fits_le hF
        have : revNextM S bytes off = some .panic := by
          rw [revNextM, revSearchM_nil hS bytes off h (by unfold usizeMax; omega), hr]
        rw [this] at hc; cases hc
    · rw [h3 (by omega)] at hc; cases hc

/-- **C138**: with an empty marker `contained_by` takes the first position, not more than `max_len()` in front, at which a value starts that
reaches to the end of the range; whether that value lies inside another one is not looked at. -/
theorem C138_contained_by (hS : S.marker = []) (hr : ∀ bs, S.tryRead bs ≠ .panic) (bytes : Bytes)
    (hl : ∀ c n v, c ≤ bytes.length → S.tryRead (bytes.drop c) = .ok (some (n, v)) → c + S.len v ≤ usizeMax) (p0 p1 : Nat) (h01 : p0 < p1)
    (hp : p1 < bytes.length) (r : Option (Nat × T)) :
    containedByM S bytes p0 p1 = .ok r ↔
      match r with
      | none => ∀ c n v, p0 - S.maxLen ≤ c → c < p0 → S.tryRead (bytes.drop c) = .ok (some (n, v)) → c + S.len v < p1
      | some (c, v) => p0 - S.maxLen ≤ c ∧ c < p0 ∧ (∃ n, S.tryRead (bytes.drop c) = .ok (some (n, v))) ∧ p1 ≤ c + S.len v ∧
          ∀ d n u, p0 - S.maxLen ≤ d → d < c → S.tryRead (bytes.drop d) = .ok (some (n, u)) → d + S.len u < p1 := by
  have hin : ∀ c, containedByM S bytes c (c + S.marker.length) = .ok none := by
    intro c
    rw [containedByM, if_pos]
    rw [hS]
    exact .inr (.inr (.inl (Nat.le_refl _)))
  -- the loop over the positions from `b` on
  have key : ∀ k b, (b ≤ p0 → p0 < b + k) → ∃ r, containedByLoopM S bytes p0 p1 (List.range' b k) = .ok r ∧
      match r with
      | none => ∀ c n v, b ≤ c → c < p0 → S.tryRead (bytes.drop c) = .ok (some (n, v)) → c + S.len v < p1
      | some (c, v) => b ≤ c ∧ c < p0 ∧ (∃ n, S.tryRead (bytes.drop c) = .ok (some (n, v))) ∧ p1 ≤ c + S.len v ∧
          ∀ d n u, b ≤ d → d < c → S.tryRead (bytes.drop d) = .ok (some (n, u)) → d + S.len u < p1 := by
    intro k
    induction k with
    | zero =>
      intro b hb
      refine ⟨none, by rw [List.range'_zero, containedByLoopM], fun c n v h1 h2 _ => ?_⟩
      have := hb (by omega)
      omega
    | succ k ih =>
      intro b hb
      rw [List.range'_succ, containedByLoopM]
      by_cases hbp : b ≥ p0
      · rw [dif_pos hbp]
        exact ⟨none, rfl, fun c n v h1 h2 _ => by omega⟩
      · rw [dif_neg hbp, sliceFrom_ok (by omega)]
        simp only
        obtain ⟨r', ih1, ih2⟩ := ih (b + 1) (by omega)
        have step : (∀ n v, S.tryRead (bytes.drop b) = .ok (some (n, v)) → b + S.len v < p1) →
            ∃ r, Res.ok r' = .ok r ∧ match r with
              | none => ∀ c n v, b ≤ c → c < p0 → S.tryRead (bytes.drop c) = .ok (some (n, v)) → c + S.len v < p1
              | some (c, v) => b ≤ c ∧ c < p0 ∧ (∃ n, S.tryRead (bytes.drop c) = .ok (some (n, v))) ∧ p1 ≤ c + S.len v ∧
                  ∀ d n u, b ≤ d → d < c → S.tryRead (bytes.drop d) = .ok (some (n, u)) → d + S.len u < p1 := by
          intro h0
          refine ⟨r', rfl, ?_⟩
          rcases r' with _ | ⟨c, v⟩
          · intro c n v h1 h2 h3
            rcases Nat.lt_or_ge b c with h | h
            · exact ih2 c n v h h2 h3
            · have : c = b := by omega
              subst this
              exact h0 n v h3
          · obtain ⟨i1, i2, i3, i4, i5⟩ := ih2
            refine ⟨by omega, i2, i3, i4, fun d n u h1 h2 h3 => ?_⟩
            rcases Nat.lt_or_ge b d with h | h
            · exact i5 d n u h h2 h3
            · have : d = b := by omega
              subst this
              exact h0 n u h3
        rcases ht : S.tryRead (bytes.drop b) with o | _
        · rcases o with _ | ⟨n, v⟩
          · simp only
            rw [ih1]
            exact step (fun n v h => by rw [ht] at h; cases h)
          · simp only
            rw [uadd_ok (hl b n v (by omega) ht)]
            simp only
            by_cases he : b + S.len v ≥ p1
            · rw [if_pos he, hin]
              exact ⟨some (b, v), rfl, Nat.le_refl _, by omega, ⟨n, ht⟩, he, fun d _ _ h1 h2 _ => by omega⟩
            · rw [if_neg he, ih1]
              exact step (fun n' v' h => by rw [ht] at h; cases h; omega)
        · exact absurd ht (hr _)
  have hcall : containedByM S bytes p0 p1 = containedByLoopM S bytes p0 p1 (List.range' (p0 - S.maxLen) (bytes.length - (p0 - S.maxLen) + 1)) := by
    rw [containedByM, if_neg (by omega)]
    simp only [sliceFrom_ok (show p0 - S.maxLen ≤ bytes.length by omega)]
    simp only [hS, findIter_nil, List.length_drop]
    congr 1
    rw [List.range_eq_range', show (fun x => x + (p0 - S.maxLen)) = (fun x => (p0 - S.maxLen) + x) from funext fun x => Nat.add_comm _ _,
      List.map_add_range', Nat.add_zero]
  obtain ⟨r0, k1, k2⟩ := key (bytes.length - (p0 - S.maxLen) + 1) (p0 - S.maxLen) (by omega)
  rw [hcall, k1]
  constructor
  · intro h
    cases h
    exact k2
  · intro h
    congr 1
    rcases r0 with _ | ⟨c, v⟩ <;> rcases r with _ | ⟨c', v'⟩
    · rfl
    · obtain ⟨a1, a2, ⟨n, a3⟩, a4, _⟩ := h
      have := k2 c' n v' a1 a2 a3
      omega
    · obtain ⟨a1, a2, ⟨n, a3⟩, a4, _⟩ := k2
      have := h c n v a1 a2 a3
      omega
    · obtain ⟨a1, a2, ⟨n, a3⟩, a4, a5⟩ := k2
      obtain ⟨b1, b2, ⟨n', b3⟩, b4, b5⟩ := h
      rcases Nat.lt_trichotomy c c' with hlt | heq | hgt
      · have := b5 c n v a1 hlt a3; omega
      · subst heq
        rw [a3] at b3
        cases b3
        rfl
      · have := a5 c' n' v' b1 hgt b3; omega

end

/-! The case: records without a marker, a length byte and that many bytes. -/

/-- A record, as its length byte. -/
def recordRead : Bytes → Option (Nat × UInt8)
  | [] => none
  | n :: rest => if n.toNat ≤ rest.length then some (n.toNat + 1, n) else none

/-- Records without a marker. -/
def records : AnyMarker UInt8 where
  tryRead bs := .ok (recordRead bs)
  len n := n.toNat + 1
  maxLen := 256
  marker := []
  tryReadValidMarker bs := .ok (recordRead bs)

example : fallbackNextM records [1, 7, 0, 9] 2 = some (.ok (some (2, 0), 3)) ∧ fallbackNextM records [1, 7, 0, 9] 3 = some (.ok (none, 3)) := by
  constructor <;> (rw [C138_reader rfl _ _ (by decide)]; decide)

/-- A search that does not return: at position 3 there is no record. -/
example : searchNextM records [1, 7, 0, 9] 3 = none := ((C138_search (S := records) rfl [1, 7, 0, 9] (by decide) 3).2.2 (by decide)).2 (by decide)

example : searchNextM records [1, 7, 0, 9] 0 = some (.ok (some (0, 1), 2)) :=
  (C138_search (S := records) rfl [1, 7, 0, 9] (by decide) 0).2.1 2 1 (by decide) (by decide) (by decide)

example : revNextM records [1, 7, 0, 9] 2 = some (.ok (some (2, 0), 2)) ∧ revNextM records [1, 7, 0, 9] 4 = none :=
  ⟨(C138_rev (S := records) rfl [1, 7, 0, 9] (by decide) 2 (by decide)).1 1 0 (by decide) (by decide),
   ((C138_rev (S := records) rfl [1, 7, 0, 9] (by decide) 4 (by decide)).2.1 (by decide)).2 (by decide)⟩

/-- The byte 2 lies in the record that starts at 0, but also in the bytes 1 to 3, which look like a record: position 0 is first. -/
example : containedByM records [3, 2, 5, 5, 0] 2 3 = .ok (some (0, 3)) := by
  refine (C138_contained_by (S := records) rfl (fun _ => by simp [records]) _ (fun c n v hc h => ?_) 2 3 (by decide) (by decide) _).2 ?_
  · have hc' : c ≤ 5 := hc
    have : v.toNat < 256 := v.toNat_lt
    show c + (v.toNat + 1) ≤ usizeMax
    unfold usizeMax
    omega
  · exact ⟨by decide, by decide, ⟨4, by decide⟩, by decide, fun d n u h1 h2 h3 => absurd h2 (Nat.not_lt_zero d)⟩

end Verif
