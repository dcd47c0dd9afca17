import Verif.Model.AnyMarker
import Verif.Lemmas.Contain

/-! # Markers that may be empty -/

set_option linter.unusedSimpArgs false
set_option linter.unusedVariables false

namespace Verif

/-! ## For a marker that is not empty it is the model of `Model/Iter.lean` and `Model/Partition.lean` -/

section
variable {T : Type} (S : SearchableMarker T)

theorem any_marker : S.any.marker = S.marker := rfl
theorem any_read : S.any.tryReadValidMarker = S.tryReadValidMarker := rfl
theorem any_tryRead : S.any.tryRead = S.tryRead := rfl
theorem any_len : S.any.len = S.len := rfl
theorem any_maxLen : S.any.maxLen = S.maxLen := rfl
theorem any_search (bytes : Bytes) (off : Nat) : searchSearchM S.any bytes off = searchSearch S bytes off := rfl
theorem any_revSearch (bytes : Bytes) (off : Nat) : revSearchM S.any bytes off = revSearch S bytes off := rfl

theorem fallbackNextM_eq (bytes : Bytes) (offset : Nat) :
    fallbackNextM S.any bytes offset = some (readFallbackNext S bytes offset) := by
  fun_induction readFallbackNext S bytes offset <;> rw [fallbackNextM] <;> simp_all [any_marker, any_read, searchMarker] <;> omega

theorem searchNextM_eq (bytes : Bytes) (self : Nat) : searchNextM S.any bytes self = some (searchNext S bytes self) := by
  fun_induction searchNext S bytes self <;> rw [searchNextM] <;> simp_all [any_marker, any_search, any_len] <;> omega

theorem revNextM_eq (bytes : Bytes) (self : Nat) : revNextM S.any bytes self = some (revNext S bytes self) := by
  induction self using Nat.strongRecOn with
  | _ self ih =>
    have hm := S.marker_pos
    rw [revNextM, revNext, any_revSearch]
    rcases revSearch S bytes self with o | _
    · rcases o with _ | ⟨off, t⟩
      · simp only
        by_cases h : S.marker.length ≤ self
        · rw [if_pos (show S.any.marker.length ≤ self from h), dif_pos h]
          by_cases h' : self - S.marker.length = usizeMax
          · rw [if_pos (show self - S.any.marker.length = usizeMax from h'), if_pos h']
            rfl
          · rw [if_neg (show ¬ self - S.any.marker.length = usizeMax from h'), if_neg h', ← ih _ (by omega)]
            rfl
        · rw [if_neg (show ¬ S.any.marker.length ≤ self from h), dif_neg h]
      · rfl
    · rfl

theorem containedByM_eq (bytes : Bytes) (p0 : Nat) : (∀ p1, containedByM S.any bytes p0 p1 = containedBy S bytes p0 p1) ∧
    ∀ p1 cs, containedByLoopM S.any bytes p0 p1 cs = containedByLoop S bytes p0 p1 cs := by
  induction p0 using Nat.strongRecOn with
  | _ p0 ih =>
    have hl : ∀ p1 cs, containedByLoopM S.any bytes p0 p1 cs = containedByLoop S bytes p0 p1 cs := by
      intro p1 cs
      induction cs with
      | nil => rw [containedByLoopM, containedByLoop]
      | cons c cs ihc =>
        rw [containedByLoopM, containedByLoop]
        by_cases hc : c ≥ p0
        · rw [dif_pos hc, dif_pos hc]
        · rw [dif_neg hc, dif_neg hc, any_tryRead, any_len, any_marker, (ih c (by omega)).1, ihc]
          rfl
    refine ⟨fun p1 => ?_, hl⟩
    rw [containedByM, containedBy]
    simp only [any_marker, any_maxLen, hl]
    rfl

end

/-! ## The empty marker -/

theorem find_nil (bs : Bytes) : find [] bs = some 0 := by cases bs <;> rfl

theorem rfind_nil (bs : Bytes) : rfind [] bs = some bs.length := by
  induction bs with
  | nil => rfl
  | cons b bs ih => rw [rfind, ih]; rfl

theorem findIterAux_nil (bs : Bytes) (pos : Nat) : findIterAux [] 0 pos bs = List.range' pos (bs.length + 1) := by
  induction bs generalizing pos with
  | nil => rfl
  | cons b bs ih =>
    rw [findIterAux, if_pos (show ([] : Bytes).isPrefixOf (b :: bs) = true from rfl)]
    show pos :: findIterAux [] 0 (pos + 1) bs = _
    rw [ih]
    rfl

theorem findIter_nil (bs : Bytes) : findIter [] bs = List.range (bs.length + 1) := by
  rw [findIter, findIterAux_nil, List.range_eq_range']

end Verif
