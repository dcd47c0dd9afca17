import Verif.Model.BuildRev
import Verif.Props.Search

/-! # C146: `RevSearchIterator` on 32-bit machines -/

set_option linter.unusedSimpArgs false

namespace Verif

open Spec

section
variable {T : Type} {S : SearchableMarker T} {bytes : Bytes}

theorem revSearchTo_eq {max off : Nat} (h1 : off ≠ max) (h2 : off ≠ usizeMax) :
    revSearchTo max S bytes off = revSearch S bytes off := by
  unfold revSearchTo revSearch
  by_cases h : off > bytes.length
  · rw [if_pos (Or.inl h), if_pos (Or.inl h)]
  · rw [if_neg (by simp only [not_or]; exact ⟨h, h1⟩), if_neg (by simp only [not_or]; exact ⟨h, h2⟩)]
    rfl

/-- With 64 bits it is the iterator of Model/Iter.lean. -/
theorem revNextTo_64 (bytes : Bytes) (off : Nat) : revNextTo usizeMax S bytes off = revNext S bytes off := by
  induction off using Nat.strongRecOn with
  | ind off ih =>
    have hs : revSearchTo usizeMax S bytes off = revSearch S bytes off := by
      unfold revSearchTo revSearch; rfl
    rw [revNextTo, revNext, hs]
    cases revSearch S bytes off with
    | panic => rfl
    | ok o =>
      cases o with
      | some p => rfl
      | none =>
        dsimp only
        split
        · rename_i h
          split
          · rfl
          · have := S.marker_pos
            exact ih _ (by omega)
        · rfl

theorem revSearch_offset {off o : Nat} {v : T} (h : revSearch S bytes off = .ok (some (o, v))) : o ≤ bytes.length := by
  unfold revSearch at h
  split at h
  · cases h
  · split at h
    · cases h
    · split at h
      · cases h
      · split at h
        · cases h
        · rename_i c _ _ t' hc
          have hc' : c ≤ bytes.length := by
            unfold sliceFrom at hc
            by_cases hle : c ≤ bytes.length
            · exact hle
            · rw [if_neg hle] at hc; cases hc
          split at h
          · cases h
          · cases h
          · cases h
            exact hc'

/-- What one call returns on two machines. -/
def RevAgree (max : Nat) : Res (Option (Nat × T) × Nat) → Res (Option (Nat × T) × Nat) → Prop
  | .ok (o, a), .ok (o', b) => o = o' ∧ ((o.isSome ∧ a = b ∧ a < max) ∨ (o = none ∧ a = max ∧ b = usizeMax))
  | .panic, .panic => True
  | _, _ => False

theorem revNextTo_agree {max : Nat} (hmax : max ≤ usizeMax) (hlen : bytes.length < max) (off : Nat) (hoff : off < max) :
    RevAgree max (revNextTo max S bytes off) (revNext S bytes off) := by
  induction off using Nat.strongRecOn with
  | ind off ih =>
    rw [revNextTo, revNext, revSearchTo_eq (by omega) (by omega)]
    cases hs : revSearch S bytes off with
    | panic => trivial
    | ok o =>
      cases o with
      | some p =>
        obtain ⟨o, v⟩ := p
        have := revSearch_offset hs
        exact ⟨rfl, Or.inl ⟨rfl, rfl, by omega⟩⟩
      | none =>
        dsimp only
        have hp := S.marker_pos
        by_cases h : S.marker.length ≤ off
        · rw [dif_pos h, dif_pos h, if_neg (by omega), if_neg (by omega)]
          exact ih _ (by omega) (by omega)
        · rw [dif_neg h, dif_neg h]
          exact ⟨rfl, Or.inr ⟨rfl, rfl, rfl⟩⟩

end

theorem revNextTo_end {bytes : Bytes} (hlen : bytes.length < 2 ^ 31) :
    RevAgree (2 ^ 32 - 1) (revNextTo (2 ^ 32 - 1) dltStorage bytes (2 ^ 32 - 1)) (revNext dltStorage bytes usizeMax) := by
  have h4 : dltStorage.marker.length = 4 := rfl
  have h1 : revNextTo (2 ^ 32 - 1) dltStorage bytes (2 ^ 32 - 1) = revNextTo (2 ^ 32 - 1) dltStorage bytes (2 ^ 32 - 5) := by
    rw [revNextTo]
    have hs : revSearchTo (2 ^ 32 - 1) dltStorage bytes (2 ^ 32 - 1) = .ok none := by
      unfold revSearchTo; rw [if_pos (Or.inr rfl)]
    simp only [hs, h4]
    rw [dif_pos (by decide), if_neg (by decide)]
  have h2 : revNext dltStorage bytes usizeMax = revNext dltStorage bytes (2 ^ 32 - 5) := by
    have h3 := revNext_down bytes (2 ^ 32 - 5) (by omega) (2 ^ 62 - 2 ^ 30 + 1) (by decide)
    rw [show 2 ^ 32 - 5 + 4 * (2 ^ 62 - 2 ^ 30 + 1) = usizeMax by decide] at h3
    exact h3
  rw [h1, h2]
  exact revNextTo_agree (by decide) (by omega) _ (by decide)

/-- **C146** one call of `RevSearchIterator::next` of a 32-bit build returns what a 64-bit build returns, from every position
but the last, for every type with a marker. Afterwards both are at the same position, or, after `None`, at their `usize::MAX`. -/
theorem C146_reverse {T : Type} (S : SearchableMarker T) {bytes : Bytes} (hF : bytes.length < 2 ^ 31) (off : Nat)
    (hoff : off < 2 ^ 32 - 1) :
    (revNextTo (2 ^ 32 - 1) S bytes off = .panic ∧ revNext S bytes off = .panic) ∨
    ∃ (o : Option (Nat × T)) (a b : Nat), revNextTo (2 ^ 32 - 1) S bytes off = .ok (o, a) ∧ revNext S bytes off = .ok (o, b) ∧
      ((o.isSome ∧ a = b) ∨ (o = none ∧ a = 2 ^ 32 - 1 ∧ b = 2 ^ 64 - 1)) := by
  have h := revNextTo_agree (S := S) (bytes := bytes) (max := 2 ^ 32 - 1) (by decide) (by omega) off hoff
  generalize revNextTo (2 ^ 32 - 1) S bytes off = x at h ⊢
  generalize revNext S bytes off = y at h ⊢
  rcases x with ⟨o, a⟩ | _ <;> rcases y with ⟨o', b⟩ | _
  · obtain ⟨rfl, h1⟩ := h
    refine Or.inr ⟨o, a, b, rfl, rfl, h1.imp (fun h => ⟨h.1, h.2.1⟩) id⟩
  · exact h.elim
  · exact h.elim
  · exact Or.inl ⟨rfl, rfl⟩

/-- **C146** however often a `RevSearchIterator` over DLT messages is asked, also after `None`, a 32-bit build returns what a
64-bit build returns. -/
theorem C146_reverse_asked {bytes : Bytes} (hF : bytes.length < 2 ^ 31) (n off : Nat) (hoff : off < 2 ^ 32 - 1) :
    revAskTo (2 ^ 32 - 1) dltStorage bytes n off = revAskTo (2 ^ 64 - 1) dltStorage bytes n off := by
  have key : ∀ (n a b : Nat), (a = b ∧ a < 2 ^ 32 - 1) ∨ (a = 2 ^ 32 - 1 ∧ b = usizeMax) →
      revAskTo (2 ^ 32 - 1) dltStorage bytes n a = revAskTo usizeMax dltStorage bytes n b := by
    intro n
    induction n with
    | zero => intro a b _; rfl
    | succ n ih =>
      intro a b hab
      have h : RevAgree (2 ^ 32 - 1) (revNextTo (2 ^ 32 - 1) dltStorage bytes a) (revNext dltStorage bytes b) := by
        rcases hab with ⟨rfl, h⟩ | ⟨rfl, rfl⟩
        · exact revNextTo_agree (by decide) (by omega) a h
        · exact revNextTo_end hF
      rw [revAskTo, revAskTo, revNextTo_64]
      generalize revNextTo (2 ^ 32 - 1) dltStorage bytes a = x at h ⊢
      generalize revNext dltStorage bytes b = y at h ⊢
      rcases x with ⟨o, a'⟩ | _ <;> rcases y with ⟨o', b'⟩ | _
      · obtain ⟨rfl, h1⟩ := h
        show _ :: _ = _ :: _
        rw [ih a' b' (h1.imp (fun h => h.2) fun h => h.2)]
      · exact h.elim
      · exact h.elim
      · rfl
  exact key n off off (Or.inl ⟨rfl, hoff⟩)

/-- One message; asked twice in front of it, the iterator of a 32-bit build says there is nothing, and then finds it. -/
example : revAskTo (2 ^ 32 - 1) dltStorage (encode msg0) 2 0 = [.ok none, .ok (some (0, msg0))] := by
  obtain ⟨h1, h2⟩ := C21_rev_search_not_fused
  rw [C146_reverse_asked (by decide) 2 0 (by decide), show 2 ^ 64 - 1 = usizeMax from rfl, revAskTo, revNextTo_64, h1]
  show _ :: revAskTo usizeMax dltStorage (encode msg0) 1 usizeMax = _
  rw [revAskTo, revNextTo_64, h2]
  rfl

end Verif
