import Verif.Model.Process
import Verif.Props.Utf8
import Verif.Lemmas.Text

set_option linter.unusedSimpArgs false

/-! # UTF-8 as Rust checks it is UTF-8 as Lean encodes it -/

namespace Verif

open Spec

theorem u8_ofNat_toNat' {n : Nat} (h : n < 256) : (UInt8.ofNat n).toNat = n := by
  rw [UInt8.toNat_ofNat']
  exact Nat.mod_eq_of_lt h

theorem utf8_encodeChar (c : Char) {rest : Bytes} (h : Utf8 rest) : Utf8 (String.utf8EncodeChar c ++ rest) := by
  have hv : c.val.toNat < 0xD800 ∨ (0xDFFF < c.val.toNat ∧ c.val.toNat < 0x110000) := c.valid
  unfold String.utf8EncodeChar
  simp only
  generalize c.val.toNat = v at hv ⊢
  split
  · exact .one v (by omega) (u8_ofNat_toNat' (by omega)) h
  · split
    · refine .two v (by omega) (by omega) ?_ ?_ h
      · rw [u8_ofNat_toNat' (by omega)]; omega
      · rw [u8_ofNat_toNat' (by omega)]; omega
    · split
      · refine .three v (by omega) (by omega) (by omega) ?_ ?_ ?_ h
        · rw [u8_ofNat_toNat' (by omega)]; omega
        · rw [u8_ofNat_toNat' (by omega)]; omega
        · rw [u8_ofNat_toNat' (by omega)]; omega
      · refine .four v (by omega) (by omega) ?_ ?_ ?_ ?_ h
        · rw [u8_ofNat_toNat' (by omega)]; omega
        · rw [u8_ofNat_toNat' (by omega)]; omega
        · rw [u8_ofNat_toNat' (by omega)]; omega
        · rw [u8_ofNat_toNat' (by omega)]; omega

theorem u8_eq_ofNat {a : UInt8} {n : Nat} (h : a.toNat = n) : a = UInt8.ofNat n := by
  rw [← h]; exact (UInt8.ofNat_toNat).symm

theorem char_of {v : Nat} (h : v < 0xD800 ∨ (0xDFFF < v ∧ v < 0x110000)) : ∃ c : Char, c.val.toNat = v := by
  refine ⟨Char.ofNat v, ?_⟩
  have hv : v.isValidChar := h
  rw [Char.ofNat, dif_pos hv]
  rfl

theorem utf8_iff_chars (bs : Bytes) : Utf8 bs ↔ ∃ l : List Char, l.flatMap String.utf8EncodeChar = bs := by
  constructor
  · intro h
    induction h with
    | nil => exact ⟨[], rfl⟩
    | one v h1 h2 _ ih =>
      obtain ⟨l, rfl⟩ := ih
      obtain ⟨c, hc⟩ := char_of (v := v) (by omega)
      refine ⟨c :: l, ?_⟩
      rw [List.flatMap_cons, String.utf8EncodeChar]
      simp only [hc]
      rw [if_pos (by omega), u8_eq_ofNat h2]
      rfl
    | two v h1 h2 h3 h4 _ ih =>
      obtain ⟨l, rfl⟩ := ih
      obtain ⟨c, hc⟩ := char_of (v := v) (by omega)
      refine ⟨c :: l, ?_⟩
      rw [List.flatMap_cons, String.utf8EncodeChar]
      simp only [hc]
      rw [if_neg (by omega), if_pos (by omega), u8_eq_ofNat h3, u8_eq_ofNat h4,
        show v / 64 % 32 + 192 = 192 + v / 64 by omega, Nat.add_comm (v % 64)]
      rfl
    | three v h1 h2 h3 h4 h5 h6 _ ih =>
      obtain ⟨l, rfl⟩ := ih
      obtain ⟨c, hc⟩ := char_of (v := v) (by omega)
      refine ⟨c :: l, ?_⟩
      rw [List.flatMap_cons, String.utf8EncodeChar]
      simp only [hc]
      rw [if_neg (by omega), if_neg (by omega), if_pos (by omega), u8_eq_ofNat h4, u8_eq_ofNat h5, u8_eq_ofNat h6,
        show v / 4096 % 16 + 224 = 224 + v / 4096 by omega, Nat.add_comm (v % 64), Nat.add_comm (v / 64 % 64)]
      rfl
    | four v h1 h2 h3 h4 h5 h6 _ ih =>
      obtain ⟨l, rfl⟩ := ih
      obtain ⟨c, hc⟩ := char_of (v := v) (by omega)
      refine ⟨c :: l, ?_⟩
      rw [List.flatMap_cons, String.utf8EncodeChar]
      simp only [hc]
      rw [if_neg (by omega), if_neg (by omega), if_neg (by omega), u8_eq_ofNat h3, u8_eq_ofNat h4, u8_eq_ofNat h5,
        u8_eq_ofNat h6, show v / 262144 % 8 + 240 = 240 + v / 262144 by omega, Nat.add_comm (v % 64),
        Nat.add_comm (v / 64 % 64), Nat.add_comm (v / 4096 % 64)]
      rfl
  · rintro ⟨l, rfl⟩
    induction l with
    | nil => exact .nil
    | cons c l ih => rw [List.flatMap_cons]; exact utf8_encodeChar c ih

/-- Exactly the encodings of strings are well-formed. -/
theorem utf8_iff_string (bs : Bytes) : Utf8 bs ↔ ∃ s : String, utf8 s = bs := by
  rw [utf8_iff_chars]
  constructor
  · rintro ⟨l, rfl⟩
    exact ⟨String.ofList l, by rw [utf8, String.toList_ofList]⟩
  · rintro ⟨s, rfl⟩
    exact ⟨s.toList, rfl⟩

theorem utf8_inj {s t : String} (h : utf8 s = utf8 t) : s = t := by
  have h1 : s.toList.utf8Encode = t.toList.utf8Encode := by
    unfold List.utf8Encode
    exact congrArg _ h
  have h2 : String.ofList s.toList = String.ofList t.toList := by
    rw [← String.toByteArray_inj, String.toByteArray_ofList, String.toByteArray_ofList]
    exact h1
  rwa [String.ofList_toList, String.ofList_toList] at h2

end Verif
