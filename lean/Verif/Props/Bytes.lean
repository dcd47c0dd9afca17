import Verif.Lemmas.DdDlt

/-! # C59: the headers as bytes -/

namespace Verif

open Spec

/-- A list of at least four elements. -/
theorem cons4 (bs : Bytes) (h : 4 ≤ bs.length) : ∃ a b c d r, bs = a :: b :: c :: d :: r := by
  match bs, h with
  | a :: b :: c :: d :: r, _ => exact ⟨a, b, c, d, r, rfl⟩

/-- **C59** reading a standard header: exactly the slices that start with its bytes. -/
theorem C59_standard_header (bs : Bytes) (h : StdHeader) : StdHeader.refFromPrefix bs = some h ↔ h.asBytes <+: bs := by
  unfold StdHeader.refFromPrefix StdHeader.asBytes
  rw [encBE16_digit]
  constructor
  · intro hr
    split at hr
    · next hl =>
      obtain ⟨a, b, c, d, r, rfl⟩ := cons4 bs hl
      cases hr
      refine ⟨r, ?_⟩
      simp only [byteAt, List.getD_cons_zero, List.getD_cons_succ, digit_be16_0, digit_be16_1]
      rfl
    · cases hr
  · rintro ⟨r, rfl⟩
    rw [if_pos (by simp)]
    simp only [byteAt, List.cons_append, List.nil_append, List.getD_cons_zero, List.getD_cons_succ, be16_digit]

/-- **C59** the same for the extended header. -/
theorem C59_extended_header (bs : Bytes) (h : ExtHeader) : ExtHeader.refFromPrefix bs = some h ↔ h.asBytes <+: bs := by
  unfold ExtHeader.refFromPrefix ExtHeader.asBytes
  constructor
  · intro hr
    split at hr
    · next hl =>
      obtain ⟨a, b, c, d, r, rfl⟩ := cons4 bs (by omega)
      obtain ⟨e, f, g, i, r, rfl⟩ := cons4 r (by simp at hl; omega)
      match r, hl with
      | x :: y :: r, _ =>
        cases hr
        exact ⟨r, rfl⟩
    · cases hr
  · rintro ⟨r, rfl⟩
    rw [if_pos (by simp [B4.toBytes])]
    rfl

/-- **C59** the same for the storage header. -/
theorem C59_storage_header (bs : Bytes) (h : StorageHeader) : StorageHeader.refFromPrefix bs = some h ↔ h.asBytes <+: bs := by
  unfold StorageHeader.refFromPrefix StorageHeader.asBytes
  rw [encLE32_digit, encLE32_digit]
  constructor
  · intro hr
    split at hr
    · next hl =>
      obtain ⟨a, b, c, d, r, rfl⟩ := cons4 bs (by omega)
      obtain ⟨e, f, g, i, r, rfl⟩ := cons4 r (by simp at hl; omega)
      obtain ⟨j, k, l, m, r, rfl⟩ := cons4 r (by simp at hl; omega)
      obtain ⟨n, o, p, q, r, rfl⟩ := cons4 r (by simp at hl; omega)
      cases hr
      refine ⟨r, ?_⟩
      have h1 := digit_le32 ⟨e, f, g, i⟩
      have h2 := digit_le32 ⟨j, k, l, m⟩
      dsimp only at h1 h2
      have h3 : (le32 ⟨j, k, l, m⟩).toInt32.toUInt32 = le32 ⟨j, k, l, m⟩ := rfl
      simp only [b4At, byteAt, List.getD_cons_zero, List.getD_cons_succ, h3,
        h1.1, h1.2.1, h1.2.2.1, h1.2.2.2, h2.1, h2.2.1, h2.2.2.1, h2.2.2.2]
      rfl
    · cases hr
  · rintro ⟨r, rfl⟩
    rw [if_pos (by simp [B4.toBytes])]
    simp only [b4At, byteAt, B4.toBytes, List.cons_append, List.nil_append, List.getD_cons_zero, List.getD_cons_succ, le32_digit]
    simp

/-- **C59** what the constructors and `as_bytes` produce has the layout of the wire format: the bytes of a stored
message are those of its headers followed by the rest. -/
theorem C59_as_bytes_is_wire_format (sh : StorageHeader) (h : StdHeader) (tail : Bytes) :
    encode ⟨sh, h, tail⟩ = sh.asBytes ++ (h.asBytes ++ tail) := encode_asBytes sh h tail

example : (StdHeader.new (HTyp.new true false false false true 1) 7 300).asBytes = [0x31, 7, 1, 44] := by decide

end Verif
