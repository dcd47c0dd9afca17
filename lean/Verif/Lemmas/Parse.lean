import Verif.Spec.Wire

/-! # Lemmas about the DLT reader -/

set_option linter.unusedSimpArgs false

namespace Verif
open Spec

theorem u8_ofNat_toNat_mod (n : Nat) (h : n < 256) : (UInt8.ofNat n).toNat = n := by
  simp [UInt8.toNat_ofNat']; omega

theorem digit_eq (n k : Nat) (b : UInt8) (h : n / 256 ^ k % 256 = b.toNat) : digit n k = b := by
  unfold digit; rw [h]; simp

theorem be16_toNat (a b : UInt8) : (be16 a b).toNat = a.toNat * 256 + b.toNat := by
  have := a.toNat_lt; have := b.toNat_lt
  unfold be16; simp [UInt16.toNat_ofNat']; omega

theorem le32_toNat (x : B4) : (le32 x).toNat =
    ((x.b3.toNat * 256 + x.b2.toNat) * 256 + x.b1.toNat) * 256 + x.b0.toNat := by
  have := x.b0.toNat_lt; have := x.b1.toNat_lt; have := x.b2.toNat_lt; have := x.b3.toNat_lt
  unfold le32; simp [UInt32.toNat_ofNat']; omega

theorem be32_toNat (x : B4) : (be32 x).toNat =
    ((x.b0.toNat * 256 + x.b1.toNat) * 256 + x.b2.toNat) * 256 + x.b3.toNat := by
  have := x.b0.toNat_lt; have := x.b1.toNat_lt; have := x.b2.toNat_lt; have := x.b3.toNat_lt
  unfold be32; simp [UInt32.toNat_ofNat']; omega

theorem digit_toNat (n k : Nat) : (digit n k).toNat = n / 256 ^ k % 256 := by
  unfold digit; rw [u8_ofNat_toNat_mod]; exact Nat.mod_lt _ (by decide)

theorem be16_digit (x : UInt16) : be16 (digit x.toNat 1) (digit x.toNat 0) = x := by
  apply UInt16.toNat_inj.mp
  have := x.toNat_lt
  rw [be16_toNat, digit_toNat, digit_toNat]; omega

theorem le32_digit (x : UInt32) :
    le32 ⟨digit x.toNat 0, digit x.toNat 1, digit x.toNat 2, digit x.toNat 3⟩ = x := by
  apply UInt32.toNat_inj.mp
  have := x.toNat_lt
  rw [le32_toNat]; simp only [digit_toNat]; omega

theorem be32_digit (x : UInt32) :
    be32 ⟨digit x.toNat 3, digit x.toNat 2, digit x.toNat 1, digit x.toNat 0⟩ = x := by
  apply UInt32.toNat_inj.mp
  have := x.toNat_lt
  rw [be32_toNat]; simp only [digit_toNat]; omega

theorem digit_be16_0 (a b : UInt8) : digit (be16 a b).toNat 0 = b := by
  apply digit_eq; have := a.toNat_lt; have := b.toNat_lt; rw [be16_toNat]; omega
theorem digit_be16_1 (a b : UInt8) : digit (be16 a b).toNat 1 = a := by
  apply digit_eq; have := a.toNat_lt; have := b.toNat_lt; rw [be16_toNat]; omega

theorem digit_le32 (x : B4) : digit (le32 x).toNat 0 = x.b0 ∧ digit (le32 x).toNat 1 = x.b1 ∧
    digit (le32 x).toNat 2 = x.b2 ∧ digit (le32 x).toNat 3 = x.b3 := by
  have := x.b0.toNat_lt; have := x.b1.toNat_lt; have := x.b2.toNat_lt; have := x.b3.toNat_lt
  refine ⟨?_, ?_, ?_, ?_⟩ <;> apply digit_eq <;> rw [le32_toNat] <;> omega

theorem encode_length (e : StorageEntry) : (encode e).length = 20 + e.dlt.tail.length := by
  simp [encode]; omega

theorem encode_len (e : StorageEntry) (h : WF e) : (encode e).length = e.len := by
  have := h.2
  rw [encode_length]; simp only [StorageEntry.len, StdHeader.len]; omega

/-- Splitting a list of at least 20 bytes. -/
theorem split20 (bs : Bytes) (h : 20 ≤ bs.length) :
    ∃ b0 b1 b2 b3 b4 b5 b6 b7 b8 b9 b10 b11 b12 b13 b14 b15 b16 b17 b18 b19 rest,
      bs = b0 :: b1 :: b2 :: b3 :: b4 :: b5 :: b6 :: b7 :: b8 :: b9 :: b10 :: b11 :: b12 :: b13 ::
        b14 :: b15 :: b16 :: b17 :: b18 :: b19 :: rest := by
  iterate 20
    rcases bs with _ | ⟨_, bs⟩
    · simp at h
  exact ⟨_, _, _, _, _, _, _, _, _, _, _, _, _, _, _, _, _, _, _, _, _, rfl⟩

/-- `DltEntry::try_read` in closed form. -/
theorem dltTryRead_eq (bs : Bytes) : DltEntry.tryRead bs =
    .ok (if 4 ≤ bs.length ∧ 4 ≤ (be16 (byteAt bs 2) (byteAt bs 3)).toNat ∧
            (be16 (byteAt bs 2) (byteAt bs 3)).toNat ≤ bs.length then
          some ((be16 (byteAt bs 2) (byteAt bs 3)).toNat,
            ⟨⟨⟨byteAt bs 0⟩, byteAt bs 1, be16 (byteAt bs 2) (byteAt bs 3)⟩,
              (bs.take (be16 (byteAt bs 2) (byteAt bs 3)).toNat).drop 4⟩)
        else none) := by
  unfold DltEntry.tryRead StdHeader.refFromPrefix
  by_cases h4 : 4 ≤ bs.length
  · rw [if_pos h4]
    simp only [h4, true_and]
    by_cases h : 4 > (be16 (byteAt bs 2) (byteAt bs 3)).toNat ∨
        (be16 (byteAt bs 2) (byteAt bs 3)).toNat > bs.length
    · rw [if_pos h, if_neg (by omega)]
    · rw [if_neg h, if_pos (by omega)]
      simp only [slice]
      rw [if_pos (by simp only [StdHeader.size]; omega)]
  · simp [h4]

/-- The private `try_read` in closed form. -/
theorem tryReadRaw_eq (bs : Bytes) : StorageEntry.tryReadRaw bs =
    .ok (if 20 ≤ bs.length ∧ 4 ≤ (be16 (byteAt bs 18) (byteAt bs 19)).toNat ∧
            16 + (be16 (byteAt bs 18) (byteAt bs 19)).toNat ≤ bs.length then
          some (16 + (be16 (byteAt bs 18) (byteAt bs 19)).toNat,
            ⟨⟨b4At bs 0, le32 (b4At bs 4), (le32 (b4At bs 8)).toInt32, b4At bs 12⟩,
             ⟨⟨⟨byteAt bs 16⟩, byteAt bs 17, be16 (byteAt bs 18) (byteAt bs 19)⟩,
              (bs.take (16 + (be16 (byteAt bs 18) (byteAt bs 19)).toNat)).drop 20⟩⟩)
        else none) := by
  unfold StorageEntry.tryReadRaw StorageHeader.refFromPrefix
  by_cases h16 : 16 ≤ bs.length
  · simp only [h16, if_true, sliceFrom, StorageHeader.size, dltTryRead_eq]
    have hb : ∀ i, byteAt (bs.drop 16) i = byteAt bs (16 + i) := by
      intro i; simp [byteAt, List.getD_eq_getElem?_getD]
    simp only [hb, List.length_drop, Nat.reduceAdd]
    generalize (be16 (byteAt bs 18) (byteAt bs 19)) = x
    by_cases hc : 4 ≤ bs.length - 16 ∧ 4 ≤ x.toNat ∧ x.toNat ≤ bs.length - 16
    · rw [if_pos hc, if_pos (by omega)]
      have : List.drop 4 (List.take x.toNat (List.drop 16 bs)) =
          List.drop 20 (List.take (16 + x.toNat) bs) := by
        rw [List.take_drop, List.drop_drop]
      simp only [this]
    · rw [if_neg hc, if_neg (by omega)]
  · rw [if_neg h16, if_neg (by omega)]

theorem byteAt_append_left (a b : Bytes) (i : Nat) (h : i < a.length) :
    byteAt (a ++ b) i = byteAt a i := by
  simp [byteAt, List.getD_eq_getElem?_getD, List.getElem?_append_left h]

/-- Reading a buffer that starts with a serialised message. -/
theorem tryReadRaw_encode (e : StorageEntry) (rest : Bytes)
    (hl : e.dlt.header.length.toNat = 4 + e.dlt.tail.length) :
    StorageEntry.tryReadRaw (encode e ++ rest) = .ok (some ((encode e).length, e)) := by
  rw [tryReadRaw_eq]
  have h18 : be16 (byteAt (encode e ++ rest) 18) (byteAt (encode e ++ rest) 19) = e.dlt.header.length := by
    rw [← be16_digit e.dlt.header.length]; rfl
  rw [h18]
  have hlen := encode_length e
  rw [if_pos (by simp only [List.length_append]; omega)]
  have e1 : 16 + e.dlt.header.length.toNat = (encode e).length := by omega
  rw [e1]
  have ht : List.drop 20 (List.take (encode e).length (encode e ++ rest)) = e.dlt.tail := by
    rw [List.take_left]; rfl
  rw [ht]
  have hs : le32 (b4At (encode e ++ rest) 4) = e.storageHeader.secs := by
    rw [← le32_digit e.storageHeader.secs]; rfl
  have hm : le32 (b4At (encode e ++ rest) 8) = e.storageHeader.msecs.toUInt32 := by
    rw [← le32_digit e.storageHeader.msecs.toUInt32]; rfl
  rw [hs, hm]
  simp only [Int32.toInt32_toUInt32]
  rfl

/-- What a successful private `try_read` says about the buffer. -/
theorem tryReadRaw_some (bs : Bytes) (n : Nat) (e : StorageEntry)
    (h : StorageEntry.tryReadRaw bs = .ok (some (n, e))) :
    n = (encode e).length ∧ (∃ rest, bs = encode e ++ rest) ∧
      e.dlt.header.length.toNat = 4 + e.dlt.tail.length := by
  rw [tryReadRaw_eq] at h
  split at h
  · next hc =>
    obtain ⟨h20, hx4, hxl⟩ := hc
    simp only [Res.ok.injEq, Option.some.injEq, Prod.mk.injEq] at h
    obtain ⟨hn, he⟩ := h
    have htl : e.dlt.tail.length + 4 = (be16 (byteAt bs 18) (byteAt bs 19)).toNat := by
      rw [← he]; simp only [List.length_drop, List.length_take]; omega
    have hhl : e.dlt.header.length = be16 (byteAt bs 18) (byteAt bs 19) := by rw [← he]
    refine ⟨by rw [encode_length]; omega, ⟨bs.drop n, ?_⟩, by rw [hhl]; omega⟩
    obtain ⟨b0, b1, b2, b3, b4, b5, b6, b7, b8, b9, b10, b11, b12, b13, b14, b15, b16, b17, b18, b19,
      rest, rfl⟩ := split20 bs h20
    subst he
    have hb18 : byteAt (b0 :: b1 :: b2 :: b3 :: b4 :: b5 :: b6 :: b7 :: b8 :: b9 :: b10 :: b11 :: b12 ::
        b13 :: b14 :: b15 :: b16 :: b17 :: b18 :: b19 :: rest) 18 = b18 := rfl
    have hb19 : byteAt (b0 :: b1 :: b2 :: b3 :: b4 :: b5 :: b6 :: b7 :: b8 :: b9 :: b10 :: b11 :: b12 ::
        b13 :: b14 :: b15 :: b16 :: b17 :: b18 :: b19 :: rest) 19 = b19 := rfl
    rw [hb18, hb19] at hn hx4 hxl
    subst hn
    obtain ⟨k, hk⟩ : ∃ k, (be16 b18 b19).toNat = 4 + k := ⟨(be16 b18 b19).toNat - 4, by omega⟩
    simp only [encode, hb18, hb19, digit_be16_0, digit_be16_1, UInt32.toUInt32_toInt32]
    have hl4 := digit_le32 ⟨b4, b5, b6, b7⟩
    have hl8 := digit_le32 ⟨b8, b9, b10, b11⟩
    have e4 : b4At (b0 :: b1 :: b2 :: b3 :: b4 :: b5 :: b6 :: b7 :: b8 :: b9 :: b10 :: b11 :: b12 ::
        b13 :: b14 :: b15 :: b16 :: b17 :: b18 :: b19 :: rest) 4 = ⟨b4, b5, b6, b7⟩ := rfl
    have e8 : b4At (b0 :: b1 :: b2 :: b3 :: b4 :: b5 :: b6 :: b7 :: b8 :: b9 :: b10 :: b11 :: b12 ::
        b13 :: b14 :: b15 :: b16 :: b17 :: b18 :: b19 :: rest) 8 = ⟨b8, b9, b10, b11⟩ := rfl
    rw [e4, e8, hl4.1, hl4.2.1, hl4.2.2.1, hl4.2.2.2, hl8.1, hl8.2.1, hl8.2.2.1, hl8.2.2.2]
    rw [hk]
    have : 16 + (4 + k) = k + 1+1+1+1+1+1+1+1+1+1+1+1+1+1+1+1+1+1+1+1 := by omega
    rw [this]
    simp only [List.take_succ_cons, List.drop_succ_cons, List.cons_append, List.nil_append,
      List.drop_zero, List.take_append_drop]
    rfl
  · simp at h

/-- The marker check of `try_read`. -/
theorem tryRead_eq (bs : Bytes) : StorageEntry.tryRead bs =
    if dltMarker <+: bs then StorageEntry.tryReadRaw bs else .ok none := by
  unfold StorageEntry.tryRead
  by_cases h4 : bs.length < 4
  · rw [if_pos h4, if_neg]
    rintro ⟨t, rfl⟩
    simp [dltMarker] at h4; omega
  · rw [if_neg h4]
    have hs : slice bs 0 4 = .ok (bs.take 4) := by
      unfold slice; rw [if_pos (by omega)]; simp
    rw [hs]
    by_cases h : bs.take 4 = [0x44, 0x4C, 0x54, 0x01]
    · simp only [h, ne_eq, not_true, if_false]
      rw [if_pos]
      rw [List.prefix_iff_eq_take]; exact h.symm
    · simp only [ne_eq, h, not_false_iff, if_true]
      rw [if_neg]
      intro hp; rw [List.prefix_iff_eq_take] at hp; exact h hp.symm

end Verif
