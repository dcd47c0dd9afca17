import Verif.Spec.Layout
import Verif.Props.Header
import Verif.Props.Parse

/-! # C08–C10: optional fields, extended header, payload -/

set_option linter.unusedSimpArgs false

namespace Verif
open Spec

/-- The messages `DltEntry::try_read` can return. -/
def ReadableEntry (e : DltEntry) : Prop := ∃ bs n, DltEntry.tryRead bs = .ok (some (n, e))

theorem readable_iff (e : DltEntry) : ReadableEntry e ↔ WFDlt e := by
  constructor
  · rintro ⟨bs, n, h⟩; exact ((C02_dlt_entry_read_iff _ _ _).1 h).1
  · intro h; exact ⟨_, _, (C02_dlt_entry_read_iff (encodeDlt e) _ e).2 ⟨h, rfl, List.prefix_rfl⟩⟩

theorem flag_ext (e : DltEntry) : e.header.headerType.isExtendedHeader = flag e 0 := by
  rw [(C05_accessors_are_bits e.header.headerType).1]; simp [flag]
theorem flag_ecu (e : DltEntry) : e.header.headerType.isWithEcuId = flag e 2 := by
  rw [(C05_accessors_are_bits e.header.headerType).2.2.1]; simp [flag]
theorem flag_ses (e : DltEntry) : e.header.headerType.isWithSessionId = flag e 3 := by
  rw [(C05_accessors_are_bits e.header.headerType).2.2.2.1]; simp [flag]
theorem flag_tim (e : DltEntry) : e.header.headerType.isWithTimestamp = flag e 4 := by
  rw [(C05_accessors_are_bits e.header.headerType).2.2.2.2.1]; simp [flag]

theorem optOffset_eq (e : DltEntry) : e.optOffset = optLen e := by
  simp only [DltEntry.optOffset, flag_ecu, flag_ses, flag_tim, optLen, four]
  cases flag e 2 <;> cases flag e 3 <;> cases flag e 4 <;> rfl

theorem split4 (bs : Bytes) (h : 4 ≤ bs.length) : ∃ a b c d rest, bs = a :: b :: c :: d :: rest := by
  iterate 4
    rcases bs with _ | ⟨_, bs⟩
    · simp at h
  exact ⟨_, _, _, _, _, rfl⟩

theorem be32_beVal (a b c d : UInt8) : (be32 ⟨a, b, c, d⟩).toNat = beVal a b c d := by
  rw [be32_toNat]; simp only [beVal]; omega

theorem u32RefFromPrefix_iff (bs : Bytes) (t : UInt32) :
    u32RefFromPrefix bs = some t ↔ BeAt bs 0 t := by
  unfold u32RefFromPrefix
  constructor
  · intro h
    split at h
    · next h4 =>
      obtain ⟨a, b, c, d, rest, rfl⟩ := split4 bs h4
      simp only [Option.some.injEq] at h
      refine ⟨[], a, b, c, d, rest, rfl, rfl, ?_⟩
      rw [← h, ← be32_beVal]; rfl
    · simp at h
  · rintro ⟨pre, a, b, c, d, post, rfl, hp, ht⟩
    have : pre = [] := List.length_eq_zero_iff.1 hp
    subst this
    rw [if_pos (by simp)]
    have : be32 (b4At ([] ++ [a, b, c, d] ++ post) 0) = t := by
      apply UInt32.toNat_inj.1
      rw [ht, ← be32_beVal]; rfl
    rw [this]

theorem beAt_drop (bs : Bytes) (i : Nat) (t : UInt32) (h : i ≤ bs.length) :
    BeAt (bs.drop i) 0 t ↔ BeAt bs i t := by
  constructor
  · rintro ⟨pre, a, b, c, d, post, he, hp, ht⟩
    refine ⟨bs.take i, a, b, c, d, post, ?_, by simp; omega, ht⟩
    have : pre = [] := List.length_eq_zero_iff.1 hp
    subst this
    rw [List.append_assoc, ← List.nil_append ([a,b,c,d] ++ post), ← List.append_assoc [] _ _, ← he,
      List.take_append_drop]
  · rintro ⟨pre, a, b, c, d, post, rfl, hp, ht⟩
    refine ⟨[], a, b, c, d, post, ?_, rfl, ht⟩
    rw [List.append_assoc, ← hp, List.drop_left]; rfl

/-! ## C08 -/

/-- A complete stored message whose ECU flag is set although the tail is empty. -/
def msgNoEcu : StorageEntry :=
  ⟨⟨⟨68, 76, 84, 1⟩, 0, 0, ⟨0, 0, 0, 0⟩⟩, ⟨⟨⟨0x24⟩, 0, 4⟩, []⟩⟩

/-- **C08 (violated)** there is a stored message that `try_read` accepts and on which `ecu_id()` panics. -/
theorem C08_ecu_id_can_panic : ∃ bs n e, StorageEntry.tryRead bs = .ok (some (n, e)) ∧
    e.dlt.ecuId = .panic :=
  ⟨_, _, msgNoEcu, C02_round_trip msgNoEcu (by decide) [], by decide⟩

/-- **C08 (partial)** exactly: no flag gives `None`; flag and at least four tail bytes give the big-endian
number in them; flag and a shorter tail panics. -/
theorem C08_ecu_id_exact_partial (e : DltEntry) :
    (flag e 2 = false → e.ecuId = .ok none) ∧
    (flag e 2 = true → 4 ≤ e.tail.length → ∃ t, e.ecuId = .ok (some t) ∧ BeAt e.tail 0 t) ∧
    (flag e 2 = true → (e.ecuId = .panic ↔ e.tail.length < 4)) := by
  have hf := flag_ecu e
  refine ⟨?_, ?_, ?_⟩
  · intro h; simp [DltEntry.ecuId, hf, h]
  · intro h h4
    obtain ⟨a, b, c, d, rest, ht⟩ := split4 _ h4
    have hu : u32RefFromPrefix [a, b, c, d] = some (be32 ⟨a, b, c, d⟩) := rfl
    refine ⟨be32 ⟨a, b, c, d⟩, ?_, ⟨[], a, b, c, d, rest, ht, rfl, be32_beVal _ _ _ _⟩⟩
    simp [DltEntry.ecuId, hf, h, sliceTo, ht, hu]
  · intro h
    simp only [DltEntry.ecuId, hf, h, if_true, sliceTo]
    by_cases h4 : 4 ≤ e.tail.length
    · simp [h4]
    · simp [h4]; omega

example : ReadableEntry msg1.dlt ∧ flag msg1.dlt 2 = true ∧ 4 ≤ msg1.dlt.tail.length :=
  ⟨(readable_iff _).2 (by decide +kernel : msg1.dlt.header.length.toNat = _), by decide, by decide⟩

/-! ## C09 -/

/-- **C09** `timestamp()` never panics and returns exactly the timestamp field. -/
theorem C09_timestamp (e : DltEntry) :
    ∃ r, e.timestamp = .ok r ∧
      ∀ t, r = some t ↔ flag e 4 = true ∧ BeAt e.tail (four (flag e 2) + four (flag e 3)) t := by
  unfold DltEntry.timestamp
  have hoff : (let offset := 0
    let offset := if e.header.headerType.isWithEcuId then offset + 4 else offset
    if e.header.headerType.isWithSessionId then offset + 4 else offset) =
      four (flag e 2) + four (flag e 3) := by
    rw [flag_ecu, flag_ses]; cases flag e 2 <;> cases flag e 3 <;> rfl
  rw [flag_tim]
  simp only at hoff
  simp only [hoff]
  generalize four (flag e 2) + four (flag e 3) = o
  cases hf : flag e 4
  · exact ⟨none, by simp, by simp⟩
  · simp only [if_true, true_and]
    by_cases ho : o > e.tail.length
    · refine ⟨none, by simp [ho], ?_⟩
      intro t
      simp only [reduceCtorEq, false_iff]
      rintro ⟨pre, a, b, c, d, post, he, hp, -⟩
      have := congrArg List.length he
      simp at this; omega
    · rw [if_neg ho]
      simp only [sliceFrom]
      rw [if_pos (by omega)]
      refine ⟨_, rfl, fun t => ?_⟩
      rw [u32RefFromPrefix_iff, beAt_drop _ _ _ (by omega)]

/-- **C09** the timestamp is `Some` exactly when flagged and fully present. -/
theorem C09_timestamp_some_iff (e : DltEntry) :
    (∃ t, e.timestamp = .ok (some t)) ↔
      flag e 4 = true ∧ four (flag e 2) + four (flag e 3) + 4 ≤ e.tail.length := by
  obtain ⟨r, hr, h⟩ := C09_timestamp e
  rw [hr]
  constructor
  · rintro ⟨t, ht⟩
    rw [Res.ok.injEq] at ht
    obtain ⟨hf, pre, a, b, c, d, post, he, hp, -⟩ := (h t).1 ht
    refine ⟨hf, ?_⟩
    rw [he]; simp; omega
  · rintro ⟨hf, hl⟩
    obtain ⟨a, b, c, d, rest, he⟩ := split4 (e.tail.drop (four (flag e 2) + four (flag e 3)))
      (by rw [List.length_drop]; omega)
    refine ⟨be32 ⟨a, b, c, d⟩, ?_⟩
    rw [Res.ok.injEq, h]
    refine ⟨hf, (beAt_drop _ _ _ (by omega)).1 ?_⟩
    rw [he]
    exact ⟨[], a, b, c, d, rest, rfl, rfl, be32_beVal _ _ _ _⟩

example : msg1.dlt.timestamp = .ok (some 258) := by decide

/-! ## C10 -/

/-- A complete stored message with the timestamp and extended-header flags but an empty tail. -/
def msgNoExt : StorageEntry :=
  ⟨⟨⟨68, 76, 84, 1⟩, 0, 0, ⟨0, 0, 0, 0⟩⟩, ⟨⟨⟨0x31⟩, 0, 4⟩, []⟩⟩

/-- **C10 (violated)** there is a stored message that `try_read` accepts and on which
`extended_header()` and `payload()` panic. -/
theorem C10_ext_and_payload_can_panic : ∃ bs n e, StorageEntry.tryRead bs = .ok (some (n, e)) ∧
    e.dlt.extendedHeader = .panic ∧ e.dlt.payload = .panic :=
  ⟨_, _, msgNoExt, C02_round_trip msgNoExt (by decide) [], by decide, by decide⟩

/-- **C10 (partial)** the exact panic condition of both calls: the extended-header flag is set and the
flagged optional fields do not fit into the tail. -/
theorem C10_panic_iff_partial (e : DltEntry) :
    (e.extendedHeader = .panic ↔ flag e 0 = true ∧ e.tail.length < optLen e) ∧
    (e.payload = .panic ↔ flag e 0 = true ∧ e.tail.length < optLen e) := by
  constructor
  · unfold DltEntry.extendedHeader
    rw [flag_ext, optOffset_eq]
    cases hf : flag e 0
    · simp
    · simp only [Bool.not_true, Bool.false_eq_true, if_false, sliceFrom, true_and]
      by_cases h : optLen e ≤ e.tail.length
      · simp [h]
      · simp [h]; omega
  · unfold DltEntry.payload
    rw [flag_ext, optOffset_eq]
    cases hf : flag e 0
    · simp only [Bool.false_eq_true, if_false, false_and, iff_false]
      by_cases h : optLen e > e.tail.length
      · simp [h]
      · simp only [h, if_false, sliceFrom]
        rw [if_pos (by omega)]; simp
    · simp only [if_true, sliceFrom, true_and]
      by_cases h : optLen e ≤ e.tail.length
      · rw [if_pos h, Res.ok_bind]
        split
        · simp; omega
        · next h10 =>
          split
          · simp; omega
          · next hle =>
            simp only [ExtHeader.size] at hle ⊢
            rw [if_pos (by omega)]; simp; omega
      · simp [h]; omega

theorem ext_iff (bs : Bytes) (x : ExtHeader) :
    ExtHeader.refFromPrefix bs = some x ↔ encodeExt x <+: bs := by
  unfold ExtHeader.refFromPrefix
  constructor
  · intro h
    split at h
    · next h10 =>
      iterate 10
        rcases bs with _ | ⟨_, bs⟩
        · simp at h10
      simp only [Option.some.injEq] at h
      subst h
      exact ⟨bs, rfl⟩
    · simp at h
  · rintro ⟨rest, rfl⟩
    rw [if_pos (by simp [encodeExt])]
    rfl

/-- **C10 (partial)** `extended_header()` returns exactly the ten bytes after the optional fields, when
flagged. -/
theorem C10_extended_header_iff (e : DltEntry) (x : ExtHeader) :
    e.extendedHeader = .ok (some x) ↔
      flag e 0 = true ∧ ∃ opt rest, e.tail = opt ++ encodeExt x ++ rest ∧ opt.length = optLen e := by
  unfold DltEntry.extendedHeader
  rw [flag_ext, optOffset_eq]
  cases hf : flag e 0
  · simp
  · simp only [Bool.not_true, Bool.false_eq_true, if_false, sliceFrom, true_and]
    by_cases h : optLen e ≤ e.tail.length
    · rw [if_pos h, Res.ok_bind, Res.ok.injEq, ext_iff]
      constructor
      · rintro ⟨rest, hr⟩
        refine ⟨e.tail.take (optLen e), rest, ?_, by simp; omega⟩
        rw [List.append_assoc, hr, List.take_append_drop]
      · rintro ⟨opt, rest, he, ho⟩
        refine ⟨rest, ?_⟩
        rw [he, List.append_assoc, ← ho, List.drop_left]
    · rw [if_neg h]
      simp only [Res.panic_bind, reduceCtorEq, false_iff]
      rintro ⟨opt, rest, he, ho⟩
      rw [he] at h; simp at h; omega

theorem payload_eq (e : DltEntry) :
    e.payload = if flag e 0 = true ∧ e.tail.length < optLen e then .panic else
      if optLen e + (if flag e 0 then 10 else 0) ≤ e.tail.length then
        .ok (some (e.tail.drop (optLen e + if flag e 0 then 10 else 0))) else .ok none := by
  obtain ⟨k, hk⟩ : ∃ k : Nat, k = if flag e 0 then 10 else 0 := ⟨_, rfl⟩
  have hpay : e.payload = if flag e 0 = true ∧ e.tail.length < optLen e then .panic else
      if optLen e + k ≤ e.tail.length then
        .ok (some (e.tail.drop (optLen e + k))) else .ok none := by
    unfold DltEntry.payload
    rw [flag_ext, optOffset_eq]
    cases hf : flag e 0
    · rw [hf] at hk
      simp only [Bool.false_eq_true, if_false] at hk
      subst hk
      simp only [Bool.false_eq_true, if_false, false_and, Nat.add_zero]
      by_cases h : optLen e > e.tail.length
      · simp only [h, if_true]; rw [if_neg (by omega)]
      · simp only [h, if_false, sliceFrom]
        rw [if_pos (by omega), Res.ok_bind, if_pos (by omega)]
    · rw [hf] at hk
      simp only [if_true] at hk
      subst hk
      simp only [true_and]
      rw [if_pos trivial]
      by_cases h : optLen e ≤ e.tail.length
      · have hs : sliceFrom e.tail (optLen e) = .ok (e.tail.drop (optLen e)) := by
          unfold sliceFrom; rw [if_pos h]
        rw [hs, Res.ok_bind]
        simp only [ExtHeader.refFromPrefix, List.length_drop]
        by_cases h10 : optLen e + 10 ≤ e.tail.length
        · have hs' : sliceFrom e.tail (optLen e + 10) = .ok (e.tail.drop (optLen e + 10)) := by
            unfold sliceFrom; rw [if_pos h10]
          have h10' : 10 ≤ e.tail.length - optLen e := by omega
          have h10'' : ¬ e.tail.length < optLen e + 10 := by omega
          simp [h10, h10', hs', ExtHeader.size, h10'', h]
        · have h10' : ¬ 10 ≤ e.tail.length - optLen e := by omega
          simp [h10, h10', h]
      · have hs : sliceFrom e.tail (optLen e) = .panic := by
          unfold sliceFrom; rw [if_neg h]
        have h' : e.tail.length < optLen e := by omega
        rw [hs]; simp [h']
  rw [hk] at hpay
  exact hpay

/-- **C10 (partial)** `payload()` returns exactly what follows the optional fields and the extended header:
the three regions concatenate to the tail. -/
theorem C10_payload_iff (e : DltEntry) (p : Bytes) :
    e.payload = .ok (some p) ↔ ∃ opt ext, Layout e opt ext p := by
  obtain ⟨k, hk⟩ : ∃ k : Nat, k = if flag e 0 then 10 else 0 := ⟨_, rfl⟩
  have hpay := payload_eq e
  rw [← hk] at hpay
  rw [hpay]
  constructor
  · intro h
    split at h
    · simp at h
    · split at h
      · next hle =>
        simp only [Res.ok.injEq, Option.some.injEq] at h
        refine ⟨e.tail.take (optLen e), (e.tail.drop (optLen e)).take k, ?_, ?_, ?_⟩
        · rw [List.append_assoc, ← h, ← List.drop_drop, List.take_append_drop, List.take_append_drop]
        · rw [List.length_take]; omega
        · rw [List.length_take, List.length_drop, ← hk]; omega
      · simp at h
  · rintro ⟨opt, ext, he, ho, hx⟩
    rw [← hk] at hx
    have hlen : e.tail.length = optLen e + k + p.length := by
      rw [he]; simp only [List.length_append]; omega
    rw [if_neg (by omega), if_pos (by omega)]
    have : optLen e + k = (opt ++ ext).length := by
      rw [List.length_append]; omega
    rw [this, he, List.drop_left]

/-- **C10** the header and the payload split the same region: when both are present the tail is
`optional fields ++ extended header ++ payload`. -/
theorem C10_regions (e : DltEntry) (x : ExtHeader) (p : Bytes)
    (hx : e.extendedHeader = .ok (some x)) (hp : e.payload = .ok (some p)) :
    ∃ opt, e.tail = opt ++ encodeExt x ++ p ∧ opt.length = optLen e := by
  obtain ⟨hf, opt, rest, he, ho⟩ := (C10_extended_header_iff e x).1 hx
  obtain ⟨opt', ext, he', ho', hxl⟩ := (C10_payload_iff e p).1 hp
  have h1 : opt = opt' ∧ encodeExt x ++ rest = ext ++ p := by
    apply List.append_inj
    · rw [← List.append_assoc, ← List.append_assoc, ← he, ← he']
    · omega
  rw [hf] at hxl
  have h2 : encodeExt x = ext ∧ rest = p := by
    apply List.append_inj h1.2
    simp [encodeExt, hxl]
  exact ⟨opt, by rw [← h2.2]; exact he, ho⟩

example : msg1.dlt.payload = .ok (some [1, 2, 3]) := by decide
example : msg1.dlt.extendedHeader = .ok (some ⟨⟨0x41⟩, 0, ⟨65, 80, 73, 68⟩, ⟨67, 84, 73, 68⟩⟩) := by decide

end Verif
