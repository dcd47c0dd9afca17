import Verif.Lemmas.Parse
import Verif.Model.Traits

/-! # C01–C04: reading one message -/

set_option linter.unusedSimpArgs false

namespace Verif
open Spec

/-- A small message used as a witness throughout: empty tail, 20 bytes. -/
def msg0 : StorageEntry :=
  ⟨⟨⟨68, 76, 84, 1⟩, 7, 9, ⟨69, 67, 85, 49⟩⟩, ⟨⟨⟨0x20⟩, 3, 4⟩, []⟩⟩

/-- A message with ECU id, timestamp, extended header and a 3-byte payload. -/
def msg1 : StorageEntry :=
  ⟨⟨⟨68, 76, 84, 1⟩, 100, 50, ⟨69, 67, 85, 50⟩⟩,
   ⟨⟨⟨0x35⟩, 4, 25⟩, [69, 67, 85, 50, 0, 0, 1, 2, 0x41, 0, 65, 80, 73, 68, 67, 84, 73, 68, 1, 2, 3]⟩⟩

/-! ## C01 -/

/-- **C01** Reading never panics: for every byte slice the three readers return a value. -/
theorem C01_read_never_panics (bs : Bytes) :
    (∃ r, StorageEntry.tryRead bs = .ok r) ∧
    (∃ r, StorageEntry.tryReadValidMarker bs = .ok r) ∧
    (∃ r, DltEntry.tryRead bs = .ok r) := by
  refine ⟨?_, ⟨_, tryReadRaw_eq bs⟩, ⟨_, dltTryRead_eq bs⟩⟩
  rw [tryRead_eq]
  split
  · exact ⟨_, tryReadRaw_eq bs⟩
  · exact ⟨_, rfl⟩

/-! ## C02 -/

/-- The marker of a well-formed message is where the marker check looks. -/
theorem wf_marker_prefix {e : StorageEntry} (h : WF e) (rest : Bytes) :
    dltMarker <+: encode e ++ rest := by
  rw [← h.1]; exact ⟨_, rfl⟩

/-- **C02** `try_read` is exactly the inverse of the serialisation. -/
theorem C02_read_iff (bs : Bytes) (n : Nat) (e : StorageEntry) :
    StorageEntry.tryRead bs = .ok (some (n, e)) ↔
      WF e ∧ n = (encode e).length ∧ encode e <+: bs := by
  rw [tryRead_eq]
  constructor
  · intro h
    split at h
    · next hm =>
      obtain ⟨hn, ⟨rest, rfl⟩, hl⟩ := tryReadRaw_some bs n e h
      refine ⟨⟨?_, hl⟩, hn, ⟨rest, rfl⟩⟩
      rw [List.prefix_iff_eq_take] at hm
      exact hm.symm
    · simp at h
  · rintro ⟨hwf, rfl, ⟨rest, rfl⟩⟩
    rw [if_pos (wf_marker_prefix hwf rest)]
    exact tryReadRaw_encode e rest hwf.2

/-- **C02** Every serialised message reads back as itself, whatever follows it. -/
theorem C02_round_trip (e : StorageEntry) (h : WF e) (rest : Bytes) :
    StorageEntry.tryRead (encode e ++ rest) = .ok (some ((encode e).length, e)) :=
  (C02_read_iff _ _ _).2 ⟨h, rfl, ⟨rest, rfl⟩⟩

/-- **C02** `try_read` yields `None` exactly when the slice does not start with a serialised message. -/
theorem C02_read_none_iff (bs : Bytes) :
    StorageEntry.tryRead bs = .ok none ↔ ¬ ∃ e, WF e ∧ encode e <+: bs := by
  obtain ⟨⟨r, hr⟩, -⟩ := C01_read_never_panics bs
  rw [hr]
  constructor
  · rintro h ⟨e, hwf, hp⟩
    have := (C02_read_iff bs _ e).2 ⟨hwf, rfl, hp⟩
    rw [hr] at this
    rw [Res.ok.injEq] at h this
    rw [h] at this; simp at this
  · intro h
    rcases r with _ | ⟨n, e⟩
    · rfl
    · exact absurd ⟨e, ((C02_read_iff bs n e).1 hr).1, ((C02_read_iff bs n e).1 hr).2.2⟩ h

/-- **C02** Different messages have different serialisations, none a proper prefix of another. -/
theorem C02_unique (e e' : StorageEntry) (h : WF e) (h' : WF e') (r r' : Bytes)
    (heq : encode e ++ r = encode e' ++ r') : e = e' ∧ r = r' := by
  have h1 := C02_round_trip e h r
  rw [heq, C02_round_trip e' h' r'] at h1
  simp only [Res.ok.injEq, Option.some.injEq, Prod.mk.injEq] at h1
  have he := h1.2.symm
  subst he
  exact ⟨rfl, List.append_cancel_left heq⟩

theorem msg0_wf : WF msg0 := by decide
theorem msg1_wf : WF msg1 := by decide

example : WF msg1 ∧ StorageEntry.tryRead (encode msg1 ++ [1, 2, 3]) = .ok (some (41, msg1)) :=
  ⟨msg1_wf, C02_round_trip msg1 msg1_wf [1, 2, 3]⟩

/-! ## C03 -/

/-- **C03** The size reported is the message's own length, lies in bounds, and nothing after it
influences the result. -/
theorem C03_size (bs : Bytes) (n : Nat) (e : StorageEntry)
    (h : StorageEntry.tryRead bs = .ok (some (n, e))) :
    n = e.len ∧ n = 16 + e.dlt.header.length.toNat ∧ 20 ≤ n ∧ n ≤ 65551 ∧ n ≤ bs.length ∧
    ∀ bs' : Bytes, bs'.take n = bs.take n → StorageEntry.tryRead bs' = .ok (some (n, e)) := by
  obtain ⟨hwf, hn, hp⟩ := (C02_read_iff bs n e).1 h
  have hl := encode_len e hwf
  have h16 := e.dlt.header.length.toNat_lt
  have hw := hwf.2
  have hle := encode_length e
  refine ⟨by omega, by omega, by omega, by omega, ?_, ?_⟩
  · rw [hn]; exact hp.length_le
  · intro bs' heq
    refine (C02_read_iff bs' n e).2 ⟨hwf, hn, ?_⟩
    have : encode e = bs.take n := by rw [hn]; exact List.prefix_iff_eq_take.1 hp
    rw [this, ← heq]
    exact List.take_prefix _ _

example : ∃ n e, StorageEntry.tryRead (encode msg1) = .ok (some (n, e)) ∧ n = 41 :=
  ⟨41, msg1, C02_round_trip msg1 msg1_wf [], rfl⟩

/-! ## C04 -/

/-- The documented meaning of `max_len` (matchit/src/lib.rs:53): "maximum length". -/
def MaxLenBounds {T : Type} (S : FromBytesReadable T) : Prop :=
  ∀ (bs : Bytes) (n : Nat) (v : T), S.tryRead bs = .ok (some (n, v)) → S.len v ≤ S.maxLen

/-- The longest stored message: length field 65535. -/
def msgMax : StorageEntry :=
  ⟨⟨⟨68, 76, 84, 1⟩, 0, 0, ⟨0, 0, 0, 0⟩⟩, ⟨⟨⟨0⟩, 0, 65535⟩, List.replicate 65531 0⟩⟩

theorem msgMax_wf : WF msgMax := by
  refine ⟨rfl, ?_⟩
  simp only [msgMax, List.length_replicate]
  rfl

/-- **C04 (violated)** `DltStorageEntry::max_len` is not an upper bound of `len`: a readable stored
message may be 16 bytes longer. -/
theorem C04_storage_entry_exceeds_max_len : ¬ MaxLenBounds dltStorage.toFromBytesReadable := by
  intro h
  have h' : ∀ (bs : Bytes) (n : Nat) (e : StorageEntry),
      StorageEntry.tryRead bs = .ok (some (n, e)) → e.len ≤ 65535 := h
  have := h' _ _ _ (C02_round_trip msgMax msgMax_wf [])
  have hl : msgMax.len = 65551 := rfl
  omega

/-- **C04 (partial)** what does hold: `DltEntry::max_len` is a bound; for stored messages the bound is
`max_len + 16`, and it is attained. -/
theorem C04_max_len_partial :
    MaxLenBounds dltEntryReadable ∧
    (∀ (bs : Bytes) (n : Nat) (e : StorageEntry), StorageEntry.tryRead bs = .ok (some (n, e)) →
      e.len ≤ StorageEntry.maxLen + 16) ∧
    (∃ (bs : Bytes) (n : Nat) (e : StorageEntry), StorageEntry.tryRead bs = .ok (some (n, e)) ∧
      e.len = StorageEntry.maxLen + 16) := by
  refine ⟨?_, ?_, ⟨_, _, _, C02_round_trip msgMax msgMax_wf [], rfl⟩⟩
  · intro bs n v _
    have := v.header.length.toNat_lt
    simp only [dltEntryReadable, DltEntry.len, DltEntry.maxLen, StdHeader.len]; omega
  · intro bs n e h
    have := C03_size bs n e h
    simp only [StorageEntry.maxLen]; omega

/-- `DltEntry::try_read` is likewise the inverse of its layout (message without storage header). -/
theorem C02_dlt_entry_read_iff (bs : Bytes) (n : Nat) (e : DltEntry) :
    DltEntry.tryRead bs = .ok (some (n, e)) ↔
      WFDlt e ∧ n = (encodeDlt e).length ∧ encodeDlt e <+: bs := by
  rw [dltTryRead_eq]
  constructor
  · intro h
    split at h
    · next hc =>
      obtain ⟨h4, hx4, hxl⟩ := hc
      simp only [Res.ok.injEq, Option.some.injEq, Prod.mk.injEq] at h
      obtain ⟨hn, he⟩ := h
      rcases bs with _ | ⟨b0, bs⟩; · simp at h4
      rcases bs with _ | ⟨b1, bs⟩; · simp at h4
      rcases bs with _ | ⟨b2, bs⟩; · simp at h4
      rcases bs with _ | ⟨b3, bs⟩; · simp at h4
      simp only [byteAt, List.getD_cons_zero, List.getD_cons_succ, List.length_cons] at *
      subst he
      obtain ⟨k, hk⟩ : ∃ k, (be16 b2 b3).toNat = k + 4 := ⟨(be16 b2 b3).toNat - 4, by omega⟩
      rw [hk] at hn hxl
      simp only [WFDlt, encodeDlt, hk, digit_be16_0, digit_be16_1, List.take_succ_cons,
        List.drop_succ_cons, List.drop_zero]
      have htl : (bs.take k).length = k := by rw [List.length_take]; omega
      rw [← hk, digit_be16_0, digit_be16_1]
      refine ⟨by omega, by simp; omega, ?_⟩
      simpa using List.take_prefix k bs
    · simp at h
  · rintro ⟨hwf, rfl, ⟨rest, rfl⟩⟩
    have h2 : be16 (byteAt (encodeDlt e ++ rest) 2) (byteAt (encodeDlt e ++ rest) 3) = e.header.length := by
      rw [← be16_digit e.header.length]; rfl
    have hl : (encodeDlt e).length = 4 + e.tail.length := by simp [encodeDlt]; omega
    unfold WFDlt at hwf
    rw [h2, if_pos (by simp only [List.length_append]; omega)]
    have : e.header.length.toNat = (encodeDlt e).length := by omega
    rw [this, List.take_left]
    rfl

end Verif
