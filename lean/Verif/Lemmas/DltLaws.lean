import Verif.Lemmas.Iter
import Verif.Props.Parse

/-! # `DltStorageEntry` satisfies the reading laws -/

set_option linter.unusedSimpArgs false

namespace Verif
open Spec

theorem dltStorage_marker : dltStorage.marker = dltMarker := rfl
theorem dltStorage_len (e : StorageEntry) : dltStorage.len e = e.len := rfl
theorem dltMarker_length : dltMarker.length = 4 := rfl

theorem dlt_lawful : Lawful dltStorage where
  total bs := ⟨_, tryReadRaw_eq bs⟩
  tryRead_eq bs := tryRead_eq bs
  size bs n e h := by
    obtain ⟨hn, ⟨rest, hb⟩, hl⟩ := tryReadRaw_some bs n e h
    have h1 := encode_length e
    have h2 : dltStorage.len e = e.dlt.header.length.toNat + 16 := rfl
    have h3 : dltStorage.marker.length = 4 := rfl
    refine ⟨by omega, by omega, ?_⟩
    rw [hb, List.length_append]; omega
  prefix_only bs bs' n e h heq := by
    obtain ⟨hn, ⟨rest, hb⟩, hl⟩ := tryReadRaw_some bs n e h
    have h1 : bs'.take n = encode e := by rw [heq, hb, hn, List.take_left]
    have h2 : bs' = encode e ++ bs'.drop n := by rw [← h1, List.take_append_drop]
    rw [h2, hn]
    exact tryReadRaw_encode e _ hl
  borderless k h0 hk := by
    have hk4 : k < 4 := hk
    have : k = 1 ∨ k = 2 ∨ k = 3 := by omega
    rcases this with rfl | rfl | rfl <;> decide

theorem msgAt_iff_drop {bytes : Bytes} {i : Nat} {e : StorageEntry} :
    MsgAt bytes i e ↔ WF e ∧ i ≤ bytes.length ∧ encode e <+: bytes.drop i := by
  constructor
  · rintro ⟨hwf, pre, post, rfl, rfl⟩
    refine ⟨hwf, by simp, post, ?_⟩
    rw [List.append_assoc, List.drop_left]
  · rintro ⟨hwf, hle, post, hp⟩
    refine ⟨hwf, bytes.take i, post, ?_, by rw [List.length_take]; omega⟩
    rw [List.append_assoc, hp, List.take_append_drop]

/-- `try_read` succeeds at an offset exactly when a complete message is stored there. -/
theorem readableAt_iff_msgAt {bytes : Bytes} {i : Nat} {e : StorageEntry} :
    ReadableAt dltStorage bytes i e ↔ MsgAt bytes i e := by
  rw [msgAt_iff_drop]
  constructor
  · rintro ⟨n, h⟩
    obtain ⟨hwf, hn, hp⟩ := (C02_read_iff _ _ _).1 h
    refine ⟨hwf, ?_, hp⟩
    have := hp.length_le
    have h1 := encode_length e
    rw [List.length_drop] at this; omega
  · rintro ⟨hwf, hle, hp⟩
    exact ⟨_, (C02_read_iff _ _ _).2 ⟨hwf, rfl, hp⟩⟩

theorem Spec.MsgAt.bounds {bytes : Bytes} {i : Nat} {e : StorageEntry} (h : MsgAt bytes i e) :
    20 ≤ e.len ∧ i + e.len ≤ bytes.length := by
  obtain ⟨hwf, pre, post, rfl, rfl⟩ := h
  have h1 := encode_length e
  have h2 := encode_len e hwf
  simp only [List.length_append]; omega

/-- `dltit` with offsets yields exactly the scan. -/
theorem dltit_collects (bytes : Bytes) (hF : Fits bytes) :
    ∃ items, Collects (dltitOffsetNext bytes) 0 items ∧ Scan dltStorage bytes 0 items :=
  readFallback_collects dlt_lawful hF 0 (Nat.zero_le _) (by decide)

theorem dltit_scan {bytes : Bytes} (hF : Fits bytes) {items : List (Nat × StorageEntry)}
    (h : Collects (dltitOffsetNext bytes) 0 items) : Scan dltStorage bytes 0 items := by
  obtain ⟨items', h1, h2⟩ := dltit_collects bytes hF
  rw [h.unique h1]; exact h2

theorem scan_dltit {bytes : Bytes} (hF : Fits bytes) {items : List (Nat × StorageEntry)}
    (h : Scan dltStorage bytes 0 items) : Collects (dltitOffsetNext bytes) 0 items := by
  obtain ⟨items', h1, h2⟩ := dltit_collects bytes hF
  rw [h.unique dlt_lawful h2]; exact h1

/-- Dropping the offsets. -/
theorem collects_noOffset {T : Type} {next : NextFn (Nat × T)} {off : Nat} {items : List (Nat × T)}
    (h : Collects next off items) : Collects (noOffsetNext next) off (items.map (·.2)) := by
  obtain ⟨f, hf⟩ := h
  refine ⟨f, ?_⟩
  induction f generalizing off items with
  | zero => simp [collectN] at hf
  | succ f ih =>
    simp only [collectN] at hf ⊢
    cases hn : next off with
    | panic => simp [hn] at hf
    | ok p =>
      obtain ⟨o, off'⟩ := p
      cases o with
      | none => simp [hn] at hf; subst hf; simp [noOffsetNext, hn]
      | some a =>
        rw [hn] at hf
        simp only at hf
        cases hc : collectN next f off' with
        | none => rw [hc] at hf; simp at hf
        | some q =>
          rw [hc] at hf
          cases q with
          | panic => simp at hf
          | ok as =>
            simp only [Option.some.injEq, Res.ok.injEq] at hf
            subst hf
            have := ih hc
            simp [noOffsetNext, hn] at this ⊢
            simp [noOffsetNext, this]

end Verif
