import Verif.Spec.Header

/-! # C05–C07: header type and message info bytes -/

set_option linter.unusedSimpArgs false

namespace Verif
open Spec

/-- A statement about all bytes is a statement about the numbers below 256. -/
theorem forall_u8 {P : UInt8 → Prop} (h : ∀ n : Fin 256, P (UInt8.ofNat n)) (b : UInt8) : P b := by
  have := h ⟨b.toNat, b.toNat_lt⟩
  simpa using this

/-! ## C05 -/

/-- **C05** the accessors are the bits of the standard. -/
theorem C05_accessors_are_bits (h : HTyp) :
    h.isExtendedHeader = decide (h.htyp.toNat % 2 = 1) ∧
    h.isMsbFirst = decide (h.htyp.toNat / 2 % 2 = 1) ∧
    h.isWithEcuId = decide (h.htyp.toNat / 4 % 2 = 1) ∧
    h.isWithSessionId = decide (h.htyp.toNat / 8 % 2 = 1) ∧
    h.isWithTimestamp = decide (h.htyp.toNat / 16 % 2 = 1) ∧
    h.version.toNat = h.htyp.toNat / 32 := by
  obtain ⟨b⟩ := h
  have key : ∀ n : Fin 256, (HTyp.isExtendedHeader ⟨UInt8.ofNat n⟩ = decide ((UInt8.ofNat n).toNat % 2 = 1) ∧
    HTyp.isMsbFirst ⟨UInt8.ofNat n⟩ = decide ((UInt8.ofNat n).toNat / 2 % 2 = 1) ∧
    HTyp.isWithEcuId ⟨UInt8.ofNat n⟩ = decide ((UInt8.ofNat n).toNat / 4 % 2 = 1) ∧
    HTyp.isWithSessionId ⟨UInt8.ofNat n⟩ = decide ((UInt8.ofNat n).toNat / 8 % 2 = 1) ∧
    HTyp.isWithTimestamp ⟨UInt8.ofNat n⟩ = decide ((UInt8.ofNat n).toNat / 16 % 2 = 1) ∧
    (HTyp.version ⟨UInt8.ofNat n⟩).toNat = (UInt8.ofNat n).toNat / 32) := by decide +kernel
  have := forall_u8 (P := fun b => HTyp.isExtendedHeader ⟨b⟩ = decide (b.toNat % 2 = 1) ∧
    HTyp.isMsbFirst ⟨b⟩ = decide (b.toNat / 2 % 2 = 1) ∧
    HTyp.isWithEcuId ⟨b⟩ = decide (b.toNat / 4 % 2 = 1) ∧
    HTyp.isWithSessionId ⟨b⟩ = decide (b.toNat / 8 % 2 = 1) ∧
    HTyp.isWithTimestamp ⟨b⟩ = decide (b.toNat / 16 % 2 = 1) ∧
    (HTyp.version ⟨b⟩).toNat = b.toNat / 32) key b
  exact this

/-- **C05** building a header type and reading it back: all 32 flag combinations, all versions. -/
theorem C05_new_then_read (ext msb ecu ses tim : Bool) (v : UInt8) :
    (HTyp.new ext msb ecu ses tim v).isExtendedHeader = ext ∧
    (HTyp.new ext msb ecu ses tim v).isMsbFirst = msb ∧
    (HTyp.new ext msb ecu ses tim v).isWithEcuId = ecu ∧
    (HTyp.new ext msb ecu ses tim v).isWithSessionId = ses ∧
    (HTyp.new ext msb ecu ses tim v).isWithTimestamp = tim ∧
    (HTyp.new ext msb ecu ses tim v).version.toNat = v.toNat % 8 := by
  revert ext msb ecu ses tim
  revert v
  apply forall_u8
  decide +kernel

/-- **C05** every header type byte is rebuilt from its own accessors. -/
theorem C05_read_then_new (h : HTyp) :
    HTyp.new h.isExtendedHeader h.isMsbFirst h.isWithEcuId h.isWithSessionId h.isWithTimestamp
      h.version = h := by
  obtain ⟨b⟩ := h
  revert b
  apply forall_u8
  decide +kernel

example : (HTyp.new true false true true false 9).isWithSessionId = true ∧
    (HTyp.new true false true true false 9).version = 1 := by decide

/-! ## C07 -/

/-- **C07 (violated)** the decoder does not follow the standard: e.g. a warning (MTIN 3) is not
recognised as one. -/
theorem C07_info_deviates : ¬ ∀ m : MessageType, m.info = msinInfo m.msin.toNat := by
  intro h
  exact absurd (h ⟨0x30⟩) (by decide)

/-- **C07 (partial)** what the decoder really does, for every byte: it decodes the standard's tables after
clearing bits 5 and 7 of the byte (the MTIN mask is `0x50` instead of `0xF0`). -/
theorem C07_info_exact_partial (m : MessageType) :
    m.info = msinInfo (m.msin.toNat - 32 * (m.msin.toNat / 32 % 2) - 128 * (m.msin.toNat / 128)) := by
  obtain ⟨b⟩ := m
  revert b
  apply forall_u8
  decide +kernel

/-- **C07 (partial)** so the decoder is right on every byte with bits 5 and 7 clear. -/
theorem C07_info_standard_partial (m : MessageType) (h5 : m.msin.toNat / 32 % 2 = 0)
    (h7 : m.msin.toNat / 128 = 0) : m.info = msinInfo m.msin.toNat := by
  rw [C07_info_exact_partial, h5, h7]; simp

/-- **C07 (violated, consequence)** the error, warning and verbose log levels, the function-in/out traces,
the CAN, FlexRay and SOME/IP network traces and control responses are never reported for any byte. -/
theorem C07_types_never_reported (m : MessageType) (t : MsgType) (h : m.info.2 = some t) :
    (codes t).2 = 1 ∨ (codes t).2 = 4 ∨ (codes t).2 = 5 := by
  have key : ∀ n : Fin 256, ∀ t, (MessageType.info ⟨UInt8.ofNat n⟩).2 = some t →
      (codes t).2 = 1 ∨ (codes t).2 = 4 ∨ (codes t).2 = 5 := by
    have : ∀ n : Fin 256, (match (MessageType.info ⟨UInt8.ofNat n⟩).2 with
      | some t => decide ((codes t).2 = 1 ∨ (codes t).2 = 4 ∨ (codes t).2 = 5) | none => true) = true := by
      decide +kernel
    intro n t ht
    have := this n
    rw [ht] at this
    simpa using this
  obtain ⟨b⟩ := m
  exact forall_u8 (P := fun b => ∀ t, (MessageType.info ⟨b⟩).2 = some t →
    (codes t).2 = 1 ∨ (codes t).2 = 4 ∨ (codes t).2 = 5) key b t h

/-- **C07 (partial)** the verbose bit is always right. -/
theorem C07_verbose (m : MessageType) : m.info.1 = decide (m.msin.toNat % 2 = 1) := by
  obtain ⟨b⟩ := m
  have := forall_u8 (P := fun b => (MessageType.info ⟨b⟩).1 = decide (b.toNat % 2 = 1)) (by decide +kernel) b
  exact this

/-! ## C06 -/

/-- **C06 (violated)** for no placement of the constructor functions does every message info round-trip. -/
theorem C06_no_round_trip (addr : Ctor → UInt8) :
    ¬ ∀ (v : Bool) (t : MsgType), (MessageType.create addr v t).info = (v, some t) := by
  intro h
  have := C07_types_never_reported (MessageType.create addr false (.log .warn)) (.log .warn)
    (by rw [h])
  revert this; decide

/-- The constructor of a message type. -/
def ctor : MsgType → Ctor
  | .log _ => .log | .appTrace _ => .appTrace | .nwTrace _ => .nwTrace | .control _ => .control

/-- **C06 (partial)** exactly when it does round-trip: the low three bits of the constructor function's
address happen to equal the type's code, and the type info is 1, 4 or 5. -/
theorem C06_round_trip_iff_partial (addr : Ctor → UInt8) (v : Bool) (t : MsgType) :
    (MessageType.create addr v t).info = (v, some t) ↔
      (addr (ctor t)).toNat % 8 = (codes t).1 ∧ ((codes t).2 = 1 ∨ (codes t).2 = 4 ∨ (codes t).2 = 5) := by
  have key : ∀ (a : UInt8) (v : Bool) (i : MsgType),
      ((MessageType.create (fun _ => a) v i).info = (v, some i) ↔
        a.toNat % 8 = (codes i).1 ∧ ((codes i).2 = 1 ∨ (codes i).2 = 4 ∨ (codes i).2 = 5)) := by
    intro a v i
    revert a
    apply forall_u8
    revert v
    rcases i with i | i | i | i <;> cases i <;> decide +kernel
  have hcr : MessageType.create addr v t = MessageType.create (fun _ => addr (ctor t)) v t := by
    rcases t with i | i | i | i <;> rfl
  rw [hcr]
  exact key _ v t

/-- **C06 (violated, consequence)** with constructor functions placed at 8-byte-aligned addresses (the
usual case) every created message decodes as a log message. -/
theorem C06_aligned_decodes_as_log (addr : Ctor → UInt8) (hal : ∀ c, (addr c).toNat % 8 = 0)
    (v : Bool) (t t' : MsgType) (h : (MessageType.create addr v t).info.2 = some t') :
    ctor t' = .log := by
  have key : ∀ (a : UInt8) (v : Bool) (i i' : MsgType), a.toNat % 8 = 0 →
      (MessageType.create (fun _ => a) v i).info.2 = some i' → ctor i' = .log := by
    intro a v i
    have h2 : a.toNat % 8 = 0 →
        (match (MessageType.create (fun _ => a) v i).info.2 with
          | some t => decide (ctor t = .log) | none => true) = true := by
      revert a
      apply forall_u8
      revert v
      rcases i with i | i | i | i <;> cases i <;> decide +kernel
    intro i' ha hi
    have := h2 ha
    rw [hi] at this
    simpa using this
  have hcr : MessageType.create addr v t = MessageType.create (fun _ => addr (ctor t)) v t := by
    rcases t with i | i | i | i <;> rfl
  rw [hcr] at h
  exact key _ v t t' (hal _) h

/-- `dd_dlt` writes an info-level log message (main.rs:44): that one does round-trip for aligned
constructors. -/
theorem C06_info_log_round_trips (addr : Ctor → UInt8) (hal : (addr .log).toNat % 8 = 0) :
    (MessageType.create addr true (.log .info)).info = (true, some (.log .info)) :=
  (C06_round_trip_iff_partial addr true (.log .info)).2 ⟨hal, by decide⟩

example : ∃ addr : Ctor → UInt8, (∀ c, (addr c).toNat % 8 = 0) ∧
    (MessageType.create addr true (.control .request)).info = (true, some (.log .fatal)) :=
  ⟨fun _ => 0, fun _ => rfl, by decide⟩

end Verif
