import Verif.Model.Dlt

/-!
# The DLT v1 file format, as a specification

Written from the DLT v1 layout, without using the reader or the encoder of the model: a stored message
is a 16-byte storage header (`DLT\x01`, little-endian seconds, little-endian microseconds, ECU id), a
4-byte standard header (type, counter, big-endian length) and `length - 4` further bytes.
-/

namespace Verif.Spec

open Verif

/-- The start marker `DLT\x01`. -/
def dltMarker : Bytes := [68, 76, 84, 1]

/-- Byte `k` (0 = least significant) of a number. -/
def digit (n k : Nat) : UInt8 := UInt8.ofNat (n / 256 ^ k % 256)

/-- The bytes of a stored message. -/
def encode (e : StorageEntry) : Bytes :=
  let sh := e.storageHeader
  let h := e.dlt.header
  [sh.pattern.b0, sh.pattern.b1, sh.pattern.b2, sh.pattern.b3,
   digit sh.secs.toNat 0, digit sh.secs.toNat 1, digit sh.secs.toNat 2, digit sh.secs.toNat 3,
   digit sh.msecs.toUInt32.toNat 0, digit sh.msecs.toUInt32.toNat 1,
   digit sh.msecs.toUInt32.toNat 2, digit sh.msecs.toUInt32.toNat 3,
   sh.ecu.b0, sh.ecu.b1, sh.ecu.b2, sh.ecu.b3,
   h.headerType.htyp, h.messageCounter, digit h.length.toNat 1, digit h.length.toNat 0]
  ++ e.dlt.tail

/-- A well-formed stored message: right marker, and the length field counts the standard header and
the tail. -/
def WF (e : StorageEntry) : Prop :=
  [e.storageHeader.pattern.b0, e.storageHeader.pattern.b1, e.storageHeader.pattern.b2,
    e.storageHeader.pattern.b3] = dltMarker ∧
  e.dlt.header.length.toNat = 4 + e.dlt.tail.length

instance (e : StorageEntry) : Decidable (WF e) := by unfold WF; infer_instance

/-- The complete message `e` is stored at byte offset `i` of `bytes`. -/
def MsgAt (bytes : Bytes) (i : Nat) (e : StorageEntry) : Prop :=
  WF e ∧ ∃ pre post, bytes = pre ++ encode e ++ post ∧ pre.length = i

/-- The bytes of a message without storage header (`DltEntry`). -/
def encodeDlt (e : DltEntry) : Bytes :=
  [e.header.headerType.htyp, e.header.messageCounter,
   digit e.header.length.toNat 1, digit e.header.length.toNat 0] ++ e.tail

/-- The length field of a `DltEntry` counts the header and the tail. -/
def WFDlt (e : DltEntry) : Prop := e.header.length.toNat = 4 + e.tail.length

end Verif.Spec
