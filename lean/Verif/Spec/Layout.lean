import Verif.Model.Dlt

/-!
# The optional parts of a DLT v1 message, as a specification

After the standard header come, in this order and each only if its flag is set: ECU id (flag 4),
session id (flag 8), timestamp (flag 16), all big-endian 32-bit; the 10-byte extended header (flag 1);
the payload is the rest.
-/

namespace Verif.Spec

open Verif

/-- Bit `k` of the header type byte. -/
def flag (e : DltEntry) (k : Nat) : Bool := e.header.headerType.htyp.toNat / 2 ^ k % 2 = 1

/-- 4 bytes if present. -/
def four (b : Bool) : Nat := if b then 4 else 0

/-- Length of the optional standard header fields. -/
def optLen (e : DltEntry) : Nat := four (flag e 2) + four (flag e 3) + four (flag e 4)

/-- The big-endian value of four bytes. -/
def beVal (a b c d : UInt8) : Nat := a.toNat * 2 ^ 24 + b.toNat * 2 ^ 16 + c.toNat * 2 ^ 8 + d.toNat

/-- `t` is the big-endian number stored at byte `i` of `bs`. -/
def BeAt (bs : Bytes) (i : Nat) (t : UInt32) : Prop :=
  ∃ pre a b c d post, bs = pre ++ [a, b, c, d] ++ post ∧ pre.length = i ∧ t.toNat = beVal a b c d

/-- The 10 bytes of an extended header. -/
def encodeExt (x : ExtHeader) : Bytes :=
  [x.msin.msin, x.noar, x.apid.b0, x.apid.b1, x.apid.b2, x.apid.b3,
   x.ctid.b0, x.ctid.b1, x.ctid.b2, x.ctid.b3]

/-- The tail is the optional fields, then the extended header if flagged, then the payload. -/
def Layout (e : DltEntry) (opt ext pay : Bytes) : Prop :=
  e.tail = opt ++ ext ++ pay ∧ opt.length = optLen e ∧ ext.length = if flag e 0 then 10 else 0

end Verif.Spec
