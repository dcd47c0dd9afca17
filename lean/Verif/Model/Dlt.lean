import Verif.Model.Prim

/-!
# Model of `rapiddlt/src/dlt_v1.rs`

The DLT v1 data types, their byte layout and their reader.
-/

namespace Verif

/-- `[u8; 4]`. -/
structure B4 where
  b0 : UInt8
  b1 : UInt8
  b2 : UInt8
  b3 : UInt8
  deriving DecidableEq, Repr

/-- The bytes of a `[u8; 4]` in memory order. -/
def B4.toBytes (x : B4) : Bytes := [x.b0, x.b1, x.b2, x.b3]

/-- `<[u8; 4]>::try_from(&[u8])` (used at dd_dlt/src/main.rs:38,46,47): `Err` unless the length is 4. -/
def B4.ofBytes? : Bytes → Option B4
  | [a, b, c, d] => some ⟨a, b, c, d⟩
  | _ => none

/-- Byte `i` of a slice already known to be long enough (used only behind a length check). -/
def byteAt (bs : Bytes) (i : Nat) : UInt8 := bs.getD i 0

/-- `[u8; 4]` at offset `i`. -/
def b4At (bs : Bytes) (i : Nat) : B4 :=
  ⟨byteAt bs i, byteAt bs (i + 1), byteAt bs (i + 2), byteAt bs (i + 3)⟩

/-- `zerocopy::byteorder::big_endian::U16::get` (dlt_v1.rs:6,91,105): most significant byte first. -/
def be16 (a b : UInt8) : UInt16 := UInt16.ofNat (a.toNat * 256 + b.toNat)

/-- `zerocopy::byteorder::big_endian::U32::get` (dlt_v1.rs:6,348,367). -/
def be32 (x : B4) : UInt32 :=
  UInt32.ofNat (((x.b0.toNat * 256 + x.b1.toNat) * 256 + x.b2.toNat) * 256 + x.b3.toNat)

/-- `zerocopy::little_endian::U32::get` (dlt_v1.rs:113). -/
def le32 (x : B4) : UInt32 :=
  UInt32.ofNat (((x.b3.toNat * 256 + x.b2.toNat) * 256 + x.b1.toNat) * 256 + x.b0.toNat)

/-- `U16::from(x)` in big endian memory order (dlt_v1.rs:97). -/
def encBE16 (x : UInt16) : Bytes :=
  [UInt8.ofNat (x.toNat / 256), UInt8.ofNat (x.toNat % 256)]

/-- `big_endian::U32::from(x)` in memory order (dd_dlt/src/main.rs:53). -/
def encBE32 (x : UInt32) : B4 :=
  ⟨UInt8.ofNat (x.toNat / 16777216), UInt8.ofNat (x.toNat / 65536 % 256),
   UInt8.ofNat (x.toNat / 256 % 256), UInt8.ofNat (x.toNat % 256)⟩

/-- `little_endian::U32::from(x)` in memory order (dlt_v1.rs:127). -/
def encLE32 (x : UInt32) : B4 :=
  ⟨UInt8.ofNat (x.toNat % 256), UInt8.ofNat (x.toNat / 256 % 256),
   UInt8.ofNat (x.toNat / 65536 % 256), UInt8.ofNat (x.toNat / 16777216)⟩

/-! ## Header type, dlt_v1.rs:11-84 -/

/-- `DltHTyp` (dlt_v1.rs:13-15). -/
structure HTyp where
  htyp : UInt8
  deriving DecidableEq, Repr

namespace HTyp

/-- `DltHTyp::new` (dlt_v1.rs:19-46). `version << 5` on `u8` drops the high bits. -/
def new (isExtendedHeader isMsbFirst isWithEcuId isWithSessionId isWithTimestamp : Bool)
    (version : UInt8) : HTyp :=
  let h : UInt8 := 0
  let h := if isExtendedHeader then h ||| 0b0000_0001 else h
  let h := if isMsbFirst then h ||| 0b0000_0010 else h
  let h := if isWithEcuId then h ||| 0b0000_0100 else h
  let h := if isWithSessionId then h ||| 0b0000_1000 else h
  let h := if isWithTimestamp then h ||| 0b0001_0000 else h
  ⟨h ||| (version <<< 5)⟩

/-- dlt_v1.rs:49-51, mask 78. -/
def isExtendedHeader (h : HTyp) : Bool := (h.htyp &&& 0x01) > 0
/-- dlt_v1.rs:53-55, mask 79. -/
def isMsbFirst (h : HTyp) : Bool := (h.htyp &&& 0x02) > 0
/-- dlt_v1.rs:57-59, mask 80. -/
def isWithEcuId (h : HTyp) : Bool := (h.htyp &&& 0x04) > 0
/-- dlt_v1.rs:61-63, mask 81. -/
def isWithSessionId (h : HTyp) : Bool := (h.htyp &&& 0x08) > 0
/-- dlt_v1.rs:65-67, mask 82. -/
def isWithTimestamp (h : HTyp) : Bool := (h.htyp &&& 0x10) > 0
/-- dlt_v1.rs:69-71, mask 83. -/
def version (h : HTyp) : UInt8 := (h.htyp &&& 0xe0) >>> 5

end HTyp

/-! ## Standard header, dlt_v1.rs:86-107 -/

/-- `DltStandardHeader` (dlt_v1.rs:88-92). -/
structure StdHeader where
  headerType : HTyp
  messageCounter : UInt8
  length : UInt16
  deriving DecidableEq, Repr

namespace StdHeader

/-- `DltStandardHeader::new` (dlt_v1.rs:95-99). -/
def new (headerType : HTyp) (messageCounter : UInt8) (length : UInt16) : StdHeader :=
  ⟨headerType, messageCounter, length⟩

/-- `DltStandardHeader::size` (dlt_v1.rs:100-102): `size_of` of the `repr(C)` struct. -/
abbrev size : Nat := 4

/-- `DltStandardHeader::length` (dlt_v1.rs:104-106). -/
def len (h : StdHeader) : Nat := h.length.toNat

/-- `AsBytes::as_bytes` of the `repr(C)` struct (derive at dlt_v1.rs:86). -/
def asBytes (h : StdHeader) : Bytes := [h.headerType.htyp, h.messageCounter] ++ encBE16 h.length

/-- `FromBytes::ref_from_prefix` (derive at dlt_v1.rs:86): `None` iff fewer than 4 bytes
(the alignment of the struct is 1). -/
def refFromPrefix (bs : Bytes) : Option StdHeader :=
  if 4 ≤ bs.length then
    some ⟨⟨byteAt bs 0⟩, byteAt bs 1, be16 (byteAt bs 2) (byteAt bs 3)⟩
  else none

end StdHeader

/-! ## Storage header, dlt_v1.rs:109-136 -/

/-- `DltStorageHeader` (dlt_v1.rs:111-116). -/
structure StorageHeader where
  pattern : B4
  secs : UInt32
  msecs : Int32
  ecu : B4
  deriving DecidableEq, Repr

namespace StorageHeader

/-- `DltStorageHeader::new` (dlt_v1.rs:119-131). -/
def new (pattern : B4) (secs : UInt32) (msecs : Int32) (ecu : B4) : StorageHeader :=
  ⟨pattern, secs, msecs, ecu⟩

/-- `DltStorageHeader::size` (dlt_v1.rs:133-135). -/
abbrev size : Nat := 16

/-- `AsBytes::as_bytes` (derive at dlt_v1.rs:109); `I32` is stored as its two's complement. -/
def asBytes (h : StorageHeader) : Bytes :=
  h.pattern.toBytes ++ (encLE32 h.secs).toBytes ++ (encLE32 h.msecs.toUInt32).toBytes ++ h.ecu.toBytes

/-- `FromBytes::ref_from_prefix` (derive at dlt_v1.rs:109): `None` iff fewer than 16 bytes. -/
def refFromPrefix (bs : Bytes) : Option StorageHeader :=
  if 16 ≤ bs.length then
    some ⟨b4At bs 0, le32 (b4At bs 4), (le32 (b4At bs 8)).toInt32, b4At bs 12⟩
  else none

end StorageHeader

/-! ## Message info, dlt_v1.rs:147-261 -/

/-- `DltLogMessageTypeInfo` (dlt_v1.rs:161-168). -/
inductive LogInfo where
  | fatal | error | warn | info | debug | verbose
  deriving DecidableEq, Repr

/-- `DltTraceMessageTypeInfo` (dlt_v1.rs:173-179). -/
inductive TraceInfo where
  | variable | functionIn | functionOut | state | vfb
  deriving DecidableEq, Repr

/-- `DltNetworkMessageTypeInfo` (dlt_v1.rs:185-192). -/
inductive NwInfo where
  | ipc | can | flexray | most | ethernet | someip
  deriving DecidableEq, Repr

/-- `DltControlMessageTypeInfo` (dlt_v1.rs:198-201). -/
inductive CtrlInfo where
  | request | response
  deriving DecidableEq, Repr

/-- `DltMessageType` (dlt_v1.rs:150-155). -/
inductive MsgType where
  | log (i : LogInfo)
  | appTrace (i : TraceInfo)
  | nwTrace (i : NwInfo)
  | control (i : CtrlInfo)
  deriving DecidableEq, Repr

/-- `mtin as u8` for `DltLogMessageTypeInfo` (discriminants dlt_v1.rs:162-167). -/
def LogInfo.toU8 : LogInfo → UInt8
  | .fatal => 1 | .error => 2 | .warn => 3 | .info => 4 | .debug => 5 | .verbose => 6
/-- `mtin as u8` for `DltTraceMessageTypeInfo` (dlt_v1.rs:174-178). -/
def TraceInfo.toU8 : TraceInfo → UInt8
  | .variable => 1 | .functionIn => 2 | .functionOut => 3 | .state => 4 | .vfb => 5
/-- `mtin as u8` for `DltNetworkMessageTypeInfo` (dlt_v1.rs:186-191). -/
def NwInfo.toU8 : NwInfo → UInt8
  | .ipc => 1 | .can => 2 | .flexray => 3 | .most => 4 | .ethernet => 5 | .someip => 6
/-- `mtin as u8` for `DltControlMessageTypeInfo` (dlt_v1.rs:199-200). -/
def CtrlInfo.toU8 : CtrlInfo → UInt8
  | .request => 1 | .response => 2

/-- derived `FromPrimitive::from_u8` (dlt_v1.rs:157). -/
def LogInfo.fromU8 (n : UInt8) : Option LogInfo :=
  if n = 1 then some .fatal else if n = 2 then some .error else if n = 3 then some .warn
  else if n = 4 then some .info else if n = 5 then some .debug else if n = 6 then some .verbose
  else none
/-- derived `FromPrimitive::from_u8` (dlt_v1.rs:170). -/
def TraceInfo.fromU8 (n : UInt8) : Option TraceInfo :=
  if n = 1 then some .variable else if n = 2 then some .functionIn else if n = 3 then some .functionOut
  else if n = 4 then some .state else if n = 5 then some .vfb else none
/-- derived `FromPrimitive::from_u8` (dlt_v1.rs:181). -/
def NwInfo.fromU8 (n : UInt8) : Option NwInfo :=
  if n = 1 then some .ipc else if n = 2 then some .can else if n = 3 then some .flexray
  else if n = 4 then some .most else if n = 5 then some .ethernet else if n = 6 then some .someip
  else none
/-- derived `FromPrimitive::from_u8` (dlt_v1.rs:194). -/
def CtrlInfo.fromU8 (n : UInt8) : Option CtrlInfo :=
  if n = 1 then some .request else if n = 2 then some .response else none

/-- `DltMessageInfoMask::MessageTypeInfo as u8` (dlt_v1.rs:207): `(0x15 << 4) as u8`, the cast
truncates `0x150` to `0x50`. -/
def maskMTIN : UInt8 := UInt8.ofNat (0x15 <<< 4)
/-- `DltMessageInfoMask::MessageType as u8` (dlt_v1.rs:206). -/
def maskMSTP : UInt8 := UInt8.ofNat (0x7 <<< 1)
/-- `DltMessageInfoMask::Verbose as u8` (dlt_v1.rs:205). -/
def maskVerbose : UInt8 := 0x1

/-- The four tuple-variant constructors of `DltMessageType`, as function items. -/
inductive Ctor where
  | log | appTrace | nwTrace | control
  deriving DecidableEq, Repr

/-- `struct MessageType { msin: u8 }` (dlt_v1.rs:213-215). -/
structure MessageType where
  msin : UInt8
  deriving DecidableEq, Repr

namespace MessageType

/-- dlt_v1.rs:218-220. -/
def isVerbose (m : MessageType) : Bool := (m.msin &&& maskVerbose) > 0

/-- dlt_v1.rs:221-230. -/
def messageType (m : MessageType) : Option MsgType :=
  let mtin := (m.msin &&& maskMTIN) >>> 4
  let mstp := (m.msin &&& maskMSTP) >>> 1
  if mstp = 0 then (LogInfo.fromU8 mtin).map .log
  else if mstp = 1 then (TraceInfo.fromU8 mtin).map .appTrace
  else if mstp = 2 then (NwInfo.fromU8 mtin).map .nwTrace
  else if mstp = 3 then (CtrlInfo.fromU8 mtin).map .control
  else none

/-- dlt_v1.rs:231-233. -/
def info (m : MessageType) : Bool × Option MsgType := (m.isVerbose, m.messageType)

/-- The constructor that line 242/246/250/254 casts to `u8`, and the type info. -/
def ctorOf : MsgType → Ctor × UInt8
  | .log i => (.log, i.toU8)
  | .appTrace i => (.appTrace, i.toU8)
  | .nwTrace i => (.nwTrace, i.toU8)
  | .control i => (.control, i.toU8)

/-- `MessageType::create_message_type` (dlt_v1.rs:235-260).

`DltMessageType::DltTypeLog as u8` names a tuple variant *without* its field: that is the constructor
function item, so the cast takes the low byte of the function's address, not the discriminant `0x0`.
`addr` gives that low byte for each constructor; it is chosen by the linker. The four match arms
(242-243, 246-247, 250-251, 254-255) are identical up to the constructor and are modelled once. -/
def create (addr : Ctor → UInt8) (verbose : Bool) (typ : MsgType) : MessageType :=
  let msin : UInt8 := if verbose then 0x1 else 0
  let (c, mtin) := ctorOf typ
  let msin := msin ||| ((addr c <<< 1) &&& maskMSTP)
  let msin := msin ||| ((mtin <<< 4) &&& maskMTIN)
  ⟨msin⟩

end MessageType

/-! ## Extended header, dlt_v1.rs:264-281 -/

/-- `DltExtendedHeader` (dlt_v1.rs:266-271). -/
structure ExtHeader where
  msin : MessageType
  noar : UInt8
  apid : B4
  ctid : B4
  deriving DecidableEq, Repr

namespace ExtHeader

/-- `DltExtendedHeader::new` (dlt_v1.rs:274-276). -/
def new (msin : MessageType) (noar : UInt8) (apid ctid : B4) : ExtHeader := ⟨msin, noar, apid, ctid⟩

/-- `DltExtendedHeader::size` (dlt_v1.rs:278-280). -/
abbrev size : Nat := 10

/-- `AsBytes::as_bytes` (derive at dlt_v1.rs:264). -/
def asBytes (h : ExtHeader) : Bytes := [h.msin.msin, h.noar] ++ h.apid.toBytes ++ h.ctid.toBytes

/-- `FromBytes::ref_from_prefix` (derive at dlt_v1.rs:264): `None` iff fewer than 10 bytes. -/
def refFromPrefix (bs : Bytes) : Option ExtHeader :=
  if 10 ≤ bs.length then
    some ⟨⟨byteAt bs 0⟩, byteAt bs 1, b4At bs 2, b4At bs 6⟩
  else none

end ExtHeader

/-- `U32::ref_from_prefix(bs)` in big endian, then `.get()` (dlt_v1.rs:348,367). -/
def u32RefFromPrefix (bs : Bytes) : Option UInt32 :=
  if 4 ≤ bs.length then some (be32 (b4At bs 0)) else none

/-! ## Entries, dlt_v1.rs:288-436 -/

/-- `DltEntry` (dlt_v1.rs:339-342). -/
structure DltEntry where
  header : StdHeader
  tail : Bytes
  deriving DecidableEq, Repr

/-- `DltStorageEntry` (dlt_v1.rs:290-293). -/
structure StorageEntry where
  storageHeader : StorageHeader
  dlt : DltEntry
  deriving DecidableEq, Repr

namespace DltEntry

/-- `DltEntry::try_read` (dlt_v1.rs:417-426). -/
def tryRead (bs : Bytes) : Res (Option (Nat × DltEntry)) :=
  match StdHeader.refFromPrefix bs with
  | none => .ok none
  | some h =>
    let size2 := h.length.toNat
    if StdHeader.size > size2 ∨ size2 > bs.length then .ok none
    else
      match slice bs StdHeader.size size2 with
      | .panic => .panic
      | .ok p => .ok (some (size2, ⟨h, p⟩))

/-- `DltEntry::len` (dlt_v1.rs:429-431). -/
def len (e : DltEntry) : Nat := e.header.len

/-- `DltEntry::max_len` (dlt_v1.rs:433-435). -/
def maxLen : Nat := 65535

/-- `DltEntry::ecu_id` (dlt_v1.rs:346-352): `&self.tail[..4]` panics on a short tail. -/
def ecuId (e : DltEntry) : Res (Option UInt32) :=
  if e.header.headerType.isWithEcuId then do
    let t ← sliceTo e.tail 4
    .ok (u32RefFromPrefix t)
  else .ok none

/-- `DltEntry::timestamp` (dlt_v1.rs:355-371). -/
def timestamp (e : DltEntry) : Res (Option UInt32) :=
  if e.header.headerType.isWithTimestamp then
    let offset := 0
    let offset := if e.header.headerType.isWithEcuId then offset + 4 else offset
    let offset := if e.header.headerType.isWithSessionId then offset + 4 else offset
    if offset > e.tail.length then .ok none
    else do
      let t ← sliceFrom e.tail offset
      .ok (u32RefFromPrefix t)
  else .ok none

/-- The offset computation shared by `extended_header` (dlt_v1.rs:377-387) and `payload`
(dlt_v1.rs:393-402). -/
def optOffset (e : DltEntry) : Nat :=
  let offset := 0
  let offset := if e.header.headerType.isWithEcuId then offset + 4 else offset
  let offset := if e.header.headerType.isWithSessionId then offset + 4 else offset
  if e.header.headerType.isWithTimestamp then offset + 4 else offset

/-- `DltEntry::extended_header` (dlt_v1.rs:373-389). -/
def extendedHeader (e : DltEntry) : Res (Option ExtHeader) :=
  if !e.header.headerType.isExtendedHeader then .ok none
  else do
    let t ← sliceFrom e.tail e.optOffset
    .ok (ExtHeader.refFromPrefix t)

/-- `DltEntry::payload` (dlt_v1.rs:392-411). -/
def payload (e : DltEntry) : Res (Option Bytes) :=
  let offset := e.optOffset
  let rest (offset : Nat) : Res (Option Bytes) :=
    if offset > e.tail.length then .ok none
    else do
      let t ← sliceFrom e.tail offset
      .ok (some t)
  if e.header.headerType.isExtendedHeader then do
    let t ← sliceFrom e.tail offset
    match ExtHeader.refFromPrefix t with
    | none => .ok none
    | some _ => rest (offset + ExtHeader.size)
  else rest offset

end DltEntry

namespace StorageEntry

/-- Private `try_read` (dlt_v1.rs:296-301). -/
def tryReadRaw (bs : Bytes) : Res (Option (Nat × StorageEntry)) :=
  match StorageHeader.refFromPrefix bs with
  | none => .ok none
  | some sh =>
    match sliceFrom bs StorageHeader.size with
    | .panic => .panic
    | .ok rest =>
      match DltEntry.tryRead rest with
      | .panic => .panic
      | .ok none => .ok none
      | .ok (some (size2, entry)) => .ok (some (StorageHeader.size + size2, ⟨sh, entry⟩))

/-- `DltStorageEntry::marker` (dlt_v1.rs:305-307): `DLT\x01`. -/
def marker : Bytes := [0x44, 0x4C, 0x54, 0x01]

/-- `DltStorageEntry::try_read_valid_marker` (dlt_v1.rs:310-312). -/
def tryReadValidMarker (bs : Bytes) : Res (Option (Nat × StorageEntry)) := tryReadRaw bs

/-- `DltStorageEntry::try_read` (dlt_v1.rs:318-326). -/
def tryRead (bs : Bytes) : Res (Option (Nat × StorageEntry)) :=
  if bs.length < 4 then .ok none
  else
    match slice bs 0 4 with
    | .panic => .panic
    | .ok s => if s ≠ [0x44, 0x4C, 0x54, 0x01] then .ok none else tryReadRaw bs

/-- `DltStorageEntry::len` (dlt_v1.rs:329-331). -/
def len (e : StorageEntry) : Nat := e.dlt.header.len + 16

/-- `DltStorageEntry::max_len` (dlt_v1.rs:333-335): `u16::MAX as usize`. -/
def maxLen : Nat := 65535

end StorageEntry

end Verif
