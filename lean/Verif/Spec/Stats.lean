import Verif.Spec.Top
import Verif.Spec.Layout
import Verif.Spec.Generator
import Verif.Spec.Spans
import Verif.Spec.Histogram

/-! # Statistics over the messages of a file -/

namespace Verif.Spec

open Verif

/-- The messages `dltit` is specified to read from a file (see `Scan`), in file order. -/
def Messages (bytes : Bytes) (msgs : List StorageEntry) : Prop :=
  ∃ items, Scan dltStorage bytes 0 items ∧ msgs = items.map (·.2)

/-- The storage time of a message in seconds. -/
def secsOf (e : StorageEntry) : Nat := e.storageHeader.secs.toNat

/-- Seconds between the first and the last message of a list. -/
def secSpanOf (r : List StorageEntry) : Nat :=
  match r.head?, r.getLast? with
  | some a, some b => secsOf b - secsOf a
  | _, _ => 0

/-- The time stamp of a message, if it is flagged and complete. -/
def timeOf (e : StorageEntry) : Option Nat :=
  if flag e.dlt 4 then
    match e.dlt.tail.drop (four (flag e.dlt 2) + four (flag e.dlt 3)) with
    | a :: b :: c :: d :: _ => some (beVal a b c d)
    | _ => none
  else none

/-- The time stamp of a message that has one. -/
def time (e : StorageEntry) : Nat := (timeOf e).getD 0

/-- Time (in units of 0.1 ms) between the first and the last message of a list. -/
def timeSpanOf (r : List StorageEntry) : Nat :=
  match r.head?, r.getLast? with
  | some a, some b => time b - time a
  | _, _ => 0

/-- The messages with the time stamp flag. -/
def timed (msgs : List StorageEntry) : List StorageEntry := msgs.filter fun e => flag e.dlt 4

/-- Every message flagged to have a time stamp has a complete one. -/
def TimesComplete (msgs : List StorageEntry) : Prop := ∀ e ∈ timed msgs, (timeOf e).isSome

end Verif.Spec

namespace Verif.Spec

open Verif

/-- The seconds of the first and of the last message of a list. -/
def secsPairOf (r : List StorageEntry) : Nat × Nat :=
  match r.head?, r.getLast? with
  | some a, some b => (secsOf a, secsOf b)
  | _, _ => (0, 0)

/-- The spans of seconds reported for the messages of one ECU: their runs of non-decreasing seconds, merged
without losing or inventing a second. `merged` alone determines them (`absorbed_unique`). -/
structure EcuSpans (msgs : List StorageEntry) (runs : List (List StorageEntry)) (spans : List (Nat × Nat)) : Prop where
  isRuns : MaximalRuns (fun a b => secsOf a ≤ secsOf b) msgs runs
  cover : ∀ t, (∃ s ∈ spans, Covers s.1 s.2 t) ↔
    ∃ r ∈ runs, ∃ a b, r.head? = some a ∧ r.getLast? = some b ∧ Covers (secsOf a) (secsOf b) t
  ordered : ∀ s ∈ spans, s.1 ≤ s.2
  few : spans.length ≤ runs.length
  sorted : spans.Pairwise fun s s' => s.1 < s'.1 ∨ (s.1 = s'.1 ∧ s.2 < s'.2)
  ends : ∀ s ∈ spans, ∃ a ∈ msgs, ∃ b ∈ msgs, s = (secsOf a, secsOf b)
  merged : Absorbed (runs.map secsPairOf) spans

/-- The messages of one ECU. -/
def ofEcu (ecu : B4) (msgs : List StorageEntry) : List StorageEntry :=
  msgs.filter fun e => decide (e.storageHeader.ecu = ecu)

end Verif.Spec

namespace Verif.Spec

open Verif

/-- The ECU id in the standard header of a message, if it is flagged and complete. -/
def ecuOf (e : StorageEntry) : Option Nat :=
  if flag e.dlt 2 then
    match e.dlt.tail with
    | a :: b :: c :: d :: _ => some (beVal a b c d)
    | _ => none
  else none

/-- Half an hour in units of 0.1 ms. -/
def halfHour : Nat := 30 * 60 * 10000

end Verif.Spec

namespace Verif.Spec

open Verif

/-- Bytes of the tail in front of the payload. -/
def preLen (e : StorageEntry) : Nat := optLen e.dlt + if flag e.dlt 0 then 10 else 0

/-- The payload of a message whose flagged fields are complete. -/
def payloadOf (e : StorageEntry) : Option Bytes :=
  if preLen e ≤ e.dlt.tail.length then some (e.dlt.tail.drop (preLen e)) else none

/-- The message info byte: the first byte of the extended header. -/
def infoByte (e : StorageEntry) : UInt8 := e.dlt.tail.getD (optLen e.dlt) 0

/-- The payload contains the text. -/
def hasText (text : Bytes) (e : StorageEntry) : Prop := ∃ p, payloadOf e = some p ∧ text <:+: p

/-- A byte string is well-formed UTF-8: the encoding of a sequence of Unicode scalar values
(RFC 3629; surrogates excluded). -/
inductive Utf8 : Bytes → Prop where
  | nil : Utf8 []
  | one {a : UInt8} {rest : Bytes} (c : Nat) : c < 0x80 → a.toNat = c → Utf8 rest → Utf8 (a :: rest)
  | two {a b : UInt8} {rest : Bytes} (c : Nat) : 0x80 ≤ c → c < 0x800 →
      a.toNat = 0xC0 + c / 64 → b.toNat = 0x80 + c % 64 → Utf8 rest → Utf8 (a :: b :: rest)
  | three {a b d : UInt8} {rest : Bytes} (c : Nat) : 0x800 ≤ c → c < 0x10000 → ¬ (0xD800 ≤ c ∧ c < 0xE000) →
      a.toNat = 0xE0 + c / 4096 → b.toNat = 0x80 + c / 64 % 64 → d.toNat = 0x80 + c % 64 → Utf8 rest →
      Utf8 (a :: b :: d :: rest)
  | four {a b d e : UInt8} {rest : Bytes} (c : Nat) : 0x10000 ≤ c → c < 0x110000 →
      a.toNat = 0xF0 + c / 262144 → b.toNat = 0x80 + c / 4096 % 64 → d.toNat = 0x80 + c / 64 % 64 →
      e.toNat = 0x80 + c % 64 → Utf8 rest → Utf8 (a :: b :: d :: e :: rest)

end Verif.Spec
