import Verif.Spec.Stats
import Verif.Spec.Hello
import Verif.Spec.GrepExact
import Verif.Spec.Table
import Verif.Model.Main

/-!
# Specification of the command line (`ripdlt`)

In terms of the messages of the file only.
-/

namespace Verif.Spec

open Verif

/-- The commands that run on one thread. -/
def sequential : Cmd → Bool
  | .parSplitTimestamp | .parHistogramTimestamp | .parCount | .parCountHelloWorld | .parCountHelloWorldRaw
  | .parCountHelloWorldGrepit | .parIter => false
  | _ => true

/-- The files on which a sequential command panics, by the messages of the file: a time stamp, an extended header or a
payload that is announced but does not fit into the message, or an ECU id in the storage header that is not text. -/
def Panics (msgs : List StorageEntry) : Cmd → Prop
  | .histogramLifecycles | .iter => ∃ e ∈ timed msgs, timeOf e = none
  | .itertools => ∃ e ∈ (timed msgs).dropLast, timeOf e = none
  | .splitLifecycles => ∃ e ∈ timed msgs, timeOf e = none ∨ ¬ Utf8 e.storageHeader.ecu.toBytes
  | .splitTimestamp => ∃ e ∈ msgs, ¬ Utf8 e.storageHeader.ecu.toBytes
  | .histogramMessageType => ∃ e ∈ msgs, flag e.dlt 0 = true ∧ e.dlt.tail.length < optLen e.dlt + 10
  | .histogramPayloadSize => ∃ e ∈ msgs, flag e.dlt 0 = true ∧ e.dlt.tail.length < optLen e.dlt
  | .countHelloWorld => ∃ e ∈ msgs, payloadOf e = none
  | _ => False

open Classical in
/-- What a sequential command prints when it does not panic. -/
def Prints (bytes : Bytes) (msgs : List StorageEntry) : Cmd → Report → Prop
  | .count, .number n => n = msgs.length
  | .countHelloWorld, .number n => n = (msgs.filter fun e => decide (hasText helloWorld e)).length
  | .countHelloWorldRaw, .number n => ∃ at_ : List Nat, at_.Pairwise (· < ·) ∧
      (∀ i, i ∈ at_ ↔ helloWorld <+: bytes.drop i) ∧ n = at_.length
  | .countHelloWorldGrepit, .number n => ∃ hits : List (Nat × StorageEntry), GrepYields helloRegex bytes 0 hits ∧
      (hits.Pairwise fun a b => a.1 < b.1) ∧ (∀ x ∈ hits, MsgAt bytes x.1 x.2 ∧ SaysHello x.2) ∧ n = hits.length
  | .iter, .number n => ∃ runs, MaximalRuns (fun a b => time a ≤ time b) (timed msgs) runs ∧
      n = (runs.filter fun r => decide (halfHour ≤ timeSpanOf r)).length
  | .itertools, .number n => n = (((timed msgs).zip (timed msgs).tail).filter
      fun p => decide (halfHour ≤ time p.2 - time p.1)).length
  | .histogramTimestamp, .buckets ls => ∃ runs m, MaximalRuns (fun a b => secsOf a ≤ secsOf b) msgs runs ∧
      IsHistogram (runs.map secSpanOf) m ∧ ls = m.map fun e => (e.1, e.1 + 1, e.2)
  | .histogramLifecycles, .buckets ls => ∃ runs m,
      MaximalRuns (fun a b => ecuOf a = ecuOf b ∧ time a ≤ time b) (timed msgs) runs ∧
      IsHistogram (runs.map fun r => timeSpanOf r / 10000) m ∧ ls = m.map fun e => (e.1, e.1 + 1, e.2)
  | .histogramMessageSize, .sizes ls total => ∃ m, IsHistogram (msgs.map fun e => (encode e).length) m ∧
      ls = (m.map fun e => (e.1, e.2, e.1 * e.2 / 1024)) ∧ total = (msgs.map fun e => (encode e).length).sum / 1024
  | .histogramPayloadSize, .sizes ls total => ∃ m, IsHistogram (msgs.map fun e => ((payloadOf e).getD []).length) m ∧
      ls = (m.map fun e => (e.1, e.2, e.1 * e.2 / 1024)) ∧
      total = (msgs.map fun e => ((payloadOf e).getD []).length).sum / 1024
  | .histogramMessageType, .infos ls =>
      IsHistogram ((msgs.filter fun e => flag e.dlt 0).map fun e => MessageType.info ⟨infoByte e⟩) ls
  | .histogramHelloWorld, .offsets ls => ∃ (hits : List (Nat × StorageEntry)) (m : List (Nat × Nat)),
      GrepYields helloRegex bytes 0 hits ∧ (hits.Pairwise fun a b => a.1 < b.1) ∧ (∀ x ∈ hits, MsgAt bytes x.1 x.2 ∧ SaysHello x.2) ∧
      IsHistogram (hits.map fun x => x.1 / 100000000) m ∧ ls = m.map fun e => (e.1 * 100, (e.1 + 1) * 100, e.2)
  | .splitTimestamp, .ecus ls => ∃ m : List (B4 × (OrdMap UInt32 Nat × Nat)),
      IsHistogram (msgs.map fun e => e.storageHeader.ecu) (m.map fun e => (e.1, e.2.2)) ∧
      (∀ ecu hist n, (ecu, hist, n) ∈ m → ∃ runs spans, EcuSpans (ofEcu ecu msgs) runs spans ∧
        IsHistogram (spans.map fun s => s.2 - s.1) (hist.map fun e => (e.1.toNat, e.2))) ∧
      ls = m.map fun e => (e.1.toBytes, e.2)
  | .splitLifecycles, .ecus ls => ∃ m : List (B4 × (OrdMap UInt32 Nat × Nat)),
      IsHistogram ((timed msgs).map fun e => e.storageHeader.ecu) (m.map fun e => (e.1, e.2.2)) ∧
      (∀ ecu hist n, (ecu, hist, n) ∈ m → ∃ runs,
        MaximalRuns (fun a b => time a ≤ time b) (ofEcu ecu (timed msgs)) runs ∧
        IsHistogram (runs.map fun r => timeSpanOf r / 10000) (hist.map fun e => (e.1.toNat, e.2))) ∧
      ls = m.map fun e => (e.1.toBytes, e.2)
  | _, _ => False

/-- The command a multithreaded counter runs on each slice. -/
def onSlices : Cmd → Cmd
  | .parCount => .count
  | .parCountHelloWorld => .countHelloWorld
  | .parCountHelloWorldRaw => .countHelloWorldRaw
  | .parCountHelloWorldGrepit => .countHelloWorldGrepit
  | .parSplitTimestamp => .splitTimestamp
  | .parHistogramTimestamp => .histogramTimestamp
  | .parIter => .iter
  | c => c

/-- A report about nothing: no lines, or the number zero. -/
def blank : Cmd → Report
  | .histogramLifecycles | .histogramTimestamp | .parHistogramTimestamp => .buckets []
  | .splitLifecycles | .splitTimestamp | .parSplitTimestamp => .ecus []
  | .histogramMessageType => .infos []
  | .histogramPayloadSize | .histogramMessageSize => .sizes [] 0
  | .histogramHelloWorld => .offsets []
  | .parIter => .nothing
  | .count | .parCount | .countHelloWorld | .countHelloWorldRaw | .countHelloWorldGrepit | .parCountHelloWorld
  | .parCountHelloWorldRaw | .parCountHelloWorldGrepit | .iter | .itertools => .number 0

/-- The names a user types. -/
def cmdName : Cmd → String
  | .histogramLifecycles => "histogram_lifecycles"
  | .splitLifecycles => "split_lifecycles"
  | .splitTimestamp => "split_timestamp"
  | .parSplitTimestamp => "par_split_timestamp"
  | .histogramTimestamp => "histogram_timestamp"
  | .parHistogramTimestamp => "par_histogram_timestamp"
  | .histogramMessageType => "histogram_message_type"
  | .histogramPayloadSize => "histogram_payload_size"
  | .histogramMessageSize => "histogram_message_size"
  | .count => "count"
  | .parCount => "par_count"
  | .histogramHelloWorld => "histogram_hello_world"
  | .countHelloWorld => "count_hello_world"
  | .countHelloWorldRaw => "count_hello_world_raw"
  | .countHelloWorldGrepit => "count_hello_world_grepit"
  | .parCountHelloWorld => "par_count_hello_world"
  | .parCountHelloWorldRaw => "par_count_hello_world_raw"
  | .parCountHelloWorldGrepit => "par_count_hello_world_grepit"
  | .parIter => "par_iter"
  | .iter => "iter"
  | .itertools => "itertools"

end Verif.Spec
