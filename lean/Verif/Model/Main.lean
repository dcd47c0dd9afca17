import Verif.Model.Buffer
import Verif.Model.Hello

/-!
# Model of `main` (ripdlt/src/main.rs:296-427)

Arguments are given without the program name. This file models which numbers a command reports; Model/Print.lean models the
text, including titles, the echo of the arguments, the number of slices and the lines `par_iter` prints for its slices.
-/

namespace Verif

/-- The test names `main` knows (ripdlt/src/main.rs:314-426). -/
inductive Cmd where
  | histogramLifecycles | splitLifecycles | splitTimestamp | parSplitTimestamp | histogramTimestamp
  | parHistogramTimestamp | histogramMessageType | histogramPayloadSize | histogramMessageSize | count | parCount
  | histogramHelloWorld | countHelloWorld | countHelloWorldRaw | countHelloWorldGrepit | parCountHelloWorld
  | parCountHelloWorldRaw | parCountHelloWorldGrepit | parIter | iter | itertools
  deriving DecidableEq, Repr

/-- `match args[2].as_str()` (ripdlt/src/main.rs:314-426). -/
def Cmd.ofString (s : String) : Option Cmd :=
  if s = "histogram_lifecycles" then some .histogramLifecycles
  else if s = "split_lifecycles" then some .splitLifecycles
  else if s = "split_timestamp" then some .splitTimestamp
  else if s = "par_split_timestamp" then some .parSplitTimestamp
  else if s = "histogram_timestamp" then some .histogramTimestamp
  else if s = "par_histogram_timestamp" then some .parHistogramTimestamp
  else if s = "histogram_message_type" then some .histogramMessageType
  else if s = "histogram_payload_size" then some .histogramPayloadSize
  else if s = "histogram_message_size" then some .histogramMessageSize
  else if s = "count" then some .count
  else if s = "par_count" then some .parCount
  else if s = "histogram_hello_world" then some .histogramHelloWorld
  else if s = "count_hello_world" then some .countHelloWorld
  else if s = "count_hello_world_raw" then some .countHelloWorldRaw
  else if s = "count_hello_world_grepit" then some .countHelloWorldGrepit
  else if s = "par_count_hello_world" then some .parCountHelloWorld
  else if s = "par_count_hello_world_raw" then some .parCountHelloWorldRaw
  else if s = "par_count_hello_world_grepit" then some .parCountHelloWorldGrepit
  else if s = "par_iter" then some .parIter
  else if s = "iter" then some .iter
  else if s = "itertools" then some .itertools
  else none

/-- The numbers a command prints. -/
inductive Report where
  /-- `k-(k+1) secs: v` -/
  | buckets (lines : List (Nat × Nat × Nat))
  /-- `id #lifecycles: (histogram, count)` -/
  | ecus (lines : List (Bytes × (OrdMap UInt32 Nat × Nat)))
  /-- `(verbose, message type): v` -/
  | infos (lines : List ((Bool × Option MsgType) × Nat))
  /-- `kb: v, overall: s kB` and the total in kB -/
  | sizes (lines : List (Nat × Nat × Nat)) (total : Nat)
  /-- `Offset aM-bM: v` -/
  | offsets (lines : List (Nat × Nat × Nat))
  /-- a number of messages, matches or lifecycles -/
  | number (n : Nat)
  /-- `par_iter` discards the sum -/
  | nothing
  deriving DecidableEq, Repr

/-- The loops of `histogram_payload_size` and `histogram_message_size` (ripdlt/src/main.rs:360-366,370-377): the lines
and `total_size` behind the loop. -/
def sizeLines : Nat → List (Nat × Nat) → Res (List (Nat × Nat × Nat) × Nat)
  | total, [] => .ok ([], total)
  | total, (k, v) :: rest =>
    (umul k v).bind fun size => (uadd total size).bind fun total' => (sizeLines total' rest).bind fun r =>
      .ok ((k, v, size / 1024) :: r.1, r.2)

/-- What a size command prints. -/
def sizeReport (m : List (Nat × Nat)) : Res Report := (sizeLines 0 m).bind fun r => .ok (.sizes r.1 (r.2 / 1024))

/-- What the commands with `secs` buckets print. -/
def bucketReport (m : List (Nat × Nat)) : Res Report := (bucketLines m).bind fun ls => .ok (.buckets ls)

/-- What the split commands print. -/
def ecuReport (m : List (B4 × (OrdMap UInt32 Nat × Nat))) : Res Report := (ecuLines m).bind fun ls => .ok (.ecus ls)

/-- What `histogram_hello_world` prints. -/
def offsetReport (m : List (Nat × Nat)) : Res Report := (offsetLines m).bind fun ls => .ok (.offsets ls)

/-- What the counting commands print. -/
def numberReport (n : Nat) : Res Report := .ok (.number n)

/-- Running a command on the bytes of a buffer with `num` threads (ripdlt/src/main.rs:314-427) can end with `r`. A
command that does not end has no `r`. -/
def RunCmd (num : Nat) (bytes : Bytes) (c : Cmd) (r : Res Report) : Prop :=
  match c with
  | .histogramLifecycles => printed (lifecycleHistogram bytes) bucketReport = some r          -- 315-320
  | .splitLifecycles => printed (lifecycleSplit bytes) ecuReport = some r                     -- 321-326
  | .splitTimestamp => printed (timestampSplit bytes) ecuReport = some r                      -- 327-332
  | .parSplitTimestamp => ∃ q, ParTimestampSplit bytes num q ∧ r = q.bind ecuReport           -- 333-338
  | .histogramTimestamp => printed (timestampHistogram bytes) bucketReport = some r           -- 339-344
  | .parHistogramTimestamp => ∃ q, ParTimestampHistogram bytes num q ∧ r = q.bind bucketReport -- 345-350
  | .histogramMessageType => printed (mstpInfoHistogram bytes) (fun m => .ok (.infos m)) = some r -- 351-356
  | .histogramPayloadSize => printed (histogramPayload bytes) sizeReport = some r             -- 358-367
  | .histogramMessageSize => printed (histogramMessage bytes) sizeReport = some r             -- 368-377
  | .count => printed (ripCount bytes) numberReport = some r                                  -- 379-382
  | .parCount => ∃ q, Multithreaded ripCount bytes num q ∧ r = q.bind numberReport            -- 383-386
  | .histogramHelloWorld => printed (histogramHelloWorld helloRegex bytes) offsetReport = some r -- 388-393
  | .countHelloWorld => printed (countHelloWorld bytes) numberReport = some r                 -- 394-397
  | .countHelloWorldRaw => printed (countHelloWorldRaw bytes) numberReport = some r           -- 398-401
  | .countHelloWorldGrepit => printed (countHelloWorldGrepit helloRegex bytes) numberReport = some r -- 402-405
  | .parCountHelloWorld => ∃ q, Multithreaded countHelloWorld bytes num q ∧ r = q.bind numberReport -- 406-409
  | .parCountHelloWorldRaw => ∃ q, Multithreaded countHelloWorldRaw bytes num q ∧ r = q.bind numberReport -- 410-413
  | .parCountHelloWorldGrepit =>
    ∃ q, Multithreaded (countHelloWorldGrepit helloRegex) bytes num q ∧ r = q.bind numberReport -- 414-417
  | .parIter => ∃ q, Multithreaded lifecycleIter bytes num q ∧ r = q.bind fun _ => .ok .nothing -- 418
  | .iter => printed (lifecycleIter bytes) numberReport = some r                              -- 419
  | .itertools => printed (lifecycleItertools bytes) numberReport = some r                    -- 420

/-- How a run of `ripdlt` ends. -/
inductive RipEnd where
  | usage
  | panicked
  | report (r : Report)
  deriving DecidableEq, Repr

/-- `main` (ripdlt/src/main.rs:296-427): the run with these arguments can end with `e`; `f` is the file named by the
third argument, `num` the number of threads. -/
def RipMain (num : Nat) (f : OsFile) (args : List String) (e : RipEnd) : Prop :=
  match args with
  | m :: c :: _ :: _ =>
    match (if m = "mmap" then DltBuffer.mmapFile f else if m = "read" then DltBuffer.readFile f else none) with -- 308-312
    | none => e = .panicked                                        -- `expect`, or a wrong access method
    | some b =>
      match Cmd.ofString c with
      | none => e = .panicked                                      -- 421
      | some c => ∃ r, RunCmd num b.asSlice c r ∧ e = match r with
        | .panic => .panicked
        | .ok r => .report r
  | _ => e = .usage                                                -- 298-303

end Verif
