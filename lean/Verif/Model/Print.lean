import Verif.Model.Main

/-!
# Model of what `ripdlt` writes to standard output (ripdlt/src/main.rs)

Model/Main.lean says which numbers a command reports; this file says which bytes it prints, up to the moment of a
panic. `println!` writes whole lines and standard output takes every byte. Panic messages go to standard error and are
not modelled.
-/

namespace Verif

/-- The UTF-8 bytes of a string. -/
def text (s : String) : Bytes := s.toList.flatMap String.utf8EncodeChar

/-- `{:?}` of a `BTreeMap<u32, usize>` (std). -/
def debugMap (m : OrdMap UInt32 Nat) : String :=
  "{" ++ String.intercalate ", " (m.map fun e => s!"{e.1.toNat}: {e.2}") ++ "}"

/-- derived `Debug` of `DltLogMessageTypeInfo` (dlt_v1.rs:158-168). -/
def LogInfo.debugText : LogInfo → String
  | .fatal => "DltLogFatal" | .error => "DltLogDltError" | .warn => "DltLogWarn" | .info => "DltLogInfo"
  | .debug => "DltLogDebug" | .verbose => "DltLogVerbose"

/-- derived `Debug` of `DltTraceMessageTypeInfo` (dlt_v1.rs:171-179). -/
def TraceInfo.debugText : TraceInfo → String
  | .variable => "DltTraceVariable" | .functionIn => "DltTraceFunctionIn" | .functionOut => "DltTraceFunctionOut"
  | .state => "DltTraceState" | .vfb => "DltTraceVfb"

/-- derived `Debug` of `DltNetworkMessageTypeInfo` (dlt_v1.rs:182-192). -/
def NwInfo.debugText : NwInfo → String
  | .ipc => "DltNwTraceIpc" | .can => "DltNwTraceCan" | .flexray => "DltNwTraceFlexray" | .most => "DltNwTraceMost"
  | .ethernet => "DltNwTraceEthernet" | .someip => "DltNwTraceSomeip"

/-- derived `Debug` of `DltControlMessageTypeInfo` (dlt_v1.rs:195-201). -/
def CtrlInfo.debugText : CtrlInfo → String
  | .request => "DltControlRequest" | .response => "DltControlResponse"

/-- derived `Debug` of `DltMessageType` (dlt_v1.rs:147-155). -/
def MsgType.debugText : MsgType → String
  | .log i => "DltTypeLog(" ++ i.debugText ++ ")"
  | .appTrace i => "DltTypeAppTrace(" ++ i.debugText ++ ")"
  | .nwTrace i => "DltTypeNwTrace(" ++ i.debugText ++ ")"
  | .control i => "DltTypeControl(" ++ i.debugText ++ ")"

/-- `{:?}` of a `(bool, Option<DltMessageType>)` (std). -/
def debugInfo (k : Bool × Option MsgType) : String :=
  "(" ++ (if k.1 then "true" else "false") ++ ", " ++
    (match k.2 with | none => "None" | some t => "Some(" ++ t.debugText ++ ")") ++ ")"

/-- A loop that prints one line per entry: what it has printed when it ends or panics, and whether it ended. -/
def printLoop {α : Type} (line : α → Res Bytes) : List α → Bytes × Bool
  | [] => ([], true)
  | x :: xs =>
    match line x with
    | .panic => ([], false)
    | .ok l => (l ++ (printLoop line xs).1, (printLoop line xs).2)

/-- `println!("{:?}-{:?} secs: {:?}", k, k+1, v)` (ripdlt/src/main.rs:318,342,348). -/
def bucketLine (e : Nat × Nat) : Res Bytes :=
  (uadd e.1 1).bind fun k' => .ok (text s!"{e.1}-{k'} secs: {e.2}\n")

/-- `println!("{} #lifecycles: {:?}", String::from_utf8(k.to_vec()).unwrap(), v)` (ripdlt/src/main.rs:324,330,336). -/
def ecuLine (e : B4 × (OrdMap UInt32 Nat × Nat)) : Res Bytes :=
  if utf8Valid e.1.toBytes then
    .ok (e.1.toBytes ++ text (" #lifecycles: (" ++ debugMap e.2.1 ++ s!", {e.2.2})\n"))
  else .panic

/-- `println!("{:?}: {:?}", mstp, v)` (ripdlt/src/main.rs:354). -/
def infoLine (e : (Bool × Option MsgType) × Nat) : Res Bytes := .ok (text (debugInfo e.1 ++ s!": {e.2}\n"))

/-- `println!("Offset {:?}M-{:?}M: {:?}", ..)` (ripdlt/src/main.rs:391). -/
def offsetLine (e : Nat × Nat) : Res Bytes :=
  (umul e.1 100000000).bind fun a => (uadd e.1 1).bind fun k' => (umul k' 100000000).bind fun b =>
    .ok (text s!"Offset {a / 1000000}M-{b / 1000000}M: {e.2}\n")

/-- The loops of `histogram_payload_size` and `histogram_message_size` with the line behind them (ripdlt/src/main.rs:360-366,
370-377): the line of an entry is printed before the sum is formed. -/
def sizeLoop (label : String) : Nat → List (Nat × Nat) → Bytes × Bool
  | total, [] => (text s!"{label} in total: {total / 1024} kB\n", true)
  | total, (k, v) :: rest =>
    match umul k v with
    | .panic => ([], false)
    | .ok size =>
      let line := text s!"{k}b: {v}, overall: {size / 1024} kB\n"
      match uadd total size with
      | .panic => (line, false)
      | .ok total' => (line ++ (sizeLoop label total' rest).1, (sizeLoop label total' rest).2)

/-- What comes before and behind the call of a statistics function: `head` is printed before, the function may panic, its
result is printed. -/
def around {α : Type} (head : Bytes) (q : Res α) (body : α → Bytes × Bool) : Bytes × Bool :=
  match q with
  | .panic => (head, false)
  | .ok a => (head ++ (body a).1, (body a).2)

/-- `println!("{:?} ...", r)`. -/
def numberLine (what : String) (n : Nat) : Bytes × Bool := (text s!"{n} {what}\n", true)

/-- `println!("available parallelism = {}, slices = {}", num, slices.len())` (ripdlt/src/main.rs:23,48,74); nothing if
`partition` panics. -/
def slicesLine (num : Nat) (bytes : Bytes) : Bytes :=
  match partitionRanges dltStorage bytes num with
  | .panic => []
  | .ok rs => text s!"available parallelism = {num}, slices = {rs.length}\n"

/-- The line `lifecycle_iter` prints in each thread (ripdlt/src/main.rs:273): those of the slices on which it does not
panic. -/
def iterLine (bytes : Bytes) : Option Bytes :=
  match lifecycleIter bytes with
  | some (.ok n) => some (text s!"{n} lifecycles >= 1800s\n")
  | _ => none

/-- Whether a computation ended normally. -/
def Res.isOk {α : Type} : Res α → Bool
  | .ok _ => true
  | .panic => false

/-- `par_iter`: the threads print their lines in any order; if one of them panics, some of the others may not have
been started (ripdlt/src/main.rs:25-37,273,418). -/
def ParIterLines (slices : List Bytes) (ok : Bool) (lines : List Bytes) : Prop :=
  if ok then ∃ ls, slices.map iterLine = ls.map some ∧ lines.Perm ls
  else ∃ ls, ls.Sublist (slices.filterMap iterLine) ∧ lines.Perm ls

/-- Running a command prints `out.1` and then ends normally (`out.2 = true`) or panics (ripdlt/src/main.rs:314-427). -/
def CmdText (num : Nat) (bytes : Bytes) (c : Cmd) (out : Bytes × Bool) : Prop :=
  match c with
  | .histogramLifecycles => ∃ q, lifecycleHistogram bytes = some q ∧                                -- 315-320
      out = around (text "Distribution of lifecycle durations:\n") q (printLoop bucketLine)
  | .splitLifecycles => ∃ q, lifecycleSplit bytes = some q ∧                                        -- 321-326
      out = around (text "Distribution of lifecycle durations:\n") q (printLoop ecuLine)
  | .splitTimestamp => ∃ q, timestampSplit bytes = some q ∧                                         -- 327-332
      out = around (text "Durations of periods where DLT storage header timestamps are continuous:\n") q (printLoop ecuLine)
  | .parSplitTimestamp => ∃ q, ParTimestampSplit bytes num q ∧                                      -- 333-338
      out = around (text "Durations of periods where DLT storage header timestamps are continuous:\n" ++ slicesLine num bytes)
        q (printLoop ecuLine)
  | .histogramTimestamp => ∃ q, timestampHistogram bytes = some q ∧                                 -- 339-344
      out = around (text "Durations of periods where DLT storage header timestamps are continuous:\n") q (printLoop bucketLine)
  | .parHistogramTimestamp => ∃ q, ParTimestampHistogram bytes num q ∧                              -- 345-350
      out = around (text "Durations of periods where DLT storage header timestamps are continuous:\n" ++ slicesLine num bytes)
        q (printLoop bucketLine)
  | .histogramMessageType => ∃ q, mstpInfoHistogram bytes = some q ∧                                -- 351-356
      out = around (text "(verbose, message type): # dlt messages\n") q (printLoop infoLine)
  | .histogramPayloadSize => ∃ q, histogramPayload bytes = some q ∧                                 -- 358-367
      out = around (text "Distribution of payload length:\n") q (sizeLoop "Payload" 0)
  | .histogramMessageSize => ∃ q, histogramMessage bytes = some q ∧                                 -- 368-377
      out = around (text "Distribution of DLT message length:\n") q (sizeLoop "DLT messages" 0)
  | .count => ∃ q, ripCount bytes = some q ∧ out = around [] q (numberLine "messages")              -- 379-382
  | .parCount => ∃ q, Multithreaded ripCount bytes num q ∧                                          -- 383-386
      out = around (slicesLine num bytes) q (numberLine "messages")
  | .histogramHelloWorld => ∃ q, histogramHelloWorld helloRegex bytes = some q ∧                    -- 388-393
      out = around (text "Distribution of 'Hello World' matches:\n") q (printLoop offsetLine)
  | .countHelloWorld => ∃ q, countHelloWorld bytes = some q ∧                                       -- 394-397
      out = around [] q (numberLine "hello world messages")
  | .countHelloWorldRaw => ∃ q, countHelloWorldRaw bytes = some q ∧                                 -- 398-401
      out = around [] q (numberLine "raw hello world matches")
  | .countHelloWorldGrepit => ∃ q, countHelloWorldGrepit helloRegex bytes = some q ∧                -- 402-405
      out = around [] q (numberLine "hello world messages")
  | .parCountHelloWorld => ∃ q, Multithreaded countHelloWorld bytes num q ∧                         -- 406-409
      out = around (slicesLine num bytes) q (numberLine "hello world messages")
  | .parCountHelloWorldRaw => ∃ q, Multithreaded countHelloWorldRaw bytes num q ∧                   -- 410-413
      out = around (slicesLine num bytes) q (numberLine "hello world messages")
  | .parCountHelloWorldGrepit => ∃ q, Multithreaded (countHelloWorldGrepit helloRegex) bytes num q ∧ -- 414-417
      out = around (slicesLine num bytes) q (numberLine "hello world messages")
  | .parIter => ∃ q slices lines, Multithreaded lifecycleIter bytes num q ∧                         -- 418
      partitionFrom dltStorage bytes num = .ok slices ∧ out.2 = q.isOk ∧ ParIterLines slices out.2 lines ∧
      out.1 = slicesLine num bytes ++ lines.flatten
  | .iter => ∃ q, lifecycleIter bytes = some q ∧ out = around [] q (numberLine "lifecycles >= 1800s") -- 273,419
  | .itertools => ∃ q, lifecycleItertools bytes = some q ∧ out = around [] q (numberLine "lifecycles >= 1800s") -- 290,420

/-- What a run of `ripdlt` prints and how it ends (ripdlt/src/main.rs:296-427); `prog` is `args[0]`. -/
def RipText (num : Nat) (f : OsFile) (prog : String) (args : List String) (out : Bytes × Bool) : Prop :=
  match args with
  | m :: c :: _ :: _ =>
    let echo := text (String.intercalate " " (prog :: args) ++ "\n")                                -- 305
    match (if m = "mmap" then DltBuffer.mmapFile f else if m = "read" then DltBuffer.readFile f else none) with
    | none => out = (echo, false)
    | some b =>
      match Cmd.ofString c with
      | none => out = (echo, false)
      | some c => ∃ o, CmdText num b.asSlice c o ∧ out = (echo ++ o.1, o.2)
  | _ => out = (text (s!"usage: {prog} <file_access_method> <test_name> <filename.dlt>\n" ++
      "  runs ripdlt tests with different implementations\n"), true)                                -- 298-303

end Verif
