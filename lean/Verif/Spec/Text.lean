import Verif.Spec.Main

/-! # What the commands print, given what they report -/

namespace Verif.Spec

open Verif

/-- The UTF-8 bytes of a string. -/
def utf8 (s : String) : Bytes := s.toList.flatMap String.utf8EncodeChar

/-- The line above the results. -/
def titleOf : Cmd → String
  | .histogramLifecycles | .splitLifecycles => "Distribution of lifecycle durations:\n"
  | .splitTimestamp | .parSplitTimestamp | .histogramTimestamp | .parHistogramTimestamp =>
    "Durations of periods where DLT storage header timestamps are continuous:\n"
  | .histogramMessageType => "(verbose, message type): # dlt messages\n"
  | .histogramPayloadSize => "Distribution of payload length:\n"
  | .histogramMessageSize => "Distribution of DLT message length:\n"
  | .histogramHelloWorld => "Distribution of 'Hello World' matches:\n"
  | _ => ""

/-- What the number of a counting command counts. -/
def unitOf : Cmd → String
  | .count | .parCount => "messages"
  | .countHelloWorldRaw => "raw hello world matches"
  | .iter | .itertools => "lifecycles >= 1800s"
  | _ => "hello world messages"

/-- What a size command adds up. -/
def totalOf : Cmd → String
  | .histogramPayloadSize => "Payload"
  | _ => "DLT messages"

/-- A duration histogram as printed: `{3: 1, 7: 2}`. -/
def mapText : List (UInt32 × Nat) → String
  | [] => "{}"
  | (k, v) :: rest => "{" ++ s!"{k.toNat}: {v}" ++ String.join (rest.map fun e => s!", {e.1.toNat}: {e.2}") ++ "}"

/-- A message type as printed, e.g. `(true, Some(DltTypeLog(DltLogInfo)))`. -/
def typeText : Bool × Option MsgType → String
  | (b, none) => s!"({b}, None)"
  | (b, some (.log i)) => s!"({b}, Some(DltTypeLog({match i with
      | .fatal => "DltLogFatal" | .error => "DltLogDltError" | .warn => "DltLogWarn" | .info => "DltLogInfo"
      | .debug => "DltLogDebug" | .verbose => "DltLogVerbose"})))"
  | (b, some (.appTrace i)) => s!"({b}, Some(DltTypeAppTrace({match i with
      | .variable => "DltTraceVariable" | .functionIn => "DltTraceFunctionIn" | .functionOut => "DltTraceFunctionOut"
      | .state => "DltTraceState" | .vfb => "DltTraceVfb"})))"
  | (b, some (.nwTrace i)) => s!"({b}, Some(DltTypeNwTrace({match i with
      | .ipc => "DltNwTraceIpc" | .can => "DltNwTraceCan" | .flexray => "DltNwTraceFlexray"
      | .most => "DltNwTraceMost" | .ethernet => "DltNwTraceEthernet" | .someip => "DltNwTraceSomeip"})))"
  | (b, some (.control i)) => s!"({b}, Some(DltTypeControl({match i with
      | .request => "DltControlRequest" | .response => "DltControlResponse"})))"

/-- The lines of a report. An ECU id is printed as it is. -/
def linesOf (c : Cmd) : Report → List Bytes
  | .buckets ls => ls.map fun l => utf8 s!"{l.1}-{l.2.1} secs: {l.2.2}\n"
  | .ecus ls => ls.map fun l => l.1 ++ utf8 s!" #lifecycles: ({mapText l.2.1}, {l.2.2})\n"
  | .infos ls => ls.map fun l => utf8 s!"{typeText l.1}: {l.2}\n"
  | .sizes ls total => (ls.map fun l => utf8 s!"{l.1}b: {l.2.1}, overall: {l.2.2} kB\n") ++
      [utf8 s!"{totalOf c} in total: {total} kB\n"]
  | .offsets ls => ls.map fun l => utf8 s!"Offset {l.1}M-{l.2.1}M: {l.2.2}\n"
  | .number n => [utf8 s!"{n} {unitOf c}\n"]
  | .nothing => []

/-- The line the parallel commands print before they start. -/
def startLine (num slices : Nat) : String := s!"available parallelism = {num}, slices = {slices}\n"

/-- What a command prints before its results: its title and, if it runs on several threads, their number and the number
of slices. -/
def openingOf (num slices : Nat) (c : Cmd) : Bytes :=
  utf8 (titleOf c) ++ (if sequential c then [] else utf8 (startLine num slices))

/-- The first line of a run: the program and its arguments. -/
def echoLine (prog : String) (args : List String) : Bytes := utf8 (String.intercalate " " (prog :: args) ++ "\n")

end Verif.Spec
