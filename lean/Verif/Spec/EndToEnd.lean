import Verif.Spec.DdDlt
import Verif.Spec.Text

/-! # What `ripdlt` says about a file made by `dd_dlt` -/

namespace Verif.Spec

open Verif

/-- The payloads `dd_dlt` cuts an input into: as many pieces of `n` bytes as there are. -/
def chunks (n : Nat) (input : Bytes) : List Bytes := (List.range (input.length / n)).map (chunk n input)

/-- One line, unless there is nothing. -/
def oneLine {α : Type} (k : Nat) (l : α) : List α := if k = 0 then [] else [l]

open Classical in
/-- The report about `dd_dlt`'s messages with these payloads of `n` bytes, this ECU id and this message type: the messages
follow each other at 100 per second, without interruption. -/
def ddReport (ecuid : Bytes) (type : Bool × Option MsgType) (n : Nat) (pieces : List Bytes) : Cmd → Option Report
  | .count => some (.number pieces.length)
  | .countHelloWorld => some (.number (pieces.filter fun p => decide (helloWorld <:+: p)).length)
  | .histogramMessageSize => some (.sizes
      (oneLine pieces.length (34 + n, pieces.length, (34 + n) * pieces.length / 1024)) ((34 + n) * pieces.length / 1024))
  | .histogramPayloadSize => some (.sizes
      (oneLine pieces.length (n, pieces.length, n * pieces.length / 1024)) (n * pieces.length / 1024))
  | .histogramMessageType => some (.infos (oneLine pieces.length (type, pieces.length)))
  | .histogramTimestamp | .histogramLifecycles => some (.buckets
      (oneLine pieces.length ((pieces.length - 1) / 100, (pieces.length - 1) / 100 + 1, 1)))
  | .splitTimestamp | .splitLifecycles => some (.ecus
      (oneLine pieces.length (ecuid, [(UInt32.ofNat ((pieces.length - 1) / 100), 1)], pieces.length)))
  | .iter => some (.number (if 180000 < pieces.length then 1 else 0))
  | .itertools => some (.number 0)
  | _ => none

end Verif.Spec
