import Verif.Spec.EndToEnd
import Verif.Spec.Equal

/-! # What the multithreaded commands say about a file made by `dd_dlt` -/

namespace Verif.Spec

open Verif

/-- The numbers of the messages in each slice of a file of `k` messages of `L` bytes. -/
def slicesOfNumbers (k L num : Nat) : List (List Nat) :=
  groups (k / num) (slicesOf k L num) (List.range (k - leftOut k L num))

/-- The seconds between the first and the last message of each slice, at 100 messages per second. -/
def sliceSpans (k L num : Nat) : List Nat :=
  (slicesOfNumbers k L num).map fun g => g.getLastD 0 / 100 - g.headD 0 / 100

open Classical in
/-- The report about `dd_dlt`'s messages if the slices hold those with the payloads `pieces`, and `hist` is the histogram of
the seconds in a slice. -/
def ddParReport (ecuid : Bytes) (pieces : List Bytes) (hist : List (Nat × Nat)) : Cmd → Option Report
  | .parCount => some (.number pieces.length)
  | .parCountHelloWorld => some (.number (pieces.filter fun p => decide (helloWorld <:+: p)).length)
  | .parHistogramTimestamp => some (.buckets (hist.map fun e => (e.1, e.1 + 1, e.2)))
  | .parSplitTimestamp => some (.ecus
      (oneLine pieces.length (ecuid, hist.map fun e => (UInt32.ofNat e.1, e.2), pieces.length)))
  | .parIter => some .nothing
  | _ => none

end Verif.Spec
