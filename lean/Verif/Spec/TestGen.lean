import Verif.Model.DdDlt
import Verif.Spec.EndToEnd

/-! # Files made by several runs of `dd_dlt` (as test/test_gen.sh makes them) -/

namespace Verif.Spec

open Verif

/-- A run of `dd_dlt`: its arguments, the size as a number, its input and what it wrote. -/
structure DdRun where
  ecuid : Bytes
  appid : Bytes
  size : Bytes
  n : Nat
  input : Bytes
  output : Bytes

/-- The payloads: the complete pieces of `n` bytes of the input. -/
def DdRun.pieces (r : DdRun) : List Bytes := chunks r.n r.input

/-- The number of messages. -/
def DdRun.count (r : DdRun) : Nat := r.pieces.length

/-- The run took place, with arguments and an input as in C51. -/
structure DdRun.Ran (bd : Build) (addr : Ctor → UInt8) (r : DdRun) : Prop where
  ecuid : r.ecuid.length = 4
  appid : r.appid.length = 4
  size : Decimal r.size r.n
  pos : 1 ≤ r.n
  small : r.n ≤ 65517
  few : r.count ≤ 42949673
  fit : ∀ p ∈ r.pieces, LinesFit (roomBehind bd.late) p
  ran : ∃ e, DdMain bd addr [r.ecuid, r.appid, r.size] r.input r.output e

/-- The outputs of the runs, one behind the other (`>>` in the shell). -/
def appended (runs : List DdRun) : Bytes := (runs.map (·.output)).flatten

end Verif.Spec
