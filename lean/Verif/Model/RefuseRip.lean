import Verif.Model.Refuse
import Verif.Model.Print

/-!
# Model of `ripdlt/src/main.rs` on an output that takes only part of what is written, or refuses it

`println!` writes the formatted text piece by piece with `Stdout::write_all` (holding the lock, so the pieces of a line stay
together) and panics if a write fails. How std cuts the text into pieces is left open. Simplification: once a print has
failed, nothing more is printed. `Model/RefusePar.lean` lifts it: in `par_iter` other threads may still print.
-/

namespace Verif

namespace StdoutOn

/-- `Write::write_all` of the raw output (std): writes until everything is taken; a write that takes nothing is an error. -/
def rawAll (acc : Outlet) (w : StdoutOn) (data : Bytes) : StdoutOn × Bool :=
  if _hd : data = [] then (w, true)
  else
    match acc w.calls w.sink.length data.length with
    | none => (⟨w.sink, w.buf, w.calls + 1⟩, false)
    | some 0 => (⟨w.sink, w.buf, w.calls + 1⟩, false)
    | some (k + 1) => rawAll acc ⟨w.sink ++ data.take (k + 1), w.buf, w.calls + 1⟩ (data.drop (k + 1))
termination_by data.length
decreasing_by
  have : 0 < data.length := List.length_pos_iff.2 _hd
  simp only [List.length_drop]
  omega

/-- The second half of `BufWriter::write_all_cold` (std). -/
def bufPushAll (acc : Outlet) (w : StdoutOn) (data : Bytes) : StdoutOn × Bool :=
  if data.length ≥ LineWriter.capacity then w.rawAll acc data
  else (⟨w.sink, w.buf ++ data, w.calls⟩, true)

/-- `BufWriter::write_all` with `write_all_cold` (std). -/
def bufWriteAll (acc : Outlet) (w : StdoutOn) (data : Bytes) : StdoutOn × Bool :=
  if data.length < LineWriter.capacity - w.buf.length then (⟨w.sink, w.buf ++ data, w.calls⟩, true)
  else if data.length > LineWriter.capacity - w.buf.length then
    match w.flush acc with
    | (w, false) => (w, false)
    | (w, true) => w.bufPushAll acc data
  else w.bufPushAll acc data

/-- `LineWriterShim::write_all` (std). -/
def writeAll (acc : Outlet) (w : StdoutOn) (data : Bytes) : StdoutOn × Bool :=
  match rfind [10] data with
  | none =>
    match w.flushIfCompletedLine acc with
    | (w, false) => (w, false)
    | (w, true) => w.bufWriteAll acc data
  | some i =>
    if w.buf = [] then
      match w.rawAll acc (data.take (i + 1)) with
      | (w, false) => (w, false)
      | (w, true) => w.bufWriteAll acc (data.drop (i + 1))
    else
      match w.bufWriteAll acc (data.take (i + 1)) with
      | (w, false) => (w, false)
      | (w, true) =>
        match w.flush acc with
        | (w, false) => (w, false)
        | (w, true) => w.bufWriteAll acc (data.drop (i + 1))

/-- Printing pieces until one is refused. -/
def printAll (acc : Outlet) (w : StdoutOn) : List Bytes → StdoutOn × Bool
  | [] => (w, true)
  | p :: ps =>
    match w.writeAll acc p with
    | (w, false) => (w, false)
    | (w, true) => printAll acc w ps

end StdoutOn

/-- How a run on such an output ends. -/
inductive RipEndOn where
  /-- as on an output that takes everything: normally, or with a panic that has nothing to do with the output -/
  | ended (ok : Bool)
  /-- `println!` panics because the output does not take the text -/
  | refused
  deriving DecidableEq, Repr

/-- What a run of `ripdlt` (ripdlt/src/main.rs:296-427) puts out, and how it ends; `text` is what it would put out
otherwise. -/
def RipTextOn (acc : Outlet) (num : Nat) (f : OsFile) (prog : String) (args : List String) (text out : Bytes) (e : RipEndOn) : Prop :=
  ∃ ok pieces, RipText num f prog args (text, ok) ∧ pieces.flatten = text ∧
    out = (StdoutOn.printAll acc .empty pieces).1.output acc ∧
    e = if (StdoutOn.printAll acc .empty pieces).2 then .ended ok else .refused

end Verif
