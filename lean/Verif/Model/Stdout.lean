import Verif.Model.Prim

/-!
# Model of the standard library's `Stdout::write`, as used by `dd_dlt`

`io::stdout()` is a `LineWriter` of capacity 1024 around the process' output (library/std/src/io/stdio.rs,
library/std/src/io/buffered/{linewritershim,bufwriter}.rs). Simplification: the raw output accepts every
write completely and never fails, so `?` on the results never returns early.

The standard library's rule how much of a long rest behind the last newline is taken has changed after the commit's date;
both rules are modelled.
-/

namespace Verif

/-- `Stdout`: what has gone out and what is still buffered. -/
structure LineWriter where
  sink : Bytes
  buf : Bytes
  deriving DecidableEq, Repr

namespace LineWriter

/-- `LineWriter::new` has this capacity. -/
def capacity : Nat := 1024

/-- Nothing written yet. -/
def empty : LineWriter := ⟨[], []⟩

/-- `BufWriter::flush_buf`. -/
def flush (w : LineWriter) : LineWriter := ⟨w.sink ++ w.buf, []⟩

/-- `LineWriterShim::flush_if_completed_line`: flush if the buffered bytes end in a newline. -/
def flushIfCompletedLine (w : LineWriter) : LineWriter :=
  if w.buf.getLast? = some 10 then w.flush else w

/-- `BufWriter::write` with `write_cold`: the new state and the number of bytes taken. -/
def bufWrite (w : LineWriter) (data : Bytes) : LineWriter × Nat :=
  if data.length < capacity - w.buf.length then (⟨w.sink, w.buf ++ data⟩, data.length)
  else
    let w := if data.length > capacity - w.buf.length then w.flush else w
    if data.length ≥ capacity then (⟨w.sink ++ data, w.buf⟩, data.length)
    else (⟨w.sink, w.buf ++ data⟩, data.length)

/-- `BufWriter::write_to_buf`: takes only as many bytes as there is room for. -/
def writeToBuf (w : LineWriter) (data : Bytes) : LineWriter × Nat :=
  let amt := min (capacity - w.buf.length) data.length
  (⟨w.sink, w.buf ++ data.take amt⟩, amt)

/-- The part behind the last newline that `LineWriterShim::write` tries to buffer. Until 2024 all of it; later versions
(`late`) do not split a rest that does not fit ("Avoid unnecessary short writes"), but take none of it. -/
def behind (late : Bool) (rest : Bytes) : Bytes := if late ∧ rest.length ≥ capacity then [] else rest

/-- `LineWriterShim::write`: everything up to the last newline goes out directly, the rest is buffered as far
as it fits. Returns the number of bytes taken, which may be less than `data.len()`. -/
def write (late : Bool) (w : LineWriter) (data : Bytes) : LineWriter × Nat :=
  match rfind [10] data with
  | none => w.flushIfCompletedLine.bufWrite data
  | some i =>
    let newlineIdx := i + 1
    let w := w.flush
    let lines := data.take newlineIdx
    let flushed := lines.length
    if flushed = 0 then (w, 0)
    else
      let w : LineWriter := ⟨w.sink ++ lines, w.buf⟩
      let r := w.writeToBuf (behind late (data.drop flushed))
      (r.1, flushed + r.2)

/-- All bytes the process has put out once it has ended (the runtime flushes `Stdout` on exit). -/
def output (w : LineWriter) : Bytes := w.sink ++ w.buf

end LineWriter

end Verif
