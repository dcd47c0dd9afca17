import Verif.Model.DdDlt

/-!
# Model of `dd_dlt/src/main.rs` on an output that takes only part of what is written, or refuses it

A full disk, a reader that goes away, a write that is cut short. `Model/DdDlt.lean` and `Model/Stdout.lean` are the case
in which every write is taken completely. The raw output is a function of type `Outlet`: it decides, for every call of
`write(2)`, how much of the data is taken. Not modelled: errors of kind `Interrupted`, which std retries.
-/

namespace Verif

/-- The raw output: given the number of earlier calls, the number of bytes taken so far and the length of the data,
either an error (`none`) or the number of bytes taken (at most the length: more is understood as everything). -/
abbrev Outlet := Nat → Nat → Nat → Option Nat

/-- `Stdout`: what has gone out, what is still buffered, the number of raw writes so far. -/
structure StdoutOn where
  sink : Bytes
  buf : Bytes
  calls : Nat
  deriving DecidableEq, Repr

namespace StdoutOn

/-- Nothing written yet. -/
def empty : StdoutOn := ⟨[], [], 0⟩

/-- One raw write that bypasses the buffer (`self.get_mut().write(..)`, `self.inner_mut().write(..)`). -/
def direct (acc : Outlet) (w : StdoutOn) (data : Bytes) : StdoutOn × Option Nat :=
  match acc w.calls w.sink.length data.length with
  | none => (⟨w.sink, w.buf, w.calls + 1⟩, none)
  | some k => (⟨w.sink ++ data.take k, w.buf, w.calls + 1⟩, some (min k data.length))

/-- `BufWriter::flush_buf`: raw writes until the buffer is empty; `false` is an error (a write that takes nothing is
one: `ErrorKind::WriteZero`). What has been written leaves the buffer in any case. -/
def flush (acc : Outlet) (w : StdoutOn) : StdoutOn × Bool :=
  if _hb : w.buf = [] then (w, true)
  else
    match acc w.calls w.sink.length w.buf.length with
    | none => (⟨w.sink, w.buf, w.calls + 1⟩, false)
    | some 0 => (⟨w.sink, w.buf, w.calls + 1⟩, false)
    | some (k + 1) => flush acc ⟨w.sink ++ w.buf.take (k + 1), w.buf.drop (k + 1), w.calls + 1⟩
termination_by w.buf.length
decreasing_by
  have : 0 < w.buf.length := List.length_pos_iff.2 _hb
  simp only [List.length_drop]
  omega

/-- `LineWriterShim::flush_if_completed_line`. -/
def flushIfCompletedLine (acc : Outlet) (w : StdoutOn) : StdoutOn × Bool :=
  if w.buf.getLast? = some 10 then w.flush acc else (w, true)

/-- The second half of `BufWriter::write_cold`. -/
def bufPush (acc : Outlet) (w : StdoutOn) (data : Bytes) : StdoutOn × Option Nat :=
  if data.length ≥ LineWriter.capacity then w.direct acc data
  else (⟨w.sink, w.buf ++ data, w.calls⟩, some data.length)

/-- `BufWriter::write` with `write_cold`. -/
def bufWrite (acc : Outlet) (w : StdoutOn) (data : Bytes) : StdoutOn × Option Nat :=
  if data.length < LineWriter.capacity - w.buf.length then (⟨w.sink, w.buf ++ data, w.calls⟩, some data.length)
  else if data.length > LineWriter.capacity - w.buf.length then
    match w.flush acc with
    | (w, false) => (w, none)
    | (w, true) => w.bufPush acc data
  else w.bufPush acc data

/-- `BufWriter::write_to_buf`. -/
def writeToBuf (w : StdoutOn) (data : Bytes) : StdoutOn × Nat :=
  let amt := min (LineWriter.capacity - w.buf.length) data.length
  (⟨w.sink, w.buf ++ data.take amt, w.calls⟩, amt)

/-- The part of the data that `LineWriterShim::write` tries to buffer after the lines up to `newlineIdx` have been
offered to the raw output, which took `flushed` of them. -/
def tail (late : Bool) (data : Bytes) (newlineIdx flushed : Nat) : Bytes :=
  if flushed ≥ newlineIdx then LineWriter.behind late (data.drop flushed)
  else if newlineIdx - flushed ≤ LineWriter.capacity then (data.take newlineIdx).drop flushed
  else
    let area := (data.drop flushed).take LineWriter.capacity
    match rfind [10] area with
    | some i => area.take (i + 1)
    | none => area

/-- `LineWriterShim::write`: `none` is an error. -/
def write (late : Bool) (acc : Outlet) (w : StdoutOn) (data : Bytes) : StdoutOn × Option Nat :=
  match rfind [10] data with
  | none =>
    match w.flushIfCompletedLine acc with
    | (w, false) => (w, none)
    | (w, true) => w.bufWrite acc data
  | some i =>
    match w.flush acc with
    | (w, false) => (w, none)
    | (w, true) =>
      match w.direct acc (data.take (i + 1)) with
      | (w, none) => (w, none)
      | (w, some flushed) =>
        if flushed = 0 then (w, some 0)
        else
          let r := w.writeToBuf (tail late data (i + 1) flushed)
          (r.1, some (flushed + r.2))

/-- What has been put out once the process has ended: the runtime flushes `Stdout` on exit, by dropping the
`LineWriter`, and ignores errors. -/
def output (acc : Outlet) (w : StdoutOn) : Bytes := (w.flush acc).1.sink

end StdoutOn

/-- How a run on such an output ends. -/
inductive DdEndOn where
  /-- as on an output that takes everything -/
  | ended (e : DdEnd)
  /-- `?` (50-55): `main` returns the error, exit code 1 -/
  | refused
  deriving DecidableEq, Repr

/-- The variables of the loop. -/
structure DdStateOn where
  input : Bytes
  count : UInt32
  out : StdoutOn
  deriving DecidableEq, Repr

/-- `io::stdout().write(..)?` (50-55): the count is ignored, an error ends `main`. -/
def writeOr {α : Type} (late : Bool) (acc : Outlet) (input : Bytes) (count : UInt32) (o : StdoutOn) (data : Bytes)
    (k : StdoutOn → α ⊕ DdStateOn × DdEndOn) : α ⊕ DdStateOn × DdEndOn :=
  match o.write late acc data with
  | (o, none) => .inr (⟨input, count, o⟩, .refused)
  | (o, some _) => k o

/-- One turn of the loop (dd_dlt/src/main.rs:27-58). -/
def ddTurnOn (acc : Outlet) (a : DdArgs) (s : DdStateOn) : DdStateOn ⊕ DdStateOn × DdEndOn :=
  let n := a.payloadSize.toNat
  if s.input.length < n then .inr (s, .ended (.finished s.count))                    -- 28-31
  else
    let buf := s.input.take n
    let input := s.input.drop n
    match B4.ofBytes? a.ecuid with                                                   -- 38
    | none => .inr (⟨input, s.count, s.out⟩, .ended .panicked)
    | some ecu =>
      let sh := StorageHeader.new ⟨0x44, 0x4C, 0x54, 0x1⟩ (s.count / 100)             -- 34-38
        ((s.count % 100).toInt32 * 10000) ecu
      match add16 a.build.checks (4 + 10 + 4) a.payloadSize with                           -- 40
      | .panic => .inr (⟨input, s.count, s.out⟩, .ended .panicked)
      | .ok len =>
        let htyp := HTyp.new true false false false true 0x1                         -- 41
        let h := StdHeader.new htyp s.count.toUInt8 len                              -- 42
        match B4.ofBytes? a.appid with                                               -- 46-47
        | none => .inr (⟨input, s.count, s.out⟩, .ended .panicked)
        | some app =>
          let eh := ExtHeader.new (MessageType.create a.addr true (.log .info)) 0 app app   -- 43-48
          writeOr a.build.late acc input s.count s.out sh.asBytes fun o =>                        -- 50
          writeOr a.build.late acc input s.count o h.asBytes fun o =>                             -- 51
          match mul32 a.build.checks s.count 100 with                                      -- 53
          | .panic => .inr (⟨input, s.count, o⟩, .ended .panicked)
          | .ok ts =>
            writeOr a.build.late acc input s.count o (encBE32 ts).toBytes fun o =>                -- 53
            writeOr a.build.late acc input s.count o eh.asBytes fun o =>                          -- 54
            writeOr a.build.late acc input s.count o buf fun o =>                                 -- 55
            match add32 a.build.checks s.count 1 with                                      -- 57
            | .panic => .inr (⟨input, s.count, o⟩, .ended .panicked)
            | .ok count => .inl ⟨input, count, o⟩

/-- Up to `k` turns of the loop. -/
def ddTurnsOn (acc : Outlet) (a : DdArgs) : Nat → DdStateOn → DdStateOn ⊕ DdStateOn × DdEndOn
  | 0, s => .inl s
  | k + 1, s =>
    match ddTurnOn acc a s with
    | .inl s' => ddTurnsOn acc a k s'
    | .inr e => .inr e

/-- `main` (dd_dlt/src/main.rs:7-61) ends like this on this output, having put out `output`. -/
def DdMainOn (acc : Outlet) (b : Build) (addr : Ctor → UInt8) (args : List Bytes) (input output : Bytes)
    (e : DdEndOn) : Prop :=
  match args with
  | ecuid :: appid :: size :: _ =>
    match parseU16 size with
    | none => e = .ended .panicked ∧ output = []                                     -- 21
    | some n => ∃ k s, ddTurnsOn acc ⟨b, addr, ecuid, appid, UInt16.ofNat n⟩ k ⟨input, 0, .empty⟩ = .inr (s, e) ∧
        output = s.out.output acc
  | _ => e = .ended .usage ∧ output = []                                             -- 9-14

/-- An output with room for `room` bytes: a write takes what there is room for, and is refused when there is none. -/
def Outlet.upTo (room : Nat) : Outlet := fun _ taken len => if room ≤ taken then none else some (min len (room - taken))

end Verif
