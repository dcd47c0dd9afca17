import Verif.Model.Dlt
import Verif.Model.Stdout

/-!
# Model of `dd_dlt/src/main.rs`

Arguments are byte strings (that `env::args` panics on anything but UTF-8: Model/Process.lean). `stdin` is the sequence of
bytes that can be read before the end of the input or an error: the code treats both alike (28-31; how they are read:
Model/Stdin.lean, C145). Messages on
`stderr` are in Model/Process.lean.
-/

namespace Verif

/-- How the program was built: whether arithmetic overflow is checked (debug builds; release builds wrap around), and
whether with a later version of the standard library (see `LineWriter.behind`). -/
structure Build where
  checks : Bool
  late : Bool
  deriving DecidableEq, Repr

/-- How a run of the program ends. -/
inductive DdEnd where
  /-- usage message (9-14) -/
  | usage
  /-- `Ok(())`, with the reported number of messages (59-60) -/
  | finished (count : UInt32)
  /-- panic: exit code 101 -/
  | panicked
  deriving DecidableEq, Repr

/-- The digits loop of `u16::from_str` (std). -/
def parseDigits (max acc : Nat) : Bytes → Option Nat
  | [] => some acc
  | c :: cs =>
    if 48 ≤ c ∧ c ≤ 57 then
      let acc := acc * 10 + (c.toNat - 48)
      if acc ≤ max then parseDigits max acc cs else none
    else none

/-- `args[3].parse::<u16>()` (dd_dlt/src/main.rs:19): std accepts an optional `+` and decimal digits. -/
def parseU16 : Bytes → Option Nat
  | [] => none
  | [43] => none
  | [45] => none
  | 43 :: rest => parseDigits 65535 0 rest
  | s => parseDigits 65535 0 s

/-- `u32` multiplication. -/
def mul32 (checks : Bool) (a b : UInt32) : Res UInt32 :=
  if a.toNat * b.toNat < 2 ^ 32 then .ok (a * b) else if checks then .panic else .ok (a * b)

/-- `u32` addition. -/
def add32 (checks : Bool) (a b : UInt32) : Res UInt32 :=
  if a.toNat + b.toNat < 2 ^ 32 then .ok (a + b) else if checks then .panic else .ok (a + b)

/-- `u16` addition. -/
def add16 (checks : Bool) (a b : UInt16) : Res UInt16 :=
  if a.toNat + b.toNat < 2 ^ 16 then .ok (a + b) else if checks then .panic else .ok (a + b)

/-- The variables of the loop: unread input, `count`, standard output. -/
structure DdState where
  input : Bytes
  count : UInt32
  out : LineWriter
  deriving DecidableEq, Repr

/-- The settings of a run: how the program was built, addresses of the constructor functions (see `MessageType.create`), the
arguments. -/
structure DdArgs where
  build : Build
  addr : Ctor → UInt8
  ecuid : Bytes
  appid : Bytes
  payloadSize : UInt16

/-- One turn of the loop (dd_dlt/src/main.rs:27-58): the next state, or the end. -/
def ddTurn (a : DdArgs) (s : DdState) : DdState ⊕ DdState × DdEnd :=
  let n := a.payloadSize.toNat
  if s.input.length < n then .inr (s, .finished s.count)                             -- 28-31
  else
    let buf := s.input.take n
    let s : DdState := ⟨s.input.drop n, s.count, s.out⟩
    match B4.ofBytes? a.ecuid with                                                   -- 38
    | none => .inr (s, .panicked)
    | some ecu =>
      let sh := StorageHeader.new ⟨0x44, 0x4C, 0x54, 0x1⟩ (s.count / 100)             -- 34-38
        ((s.count % 100).toInt32 * 10000) ecu
      match add16 a.build.checks (4 + 10 + 4) a.payloadSize with                           -- 40
      | .panic => .inr (s, .panicked)
      | .ok len =>
        let htyp := HTyp.new true false false false true 0x1                         -- 41
        let h := StdHeader.new htyp s.count.toUInt8 len                              -- 42
        match B4.ofBytes? a.appid with                                               -- 46-47
        | none => .inr (s, .panicked)
        | some app =>
          let eh := ExtHeader.new (MessageType.create a.addr true (.log .info)) 0 app app   -- 43-48
          let o := (s.out.write a.build.late sh.asBytes).1                                        -- 50
          let o := (o.write a.build.late h.asBytes).1                                             -- 51
          match mul32 a.build.checks s.count 100 with                                      -- 53
          | .panic => .inr (⟨s.input, s.count, o⟩, .panicked)
          | .ok ts =>
            let o := (o.write a.build.late (encBE32 ts).toBytes).1                                -- 53
            let o := (o.write a.build.late eh.asBytes).1                                          -- 54
            let o := (o.write a.build.late buf).1                                                 -- 55
            match add32 a.build.checks s.count 1 with                                      -- 57
            | .panic => .inr (⟨s.input, s.count, o⟩, .panicked)
            | .ok count => .inl ⟨s.input, count, o⟩

/-- Up to `k` turns of the loop. -/
def ddTurns (a : DdArgs) : Nat → DdState → DdState ⊕ DdState × DdEnd
  | 0, s => .inl s
  | k + 1, s =>
    match ddTurn a s with
    | .inl s' => ddTurns a k s'
    | .inr e => .inr e

/-- The loop ends in `(s', e)`. -/
def DdLoop (a : DdArgs) (s s' : DdState) (e : DdEnd) : Prop := ∃ k, ddTurns a k s = .inr (s', e)

/-- `main` (dd_dlt/src/main.rs:7-61) ends like this, with this output, on these arguments (without the program
name) and this input. -/
def DdMain (b : Build) (addr : Ctor → UInt8) (args : List Bytes) (input output : Bytes) (e : DdEnd) : Prop :=
  match args with
  | ecuid :: appid :: size :: _ =>
    match parseU16 size with
    | none => e = .panicked ∧ output = []                                            -- 21
    | some n => ∃ s, DdLoop ⟨b, addr, ecuid, appid, UInt16.ofNat n⟩ ⟨input, 0, .empty⟩ s e ∧ output = s.out.output
  | _ => e = .usage ∧ output = []                                                    -- 9-14

end Verif
