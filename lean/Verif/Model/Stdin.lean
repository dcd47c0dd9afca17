import Verif.Model.ProcessOn
import Verif.Model.Buffer

/-!
# Model of how `dd_dlt` reads standard input (dd_dlt/src/main.rs:28-31)

`Model/DdDlt.lean` takes the bytes that can be read in front of the end or an error as given. Here the answers of the operating
system to the calls of `read(2)` are given, and `Stdin` (std) is modelled: a `BufReader` with a buffer of 8192 bytes. The
lock of `Stdin` is not poisoned by anything here. A closed standard input is an empty one (std: `handle_ebadf`).
-/

namespace Verif

/-- The result of one read: `got []` is the end of the input. -/
inductive ReadResult where
  | got (data : Bytes)
  | interrupted
  | error
  deriving DecidableEq, Repr

/-- `Stdin`: the bytes in the buffer that have not been consumed, and what the next calls of `read(2)` will give. -/
structure StdinIn where
  buf : Bytes
  events : List ReadEvent
  deriving DecidableEq, Repr

namespace StdinIn

/-- The size of the buffer (`stdio::STDIN_BUF_SIZE`, std). -/
def capacity : Nat := 8192

/-- One call of `read(2)` for up to `m` bytes (`m` is never 0). Bytes that do not fit are there for the next call. -/
def rawRead (m : Nat) : List ReadEvent → ReadResult × List ReadEvent
  | [] => (.got [], [])
  | .interrupted :: rest => (.interrupted, rest)
  | .error :: rest => (.error, rest)
  | .data b bs :: rest =>
    match (b :: bs).drop m with
    | [] => (.got (b :: bs), rest)
    | c :: cs => (.got ((b :: bs).take m), .data c cs :: rest)

/-- `BufReader::read` for up to `m` bytes (std): large reads bypass an empty buffer; otherwise an empty buffer is filled. -/
def read (m : Nat) (s : StdinIn) : ReadResult × StdinIn :=
  if s.buf ≠ [] then (.got (s.buf.take m), ⟨s.buf.drop m, s.events⟩)
  else if capacity ≤ m then
    let r := rawRead m s.events
    (r.1, ⟨[], r.2⟩)
  else
    match rawRead capacity s.events with
    | (.got data, rest) => (.got (data.take m), ⟨data.drop m, rest⟩)
    | (.interrupted, rest) => (.interrupted, ⟨[], rest⟩)
    | (.error, rest) => (.error, ⟨[], rest⟩)

theorem rawRead_events (m : Nat) (events : List ReadEvent) : (rawRead m events).2.length ≤ events.length ∧
    ((rawRead m events).1 = .interrupted → (rawRead m events).2.length < events.length) := by
  match events with
  | [] => exact ⟨Nat.le_refl _, fun h => (by cases h)⟩
  | .interrupted :: rest => exact ⟨Nat.le_succ _, fun _ => Nat.lt_succ_self _⟩
  | .error :: rest => exact ⟨Nat.le_succ _, fun h => (by cases h)⟩
  | .data b bs :: rest =>
    unfold rawRead
    dsimp only
    cases (b :: bs).drop m with
    | nil => exact ⟨Nat.le_succ _, fun h => (by cases h)⟩
    | cons c cs => exact ⟨Nat.le_refl _, fun h => (by cases h)⟩

theorem read_events (m : Nat) (s : StdinIn) : (s.read m).2.events.length ≤ s.events.length ∧
    ((s.read m).1 = .interrupted → (s.read m).2.events.length < s.events.length) := by
  unfold read
  split
  · exact ⟨Nat.le_refl _, fun h => (by cases h)⟩
  · split
    · exact rawRead_events m s.events
    · have h := rawRead_events capacity s.events
      rcases hr : rawRead capacity s.events with ⟨x, rest⟩
      rw [hr] at h
      cases x with
      | got data => exact ⟨h.1, fun h => (by cases h)⟩
      | interrupted => exact ⟨h.1, fun _ => h.2 rfl⟩
      | error => exact ⟨h.1, fun h => (by cases h)⟩

/-- `default_read_exact` for `m` bytes (std): `none` is an error. An end in front of the last byte is one; interruptions are retried. -/
def readLoop (m : Nat) (s : StdinIn) : Option Bytes × StdinIn :=
  if m = 0 then (some [], s)
  else
    match _h : s.read m with
    | (.got [], s') => (none, s')
    | (.got (b :: bs), s') =>
      let r := readLoop (m - (bs.length + 1)) s'
      (r.1.map fun data => b :: (bs ++ data), r.2)
    | (.interrupted, s') => readLoop m s'
    | (.error, s') => (none, s')
termination_by m + s.events.length
decreasing_by
  · have := (read_events m s).1
    rw [_h] at this
    dsimp only at this
    omega
  · have := (read_events m s).2 (by rw [_h])
    rw [_h] at this
    dsimp only at this
    omega

/-- `read_exact` (dd_dlt/src/main.rs:28; `BufReader::read_exact`, std): taken from the buffer if it has enough. -/
def readExact (m : Nat) (s : StdinIn) : Option Bytes × StdinIn :=
  if m ≤ s.buf.length then (some (s.buf.take m), ⟨s.buf.drop m, s.events⟩)
  else s.readLoop m

end StdinIn

/-- The variables of the loop. -/
structure DdStateIn where
  stdin : StdinIn
  count : UInt32
  out : StdoutOn
  deriving DecidableEq, Repr

/-- One turn of the loop (dd_dlt/src/main.rs:27-58): if `read_exact` gives an error, of whatever kind, the loop ends; otherwise the
rest of the turn is that of `ddTurnOn`, which finds `buf` as its input. -/
def ddTurnIn (acc : Outlet) (a : DdArgs) (s : DdStateIn) : DdStateIn ⊕ DdStateIn × DdEndOn :=
  match s.stdin.readExact a.payloadSize.toNat with
  | (none, stdin) => .inr (⟨stdin, s.count, s.out⟩, .ended (.finished s.count))      -- 30
  | (some buf, stdin) =>
    match ddTurnOn acc a ⟨buf, s.count, s.out⟩ with
    | .inl t => .inl ⟨stdin, t.count, t.out⟩
    | .inr (t, e) => .inr (⟨stdin, t.count, t.out⟩, e)

/-- Up to `k` turns of the loop. -/
def ddTurnsIn (acc : Outlet) (a : DdArgs) : Nat → DdStateIn → DdStateIn ⊕ DdStateIn × DdEndOn
  | 0, s => .inl s
  | k + 1, s =>
    match ddTurnIn acc a s with
    | .inl s' => ddTurnsIn acc a k s'
    | .inr e => .inr e

/-- `main` (dd_dlt/src/main.rs:7-61) ends like this, having put out `output`; `events` are the results of the calls of `read(2)`. -/
def DdMainIn (acc : Outlet) (b : Build) (addr : Ctor → UInt8) (args : List Bytes) (events : List ReadEvent) (output : Bytes)
    (e : DdEndOn) : Prop :=
  match args with
  | ecuid :: appid :: size :: _ =>
    match parseU16 size with
    | none => e = .ended .panicked ∧ output = []                                     -- 21
    | some n => ∃ k s, ddTurnsIn acc ⟨b, addr, ecuid, appid, UInt16.ofNat n⟩ k ⟨⟨[], events⟩, 0, .empty⟩ = .inr (s, e) ∧
        output = s.out.output acc
  | _ => e = .ended .usage ∧ output = []                                             -- 9-14

/-- The process `dd_dlt` (dd_dlt/src/main.rs:7-61). -/
def DdProcIn (acc : Outlet) (b : Build) (addr : Ctor → UInt8) (argv : List Bytes) (events : List ReadEvent) (p : ProcEnd) : Prop :=
  match envArgs argv with
  | .panic => p = .panicked []
  | .ok [] => p = .panicked []
  | .ok (prog :: args) => ∃ out e, DdMainIn acc b addr args events out e ∧ p = ddEndOf prog (args.getD 2 []) out e

end Verif
