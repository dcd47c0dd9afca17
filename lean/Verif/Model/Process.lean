import Verif.Model.DdDlt
import Verif.Model.Print

/-!
# Model of `ripdlt` and `dd_dlt` as processes

From the arguments as the operating system passes them to the exit code. `argv` are the arguments with the program name.
The message of a panic on standard error is not modelled.
-/

namespace Verif

/-- `env::args().collect::<Vec<String>>()` (dd_dlt/src/main.rs:8, ripdlt/src/main.rs:297): the iterator panics at the first
argument that is not UTF-8 (std, Unix). -/
def envArgs (argv : List Bytes) : Res (List Bytes) := if argv.all utf8Valid then .ok argv else .panic

/-- How a process ends. -/
structure ProcEnd where
  /-- what it wrote to standard output -/
  out : Bytes
  /-- what it wrote to standard error; `none`: the message of a panic -/
  err : Option Bytes
  /-- its exit code -/
  code : Nat
  deriving DecidableEq, Repr

/-- A panic of the main thread ends the process with exit code 101 (std). -/
def ProcEnd.panicked (out : Bytes) : ProcEnd := ⟨out, none, 101⟩

/-- The messages of `dd_dlt` on standard error (dd_dlt/src/main.rs:10-11,59); `size` is the third argument. -/
def ddErr (prog size : Bytes) : DdEnd → Option Bytes
  | .usage => some (text "usage: " ++ prog ++ text " <ecu_id> <app_id> <payload_size>\n" ++
      text "  reads input form stdin and write valid DLT output with the input as payload to stdout.\n")
  | .finished count => some (text s!"wrote {count.toNat} DLT messages with payload size={(parseU16 size).getD 0}b\n")
  | .panicked => none

/-- The process `dd_dlt` (dd_dlt/src/main.rs:7-61). Without even a program name, `args[0]` panics (10). -/
def DdProc (b : Build) (addr : Ctor → UInt8) (argv : List Bytes) (input : Bytes) (p : ProcEnd) : Prop :=
  match envArgs argv with
  | .panic => p = .panicked []
  | .ok [] => p = .panicked []
  | .ok (prog :: args) => ∃ out e, DdMain b addr args input out e ∧
      p = ⟨out, ddErr prog (args.getD 2 []) e, if e = .panicked then 101 else 0⟩

/-- The process `ripdlt` (ripdlt/src/main.rs:296-427). The strings are the arguments: `as_str` and `join` do not change
their bytes. -/
def RipProc (num : Nat) (f : OsFile) (argv : List Bytes) (p : ProcEnd) : Prop :=
  match envArgs argv with
  | .panic => p = .panicked []
  | .ok [] => p = .panicked []
  | .ok (prog :: args) => ∃ (prog' : String) (args' : List String) (out : Bytes) (ok : Bool),
      text prog' = prog ∧ args'.map text = args ∧ RipText num f prog' args' (out, ok) ∧
      p = if ok then ⟨out, some [], 0⟩ else .panicked out

end Verif
