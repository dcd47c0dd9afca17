import Verif.Model.Process
import Verif.Model.Refuse
import Verif.Model.RefuseRip

/-!
# Model of `ripdlt` and `dd_dlt` as processes on an output that may refuse what is written

`Model/Process.lean` is the case of an output that takes everything. The messages std itself writes to standard error, for
a panic and for an error that `main` returns, are not modelled.
-/

namespace Verif

/-- How `dd_dlt` ends, given how `main` does (dd_dlt/src/main.rs:7,50-61). `main` returns `Result<(), std::io::Error>`:
`Ok` is exit code 0, `Err` is exit code 1 with a message of std on standard error. -/
def ddEndOf (prog size out : Bytes) : DdEndOn → ProcEnd
  | .ended e => ⟨out, ddErr prog size e, if e = .panicked then 101 else 0⟩
  | .refused => ⟨out, none, 1⟩

/-- The process `dd_dlt` (dd_dlt/src/main.rs:7-61) on the output `acc`. -/
def DdProcOn (acc : Outlet) (b : Build) (addr : Ctor → UInt8) (argv : List Bytes) (input : Bytes) (p : ProcEnd) : Prop :=
  match envArgs argv with
  | .panic => p = .panicked []
  | .ok [] => p = .panicked []
  | .ok (prog :: args) => ∃ out e, DdMainOn acc b addr args input out e ∧ p = ddEndOf prog (args.getD 2 []) out e

/-- How `ripdlt` ends, given how `main` does: `println!` panics if its text is refused. -/
def ripEndOf (out : Bytes) : RipEndOn → ProcEnd
  | .ended true => ⟨out, some [], 0⟩
  | .ended false => .panicked out
  | .refused => .panicked out

/-- The process `ripdlt` (ripdlt/src/main.rs:296-427) on the output `acc`. -/
def RipProcOn (acc : Outlet) (num : Nat) (f : OsFile) (argv : List Bytes) (p : ProcEnd) : Prop :=
  match envArgs argv with
  | .panic => p = .panicked []
  | .ok [] => p = .panicked []
  | .ok (prog :: args) => ∃ (prog' : String) (args' : List String) (full out : Bytes) (e : RipEndOn),
      text prog' = prog ∧ args'.map text = args ∧ RipTextOn acc num f prog' args' full out e ∧ p = ripEndOf out e

end Verif
