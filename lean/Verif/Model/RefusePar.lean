import Verif.Model.ProcessOn

/-!
# Model of `ripdlt` on an output that may refuse what is written: the threads of `par_iter`

`Model/RefuseRip.lean` stops at the first text that is refused. That is right for all commands that print from one thread. In
`par_iter` each thread prints a line of its own (ripdlt/src/main.rs:273); the thread whose line is refused panics, and the
others go on and may print theirs. The lock of `Stdout` is held for a line and is not poisoned by a panic. Which of the other
threads still print is left open.
-/

namespace Verif

/-- The lines of several threads, in the order in which they get hold of the lock. Every line is a list of pieces; a line that is
refused is given up, the next ones are tried all the same. `false`: one of them was refused. -/
def StdoutOn.tryLines (acc : Outlet) (w : StdoutOn) : List (List Bytes) → StdoutOn × Bool
  | [] => (w, true)
  | l :: ls =>
    let r := w.printAll acc l
    let s := tryLines acc r.1 ls
    (s.1, r.2 && s.2)

/-- The command `par_iter` (ripdlt/src/main.rs:16-38,263-275,418): `head` are the pieces of the lines that the main thread prints
first, `lines` those of the lines the other threads try to print. If nothing is refused, all threads print (if none panics
for another reason). -/
def ParIterOn (acc : Outlet) (num : Nat) (bytes echo out : Bytes) (e : RipEndOn) : Prop :=
  ∃ (slices head : List Bytes) (lines : List (List Bytes)), partitionFrom dltStorage bytes num = .ok slices ∧
    head.flatten = echo ++ slicesLine num bytes ∧
    if (StdoutOn.empty.printAll acc head).2 = true then
      out = ((StdoutOn.empty.printAll acc head).1.tryLines acc lines).1.output acc ∧
      if ((StdoutOn.empty.printAll acc head).1.tryLines acc lines).2 = true then
        ∃ q, Multithreaded lifecycleIter bytes num q ∧ ParIterLines slices q.isOk (lines.map List.flatten) ∧ e = .ended q.isOk
      else ParIterLines slices false (lines.map List.flatten) ∧ e = .refused
    else out = (StdoutOn.empty.printAll acc head).1.output acc ∧ e = .refused

/-- A run of `ripdlt` (ripdlt/src/main.rs:296-427): `par_iter` as above, everything else as in `RipTextOn`. -/
def RipRunOn (acc : Outlet) (num : Nat) (f : OsFile) (prog : String) (args : List String) (out : Bytes) (e : RipEndOn) : Prop :=
  match args with
  | m :: c :: x :: rest =>
    match (if m = "mmap" then DltBuffer.mmapFile f else if m = "read" then DltBuffer.readFile f else none), Cmd.ofString c with
    | some b, some .parIter =>
      ParIterOn acc num b.asSlice (text (String.intercalate " " (prog :: m :: c :: x :: rest) ++ "\n")) out e
    | _, _ => ∃ full, RipTextOn acc num f prog args full out e
  | _ => ∃ full, RipTextOn acc num f prog args full out e

/-- The process `ripdlt` (ripdlt/src/main.rs:296-427) on the output `acc`. -/
def RipRunProcOn (acc : Outlet) (num : Nat) (f : OsFile) (argv : List Bytes) (p : ProcEnd) : Prop :=
  match envArgs argv with
  | .panic => p = .panicked []
  | .ok [] => p = .panicked []
  | .ok (prog :: args) => ∃ (prog' : String) (args' : List String) (out : Bytes) (e : RipEndOn),
      text prog' = prog ∧ args'.map text = args ∧ RipRunOn acc num f prog' args' out e ∧ p = ripEndOf out e

end Verif
