import Verif.Lemmas.Stdin
import Verif.Props.ProcessOn

/-! # C145: how `dd_dlt` reads its input -/

set_option linter.unusedSimpArgs false

namespace Verif

open Spec

/-- **C145** what `dd_dlt` does depends only on the bytes in front of the end of the input or the first error. -/
theorem C145_delivered (acc : Outlet) (bd : Build) (addr : Ctor → UInt8) (argv : List Bytes) (events : List ReadEvent) (p : ProcEnd) :
    DdProcIn acc bd addr argv events p ↔ DdProcOn acc bd addr argv (delivered events) p := by
  unfold DdProcIn DdProcOn
  rcases envArgs_cases argv with he | ⟨he, -⟩ | ⟨prog, args, rfl, he⟩
  · rw [he]
  · rw [he]
  · rw [he]
    constructor
    · rintro ⟨out, e, h, rfl⟩
      exact ⟨out, e, (ddMainIn_iff ..).1 h, rfl⟩
    · rintro ⟨out, e, h, rfl⟩
      exact ⟨out, e, (ddMainIn_iff ..).2 h, rfl⟩

/-- **C145** the sizes of the reads and interruptions by signals do not matter. -/
theorem C145_pieces (acc : Outlet) (bd : Build) (addr : Ctor → UInt8) (argv : List Bytes) (events events' : List ReadEvent)
    (h1 : .error ∉ events) (h2 : .error ∉ events') (h : allBytes events = allBytes events') (p : ProcEnd) :
    DdProcIn acc bd addr argv events p ↔ DdProcIn acc bd addr argv events' p := by
  have key : ∀ l : List ReadEvent, .error ∉ l → delivered l = allBytes l := by
    intro l
    induction l with
    | nil => intro _; rfl
    | cons x l ih =>
      intro hx
      have := ih fun h => hx (List.mem_cons_of_mem _ h)
      cases x with
      | data b bs => rw [delivered, this]; simp [allBytes]
      | interrupted => rw [delivered, this]; simp [allBytes]
      | error => exact absurd List.mem_cons_self hx
  rw [C145_delivered, C145_delivered, key _ h1, key _ h2, h]

/-- **C145** without read errors `dd_dlt` processes its complete input. Missing: that it reports a failure if there are read
errors; it does not, see `C145_silent`. -/
theorem C145_complete_partial (acc : Outlet) (bd : Build) (addr : Ctor → UInt8) (argv : List Bytes) (events : List ReadEvent)
    (h : .error ∉ events) (p : ProcEnd) :
    DdProcIn acc bd addr argv events p ↔ DdProcOn acc bd addr argv (allBytes events) p := by
  rw [C145_delivered]
  have : delivered events = allBytes events := by
    induction events with
    | nil => rfl
    | cons x l ih =>
      have := ih fun h' => h (List.mem_cons_of_mem _ h')
      cases x with
      | data b bs => rw [delivered, this]; simp [allBytes]
      | interrupted => rw [delivered, this]; simp [allBytes]
      | error => exact absurd List.mem_cons_self h
  rw [this]

/-- **C145** a read error cannot be told from the end of the input: neither from the output nor from the report nor from the
exit code. -/
theorem C145_silent (acc : Outlet) (bd : Build) (addr : Ctor → UInt8) (argv : List Bytes) (before after : List ReadEvent)
    (p : ProcEnd) : DdProcIn acc bd addr argv (before ++ .error :: after) p ↔ DdProcIn acc bd addr argv before p := by
  rw [C145_delivered, C145_delivered]
  have : delivered (before ++ .error :: after) = delivered before := by
    induction before with
    | nil => rfl
    | cons x l ih =>
      cases x with
      | data b bs => rw [List.cons_append, delivered, delivered, ih]
      | interrupted => rw [List.cons_append, delivered, delivered, ih]
      | error => rfl
  rw [this]

/-- **C145** the claim as stated is false of `dd_dlt`: half of the input is lost by a read error, and yet the exit code is 0 and
`dd_dlt` says that it wrote a message. -/
theorem C145_loss (late : Bool) (prog : Bytes) (hprog : Utf8 prog) :
    DdProcIn (fun _ _ len => some len) ⟨true, late⟩ (fun _ => 0) (prog :: exArgs) [.data 65 [10, 66], .error, .data 67 [68, 69]]
      ⟨exFull, some (utf8 "wrote 1 DLT messages with payload size=3b\n"), 0⟩ :=
  (C145_delivered _ _ _ _ _ _).2
    ((C125_dd_whole _ 65535 (fun _ _ len _ => ⟨len, rfl, Nat.le_refl _⟩) (Nat.le_refl _) _ _ _ _ _).2 (C125_dd_silent late prog hprog).1)

/-! ## The hypotheses are met -/

/-- Three reads of one byte and two interruptions give the same process as one read of three bytes. -/
example (late : Bool) (prog : Bytes) (hprog : Utf8 prog) :
    DdProcIn (fun _ _ len => some len) ⟨true, late⟩ (fun _ => 0) (prog :: exArgs)
      [.interrupted, .data 65 [], .data 10 [], .interrupted, .data 66 []]
      ⟨exFull, some (utf8 "wrote 1 DLT messages with payload size=3b\n"), 0⟩ :=
  (C145_pieces _ _ _ _ _ [.data 65 [10, 66]] (by decide) (by decide) (by decide) _).2
    ((C145_silent _ _ _ _ [.data 65 [10, 66]] [.data 67 [68, 69]] _).1 (C145_loss late prog hprog))

end Verif
