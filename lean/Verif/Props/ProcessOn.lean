import Verif.Model.ProcessOn
import Verif.Props.Process
import Verif.Props.Refuse
import Verif.Props.RefuseRip

set_option linter.unusedSimpArgs false

/-! # C125: what the exit codes say about an output that may refuse what is written -/

namespace Verif

open Spec

theorem envArgs_cases (argv : List Bytes) :
    (envArgs argv = .panic) ∨ (envArgs argv = .ok [] ∧ argv = []) ∨
      (∃ prog args, argv = prog :: args ∧ envArgs argv = .ok (prog :: args)) := by
  unfold envArgs
  split
  · cases argv with
    | nil => exact .inr (.inl ⟨rfl, rfl⟩)
    | cons p a => exact .inr (.inr ⟨p, a, rfl, rfl⟩)
  · exact .inl rfl

/-- **C125** `ripdlt`, on any output: exit code 0 or 101, and 0 only if everything came out as on an output that takes all. -/
theorem C125_rip_success (acc : Outlet) (num : Nat) (f : OsFile) (argv : List Bytes) (p : ProcEnd)
    (h : RipProcOn acc num f argv p) : (p.code = 0 ∨ p.code = 101) ∧ (p.code = 0 → RipProc num f argv p) := by
  rcases envArgs_cases argv with he | ⟨he, -⟩ | ⟨prog, args, rfl, he⟩
  · unfold RipProcOn at h; rw [he] at h; subst h
    exact ⟨.inr rfl, fun h => by cases h⟩
  · unfold RipProcOn at h; rw [he] at h; subst h
    exact ⟨.inr rfl, fun h => by cases h⟩
  · unfold RipProcOn at h; rw [he] at h
    unfold RipProc; rw [he]
    obtain ⟨prog', args', full, out, e, h1, h2, h3, rfl⟩ := h
    have h4 := (C107_complete_or_panic _ _ _ _ _ _ _ _ h3).2
    cases e with
    | refused => exact ⟨.inr rfl, fun h => by cases h⟩
    | ended ok =>
      cases ok with
      | false => exact ⟨.inr rfl, fun h => by cases h⟩
      | true =>
        obtain ⟨rfl, h5⟩ := h4 true rfl
        exact ⟨.inl rfl, fun _ => ⟨prog', args', out, true, h1, h2, h5, rfl⟩⟩

/-- **C125** what `ripdlt` puts out is a front part of what it puts out on an output that takes everything. -/
theorem C125_rip_front (acc : Outlet) (num : Nat) (f : OsFile) (argv : List Bytes) (p : ProcEnd)
    (h : RipProcOn acc num f argv p) : ∃ q, RipProc num f argv q ∧ p.out <+: q.out := by
  rcases envArgs_cases argv with he | ⟨he, -⟩ | ⟨prog, args, rfl, he⟩
  · unfold RipProcOn at h; rw [he] at h; subst h
    unfold RipProc; rw [he]
    exact ⟨_, rfl, List.prefix_refl _⟩
  · unfold RipProcOn at h; rw [he] at h; subst h
    unfold RipProc; rw [he]
    exact ⟨_, rfl, List.prefix_refl _⟩
  · unfold RipProcOn at h; rw [he] at h
    unfold RipProc; rw [he]
    obtain ⟨prog', args', full, out, e, h1, h2, h3, rfl⟩ := h
    have h4 := (C107_complete_or_panic _ _ _ _ _ _ _ _ h3).1
    obtain ⟨ok, pieces, h5, -, -, -⟩ := h3
    refine ⟨_, ⟨prog', args', full, ok, h1, h2, h5, rfl⟩, ?_⟩
    have h6 : (ripEndOf out e).out = out := by
      cases e with
      | refused => rfl
      | ended ok => cases ok <;> rfl
    have h7 : (if ok then (⟨full, some [], 0⟩ : ProcEnd) else .panicked full).out = full := by cases ok <;> rfl
    rw [h6, h7]
    exact h4

/-- **C125** on an output with room for `room` bytes: exit code 0 exactly if the run is otherwise successful and its text
fits; and the first `room` bytes of the text come out. -/
theorem C125_rip_limited (room num : Nat) (f : OsFile) (argv : List Bytes) (p : ProcEnd)
    (h : RipProcOn (.upTo room) num f argv p) :
    ∃ q, RipProc num f argv q ∧ p.out = q.out.take room ∧ (p.code = 0 ↔ q.code = 0 ∧ q.out.length ≤ room) := by
  rcases envArgs_cases argv with he | ⟨he, -⟩ | ⟨prog, args, rfl, he⟩
  · unfold RipProcOn at h; rw [he] at h; subst h
    unfold RipProc; rw [he]
    exact ⟨_, rfl, by simp [ProcEnd.panicked], by simp [ProcEnd.panicked]⟩
  · unfold RipProcOn at h; rw [he] at h; subst h
    unfold RipProc; rw [he]
    exact ⟨_, rfl, by simp [ProcEnd.panicked], by simp [ProcEnd.panicked]⟩
  · unfold RipProcOn at h; rw [he] at h
    unfold RipProc; rw [he]
    obtain ⟨prog', args', full, out, e, h1, h2, h3, rfl⟩ := h
    obtain ⟨h4, h5⟩ := C107_limited _ _ _ _ _ _ _ _ h3
    have h3' := h3
    obtain ⟨ok, pieces, h6, -, -, h7⟩ := h3'
    refine ⟨_, ⟨prog', args', full, ok, h1, h2, h6, rfl⟩, ?_⟩
    split at h7
    · subst h7
      have hfit : full.length ≤ room := Nat.not_lt.1 fun hlt => by cases h5.2 hlt
      cases ok
      · exact ⟨h4, fun h => by simp [ripEndOf, ProcEnd.panicked] at h, fun h => by simp [ProcEnd.panicked] at h⟩
      · exact ⟨h4, fun _ => ⟨rfl, hfit⟩, fun _ => rfl⟩
    · subst h7
      have hlt := h5.1 rfl
      refine ⟨?_, fun h => by simp [ripEndOf, ProcEnd.panicked] at h, fun h => ?_⟩
      · cases ok <;> exact h4
      · have : full.length ≤ room := by cases ok <;> exact h.2
        omega

/-- **C125** every run of `ripdlt` has a counterpart on every output. -/
theorem C125_rip_runs (acc : Outlet) (num : Nat) (f : OsFile) (argv : List Bytes) (q : ProcEnd) (h : RipProc num f argv q) :
    ∃ p, RipProcOn acc num f argv p := by
  rcases envArgs_cases argv with he | ⟨he, -⟩ | ⟨prog, args, rfl, he⟩
  · unfold RipProcOn; rw [he]; exact ⟨_, rfl⟩
  · unfold RipProcOn; rw [he]; exact ⟨_, rfl⟩
  · unfold RipProc at h; rw [he] at h
    unfold RipProcOn; rw [he]
    obtain ⟨prog', args', out, ok, h1, h2, h3, -⟩ := h
    obtain ⟨out', e, h4⟩ := ripTextOn_exists acc h3 [out] (by simp)
    exact ⟨_, prog', args', out, out', e, h1, h2, h4, rfl⟩

/-- **C125** `dd_dlt`, on any output: exit code 0, with a message of its own, 1 or 101. -/
theorem C125_dd_codes (acc : Outlet) (bd : Build) (addr : Ctor → UInt8) (argv : List Bytes) (input : Bytes) (p : ProcEnd)
    (h : DdProcOn acc bd addr argv input p) :
    (p.code = 0 ∨ p.code = 1 ∨ p.code = 101) ∧ (p.code = 0 ↔ p.err ≠ none) := by
  unfold DdProcOn at h
  split at h
  · subst h; exact ⟨.inr (.inr rfl), by simp [ProcEnd.panicked]⟩
  · subst h; exact ⟨.inr (.inr rfl), by simp [ProcEnd.panicked]⟩
  · obtain ⟨out, e, -, rfl⟩ := h
    cases e with
    | refused => exact ⟨.inr (.inl rfl), by simp [ddEndOf]⟩
    | ended e => cases e <;> simp [ddEndOf, ddErr]

/-- **C125** on an output that takes every write of up to 65535 bytes as a whole, `dd_dlt` does what it does on an output
that takes everything; in particular its exit code is never 1. -/
theorem C125_dd_whole (acc : Outlet) (N : Nat) (hacc : TakesWhole N acc) (hN : 65535 ≤ N) (bd : Build) (addr : Ctor → UInt8)
    (argv : List Bytes) (input : Bytes) (p : ProcEnd) :
    DdProcOn acc bd addr argv input p ↔ DdProc bd addr argv input p := by
  unfold DdProcOn DdProc
  rcases envArgs_cases argv with he | ⟨he, -⟩ | ⟨prog, args, rfl, he⟩
  · rw [he]
  · rw [he]
  · rw [he]
    have key : ∀ out e', DdMainOn acc bd addr args input out e' ↔ ∃ e, e' = .ended e ∧ DdMain bd addr args input out e := by
      intro out e'
      rcases args_cases args with ⟨ecuid, appid, size, rest, rfl⟩ | h
      · cases hs : parseU16 size with
        | none =>
          rw [ddMainOn_none hs]
          simp only [ddMain_none hs]
          constructor
          · rintro ⟨rfl, rfl⟩; exact ⟨_, rfl, rfl, rfl⟩
          · rintro ⟨e, rfl, rfl, rfl⟩; exact ⟨rfl, rfl⟩
        | some n =>
          obtain ⟨hd, hn⟩ := (C52_size_argument size n).1 hs
          exact C106_whole_partial acc N hacc (by omega) bd addr ecuid appid size rest n hd hn (by omega) input out e'
      · rw [ddMainOn_short h]
        simp only [ddMain_short h]
        constructor
        · rintro ⟨rfl, rfl⟩; exact ⟨_, rfl, rfl, rfl⟩
        · rintro ⟨e, rfl, rfl, rfl⟩; exact ⟨rfl, rfl⟩
    constructor
    · rintro ⟨out, e', h1, rfl⟩
      obtain ⟨e, rfl, h2⟩ := (key _ _).1 h1
      exact ⟨out, e, h2, rfl⟩
    · rintro ⟨out, e, h1, rfl⟩
      exact ⟨out, .ended e, (key _ _).2 ⟨e, rfl, h1⟩, rfl⟩

/-- **C125** exit code 1 of `dd_dlt` says that the output was used up and that something is missing. -/
theorem C125_dd_error (room : Nat) (bd : Build) (addr : Ctor → UInt8) (argv : List Bytes) (input : Bytes) (p q : ProcEnd)
    (h : DdProcOn (.upTo room) bd addr argv input p) (hq : DdProc bd addr argv input q) (h1 : p.code = 1) :
    p.out.length = room ∧ room < q.out.length := by
  rcases envArgs_cases argv with he | ⟨he, -⟩ | ⟨prog, args, rfl, he⟩
  · unfold DdProcOn at h; rw [he] at h; subst h; cases h1
  · unfold DdProcOn at h; rw [he] at h; subst h; cases h1
  · unfold DdProcOn at h; rw [he] at h
    unfold DdProc at hq; rw [he] at hq
    obtain ⟨out, e, h2, rfl⟩ := h
    obtain ⟨full, e', h3, rfl⟩ := hq
    cases e with
    | ended e => cases e <;> simp [ddEndOf] at h1
    | refused => exact C105_only_if_missing room bd addr args input full out e' h3 h2

/-- **C125** the exit code of `dd_dlt` is 1 if more is missing than the buffer of standard output and one write can hold.
Missing: for smaller losses it can be 0, see `C125_dd_silent`. -/
theorem C125_dd_loss_partial (room : Nat) (bd : Build) (addr : Ctor → UInt8) (argv : List Bytes) (input : Bytes) (p q : ProcEnd)
    (h : DdProcOn (.upTo room) bd addr argv input p) (hq : DdProc bd addr argv input q)
    (hmuch : room + 1024 + 65535 < q.out.length) : p.code = 1 := by
  rcases envArgs_cases argv with he | ⟨he, -⟩ | ⟨prog, args, rfl, he⟩
  · unfold DdProc at hq; rw [he] at hq; subst hq; simp [ProcEnd.panicked] at hmuch
  · unfold DdProc at hq; rw [he] at hq; subst hq; simp [ProcEnd.panicked] at hmuch
  · unfold DdProcOn at h; rw [he] at h
    unfold DdProc at hq; rw [he] at hq
    obtain ⟨out, e, h2, rfl⟩ := h
    obtain ⟨full, e', h3, rfl⟩ := hq
    rcases args_cases args with ⟨ecuid, appid, size, rest, rfl⟩ | h
    · cases hs : parseU16 size with
      | none =>
        rw [ddMain_none hs] at h3
        rw [h3.2] at hmuch
        simp at hmuch
      | some n =>
        obtain ⟨hd, hn⟩ := (C52_size_argument size n).1 hs
        have := C105_reported_partial room bd addr ecuid appid size rest n hd hn input full out e' e h3 h2
          (by simp only [] at hmuch; omega)
        subst this
        rfl
    · rw [ddMain_short h] at h3
      rw [h3.2] at hmuch
      simp at hmuch

/-- **C125** on an output with limited room `dd_dlt` always ends, on every input and with all arguments. -/
theorem C125_dd_ends (room : Nat) (bd : Build) (addr : Ctor → UInt8) (argv : List Bytes) (input : Bytes) :
    ∃ p, DdProcOn (.upTo room) bd addr argv input p := by
  unfold DdProcOn
  split
  · exact ⟨_, rfl⟩
  · exact ⟨_, rfl⟩
  · rename_i prog args _
    obtain ⟨out, e, h⟩ := C105_ends room bd addr args input
    exact ⟨_, out, e, h, rfl⟩

/-- **C125** the claim as stated is false of `dd_dlt`: a byte is missing, and yet its exit code is 0 and it says that it
wrote a message. -/
theorem C125_dd_silent (late : Bool) (prog : Bytes) (hprog : Utf8 prog) :
    DdProc ⟨true, late⟩ (fun _ => 0) (prog :: exArgs) exInput
      ⟨exFull, some (utf8 "wrote 1 DLT messages with payload size=3b\n"), 0⟩ ∧
    DdProcOn (.upTo 36) ⟨true, late⟩ (fun _ => 0) (prog :: exArgs) exInput
      ⟨exFull.dropLast, some (utf8 "wrote 1 DLT messages with payload size=3b\n"), 0⟩ := by
  obtain ⟨h1, h2⟩ := C105_silent_loss late
  have hu : ∀ a ∈ prog :: exArgs, Utf8 a := by
    intro a ha
    rcases List.mem_cons.1 ha with rfl | ha
    · exact hprog
    · have key : ∀ a ∈ exArgs, ∀ b ∈ a, b < 128 := by decide
      exact ascii_utf8 _ (key a ha)
  have h3 : ddErr prog (exArgs.getD 2 []) (.finished 1) = some (utf8 "wrote 1 DLT messages with payload size=3b\n") := by
    have h4 : parseU16 [51] = some 3 := by decide +kernel
    show ddErr prog [51] _ = _
    rw [ddErr, h4]
    decide +kernel
  unfold DdProc DdProcOn
  rw [envArgs_ok hu]
  exact ⟨⟨_, _, h1, by rw [h3]; rfl⟩, ⟨_, _, h2, by rw [ddEndOf, h3]; rfl⟩⟩

/-! ## The hypotheses are met -/

/-- With room for 20 bytes `dd_dlt` ends with exit code 1. -/
example (late : Bool) : DdProcOn (.upTo 20) ⟨true, late⟩ (fun _ => 0) ([100, 100] :: exArgs) exInput
    ⟨exFull.take 20, none, 1⟩ := by
  unfold DdProcOn
  rw [envArgs_ok (fun a ha => ascii_utf8 _ (by revert a; decide))]
  exact ⟨_, _, ddMainOn_ex late (.upTo 20) 2 _ .refused (by cases late <;> decide +kernel), rfl⟩

/-- An output that takes everything. -/
example : TakesWhole 65535 (fun _ _ len => some len) := fun _ _ len _ => ⟨len, rfl, Nat.le_refl _⟩

/-- `ripdlt` without arguments and with room for 9 bytes: exit code 101. -/
theorem ripProcOn_usage (num : Nat) (f : OsFile) (prog : String) (full : Bytes)
    (hfull : full = utf8 ("usage: " ++ prog ++ " <file_access_method> <test_name> <filename.dlt>\n" ++
      "  runs ripdlt tests with different implementations\n")) (hlen : 9 < full.length) :
    ∃ p, RipProcOn (.upTo 9) num f ([prog].map utf8) p ∧ p.code = 101 ∧ p.out = full.take 9 := by
  have h0 := (C122_rip_usage num f prog [] (by decide) _).2 rfl
  obtain ⟨p, hp⟩ := C125_rip_runs (.upTo 9) num f ([prog].map utf8) _ h0
  obtain ⟨q, hq, h1, h2⟩ := C125_rip_limited 9 num f _ p hp
  have hq' := (C122_rip_usage num f prog [] (by decide) q).1 hq
  rw [← hfull] at hq'
  subst hq'
  refine ⟨p, hp, ?_, h1⟩
  rcases (C125_rip_success _ _ _ _ _ hp).1 with h3 | h3
  · have := (h2.1 h3).2
    simp only [] at this
    omega
  · exact h3

theorem usage_len (prog : String) : 9 < (utf8 ("usage: " ++ prog ++ " <file_access_method> <test_name> <filename.dlt>\n" ++
      "  runs ripdlt tests with different implementations\n")).length := by
  have h : (utf8 "  runs ripdlt tests with different implementations\n").length = 51 := by decide +kernel
  rw [utf8_append, List.length_append, h]
  omega

example (num : Nat) (f : OsFile) (prog : String) : ∃ p, RipProcOn (.upTo 9) num f ([prog].map utf8) p ∧ p.code = 101 := by
  obtain ⟨p, h1, h2, h3⟩ := ripProcOn_usage num f prog _ rfl (usage_len prog)
  exact ⟨p, h1, h2⟩

end Verif
