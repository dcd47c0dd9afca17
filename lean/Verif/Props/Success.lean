import Verif.Props.ProcessOn

/-! # C140: what exit code 0 of `ripdlt` says about the text on standard output -/

set_option linter.unusedSimpArgs false
set_option linter.unusedVariables false

namespace Verif

open Spec

/-- The file could be opened in the way asked for, and `b` is what was read. -/
def Spec.Opened (f : OsFile) (m : String) (b : DltBuffer) : Prop :=
  m = "mmap" ∧ DltBuffer.mmapFile f = some b ∨ m = "read" ∧ DltBuffer.readFile f = some b

/-- **C140**: exit code 0 (on any output): the text is complete: the command line, the title, and the lines of the report. -/
theorem C140_text (acc : Outlet) (num : Nat) (hnum : num ≠ 0) (f : OsFile) (prog m name : String) (rest : List String) (c : Cmd)
    (hc : c ≠ .parIter) (b : DltBuffer) (hb : Opened f m b) (hF : Fits b.asSlice) (slices : List Bytes)
    (hs : partitionFrom dltStorage b.asSlice num = .ok slices) (p : ProcEnd)
    (h : RipProcOn acc num f ((prog :: m :: cmdName c :: name :: rest).map utf8) p) (hcode : p.code = 0) :
    ∃ r, (∀ q, RunCmd num b.asSlice c q ↔ q = .ok r) ∧ p.err = some [] ∧
      p.out = echoLine prog (m :: cmdName c :: name :: rest) ++ openingOf num slices.length c ++ (linesOf c r).flatten := by
  have h1 := (C125_rip_success acc num f _ p h).2 hcode
  obtain ⟨out, ok, h2, rfl⟩ := (C122_rip_runs ..).1 h1
  cases ok with
  | false => cases hcode
  | true =>
    obtain ⟨o, h3, rfl⟩ := (C88_runs num f prog m name rest c b hb out true).1 h2
    obtain ⟨r, h4, rfl⟩ := (C88_text num b.asSlice c hc slices hs o).1 h3
    obtain ⟨q, hq⟩ := C66_one_result num hnum b.asSlice hF c
    have := (hq _).1 h4
    subst this
    exact ⟨r, hq, rfl, by simp [List.append_assoc]⟩

/-- **C140**: exit code 0 of a sequential command: the file is not one of those on which the command panics, and what is printed is the right
report on the messages of the file. -/
theorem C140_success (acc : Outlet) (num : Nat) (hnum : num ≠ 0) (f : OsFile) (prog m name : String) (rest : List String) (c : Cmd)
    (hc : sequential c = true) (b : DltBuffer) (hb : Opened f m b) (hF : Fits b.asSlice) (msgs : List StorageEntry)
    (hm : Messages b.asSlice msgs) (p : ProcEnd)
    (h : RipProcOn acc num f ((prog :: m :: cmdName c :: name :: rest).map utf8) p) (hcode : p.code = 0) :
    ¬ Panics msgs c ∧ ∃ r, Spec.Prints b.asSlice msgs c r ∧
      p.out = echoLine prog (m :: cmdName c :: name :: rest) ++ utf8 (titleOf c) ++ (linesOf c r).flatten := by
  obtain ⟨-, -, slices, -, -, -, hs, -⟩ := C30_partition_contiguous b.asSlice hF num hnum
  have hcp : c ≠ .parIter := by rintro rfl; cases hc
  obtain ⟨r, h1, -, h2⟩ := C140_text acc num hnum f prog m name rest c hcp b hb hF slices hs p h hcode
  have hn : ¬ Panics msgs c := fun hp => by
    have := (h1 _).1 ((C67_sequential_panics num b.asSlice hF msgs hm c hc).2 hp)
    cases this
  refine ⟨hn, r, ?_, ?_⟩
  · obtain ⟨rep, h3, h4⟩ := C68_sequential_prints num b.asSlice hF msgs hm c hc hn
    have := ((h1 _).1 ((h4 _).2 rfl))
    cases this
    exact h3
  · rw [h2]
    simp [openingOf, hc]

/-- **C140**: with room for `room` bytes of output, a sequential command ends with exit code 0 exactly if the file does not make it panic
and its text has room. -/
theorem C140_succeeds_iff (room num : Nat) (hnum : num ≠ 0) (f : OsFile) (prog m name : String) (rest : List String) (c : Cmd)
    (hc : sequential c = true) (b : DltBuffer) (hb : Opened f m b) (hF : Fits b.asSlice) (msgs : List StorageEntry)
    (hm : Messages b.asSlice msgs) :
    (¬ Panics msgs c → ∃ r, Spec.Prints b.asSlice msgs c r ∧
      ∀ p, RipProcOn (.upTo room) num f ((prog :: m :: cmdName c :: name :: rest).map utf8) p →
        (p.code = 0 ↔ (echoLine prog (m :: cmdName c :: name :: rest) ++ utf8 (titleOf c) ++ (linesOf c r).flatten).length ≤ room) ∧
        p.out = (echoLine prog (m :: cmdName c :: name :: rest) ++ utf8 (titleOf c) ++ (linesOf c r).flatten).take room) ∧
    (Panics msgs c → ∀ p, RipProcOn (.upTo room) num f ((prog :: m :: cmdName c :: name :: rest).map utf8) p → p.code = 101) := by
  obtain ⟨-, -, slices, -, -, -, hs, -⟩ := C30_partition_contiguous b.asSlice hF num hnum
  have hcp : c ≠ .parIter := by rintro rfl; cases hc
  constructor
  · intro hn
    obtain ⟨rep, h3, h4⟩ := C68_sequential_prints num b.asSlice hF msgs hm c hc hn
    refine ⟨rep, h3, fun p hp => ?_⟩
    obtain ⟨q, hq, h5, h6⟩ := C125_rip_limited room num f _ p hp
    have hq0 : q.code = 0 := by
      rcases C122_rip_codes num f _ q hq with ⟨h, -⟩ | ⟨h, -⟩
      · exact h
      · exact absurd ((C122_rip_fails num hnum f prog m name rest c hc b hb hF msgs hm q hq).1 h) hn
    obtain ⟨out, ok, h7, rfl⟩ := (C122_rip_runs ..).1 hq
    cases ok with
    | false => cases hq0
    | true =>
      obtain ⟨o, h8, rfl⟩ := (C88_runs num f prog m name rest c b hb out true).1 h7
      obtain ⟨r, h9, rfl⟩ := (C88_text num b.asSlice c hcp slices hs o).1 h8
      have := (h4 _).1 h9
      cases this
      have ho : openingOf num slices.length c = utf8 (titleOf c) := by simp [openingOf, hc]
      rw [ho, ← List.append_assoc] at h5 h6
      exact ⟨by rw [h6]; simp only [if_true, true_and], h5⟩
  · intro hpan p hp
    obtain ⟨q, hq, h5, h6⟩ := C125_rip_limited room num f _ p hp
    have hq1 := (C122_rip_fails num hnum f prog m name rest c hc b hb hF msgs hm q hq).2 hpan
    rcases (C125_rip_success _ num f _ p hp).1 with h | h
    · have := (h6.1 h).1
      omega
    · exact h

/-- **C140**: two runs of the same command line that end with exit code 0 and print the same text report the same, whatever the files, the
numbers of cores and the outputs were. -/
theorem C140_same_text (acc acc' : Outlet) (num num' : Nat) (hnum : num ≠ 0) (hnum' : num' ≠ 0) (f f' : OsFile) (prog m name : String)
    (rest : List String) (c : Cmd) (hc : c ≠ .parIter) (b b' : DltBuffer) (hb : Opened f m b) (hb' : Opened f' m b')
    (hF : Fits b.asSlice) (hF' : Fits b'.asSlice) (p p' : ProcEnd)
    (h : RipProcOn acc num f ((prog :: m :: cmdName c :: name :: rest).map utf8) p) (hcode : p.code = 0)
    (h' : RipProcOn acc' num' f' ((prog :: m :: cmdName c :: name :: rest).map utf8) p') (hcode' : p'.code = 0) (hsame : p.out = p'.out) :
    ∃ r, (∀ q, RunCmd num b.asSlice c q ↔ q = .ok r) ∧ (∀ q, RunCmd num' b'.asSlice c q ↔ q = .ok r) := by
  have k := (C125_rip_success acc num f _ p h).2 hcode
  obtain ⟨out, ok, h2, rfl⟩ := (C122_rip_runs ..).1 k
  have k' := (C125_rip_success acc' num' f' _ p' h').2 hcode'
  obtain ⟨out', ok', h2', rfl⟩ := (C122_rip_runs ..).1 k'
  cases ok with
  | false => cases hcode
  | true => cases ok' with
    | false => cases hcode'
    | true =>
      obtain ⟨o, h3, rfl⟩ := (C88_runs num f prog m name rest c b hb out true).1 h2
      obtain ⟨o', h3', rfl⟩ := (C88_runs num' f' prog m name rest c b' hb' out' true).1 h2'
      have : o = o' := List.append_cancel_left hsame
      subst this
      exact C89_text_identifies_report c hc num num' hnum hnum' b.asSlice b'.asSlice hF hF' o h3 h3'

/-! The case: five messages, read, counted, with room for 1000 bytes of output. -/

/-- What reading a file gives, if its bytes come in one go. -/
def inOneGo : Bytes → List ReadEvent
  | [] => []
  | b :: bs => [.data b bs]

/-- A file of five messages that can be read in one go. -/
def fiveFile : OsFile := ⟨true, inOneGo (packed five), packed five, true⟩

theorem readToEnd_inOneGo (bs : Bytes) : readToEnd (inOneGo bs) = (bs, true) := by
  cases bs with
  | nil => rfl
  | cons b bs => simp [inOneGo, readToEnd]

theorem fiveFile_opened : ∃ b, Opened fiveFile "read" b ∧ b.asSlice = packed five := by
  refine ⟨_, .inr ⟨rfl, rfl⟩, ?_⟩
  show (readToEnd (inOneGo (packed five))).1 = _
  rw [readToEnd_inOneGo]

theorem fiveFile_text : echoLine "ripdlt" ["read", "count", "five.dlt"] ++ utf8 (titleOf .count) ++ (linesOf .count (.number 5)).flatten =
    utf8 "ripdlt read count five.dlt\n5 messages\n" := by
  decide +kernel

/-- Counting the messages of a file that was read. -/
theorem count_runs (room num : Nat) (hnum : num ≠ 0) (f : OsFile) (prog name : String) (b : DltBuffer) (hb : Opened f "read" b)
    (hF : Fits b.asSlice) (msgs : List StorageEntry) (hm : Messages b.asSlice msgs) (full : Bytes)
    (hfull : echoLine prog ["read", "count", name] ++ utf8 (titleOf .count) ++ (linesOf .count (.number msgs.length)).flatten = full)
    (hroom : full.length ≤ room) :
    ∃ p, RipProcOn (.upTo room) num f (([prog, "read", "count", name] : List String).map utf8) p ∧ p.code = 0 ∧ p.out = full := by
  obtain ⟨o, ho⟩ := C88_one_output num hnum b.asSlice hF .count (fun h => by cases h)
  have h0 := (C122_rip_runs num f prog ["read", cmdName .count, name] _).2
    ⟨_, o.2, (C88_runs num f prog "read" name [] .count b hb _ o.2).2 ⟨o.1, (ho _).2 rfl, rfl⟩, rfl⟩
  obtain ⟨p, hp⟩ := C125_rip_runs (.upTo room) num f _ _ h0
  obtain ⟨r, h1, h2⟩ := (C140_succeeds_iff room num hnum f prog "read" name [] .count rfl b hb hF msgs hm).1
    (fun h => h)
  obtain ⟨h3, h4⟩ := h2 p hp
  obtain ⟨n, rfl⟩ : ∃ n, r = .number n := by
    cases r with
    | number n => exact ⟨n, rfl⟩
    | _ => exact h1.elim
  have : n = msgs.length := h1
  subst this
  have h5 : echoLine prog ["read", cmdName .count, name] ++ utf8 (titleOf .count) ++ (linesOf .count (.number msgs.length)).flatten = full := hfull
  rw [h5] at h3 h4
  exact ⟨p, hp, h3.2 hroom, by rw [h4, List.take_of_length_le hroom]⟩

example : ∃ p, RipProcOn (.upTo 1000) 4 fiveFile (["ripdlt", "read", "count", "five.dlt"].map utf8) p ∧ p.code = 0 ∧
    p.out = utf8 "ripdlt read count five.dlt\n5 messages\n" := by
  obtain ⟨b, hb, hbs⟩ := fiveFile_opened
  have hF : Fits b.asSlice := by rw [hbs]; exact five_fits
  have hm : Messages b.asSlice five := by rw [hbs]; exact messages_packed five_wf
  exact count_runs 1000 4 (by decide) fiveFile "ripdlt" "five.dlt" b hb hF five hm _ fiveFile_text (by decide +kernel)

end Verif
