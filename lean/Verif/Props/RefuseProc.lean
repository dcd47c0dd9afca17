import Verif.Props.RefuseExact
import Verif.Props.ProcessOn

/-! # C125: which losses the exit code of `dd_dlt` does not tell -/

set_option linter.unusedSimpArgs false

namespace Verif

open Spec

theorem turns_not_usage {a : DdArgs} : ∀ (k : Nat) {s t : DdState}, ddTurns a k s ≠ .inr (t, .usage)
  | 0, s, t, h => by simp [ddTurns] at h
  | k + 1, s, t, h => by
    unfold ddTurns at h
    cases ht : ddTurn a s with
    | inl s' => rw [ht] at h; exact turns_not_usage k h
    | inr e =>
      rw [ht] at h
      injection h with h
      subst h
      unfold ddTurn at ht
      dsimp only at ht
      split at ht
      · cases ht
      · repeat' split at ht
        all_goals cases ht

/-- **C125** the loss of bytes of the last payload does not show: exit code and report are those of the complete run. If
the last payload has a newline or more bytes than the buffer, every other loss is told by exit code 1. -/
theorem C125_dd_last_payload (bd : Build) (addr : Ctor → UInt8) (prog ecuid appid size : Bytes) (rest : List Bytes)
    (n : Nat) (hsize : Decimal size n) (h1 : 1 ≤ n) (h2 : n ≤ 65535) (input : Bytes) (p q : ProcEnd)
    (hq : DdProc bd addr (prog :: ecuid :: appid :: size :: rest) input q) (hcode : q.code = 0) (hmsg : n ≤ input.length)
    (last part : Bytes) (hlast : last = chunk n input (input.length / n - 1)) (hpart : Accepted bd.late last part)
    (room : Nat) (hp : DdProcOn (.upTo room) bd addr (prog :: ecuid :: appid :: size :: rest) input p) :
    p.out = q.out.take room ∧ (q.out.length < room + part.length → p.code = 0 ∧ p.err = q.err) ∧
    (10 ∈ last ∨ 1024 ≤ n → room + part.length ≤ q.out.length → p.code = 1 ∧ p.err = none) := by
  rcases envArgs_cases (prog :: ecuid :: appid :: size :: rest) with he | ⟨he, -⟩ | ⟨prog', args, ha, he⟩
  · unfold DdProc at hq; rw [he] at hq; subst hq; simp [ProcEnd.panicked] at hcode
  · unfold DdProc at hq; rw [he] at hq; subst hq; simp [ProcEnd.panicked] at hcode
  · injection ha with ha1 ha2
    subst ha1 ha2
    unfold DdProcOn at hp; rw [he] at hp
    unfold DdProc at hq; rw [he] at hq
    obtain ⟨out, e', g1, rfl⟩ := hp
    obtain ⟨full, e, g2, rfl⟩ := hq
    have hs := decimal_parse hsize h2
    have hfin : ∃ c, e = .finished c := by
      cases e with
      | finished c => exact ⟨c, rfl⟩
      | panicked => simp at hcode
      | usage =>
        exfalso
        obtain ⟨s, ⟨k, hk⟩, _⟩ := (ddMain_iff hs).1 g2
        exact turns_not_usage k hk
    obtain ⟨c, rfl⟩ := hfin
    obtain ⟨h5, h6⟩ := C105_last_payload bd addr ecuid appid size rest n hsize h1 h2 input full c g2 hmsg last part hlast hpart room out e' g1
    have h7 := (C104_front room bd addr _ input full out _ e' g2 g1).1
    dsimp only at *
    refine ⟨?_, fun h => ?_, fun h h' => ?_⟩
    · cases e' <;> exact h7
    · rw [h5 h]; exact ⟨rfl, rfl⟩
    · rw [h6 h h']; exact ⟨rfl, rfl⟩

/-- C125: exit code 1 for the one-message run exactly if fewer than 35 of its 37 bytes fit. -/
example (late : Bool) (room : Nat) (p : ProcEnd) (prog : Bytes) (hprog : Utf8 prog)
    (h : DdProcOn (.upTo room) ⟨true, late⟩ (fun _ => 0) (prog :: exArgs) exInput p) :
    p.code = if room ≤ 34 then 1 else 0 := by
  have hq := (C125_dd_silent late prog hprog).1
  generalize some (utf8 "wrote 1 DLT messages with payload size=3b\n") = t at hq
  have hx := C125_dd_last_payload ⟨true, late⟩ (fun _ => 0) prog _ _ _ _ 3 ((C52_size_argument [51] 3).1 (by decide +kernel)).1
    (by decide) (by decide) exInput p _ hq rfl (by decide) exInput exInput (by decide)
    (.inr ⟨[65], [66], by decide, by decide, by cases late <;> decide⟩) room h
  have h37 : exFull.length = 37 := by decide
  have h3 : exInput.length = 3 := by decide
  dsimp only at hx
  rw [h37, h3] at hx
  by_cases hr : room ≤ 34
  · rw [if_pos hr]; exact (hx.2.2 (.inl (by decide)) (by omega)).1
  · rw [if_neg hr]; exact (hx.2.1 (by omega)).1

end Verif
