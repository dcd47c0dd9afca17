import Verif.Lemmas.Refuse
import Verif.Props.Truncate
import Verif.Props.DdDlt

/-! # C104 - C106: `dd_dlt` on an output that takes only part of what is written, or refuses it -/

set_option linter.unusedSimpArgs false

namespace Verif

open Spec

/-- The ways `main` starts. -/
theorem args_cases (args : List Bytes) : (∃ ecuid appid size rest, args = ecuid :: appid :: size :: rest) ∨ args.length < 3 := by
  match args with
  | [] => exact .inr (by decide)
  | [_] => exact .inr (by simp)
  | [_, _] => exact .inr (by simp)
  | a :: b :: c :: r => exact .inl ⟨a, b, c, r, rfl⟩

theorem ddMain_short {args : List Bytes} (h : args.length < 3) {bd : Build} {addr : Ctor → UInt8} {input out : Bytes} {e : DdEnd} :
    DdMain bd addr args input out e ↔ e = .usage ∧ out = [] := by
  match args with
  | [] => exact Iff.rfl
  | [_] => exact Iff.rfl
  | [_, _] => exact Iff.rfl
  | _ :: _ :: _ :: _ => simp at h; omega

theorem ddMainOn_short {args : List Bytes} (h : args.length < 3) {acc : Outlet} {bd : Build} {addr : Ctor → UInt8}
    {input out : Bytes} {e : DdEndOn} : DdMainOn acc bd addr args input out e ↔ e = .ended .usage ∧ out = [] := by
  match args with
  | [] => exact Iff.rfl
  | [_] => exact Iff.rfl
  | [_, _] => exact Iff.rfl
  | _ :: _ :: _ :: _ => simp at h; omega

theorem ddMain_none {bd : Build} {addr : Ctor → UInt8} {ecuid appid size input out : Bytes} {rest : List Bytes}
    {e : DdEnd} (hsize : parseU16 size = none) :
    DdMain bd addr (ecuid :: appid :: size :: rest) input out e ↔ e = .panicked ∧ out = [] := by
  unfold DdMain
  simp only [hsize]

theorem ddMainOn_none {acc : Outlet} {bd : Build} {addr : Ctor → UInt8} {ecuid appid size input out : Bytes} {rest : List Bytes}
    {e : DdEndOn} (hsize : parseU16 size = none) :
    DdMainOn acc bd addr (ecuid :: appid :: size :: rest) input out e ↔ e = .ended .panicked ∧ out = [] := by
  unfold DdMainOn
  simp only [hsize]

theorem size_le {size : Bytes} {n : Nat} (h : parseU16 size = some n) : n ≤ 65535 := ((C52_size_argument size n).1 h).2

theorem ddMain_det {bd : Build} {addr : Ctor → UInt8} {args : List Bytes} {input o1 o2 : Bytes} {e1 e2 : DdEnd}
    (h1 : DdMain bd addr args input o1 e1) (h2 : DdMain bd addr args input o2 e2) : o1 = o2 ∧ e1 = e2 := by
  rcases args_cases args with ⟨ecuid, appid, size, rest, rfl⟩ | h
  · cases hs : parseU16 size with
    | none =>
      rw [ddMain_none hs] at h1 h2
      exact ⟨h1.2.trans h2.2.symm, h1.1.trans h2.1.symm⟩
    | some n =>
      rw [ddMain_iff hs] at h1 h2
      obtain ⟨s1, h1, rfl⟩ := h1
      obtain ⟨s2, h2, rfl⟩ := h2
      obtain ⟨rfl, rfl⟩ := ddLoop_unique h1 h2
      exact ⟨rfl, rfl⟩
  · rw [ddMain_short h] at h1 h2
    exact ⟨h1.2.trans h2.2.symm, h1.1.trans h2.1.symm⟩

/-- **C104** `dd_dlt` on an output with room for `room` bytes puts out the first `room` bytes of what it puts out
otherwise, whatever is buffered when the room runs out; and if everything fits, it ends the same way. -/
theorem C104_front (room : Nat) (bd : Build) (addr : Ctor → UInt8) (args : List Bytes) (input full out : Bytes) (e : DdEnd)
    (e' : DdEndOn) (hfull : DdMain bd addr args input full e) (hout : DdMainOn (.upTo room) bd addr args input out e') :
    out = full.take room ∧ (full.length ≤ room → e' = .ended e) := by
  rcases args_cases args with ⟨ecuid, appid, size, rest, rfl⟩ | h
  · cases hs : parseU16 size with
    | none =>
      rw [ddMain_none hs] at hfull
      rw [ddMainOn_none hs] at hout
      obtain ⟨rfl, rfl⟩ := hfull
      obtain ⟨rfl, rfl⟩ := hout
      exact ⟨by simp, fun _ => rfl⟩
    | some n =>
      obtain ⟨w, rfl, h1, h2⟩ := ddMain_sim ((upTo_sim bd.late room 65535).and (any_sim bd.late (.upTo room) 65535))
        ⟨⟨by simp [StdoutOn.empty], .inl ⟨rfl, rfl, by simp [StdoutOn.empty]⟩⟩, by simp [StdoutOn.all, StdoutOn.empty]⟩ hs (by omega) (size_le hs) hout
      cases e' with
      | ended e'' =>
        obtain ⟨f, h3, h4, h5⟩ := h1 e'' rfl
        obtain ⟨h6, h7⟩ := ddMain_det h3 hfull
        rw [within_output h4, h6, h7]
        exact ⟨rfl, fun _ => rfl⟩
      | refused =>
        obtain ⟨f, h3, h4, h5, h6⟩ := h2 rfl full e hfull
        rw [full_output h4, h3]
        refine ⟨rfl, fun h => ?_⟩
        have := h4.1
        omega
  · rw [ddMain_short h] at hfull
    rw [ddMainOn_short h] at hout
    obtain ⟨rfl, rfl⟩ := hfull
    obtain ⟨rfl, rfl⟩ := hout
    exact ⟨by simp, fun _ => rfl⟩

/-- **C104** so whoever reads the incomplete file finds the messages of the complete one that fit, in the same order at
the same offsets. -/
theorem C104_messages (room : Nat) (bd : Build) (addr : Ctor → UInt8) (args : List Bytes) (input full out : Bytes) (e : DdEnd)
    (e' : DdEndOn) (hfull : DdMain bd addr args input full e) (hout : DdMainOn (.upTo room) bd addr args input out e')
    (hF : Fits full) (items : List (Nat × StorageEntry)) (h : Collects (dltitOffsetNext full) 0 items) :
    Collects (dltitOffsetNext out) 0 (items.filter fun x => x.1 + x.2.len ≤ room) := by
  rw [(C104_front room bd addr args input full out e e' hfull hout).1]
  exact C91_cut full hF room items h

/-- **C105** (in part) a run that does not report an error has lost at most what was in flight: the buffer and one
write. So if more is missing, the program does end with an error. -/
theorem C105_reported_partial (room : Nat) (bd : Build) (addr : Ctor → UInt8) (ecuid appid size : Bytes) (rest : List Bytes)
    (n : Nat) (hsize : Decimal size n) (hn : n ≤ 65535) (input full out : Bytes) (e : DdEnd) (e' : DdEndOn)
    (hfull : DdMain bd addr (ecuid :: appid :: size :: rest) input full e)
    (hout : DdMainOn (.upTo room) bd addr (ecuid :: appid :: size :: rest) input out e')
    (hmuch : room + 1024 + max 16 n < full.length) : e' = .refused := by
  have hs := (C52_size_argument size n).2 ⟨hsize, hn⟩
  obtain ⟨w, _, h1, _⟩ := ddMain_sim (upTo_sim bd.late room (max 16 n))
    ⟨by simp [StdoutOn.empty], .inl ⟨rfl, rfl, by simp [StdoutOn.empty]⟩⟩ hs (by omega) (by omega) hout
  cases e' with
  | refused => rfl
  | ended e'' =>
    exfalso
    obtain ⟨f, h3, hcap, h4⟩ := h1 e'' rfl
    obtain ⟨rfl, _⟩ := ddMain_det h3 hfull
    have hc : LineWriter.capacity = 1024 := rfl
    rcases h4 with ⟨h5, h6, h7⟩ | ⟨_, h5⟩
    · unfold LineWriter.output at hmuch
      rw [List.length_append, ← h5, ← h6] at hmuch
      omega
    · omega

/-- **C105** an error is reported only if bytes are missing. -/
theorem C105_only_if_missing (room : Nat) (bd : Build) (addr : Ctor → UInt8) (args : List Bytes) (input full out : Bytes)
    (e : DdEnd) (hfull : DdMain bd addr args input full e)
    (hout : DdMainOn (.upTo room) bd addr args input out .refused) : out.length = room ∧ room < full.length := by
  rcases args_cases args with ⟨ecuid, appid, size, rest, rfl⟩ | h
  · cases hs : parseU16 size with
    | none =>
      rw [ddMainOn_none hs] at hout
      cases hout.1
    | some n =>
      obtain ⟨w, rfl, _, h2⟩ := ddMain_sim ((upTo_sim bd.late room 65535).and (any_sim bd.late (.upTo room) 65535))
        ⟨⟨by simp [StdoutOn.empty], .inl ⟨rfl, rfl, by simp [StdoutOn.empty]⟩⟩, by simp [StdoutOn.all, StdoutOn.empty]⟩ hs (by omega) (size_le hs) hout
      obtain ⟨f, h3, h4, h5, h6⟩ := h2 rfl full e hfull
      have h7 := h4.1
      rw [full_output h4, h3, List.length_take]
      omega
  · rw [ddMainOn_short h] at hout
    cases hout.1

theorem ddTurn_grows {a : DdArgs} {s s' : DdState} (h : ddTurn a s = .inl s') : s.out.output.length + 16 ≤ s'.out.output.length := by
  unfold ddTurn at h
  dsimp only at h
  by_cases hl : s.input.length < a.payloadSize.toNat
  · rw [if_pos hl] at h; cases h
  · rw [if_neg hl] at h
    cases hecu : B4.ofBytes? a.ecuid with
    | none => rw [hecu] at h; cases h
    | some ecu =>
      rw [hecu] at h
      dsimp only at h
      cases hlen : add16 a.build.checks (4 + 10 + 4) a.payloadSize with
      | panic => rw [hlen] at h; cases h
      | ok len =>
        rw [hlen] at h
        dsimp only at h
        cases happ : B4.ofBytes? a.appid with
        | none => rw [happ] at h; cases h
        | some app =>
          rw [happ] at h
          dsimp only at h
          cases hm : mul32 a.build.checks s.count 100 with
          | panic => rw [hm] at h; cases h
          | ok ts =>
            rw [hm] at h
            dsimp only at h
            cases ha : add32 a.build.checks s.count 1 with
            | panic => rw [ha] at h; cases h
            | ok c =>
              rw [ha] at h
              injection h with h
              subst h
              dsimp only
              have h1 := (write_short (late := a.build.late) s.out (data := (StorageHeader.new ⟨0x44, 0x4C, 0x54, 0x1⟩ (s.count / 100)
                ((s.count % 100).toInt32 * 10000) ecu).asBytes) (by unfold StorageHeader.asBytes B4.toBytes; simp))
              have h2 : ∀ (f : LineWriter) (d : Bytes), f.output.length ≤ (f.write a.build.late d).1.output.length :=
                fun f d => (write_prefix a.build.late f d).length_le
              refine Nat.le_trans ?_ (h2 _ _)
              refine Nat.le_trans ?_ (h2 _ _)
              refine Nat.le_trans ?_ (h2 _ _)
              refine Nat.le_trans ?_ (h2 _ _)
              rw [h1]
              unfold StorageHeader.asBytes B4.toBytes
              simp

theorem ddTurns_grows {a : DdArgs} : ∀ (k : Nat) {s s' : DdState}, ddTurns a k s = .inl s' →
    s.out.output.length + 16 * k ≤ s'.out.output.length
  | 0, s, s', h => by
    injection h with h
    subst h
    omega
  | k + 1, s, s', h => by
    unfold ddTurns at h
    cases ht : ddTurn a s with
    | inr e => rw [ht] at h; cases h
    | inl s'' =>
      rw [ht] at h
      have h1 := ddTurn_grows ht
      have h2 := ddTurns_grows k h
      omega

/-- **C105** on an output with limited room the program always ends, whatever the arguments and the input, also where
it would otherwise run forever (C52: payload size 0). -/
theorem C105_ends (room : Nat) (bd : Build) (addr : Ctor → UInt8) (args : List Bytes) (input : Bytes) :
    ∃ out e, DdMainOn (.upTo room) bd addr args input out e := by
  rcases args_cases args with ⟨ecuid, appid, size, rest, rfl⟩ | h
  · cases hs : parseU16 size with
    | none => exact ⟨_, _, (ddMainOn_none hs).2 ⟨rfl, rfl⟩⟩
    | some n =>
      have hn := size_le hs
      simp only [ddMainOn_iff hs]
      have h1 := ddTurns_sim ⟨bd, addr, ecuid, appid, UInt16.ofNat n⟩ (upTo_sim bd.late room 65535) (by omega)
        (Nat.le_trans (Nat.mod_le _ _) hn) (room + 1024 + 65535 + 1) ⟨input, 0, .empty⟩ .empty
        ⟨by simp [StdoutOn.empty], .inl ⟨rfl, rfl, by simp [StdoutOn.empty]⟩⟩
      rcases ht : ddTurnsOn (.upTo room) ⟨bd, addr, ecuid, appid, UInt16.ofNat n⟩ (room + 1024 + 65535 + 1) ⟨input, 0, .empty⟩ with s | ⟨s, e⟩
      · exfalso
        obtain ⟨f, h2, hcap, h3⟩ := h1.1 s ht
        have h4 := ddTurns_grows _ h2
        have hc : LineWriter.capacity = 1024 := rfl
        dsimp only at h4
        rcases h3 with ⟨h5, h6, h7⟩ | ⟨_, h5⟩
        · have : f.output.length = s.out.sink.length + s.out.buf.length := by
            unfold LineWriter.output; rw [List.length_append, h5, h6]
          omega
        · omega
      · exact ⟨_, e, _, s, ht, rfl⟩
  · exact ⟨_, _, (ddMainOn_short h).2 ⟨rfl, rfl⟩⟩

/-- **C106** whatever the output does - take writes in pieces, refuse some and take others later -, the bytes that come
out are bytes of the complete output, in order. -/
theorem C106_only_lost (acc : Outlet) (bd : Build) (addr : Ctor → UInt8) (args : List Bytes) (input full out : Bytes) (e : DdEnd)
    (e' : DdEndOn) (hfull : DdMain bd addr args input full e) (hout : DdMainOn acc bd addr args input out e') :
    out.Sublist full := by
  rcases args_cases args with ⟨ecuid, appid, size, rest, rfl⟩ | h
  · cases hs : parseU16 size with
    | none =>
      rw [ddMainOn_none hs] at hout
      rw [hout.2]
      exact List.nil_sublist _
    | some n =>
      obtain ⟨w, rfl, h1, h2⟩ := ddMain_sim (any_sim bd.late acc 65535) (by simp [StdoutOn.all, StdoutOn.empty]) hs (by omega) (size_le hs) hout
      refine (outputOn_prefix acc w).sublist.trans ?_
      cases e' with
      | ended e'' =>
        obtain ⟨f, h3, h4⟩ := h1 e'' rfl
        obtain ⟨h6, h7⟩ := ddMain_det h3 hfull
        rwa [← h6]
      | refused =>
        obtain ⟨f, h3, h4, h5⟩ := h2 rfl full e hfull
        rwa [h3]
  · rw [ddMainOn_short h] at hout
    rw [hout.2]
    exact List.nil_sublist _

/-- **C106** (in part) on an output that takes every single write completely, up to the size of the payload (and of the
standard library's buffer), nothing is lost: the program behaves as if the output took everything. -/
theorem C106_whole_partial (acc : Outlet) (N : Nat) (hacc : TakesWhole N acc) (hN : 1024 ≤ N) (bd : Build) (addr : Ctor → UInt8)
    (ecuid appid size : Bytes) (rest : List Bytes) (n : Nat) (hsize : Decimal size n) (hn : n ≤ 65535) (hnN : n ≤ N)
    (input out : Bytes) (e' : DdEndOn) :
    DdMainOn acc bd addr (ecuid :: appid :: size :: rest) input out e' ↔
      ∃ e, e' = .ended e ∧ DdMain bd addr (ecuid :: appid :: size :: rest) input out e := by
  have hs := (C52_size_argument size n).2 ⟨hsize, hn⟩
  have hE : Equal .empty .empty := ⟨rfl, rfl, by simp [StdoutOn.empty]⟩
  constructor
  · intro hout
    obtain ⟨w, rfl, h1, h2⟩ := ddMain_sim (whole_sim bd.late hacc hN) hE hs (by omega) hnN hout
    cases e' with
    | ended e =>
      obtain ⟨f, h3, h4⟩ := h1 e rfl
      rw [equal_output hacc hN h4]
      exact ⟨e, rfl, h3⟩
    | refused =>
      exfalso
      rw [ddMainOn_iff hs] at hout
      obtain ⟨k, s, h3, h4⟩ := hout
      exact (ddTurns_sim ⟨bd, addr, ecuid, appid, UInt16.ofNat n⟩ (whole_sim bd.late hacc hN) (by omega)
        (Nat.le_trans (Nat.mod_le _ _) hnN) k ⟨input, 0, .empty⟩ .empty hE).2.2 s h3
  · rintro ⟨e, rfl, h⟩
    rw [ddMain_iff hs] at h
    rw [ddMainOn_iff hs]
    obtain ⟨s, ⟨k, hk⟩, rfl⟩ := h
    have h1 := ddTurns_sim ⟨bd, addr, ecuid, appid, UInt16.ofNat n⟩ (whole_sim bd.late hacc hN) (by omega)
      (Nat.le_trans (Nat.mod_le _ _) hnN) k ⟨input, 0, .empty⟩ .empty hE
    rcases ht : ddTurnsOn acc ⟨bd, addr, ecuid, appid, UInt16.ofNat n⟩ k ⟨input, 0, .empty⟩ with s' | ⟨s', e'⟩
    · obtain ⟨f, h2, _⟩ := h1.1 s' ht
      rw [hk] at h2
      cases h2
    · cases e' with
      | refused => exact (h1.2.2 s' ht).elim
      | ended e' =>
        obtain ⟨f, h2, h3⟩ := h1.2.1 s' e' ht
        rw [hk] at h2
        injection h2 with h2
        injection h2 with h2 h4
        subst h2 h4
        exact ⟨k, s', ht, (equal_output hacc hN h3).symm⟩

/-! ## Cases -/

/-- `dd_dlt ECU1 APP1 3`. -/
def exArgs : List Bytes := [[69, 67, 85, 49], [65, 80, 80, 49], [51]]

/-- `A\nB`. -/
def exInput : Bytes := [65, 10, 66]

/-- An output that takes one byte at a time. -/
def Outlet.bytewise : Outlet := fun _ _ _ => some 1

theorem ddMainOn_ex (late : Bool) (acc : Outlet) (k : Nat) (out : Bytes) (e : DdEndOn)
    (h : (match ddTurnsOn acc ⟨⟨true, late⟩, fun _ => 0, [69, 67, 85, 49], [65, 80, 80, 49], 3⟩ k ⟨exInput, 0, .empty⟩ with
      | .inr (s, e') => decide (e' = e ∧ s.out.output acc = out)
      | _ => false) = true) : DdMainOn acc ⟨true, late⟩ (fun _ => 0) exArgs exInput out e := by
  refine (ddMainOn_iff (n := 3) (by decide +kernel)).2 ?_
  rcases ht : ddTurnsOn acc ⟨⟨true, late⟩, fun _ => 0, [69, 67, 85, 49], [65, 80, 80, 49], UInt16.ofNat 3⟩ k ⟨exInput, 0, .empty⟩ with s | ⟨s, e'⟩
  · have ht' : ddTurnsOn acc ⟨⟨true, late⟩, fun _ => 0, [69, 67, 85, 49], [65, 80, 80, 49], 3⟩ k ⟨exInput, 0, .empty⟩ = _ := ht
    rw [ht'] at h
    cases h
  · have ht' : ddTurnsOn acc ⟨⟨true, late⟩, fun _ => 0, [69, 67, 85, 49], [65, 80, 80, 49], 3⟩ k ⟨exInput, 0, .empty⟩ = _ := ht
    rw [ht'] at h
    obtain ⟨rfl, h2⟩ := of_decide_eq_true h
    exact ⟨k, s, ht, h2.symm⟩

/-- The complete output. -/
def exFull : Bytes := [68, 76, 84, 1, 0, 0, 0, 0, 0, 0, 0, 0, 69, 67, 85, 49, 49, 0, 0, 21, 0, 0, 0, 0, 65, 0, 65, 80, 80, 49,
  65, 80, 80, 49, 65, 10, 66]

theorem ddMain_ex (late : Bool) : DdMain ⟨true, late⟩ (fun _ => 0) exArgs exInput exFull (.finished 1) := by
  refine (ddMain_iff (n := 3) (by decide +kernel)).2 ⟨⟨[], 1, ⟨exFull.dropLast, [66]⟩⟩, ⟨2, by cases late <;> decide +kernel⟩, by decide +kernel⟩

/-- **C105** the claim as stated is false: the last byte is missing, and the program reports success. -/
theorem C105_silent_loss (late : Bool) : DdMain ⟨true, late⟩ (fun _ => 0) exArgs exInput exFull (.finished 1) ∧
    DdMainOn (.upTo 36) ⟨true, late⟩ (fun _ => 0) exArgs exInput exFull.dropLast (.ended (.finished 1)) :=
  ⟨ddMain_ex late, ddMainOn_ex late _ 2 _ _ (by cases late <;> decide +kernel)⟩

/-- **C106** the claim as stated is false: the output takes every byte it is offered, one at a time, and yet the last
one is missing, since the program ignores how much `write` took. -/
theorem C106_short_write_loss (late : Bool) : DdMainOn .bytewise ⟨true, late⟩ (fun _ => 0) exArgs exInput exFull.dropLast (.ended (.finished 1)) :=
  ddMainOn_ex late _ 2 _ _ (by cases late <;> decide +kernel)

/-- C104, C105: with room for 20 bytes, the write of the payload, which contains a newline, is refused. -/
example (late : Bool) : DdMainOn (.upTo 20) ⟨true, late⟩ (fun _ => 0) exArgs exInput (exFull.take 20) .refused :=
  ddMainOn_ex late _ 2 _ _ (by cases late <;> decide +kernel)

/-- C104: the hypotheses of `C104_front` are met. -/
example : exFull.dropLast = exFull.take 36 :=
  (C104_front 36 _ _ _ _ _ _ _ _ (ddMain_ex false) (C105_silent_loss false).2).1

/-- C106: an output that takes everything, and one that takes pages. -/
example : TakesWhole 65535 (fun _ _ len => some len) := fun _ _ len _ => ⟨len, rfl, Nat.le_refl _⟩
example : TakesWhole 4096 (fun _ _ len => some (min len 4096)) := fun _ _ len h => ⟨_, rfl, by omega⟩

/-- C105: an input for which an output without any room is reported. -/
theorem ddMain_ex_long (late : Bool) : ∃ full, DdMain ⟨true, late⟩ (fun _ => 0) exArgs (List.replicate 90 65) full (.finished 30) ∧ 0 + 1024 + max 16 3 < full.length := by
  have h : (match ddTurns ⟨⟨true, late⟩, fun _ => 0, [69, 67, 85, 49], [65, 80, 80, 49], 3⟩ 31 ⟨List.replicate 90 65, 0, .empty⟩ with
      | .inr (s, e') => decide (e' = .finished 30 ∧ s.out.output.length = 1110)
      | _ => false) = true := by cases late <;> decide +kernel
  rcases ht : ddTurns ⟨⟨true, late⟩, fun _ => 0, [69, 67, 85, 49], [65, 80, 80, 49], 3⟩ 31 ⟨List.replicate 90 65, 0, .empty⟩ with s | ⟨s, e'⟩
  · rw [ht] at h; cases h
  · rw [ht] at h
    obtain ⟨rfl, h2⟩ := of_decide_eq_true h
    exact ⟨_, (ddMain_iff (n := 3) (by decide +kernel)).2 ⟨s, ⟨31, ht⟩, rfl⟩, by rw [h2]; decide⟩

example (late : Bool) : ∃ out, DdMainOn (.upTo 0) ⟨true, late⟩ (fun _ => 0) exArgs (List.replicate 90 65) out .refused := by
  obtain ⟨full, h1, h2⟩ := ddMain_ex_long late
  obtain ⟨out, e, h3⟩ := C105_ends 0 ⟨true, late⟩ (fun _ => 0) exArgs (List.replicate 90 65)
  have h4 := C105_reported_partial 0 ⟨true, late⟩ (fun _ => 0) _ _ _ _ 3 ((C52_size_argument [51] 3).1 (by decide +kernel)).1 (by decide) _ full out _ e h1 h3 h2
  exact ⟨out, h4 ▸ h3⟩

end Verif
