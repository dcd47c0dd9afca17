import Verif.Props.Rename
import Verif.Props.Text

/-! # C151: what is printed does not depend on the clocks -/

namespace Verif

open Spec

/-- A sequential command does not look at the number of threads. -/
theorem runCmd_num {c : Cmd} (hs : sequential c = true) (n m : Nat) (bytes : Bytes) (r : Res Report) :
    RunCmd n bytes c r ↔ RunCmd m bytes c r := by
  cases c <;> first | exact Iff.rfl | cases hs

theorem cmdText_num {c : Cmd} (hs : sequential c = true) (n m : Nat) (bytes : Bytes) (out : Bytes × Bool) :
    CmdText n bytes c out ↔ CmdText m bytes c out := by
  cases c <;> first | exact Iff.rfl | cases hs

/-- Two files with the same report: the same text. -/
theorem same_text {num : Nat} {c : Cmd} (hs : sequential c = true) {a b : Bytes} (ha : Fits a) (hb : Fits b)
    (h : ∀ r, RunCmd num a c r ↔ RunCmd num b c r) :
    (∀ out, CmdText num a c (out, true) ↔ CmdText num b c (out, true)) ∧
    ((∃ out, CmdText num a c (out, false)) ↔ ∃ out, CmdText num b c (out, false)) := by
  have hp : ∀ d : Bytes, Fits d → ∃ slices, partitionFrom dltStorage d 1 = .ok slices := fun d hd => by
    obtain ⟨_, _, s, _, _, _, h, _⟩ := C30_partition_contiguous d hd 1 (by decide)
    exact ⟨s, h⟩
  have hn : c ≠ .parIter := by rintro rfl; cases hs
  obtain ⟨s, hs1⟩ := hp a ha
  obtain ⟨t, ht1⟩ := hp b hb
  have e1 := runCmd_num hs num 1
  have e2 := cmdText_num hs num 1
  have h1 : ∀ r, RunCmd 1 a c r ↔ RunCmd 1 b c r := fun r => by rw [← e1, ← e1]; exact h r
  constructor
  · intro out
    rw [e2, e2, C88_text 1 a c hn s hs1, C88_text 1 b c hn t ht1, opening_seq hs, opening_seq hs]
    simp only [h1]
  · simp only [e2]
    rw [C88_panics 1 a c hn s hs1, C88_panics 1 b c hn t ht1, h1]

theorem perMessage_sequential {c : Cmd} (h : perMessage c = true) : sequential c = true := by
  cases c <;> first | rfl | cases h

/-- **C151** the clocks of the recorder leave no trace in the text of a command that ends, and none that panics does so for them. -/
theorem C151_recorder_text (num : Nat) (c : Cmd) (hc : perMessage c = true) (clock : B4 → Int)
    (hk : c = .histogramTimestamp → ∃ d, ∀ id, clock id = d) (a b : Bytes) (ha : Fits a) (hb : Fits b)
    (xs ys : List StorageEntry) (hx : Messages a xs) (hy : Messages b ys) (h : Pointwise (Received clock) xs ys) :
    (∀ out, CmdText num a c (out, true) ↔ CmdText num b c (out, true)) ∧
    ((∃ out, CmdText num a c (out, false)) ↔ ∃ out, CmdText num b c (out, false)) :=
  same_text (perMessage_sequential hc) ha hb (C151_recorder num c hc clock hk a b ha hb xs ys hx hy h)

/-- **C151** nor do the clocks of the ECUs in the text of the commands about lifecycles. -/
theorem C151_stamps_text (num : Nat) (c : Cmd) (hc : c = .splitLifecycles ∨ c = .histogramLifecycles ∨ c = .iter ∨ c = .itertools)
    (clock : B4 → Int) (hk : c ≠ .splitLifecycles → ∃ d, ∀ id, clock id = d) (a b : Bytes) (ha : Fits a) (hb : Fits b)
    (xs ys : List StorageEntry) (hx : Messages a xs) (hy : Messages b ys) (h : Pointwise (Stamped clock) xs ys) :
    (∀ out, CmdText num a c (out, true) ↔ CmdText num b c (out, true)) ∧
    ((∃ out, CmdText num a c (out, false)) ↔ ∃ out, CmdText num b c (out, false)) := by
  have hs : sequential c = true := by rcases hc with rfl | rfl | rfl | rfl <;> rfl
  refine same_text hs ha hb ?_
  by_cases hi : c = .itertools
  · subst hi
    obtain ⟨d, hd⟩ := hk (by decide)
    exact C151_steps num clock d hd a b ha hb xs ys hx hy h
  · refine C151_stamps num c ?_ clock hk a b ha hb xs ys hx hy h
    rcases hc with h | h | h | h
    · exact .inl h
    · exact .inr (.inl h)
    · exact .inr (.inr h)
    · exact absurd h hi

/-- **C151** with a clock for each ECU, told apart as `histogram_lifecycles` does. -/
theorem C151_lifecycles_text (num : Nat) (clock : Option Nat → Int) (a b : Bytes) (ha : Fits a) (hb : Fits b)
    (xs ys : List StorageEntry) (hx : Messages a xs) (hy : Messages b ys) (h : Pointwise (StampedBy clock) xs ys) :
    (∀ out, CmdText num a .histogramLifecycles (out, true) ↔ CmdText num b .histogramLifecycles (out, true)) ∧
    ((∃ out, CmdText num a .histogramLifecycles (out, false)) ↔ ∃ out, CmdText num b .histogramLifecycles (out, false)) :=
  same_text rfl ha hb (C151_lifecycles num clock a b ha hb xs ys hx hy h)

theorem ecus_of_run {num : Nat} {a : Bytes} {c : Cmd} (hc : c = .splitTimestamp ∨ c = .splitLifecycles) {r : Report}
    (h : RunCmd num a c (.ok r)) : ∃ ls, r = .ecus ls := by
  have key : ∀ q : Res (OrdMap B4 (OrdMap UInt32 Nat × Nat)), Res.ok r = q.bind ecuReport → ∃ ls, r = .ecus ls := by
    intro q hq
    cases q with
    | panic => cases hq
    | ok m =>
      have hq : Res.ok r = (ecuLines m).bind fun ls => .ok (.ecus ls) := hq
      cases hl : ecuLines m with
      | panic => rw [hl] at hq; cases hq
      | ok ls =>
        rw [hl] at hq
        cases hq
        exact ⟨ls, rfl⟩
  rcases hc with rfl | rfl
  · obtain ⟨q, -, hq⟩ := printed_iff.1 h
    exact key q hq
  · obtain ⟨q, -, hq⟩ := printed_iff.1 h
    exact key q hq

/-- **C152** the text of the split commands that end: the title and the same lines, with the new ids and in their order. -/
theorem C152_text (num : Nat) (c : Cmd) (hc : c = .splitTimestamp ∨ c = .splitLifecycles) (name : B4 → B4) (a b : Bytes)
    (ha : Fits a) (hb : Fits b) (xs ys : List StorageEntry) (hx : Messages a xs) (hy : Messages b ys)
    (h : Pointwise (Renamed name) xs ys) (hi : NamesApart name xs) (out out' : Bytes)
    (ho : CmdText num a c (out, true)) (ho' : CmdText num b c (out', true)) :
    ∃ (table : List (B4 × (OrdMap UInt32 Nat × Nat))) (ls' : List (Bytes × (OrdMap UInt32 Nat × Nat))),
      out = utf8 (titleOf c) ++ (linesOf c (.ecus (table.map fun e => (e.1.toBytes, e.2)))).flatten ∧
      out' = utf8 (titleOf c) ++ (linesOf c (.ecus ls')).flatten ∧
      ls'.Perm (table.map fun e => ((name e.1).toBytes, e.2)) := by
  have hs : sequential c = true := by rcases hc with rfl | rfl <;> rfl
  have hn : c ≠ .parIter := by rintro rfl; cases hs
  have one : ∀ (d : Bytes) (o : Bytes), Fits d → CmdText num d c (o, true) → ∃ ls, RunCmd num d c (.ok (.ecus ls)) ∧
      o = utf8 (titleOf c) ++ (linesOf c (.ecus ls)).flatten := by
    intro d o hd hp
    obtain ⟨_, _, s, _, _, _, hs1, _⟩ := C30_partition_contiguous d hd 1 (by decide)
    obtain ⟨r, h1, h2⟩ := (C88_text 1 d c hn s hs1 o).1 ((cmdText_num hs num 1 d _).1 hp)
    obtain ⟨ls, rfl⟩ := ecus_of_run hc h1
    rw [opening_seq hs] at h2
    exact ⟨ls, (runCmd_num hs num 1 d _).2 h1, h2⟩
  obtain ⟨ls, h1, h2⟩ := one a out ha ho
  obtain ⟨ls', h3, h4⟩ := one b out' hb ho'
  obtain ⟨table, rfl, h5⟩ := C152_renamed num c hc name a b ha hb xs ys hx hy h hi ls ls' h1 h3
  exact ⟨table, ls', h2, h4, h5⟩

example (num : Nat) (out : Bytes) : CmdText num (packed shortBoots) .splitLifecycles (out, true) ↔
    CmdText num (packed laterBoots) .splitLifecycles (out, true) :=
  (C151_stamps_text num .splitLifecycles (.inl rfl) (fun _ => 65536) (fun h => absurd rfl h) _ _ (by decide) (by decide) _ _
    (messages_packed (by decide)) (messages_packed (by decide)) later_stamped).1 out

end Verif
