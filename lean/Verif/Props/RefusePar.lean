import Verif.Lemmas.RefusePar
import Verif.Props.ProcessOn
import Verif.Props.Text
import Verif.Props.Success

/-! # C144: the threads of `par_iter` on an output that takes only part of what is written, or refuses it -/

set_option linter.unusedSimpArgs false

namespace Verif

open Spec

theorem iterLine_lines (x l : Bytes) (hx : iterLine x = some l) : Lines l := by
  unfold iterLine at hx
  split at hx
  · injection hx with hx
    subst hx
    exact lines_text _ _ (by decide +kernel)
  · cases hx

theorem all_some {slices ls : List Bytes} (h : slices.map iterLine = ls.map some) : slices.filterMap iterLine = ls := by
  have : slices.filterMap iterLine = (slices.map iterLine).filterMap id := by rw [List.filterMap_map]; rfl
  rw [this, h, List.filterMap_map]
  simp

/-- The lines of a run are some of the lines of the slices. -/
theorem parIterLines_some {slices lines : List Bytes} {ok : Bool} (h : ParIterLines slices ok lines) :
    ParIterLines slices false lines := by
  cases ok with
  | false => exact h
  | true =>
    obtain ⟨ls, h1, h2⟩ := h
    exact ⟨ls, by rw [all_some h1]; exact List.Sublist.refl _, h2⟩

theorem parIterLines_lines {slices lines : List Bytes} {ok : Bool} (h : ParIterLines slices ok lines) : Lines lines.flatten := by
  obtain ⟨ls, h3, h4⟩ := parIterLines_some h
  refine lines_flatten fun l hl => ?_
  have h5 := h3.subset (h4.mem_iff.1 hl)
  rw [List.mem_filterMap] at h5
  obtain ⟨x, _, hx⟩ := h5
  exact iterLine_lines x l hx

/-- Some lines of threads can be completed to the text of a run. -/
theorem parIter_complete {num : Nat} {bytes : Bytes} (hF : Fits bytes) {slices : List Bytes}
    (hp : partitionFrom dltStorage bytes num = .ok slices) {tried : List Bytes} (h : ParIterLines slices false tried) :
    ∃ more ok, CmdText num bytes .parIter (slicesLine num bytes ++ (tried ++ more).flatten, ok) := by
  rcases multithreaded_counter hF hp lifecycleIter_total lifecycleIter_le with ⟨-, hr⟩ | ⟨-, ns, hns, hr⟩
  · exact ⟨[], false, .panic, slices, tried, (hr _).2 rfl, hp, rfl, h, by rw [List.append_nil]⟩
  · obtain ⟨ls, h1, h2⟩ := h
    have h3 := each_iterLine hns
    rw [all_some h3] at h1
    obtain ⟨more, h4⟩ := sublist_rest h1
    exact ⟨more, true, .ok ns.sum, slices, tried ++ more, (hr _).2 rfl, hp, rfl, ⟨_, h3, (h2.append_right more).trans h4.symm⟩, rfl⟩

theorem flatten_flatten (ls : List (List Bytes)) : (ls.map List.flatten).flatten = ls.flatten.flatten := by
  induction ls with
  | nil => rfl
  | cons l ls ih => simp [ih]

/-- A run of `par_iter` in which nothing is refused. -/
theorem parIterOn_ended {acc : Outlet} {num : Nat} {bytes echo out : Bytes} {ok : Bool} (hecho : Lines echo)
    (h : ParIterOn acc num bytes echo out (.ended ok)) : ∃ o, CmdText num bytes .parIter (o, ok) ∧ out = echo ++ o := by
  obtain ⟨slices, head, lines, hp, hh, h⟩ := h
  split at h
  · rename_i h1
    obtain ⟨rfl, h⟩ := h
    split at h
    · rename_i h2
      obtain ⟨q, hq, hl, he⟩ := h
      injection he with he
      subst he
      refine ⟨slicesLine num bytes ++ (lines.map List.flatten).flatten, ⟨q, slices, _, hq, hp, rfl, hl, rfl⟩, ?_⟩
      have h3 := try_ok acc lines _ h2
      have h4 : StdoutOn.empty.printAll acc (head ++ lines.flatten) = (StdoutOn.empty.printAll acc head).1.tryLines acc lines := by
        rw [printAll_append, if_pos h1, h3]
      have h5 := (print_lines acc (head ++ lines.flatten) (by
        rw [List.flatten_append, hh, ← flatten_flatten]
        exact lines_append (lines_append hecho (lines_slices _ _)) (parIterLines_lines hl))).1 (by rw [h4, h2])
      rw [h4] at h5
      rw [h5.1, List.flatten_append, hh, flatten_flatten, List.append_assoc]
    · cases h.2
  · cases h.2

/-- With room for `L` bytes, threads that go on printing make no difference. -/
theorem parIterOn_limited {L num : Nat} {bytes echo out : Bytes} {e : RipEndOn} (hF : Fits bytes) (hecho : Lines echo)
    (h : ParIterOn (.upTo L) num bytes echo out e) :
    ∃ o ok, CmdText num bytes .parIter (o, ok) ∧ out = (echo ++ o).take L ∧
      e = if L < (echo ++ o).length then .refused else .ended ok := by
  obtain ⟨slices, head, lines, hp, hh, h⟩ := h
  have hhead : Lines head.flatten := by rw [hh]; exact lines_append hecho (lines_slices _ _)
  split at h
  · rename_i h1
    obtain ⟨rfl, h⟩ := h
    split at h
    · rename_i h2
      obtain ⟨q, hq, hl, rfl⟩ := h
      refine ⟨slicesLine num bytes ++ (lines.map List.flatten).flatten, q.isOk, ⟨q, slices, _, hq, hp, rfl, hl, rfl⟩, ?_⟩
      have h3 := try_ok (.upTo L) lines _ h2
      have h4 : StdoutOn.empty.printAll (.upTo L) (head ++ lines.flatten) =
          (StdoutOn.empty.printAll (.upTo L) head).1.tryLines (.upTo L) lines := by
        rw [printAll_append, if_pos h1, h3]
      have h5 := print_limited L (head ++ lines.flatten) (by
        rw [List.flatten_append, hh, ← flatten_flatten]
        exact lines_append (lines_append hecho (lines_slices _ _)) (parIterLines_lines hl))
      rw [h4, List.flatten_append, hh, ← flatten_flatten, List.append_assoc] at h5
      refine ⟨h5.1, ?_⟩
      rw [if_neg fun hlt => by rw [h5.2.2 hlt] at h2; cases h2]
    · rename_i h2
      obtain ⟨hl, rfl⟩ := h
      obtain ⟨ps, qs, h3, h4, h5⟩ := try_refused lines _ (bounded_pieces head .empty (Nat.zero_le _)).1 (Bool.eq_false_iff.2 h2)
      have h6 : StdoutOn.empty.printAll (.upTo L) (head ++ ps) = (StdoutOn.empty.printAll (.upTo L) head).1.printAll (.upTo L) ps := by
        rw [printAll_append, if_pos h1]
      have h7 := print_refused L (head ++ ps) (by rw [h6]; exact h4)
      rw [h6] at h7
      obtain ⟨more, ok, hrun⟩ := parIter_complete hF hp hl
      refine ⟨_, ok, hrun, ?_⟩
      have h8 : echo ++ (slicesLine num bytes ++ (lines.map List.flatten ++ more).flatten) =
          (head ++ ps).flatten ++ (qs.flatten ++ more.flatten) := by
        rw [List.flatten_append, List.flatten_append, hh, flatten_flatten, h3, List.flatten_append]
        simp [List.append_assoc]
      rw [h8, List.take_append_of_le_length (Nat.le_of_lt h7.2.1),
        if_pos (by rw [List.length_append]; omega)]
      refine ⟨?_, rfl⟩
      rw [full_output_sink (by rw [h5]; exact h7.2.2), h5, h7.1]
  · rename_i h1
    obtain ⟨rfl, rfl⟩ := h
    obtain ⟨more, ok, hrun⟩ := parIter_complete hF hp (tried := []) ⟨[], List.nil_sublist _, .refl _⟩
    refine ⟨_, ok, hrun, ?_⟩
    have h2 := print_limited L head hhead
    have h3 := h2.2.1 (Bool.eq_false_iff.2 h1)
    rw [h2.1, ← List.append_assoc, ← hh, List.take_append_of_le_length (Nat.le_of_lt h3),
      if_pos (by rw [List.length_append]; omega)]
    exact ⟨rfl, rfl⟩

/-- On any output: what comes out is part of the text of a run. -/
theorem parIterOn_part {acc : Outlet} {num : Nat} {bytes echo out : Bytes} {e : RipEndOn} (hF : Fits bytes)
    (h : ParIterOn acc num bytes echo out e) :
    ∃ o ok, CmdText num bytes .parIter (o, ok) ∧ out.Sublist (echo ++ o) := by
  obtain ⟨slices, head, lines, hp, hh, h⟩ := h
  have h0 : StdoutOn.empty.all = [] := rfl
  have hs := prints_sublist (prints_list acc head .empty)
  rw [h0, List.nil_append, hh] at hs
  split at h
  · obtain ⟨rfl, h⟩ := h
    have hl : ParIterLines slices false (lines.map List.flatten) := by
      split at h
      · obtain ⟨q, -, hl, -⟩ := h
        exact parIterLines_some hl
      · exact h.1
    obtain ⟨more, ok, hrun⟩ := parIter_complete hF hp hl
    refine ⟨_, ok, hrun, ?_⟩
    refine (outputOn_prefix acc _).sublist.trans ((try_sublist acc lines _).trans ?_)
    rw [← List.append_assoc, List.flatten_append, flatten_flatten, ← List.append_assoc]
    exact (hs.append (List.Sublist.refl _)).trans (List.sublist_append_left _ _)
  · obtain ⟨rfl, -⟩ := h
    obtain ⟨more, ok, hrun⟩ := parIter_complete hF hp (tried := []) ⟨[], List.nil_sublist _, .refl _⟩
    refine ⟨_, ok, hrun, ?_⟩
    refine (outputOn_prefix acc _).sublist.trans ?_
    rw [← List.append_assoc]
    exact hs.trans (List.sublist_append_left _ _)

theorem try_limited {L : Nat} {head : List Bytes} {lines : List (List Bytes)} (h1 : (StdoutOn.empty.printAll (.upTo L) head).2 = true)
    (hend : Lines (head.flatten ++ lines.flatten.flatten)) :
    ((StdoutOn.empty.printAll (.upTo L) head).1.tryLines (.upTo L) lines).1.output (.upTo L) =
      (head.flatten ++ lines.flatten.flatten).take L := by
  cases h2 : ((StdoutOn.empty.printAll (.upTo L) head).1.tryLines (.upTo L) lines).2 with
  | true =>
    have h4 : StdoutOn.empty.printAll (.upTo L) (head ++ lines.flatten) =
        (StdoutOn.empty.printAll (.upTo L) head).1.tryLines (.upTo L) lines := by
      rw [printAll_append, if_pos h1, try_ok (.upTo L) lines _ h2]
    have h5 := print_limited L (head ++ lines.flatten) (by rw [List.flatten_append]; exact hend)
    rw [h4, List.flatten_append] at h5
    exact h5.1
  | false =>
    obtain ⟨ps, qs, h3, h4, h5⟩ := try_refused lines _ (bounded_pieces head .empty (Nat.zero_le _)).1 h2
    have h6 : StdoutOn.empty.printAll (.upTo L) (head ++ ps) = (StdoutOn.empty.printAll (.upTo L) head).1.printAll (.upTo L) ps := by
      rw [printAll_append, if_pos h1]
    have h7 := print_refused L (head ++ ps) (by rw [h6]; exact h4)
    rw [h6] at h7
    rw [full_output_sink (by rw [h5]; exact h7.2.2), h5, h7.1, h3, List.flatten_append (L₁ := ps), ← List.append_assoc, ← List.flatten_append,
      List.take_append_of_le_length (Nat.le_of_lt h7.2.1)]

/-- Every run has a counterpart. -/
theorem parIterOn_exists (acc : Outlet) {num : Nat} {bytes : Bytes} {echo : Bytes} (hecho : Lines echo) {o : Bytes} {ok : Bool}
    (h : CmdText num bytes .parIter (o, ok)) : ∃ out e, ParIterOn acc num bytes echo out e ∧ out.Sublist (echo ++ o) ∧
      ∀ L, acc = .upTo L → out = (echo ++ o).take L := by
  obtain ⟨q, slices, lines, hq, hp, h1, h2, h3⟩ := h
  dsimp only at h1 h2 h3
  subst h1 h3
  have hm : (lines.map fun l => [l]).map List.flatten = lines := by
    rw [List.map_map]
    exact (List.map_congr_left (fun l _ => by simp)).trans (List.map_id _)
  have hff : (lines.map fun l => [l]).flatten.flatten = lines.flatten := by rw [← flatten_flatten, hm]
  have hh : ([echo, slicesLine num bytes] : List Bytes).flatten = echo ++ slicesLine num bytes := by simp
  have hhead : Lines (echo ++ slicesLine num bytes) := lines_append hecho (lines_slices _ _)
  have hs := prints_sublist (prints_list acc [echo, slicesLine num bytes] .empty)
  rw [show StdoutOn.empty.all = [] from rfl, List.nil_append, hh] at hs
  rw [← List.append_assoc]
  by_cases c1 : (StdoutOn.empty.printAll acc [echo, slicesLine num bytes]).2 = true
  · have hout : (((StdoutOn.empty.printAll acc [echo, slicesLine num bytes]).1.tryLines acc (lines.map fun l => [l])).1.output acc).Sublist
          (echo ++ slicesLine num bytes ++ lines.flatten) ∧
        ∀ L, acc = .upTo L → ((StdoutOn.empty.printAll acc [echo, slicesLine num bytes]).1.tryLines acc (lines.map fun l => [l])).1.output acc =
          (echo ++ slicesLine num bytes ++ lines.flatten).take L := by
      constructor
      · refine (outputOn_prefix acc _).sublist.trans ((try_sublist acc _ _).trans ?_)
        rw [hff]
        exact hs.append (List.Sublist.refl _)
      · rintro L rfl
        have := try_limited (lines := lines.map fun l => [l]) c1 (by rw [hh, hff]; exact lines_append hhead (parIterLines_lines h2))
        rwa [hh, hff] at this
    by_cases c2 : ((StdoutOn.empty.printAll acc [echo, slicesLine num bytes]).1.tryLines acc (lines.map fun l => [l])).2 = true
    · refine ⟨_, .ended q.isOk, ⟨slices, [echo, slicesLine num bytes], lines.map fun l => [l], hp, hh, ?_⟩, hout⟩
      rw [if_pos c1]
      refine ⟨rfl, ?_⟩
      rw [if_pos c2, hm]
      exact ⟨q, hq, h2, rfl⟩
    · refine ⟨_, .refused, ⟨slices, [echo, slicesLine num bytes], lines.map fun l => [l], hp, hh, ?_⟩, hout⟩
      rw [if_pos c1]
      refine ⟨rfl, ?_⟩
      rw [if_neg c2, hm]
      exact ⟨parIterLines_some h2, rfl⟩
  · refine ⟨(StdoutOn.empty.printAll acc [echo, slicesLine num bytes]).1.output acc, .refused,
      ⟨slices, [echo, slicesLine num bytes], lines.map fun l => [l], hp, hh, ?_⟩, ?_, ?_⟩
    · rw [if_neg c1]
      exact ⟨rfl, rfl⟩
    · exact (outputOn_prefix acc _).sublist.trans (hs.trans (List.sublist_append_left _ _))
    · rintro L rfl
      have h4 := print_limited L [echo, slicesLine num bytes] (by rw [hh]; exact hhead)
      rw [hh] at h4
      have h5 := h4.2.1 (Bool.eq_false_iff.2 c1)
      rw [h4.1, List.take_append_of_le_length (Nat.le_of_lt h5)]

/-! ## The whole program -/

/-- A run is one of `par_iter`, or one as in `RipTextOn`. -/
theorem ripRunOn_cases {acc : Outlet} {num : Nat} {f : OsFile} {prog : String} {args : List String} :
    (∃ m c x rest b, args = m :: c :: x :: rest ∧ c = cmdName .parIter ∧
      (DltBuffer.mmapFile f = some b ∨ DltBuffer.readFile f = some b) ∧
      (∀ out e, RipRunOn acc num f prog args out e ↔
        ParIterOn acc num b.asSlice (text (String.intercalate " " (prog :: args) ++ "\n")) out e) ∧
      ∀ out ok, RipText num f prog args (out, ok) ↔
        ∃ o, CmdText num b.asSlice .parIter (o, ok) ∧ out = text (String.intercalate " " (prog :: args) ++ "\n") ++ o) ∨
    (∀ out e, RipRunOn acc num f prog args out e ↔ ∃ full, RipTextOn acc num f prog args full out e) := by
  match args with
  | [] => exact .inr fun _ _ => Iff.rfl
  | [_] => exact .inr fun _ _ => Iff.rfl
  | [_, _] => exact .inr fun _ _ => Iff.rfl
  | m :: c :: x :: rest =>
    unfold RipRunOn
    dsimp only
    cases hb : (if m = "mmap" then DltBuffer.mmapFile f else if m = "read" then DltBuffer.readFile f else none) with
    | none => exact .inr fun _ _ => Iff.rfl
    | some b =>
      cases hc : Cmd.ofString c with
      | none => exact .inr fun _ _ => Iff.rfl
      | some k =>
        by_cases hk : k = .parIter
        · subst hk
          refine .inl ⟨m, c, x, rest, b, rfl, (C64_names _ _).1 hc, ?_, fun _ _ => Iff.rfl, fun out ok => ?_⟩
          · split at hb
            · exact .inl hb
            · split at hb
              · exact .inr hb
              · cases hb
          · unfold RipText
            dsimp only
            rw [hb]
            dsimp only
            rw [hc]
            constructor
            · rintro ⟨⟨o, ok'⟩, h1, h2⟩
              injection h2 with h2 h3
              subst h3
              exact ⟨o, h1, h2⟩
            · rintro ⟨o, h1, h2⟩
              exact ⟨(o, ok), h1, by rw [h2]⟩
        · refine .inr fun out e => ?_
          cases k <;> first | exact Iff.rfl | exact absurd rfl hk

theorem echo_lines (prog : String) (args : List String) : Lines (text (String.intercalate " " (prog :: args) ++ "\n")) :=
  lines_text _ _ (by decide +kernel)

theorem ripEndOf_out (out : Bytes) (e : RipEndOn) : (ripEndOf out e).out = out := by
  cases e with
  | refused => rfl
  | ended ok => cases ok <;> rfl

theorem ripEnd_out (out : Bytes) (ok : Bool) : (if ok then (⟨out, some [], 0⟩ : ProcEnd) else .panicked out).out = out := by
  cases ok <;> rfl

/-- **C144**: on any output, also with threads that go on printing: exit code 0 or 101, and 0 only if everything came out as on an output
that takes all. -/
theorem C144_success (acc : Outlet) (num : Nat) (f : OsFile) (argv : List Bytes) (p : ProcEnd)
    (h : RipRunProcOn acc num f argv p) : (p.code = 0 ∨ p.code = 101) ∧ (p.code = 0 → RipProc num f argv p) := by
  rcases envArgs_cases argv with he | ⟨he, -⟩ | ⟨prog, args, rfl, he⟩
  · unfold RipRunProcOn at h; rw [he] at h; subst h
    exact ⟨.inr rfl, fun h => by cases h⟩
  · unfold RipRunProcOn at h; rw [he] at h; subst h
    exact ⟨.inr rfl, fun h => by cases h⟩
  · unfold RipRunProcOn at h; rw [he] at h
    unfold RipProc; rw [he]
    obtain ⟨prog', args', out, e, h1, h2, h3, rfl⟩ := h
    have h4 : ∀ ok, e = .ended ok → RipText num f prog' args' (out, ok) := by
      rintro ok rfl
      rcases ripRunOn_cases (acc := acc) (num := num) (f := f) (prog := prog') (args := args') with ⟨m, c, x, rest, b, -, -, -, h5, h6⟩ | h5
      · obtain ⟨o, h7, h8⟩ := parIterOn_ended (echo_lines _ _) ((h5 _ _).1 h3)
        exact (h6 _ _).2 ⟨o, h7, h8⟩
      · obtain ⟨full, h6⟩ := (h5 _ _).1 h3
        obtain ⟨h7, h8⟩ := (C107_complete_or_panic _ _ _ _ _ _ _ _ h6).2 ok rfl
        rwa [h7]
    cases e with
    | refused => exact ⟨.inr rfl, fun h => by cases h⟩
    | ended ok => cases ok with
      | false => exact ⟨.inr rfl, fun h => by cases h⟩
      | true => exact ⟨.inl rfl, fun _ => ⟨prog', args', out, true, h1, h2, h4 true rfl, rfl⟩⟩

/-- **C144**: on an output with room for `room` bytes: the first `room` bytes of the text of a run come out, and the exit code is 0 exactly if
the run is otherwise successful and its text has room. -/
theorem C144_limited (room num : Nat) (f : OsFile) (hF : ∀ b, DltBuffer.mmapFile f = some b ∨ DltBuffer.readFile f = some b → Fits b.asSlice)
    (argv : List Bytes) (p : ProcEnd) (h : RipRunProcOn (.upTo room) num f argv p) :
    ∃ q, RipProc num f argv q ∧ p.out = q.out.take room ∧ (p.code = 0 ↔ q.code = 0 ∧ q.out.length ≤ room) := by
  rcases envArgs_cases argv with he | ⟨he, -⟩ | ⟨prog, args, rfl, he⟩
  · unfold RipRunProcOn at h; rw [he] at h; subst h
    unfold RipProc; rw [he]
    exact ⟨_, rfl, by simp [ProcEnd.panicked], by simp [ProcEnd.panicked]⟩
  · unfold RipRunProcOn at h; rw [he] at h; subst h
    unfold RipProc; rw [he]
    exact ⟨_, rfl, by simp [ProcEnd.panicked], by simp [ProcEnd.panicked]⟩
  · unfold RipRunProcOn at h; rw [he] at h
    obtain ⟨prog', args', out, e, h1, h2, h3, rfl⟩ := h
    rcases ripRunOn_cases (acc := .upTo room) (num := num) (f := f) (prog := prog') (args := args') with
      ⟨m, c, x, rest, b, -, -, hb, h5, h6⟩ | h5
    · obtain ⟨o, ok, h7, h8, h9⟩ := parIterOn_limited (hF b hb) (echo_lines _ _) ((h5 _ _).1 h3)
      refine ⟨if ok then ⟨text (String.intercalate " " (prog' :: args') ++ "\n") ++ o, some [], 0⟩
          else .panicked (text (String.intercalate " " (prog' :: args') ++ "\n") ++ o), ?_, ?_⟩
      · unfold RipProc; rw [he]
        exact ⟨prog', args', _, ok, h1, h2, (h6 _ _).2 ⟨o, h7, rfl⟩, rfl⟩
      · rw [ripEndOf_out, ripEnd_out]
        refine ⟨h8, ?_⟩
        generalize text (String.intercalate " " (prog' :: args') ++ "\n") ++ o = full at *
        subst h9
        split
        · rename_i hlt
          exact ⟨fun h => (by cases h), fun h => by omega⟩
        · rename_i hlt
          cases ok with
          | true => exact ⟨fun _ => ⟨rfl, by omega⟩, fun _ => rfl⟩
          | false => exact ⟨fun h => (by cases h), fun h => (by cases h.1)⟩
    · obtain ⟨full, h6⟩ := (h5 _ _).1 h3
      refine C125_rip_limited room num f _ _ ?_
      unfold RipProcOn; rw [he]
      exact ⟨prog', args', full, out, e, h1, h2, h6, rfl⟩

/-- **C144**: on any output, every byte that comes out is one of the text of a run, in its order there: nothing is made up and nothing comes
twice. -/
theorem C144_bytes (acc : Outlet) (num : Nat) (f : OsFile) (hF : ∀ b, DltBuffer.mmapFile f = some b ∨ DltBuffer.readFile f = some b → Fits b.asSlice)
    (argv : List Bytes) (p : ProcEnd) (h : RipRunProcOn acc num f argv p) :
    ∃ q, RipProc num f argv q ∧ p.out.Sublist q.out := by
  rcases envArgs_cases argv with he | ⟨he, -⟩ | ⟨prog, args, rfl, he⟩
  · unfold RipRunProcOn at h; rw [he] at h; subst h
    unfold RipProc; rw [he]
    exact ⟨_, rfl, List.Sublist.refl _⟩
  · unfold RipRunProcOn at h; rw [he] at h; subst h
    unfold RipProc; rw [he]
    exact ⟨_, rfl, List.Sublist.refl _⟩
  · unfold RipRunProcOn at h; rw [he] at h
    obtain ⟨prog', args', out, e, h1, h2, h3, rfl⟩ := h
    rcases ripRunOn_cases (acc := acc) (num := num) (f := f) (prog := prog') (args := args') with ⟨m, c, x, rest, b, -, -, hb, h5, h6⟩ | h5
    · obtain ⟨o, ok, h7, h8⟩ := parIterOn_part (hF b hb) ((h5 _ _).1 h3)
      refine ⟨if ok then ⟨text (String.intercalate " " (prog' :: args') ++ "\n") ++ o, some [], 0⟩
          else .panicked (text (String.intercalate " " (prog' :: args') ++ "\n") ++ o), ?_, ?_⟩
      · unfold RipProc; rw [he]
        exact ⟨prog', args', _, ok, h1, h2, (h6 _ _).2 ⟨o, h7, rfl⟩, rfl⟩
      · rw [ripEndOf_out, ripEnd_out]
        exact h8
    · obtain ⟨full, h6⟩ := (h5 _ _).1 h3
      obtain ⟨q, hq, h7⟩ := C125_rip_front acc num f (prog :: args) (ripEndOf out e) (by
        unfold RipProcOn; rw [he]
        exact ⟨prog', args', full, out, e, h1, h2, h6, rfl⟩)
      exact ⟨q, hq, h7.sublist⟩

/-- **C144**: every run has a counterpart on every output, and with room for `room` bytes its first `room` bytes can come out. -/
theorem C144_exists (acc : Outlet) (num : Nat) (f : OsFile) (argv : List Bytes) (q : ProcEnd) (h : RipProc num f argv q) :
    ∃ p, RipRunProcOn acc num f argv p ∧ p.out.Sublist q.out ∧ ∀ room, acc = .upTo room → p.out = q.out.take room := by
  rcases envArgs_cases argv with he | ⟨he, -⟩ | ⟨prog, args, rfl, he⟩
  · unfold RipProc at h; rw [he] at h; subst h
    unfold RipRunProcOn; rw [he]
    exact ⟨_, rfl, List.Sublist.refl _, fun _ _ => by simp [ProcEnd.panicked]⟩
  · unfold RipProc at h; rw [he] at h; subst h
    unfold RipRunProcOn; rw [he]
    exact ⟨_, rfl, List.Sublist.refl _, fun _ _ => by simp [ProcEnd.panicked]⟩
  · unfold RipProc at h; rw [he] at h
    unfold RipRunProcOn; rw [he]
    obtain ⟨prog', args', out, ok, h1, h2, h3, rfl⟩ := h
    rw [ripEnd_out]
    rcases ripRunOn_cases (acc := acc) (num := num) (f := f) (prog := prog') (args := args') with ⟨m, c, x, rest, b, -, -, -, h5, h6⟩ | h5
    · obtain ⟨o, h7, rfl⟩ := (h6 _ _).1 h3
      obtain ⟨out', e, h8, h9, h10⟩ := parIterOn_exists acc (echo_lines prog' args') h7
      refine ⟨_, ⟨prog', args', out', e, h1, h2, (h5 _ _).2 h8, rfl⟩, ?_⟩
      rw [ripEndOf_out]
      exact ⟨h9, h10⟩
    · obtain ⟨out', e, h6⟩ := ripTextOn_exists acc h3 [out] (by simp)
      refine ⟨_, ⟨prog', args', out', e, h1, h2, (h5 _ _).2 ⟨_, h6⟩, rfl⟩, ?_⟩
      rw [ripEndOf_out]
      refine ⟨(C107_complete_or_panic _ _ _ _ _ _ _ _ h6).1.sublist, ?_⟩
      rintro L rfl
      exact (C107_limited _ _ _ _ _ _ _ _ h6).1

/-- **C144**: for all other commands, nothing changes: they print from one thread. -/
theorem C144_other_commands (acc : Outlet) (num : Nat) (f : OsFile) (argv : List Bytes) (hc : argv[2]? ≠ some (utf8 "par_iter")) (p : ProcEnd) :
    RipRunProcOn acc num f argv p ↔ RipProcOn acc num f argv p := by
  rcases envArgs_cases argv with he | ⟨he, -⟩ | ⟨prog, args, rfl, he⟩
  · unfold RipRunProcOn RipProcOn; rw [he]
  · unfold RipRunProcOn RipProcOn; rw [he]
  · unfold RipRunProcOn RipProcOn; rw [he]
    dsimp only
    have key : ∀ (prog' : String) (args' : List String), args'.map text = args → ∀ out e,
        RipRunOn acc num f prog' args' out e ↔ ∃ full, RipTextOn acc num f prog' args' full out e := by
      intro prog' args' h
      rcases ripRunOn_cases (acc := acc) (num := num) (f := f) (prog := prog') (args := args') with ⟨m, c, x, rest, b, rfl, rfl, -⟩ | h5
      · subst h
        exact absurd rfl hc
      · exact h5
    constructor
    · rintro ⟨prog', args', out, e, h1, h2, h3, h4⟩
      obtain ⟨full, h5⟩ := (key prog' args' h2 out e).1 h3
      exact ⟨prog', args', full, out, e, h1, h2, h5, h4⟩
    · rintro ⟨prog', args', full, out, e, h1, h2, h3, h4⟩
      exact ⟨prog', args', out, e, h1, h2, (key prog' args' h2 out e).2 ⟨full, h3⟩, h4⟩

/-! ## An output that recovers -/

/-- Takes everything, but only one byte in the third write, and refuses the fourth. -/
def flaky : Outlet := fun calls _ len => if calls = 2 then some 1 else if calls = 3 then none else some len

/-- The file of `C90_order_varies`. -/
def tickFile : OsFile := ⟨true, [], packed fourTicks, true⟩

def parIterArgs : List String := ["ripdlt", "mmap", "par_iter", "x.dlt"]

/-- Two threads on the output `flaky`. -/
theorem flaky_run {num : Nat} {f : OsFile} {prog m x : String} {rest : List String} {b : DltBuffer}
    (hopen : Opened f m b)
    {s t l k : Bytes} (hp : partitionFrom dltStorage b.asSlice num = .ok [s, t]) (hs : iterLine s = some l) (ht : iterLine t = some k)
    (echo : Bytes) (hecho : text (String.intercalate " " (prog :: m :: "par_iter" :: x :: rest) ++ "\n") = echo) (out : Bytes)
    (h1 : (StdoutOn.empty.printAll flaky [echo, utf8 (startLine num 2)]).2 = true)
    (h2 : ((StdoutOn.empty.printAll flaky [echo, utf8 (startLine num 2)]).1.tryLines flaky [[l], [k]]).2 = false)
    (h3 : ((StdoutOn.empty.printAll flaky [echo, utf8 (startLine num 2)]).1.tryLines flaky [[l], [k]]).1.output flaky = out) :
    RipRunProcOn flaky num f ((prog :: m :: "par_iter" :: x :: rest).map utf8) (.panicked out) := by
  have hu : ∀ a ∈ (prog :: m :: "par_iter" :: x :: rest).map utf8, Utf8 a := fun a ha => by
    obtain ⟨s, -, rfl⟩ := List.mem_map.1 ha
    exact (utf8_iff_string _).2 ⟨s, rfl⟩
  have hb : (if m = "mmap" then DltBuffer.mmapFile f else if m = "read" then DltBuffer.readFile f else none) = some b := by
    rcases hopen with ⟨rfl, h⟩ | ⟨rfl, h⟩
    · rw [if_pos rfl]; exact h
    · rw [if_neg (by decide), if_pos rfl]; exact h
  unfold RipRunProcOn
  rw [envArgs_ok hu, List.map_cons]
  refine ⟨prog, m :: "par_iter" :: x :: rest, out, .refused, rfl, rfl, ?_, rfl⟩
  unfold RipRunOn
  dsimp only
  rw [hb, show Cmd.ofString "par_iter" = some .parIter from (C64_names _ _).2 rfl]
  dsimp only
  rw [hecho]
  refine ⟨[s, t], [echo, utf8 (startLine num 2)], [[l], [k]], hp, by rw [slicesLine_eq hp]; simp, ?_⟩
  rw [if_pos h1]
  refine ⟨h3.symm, ?_⟩
  rw [if_neg (by rw [h2]; decide)]
  refine ⟨⟨[l, k], ?_, by simp⟩, rfl⟩
  simp [hs, ht]

/-- `flaky_run` beside the runs in which everything is taken. -/
theorem flaky_gap {num : Nat} {f : OsFile} {prog m x : String} {b : DltBuffer} (hopen : Opened f m b)
    {s t l k : Bytes} (hp : partitionFrom dltStorage b.asSlice num = .ok [s, t]) (hs : iterLine s = some l) (ht : iterLine t = some k)
    (echo : Bytes) (hecho : text (String.intercalate " " [prog, m, "par_iter", x] ++ "\n") = echo) (out : Bytes)
    (h1 : (StdoutOn.empty.printAll flaky [echo, utf8 (startLine num 2)]).2 = true)
    (h2 : ((StdoutOn.empty.printAll flaky [echo, utf8 (startLine num 2)]).1.tryLines flaky [[l], [k]]).2 = false)
    (h3 : ((StdoutOn.empty.printAll flaky [echo, utf8 (startLine num 2)]).1.tryLines flaky [[l], [k]]).1.output flaky = out)
    (hno : ∀ o ok, CmdText num b.asSlice .parIter (o, ok) → ok = true ∧ ¬ out <+: echo ++ o) :
    ∃ p, RipRunProcOn flaky num f ([prog, m, "par_iter", x].map utf8) p ∧ p.code = 101 ∧ p.out = out ∧
      ∀ q, RipProc num f ([prog, m, "par_iter", x].map utf8) q → q.code = 0 ∧ ¬ p.out <+: q.out := by
  refine ⟨.panicked out, flaky_run (rest := []) hopen hp hs ht echo hecho out h1 h2 h3, rfl, rfl, fun q hq => ?_⟩
  obtain ⟨full, ok, h4, rfl⟩ := (C122_rip_runs num f prog [m, "par_iter", x] q).1 hq
  obtain ⟨o, h5, rfl⟩ := (C88_runs num f prog m x [] .parIter b hopen full ok).1 h4
  obtain ⟨rfl, h6⟩ := hno o ok h5
  refine ⟨rfl, ?_⟩
  rw [← hecho] at h6
  exact h6

theorem gap_facts (echo full : Bytes) (hecho : utf8 "ripdlt mmap par_iter x.dlt\n" = echo)
    (hfull : utf8 "ripdlt mmap par_iter x.dlt\navailable parallelism = 2, slices = 2\n10 lifecycles >= 1800s\n" = full) :
    text (String.intercalate " " ["ripdlt", "mmap", "par_iter", "x.dlt"] ++ "\n") = echo ∧
    (StdoutOn.empty.printAll flaky [echo, utf8 (startLine 2 2)]).2 = true ∧
    ((StdoutOn.empty.printAll flaky [echo, utf8 (startLine 2 2)]).1.tryLines flaky
      [[utf8 "1 lifecycles >= 1800s\n"], [utf8 "0 lifecycles >= 1800s\n"]]).2 = false ∧
    ((StdoutOn.empty.printAll flaky [echo, utf8 (startLine 2 2)]).1.tryLines flaky
      [[utf8 "1 lifecycles >= 1800s\n"], [utf8 "0 lifecycles >= 1800s\n"]]).1.output flaky = full := by
  subst hecho hfull
  refine ⟨?_, ?_, ?_, ?_⟩ <;> decide +kernel

theorem gap_no (echo full : Bytes) (hecho : utf8 "ripdlt mmap par_iter x.dlt\n" = echo)
    (hfull : utf8 "ripdlt mmap par_iter x.dlt\navailable parallelism = 2, slices = 2\n10 lifecycles >= 1800s\n" = full) (o : Bytes)
    (h : o = utf8 "available parallelism = 2, slices = 2\n1 lifecycles >= 1800s\n0 lifecycles >= 1800s\n" ∨
      o = utf8 "available parallelism = 2, slices = 2\n0 lifecycles >= 1800s\n1 lifecycles >= 1800s\n") :
    ¬ full <+: echo ++ o := by
  subst hecho hfull
  rcases h with rfl | rfl
  · decide +kernel
  · decide +kernel

theorem tick_lines : partitionFrom dltStorage (packed fourTicks) 2 =
      .ok [packed [tickMsg 0 0 0 0, tickMsg 0x01 0x12 0xA8 0x80], packed [tickMsg 0 0 0 0, tickMsg 0 0 0 0]] ∧
    iterLine (packed [tickMsg 0 0 0 0, tickMsg 0x01 0x12 0xA8 0x80]) = some (utf8 "1 lifecycles >= 1800s\n") ∧
    iterLine (packed [tickMsg 0 0 0 0, tickMsg 0 0 0 0]) = some (utf8 "0 lifecycles >= 1800s\n") := by
  obtain ⟨hF, hp⟩ := pair_slices (four_of (P := fun e => WF e ∧ (encode e).length = 24)
    (w := tickMsg 0 0 0 0) (x := tickMsg 0x01 0x12 0xA8 0x80) (y := tickMsg 0 0 0 0) (z := tickMsg 0 0 0 0) ticks_wf ticks_wf ticks_wf ticks_wf)
  have l1 : lifecycleIter (packed [tickMsg 0 0 0 0, tickMsg 0x01 0x12 0xA8 0x80]) = some (.ok 1) := by
    rw [iter_of_messages (pair_fits ticks_wf.2 ticks_wf.2) (pair_messages ticks_wf.1 ticks_wf.1) (by decide)]
    decide
  have l2 : lifecycleIter (packed [tickMsg 0 0 0 0, tickMsg 0 0 0 0]) = some (.ok 0) := by
    rw [iter_of_messages (pair_fits ticks_wf.2 ticks_wf.2) (pair_messages ticks_wf.1 ticks_wf.1) (by decide)]
    decide
  refine ⟨hp, ?_, ?_⟩
  · unfold iterLine; rw [l1]; decide +kernel
  · unfold iterLine; rw [l2]; decide +kernel

theorem tickFile_opened : Opened tickFile "mmap" (.mmap (packed fourTicks)) :=
  .inl ⟨rfl, (C60_mmap_file _ _).2 ⟨rfl, rfl, by decide, rfl⟩⟩

/-- A run of `par_iter`, from the text of the command. -/
theorem parIter_length {num : Nat} {f : OsFile} {prog m x : String} {b : DltBuffer} (hopen : Opened f m b) (a n : Nat)
    (ha : (text (String.intercalate " " [prog, m, "par_iter", x] ++ "\n")).length = a)
    (h : ∀ o ok, CmdText num b.asSlice .parIter (o, ok) → ok = true ∧ o.length = n) (q : ProcEnd)
    (hq : RipProc num f ([prog, m, "par_iter", x].map utf8) q) : q.code = 0 ∧ q.out.length = a + n := by
  obtain ⟨full, ok, h4, rfl⟩ := (C122_rip_runs num f prog [m, "par_iter", x] q).1 hq
  obtain ⟨o, h5, rfl⟩ := (C88_runs num f prog m x [] .parIter b hopen full ok).1 h4
  obtain ⟨rfl, h6⟩ := h o ok h5
  refine ⟨rfl, ?_⟩
  have ha' : (echoLine prog (m :: cmdName .parIter :: x :: [])).length = a := ha
  rw [List.length_append, ha', h6]

theorem parIter_a_run {num : Nat} {f : OsFile} {prog m x : String} {b : DltBuffer} (hopen : Opened f m b) {o : Bytes} {ok : Bool}
    (h : CmdText num b.asSlice .parIter (o, ok)) : ∃ q, RipProc num f ([prog, m, "par_iter", x].map utf8) q :=
  ⟨_, (C122_rip_runs num f prog [m, "par_iter", x] _).2
    ⟨_, ok, (C88_runs num f prog m x [] .parIter b hopen _ ok).2 ⟨o, h, rfl⟩, rfl⟩⟩

theorem tick_length (o : Bytes) (ok : Bool) (h : CmdText 2 (packed fourTicks) .parIter (o, ok)) : ok = true ∧ o.length = 82 := by
  obtain ⟨rfl, h1⟩ := (C90_order_varies o ok).2.1 h
  refine ⟨rfl, ?_⟩
  rcases h1 with rfl | rfl
  · decide +kernel
  · decide +kernel

theorem echo_length : (text (String.intercalate " " ["ripdlt", "mmap", "par_iter", "x.dlt"] ++ "\n")).length = 27 := by decide +kernel

theorem tickFile_fits (b : DltBuffer) (hb : DltBuffer.mmapFile tickFile = some b ∨ DltBuffer.readFile tickFile = some b) : Fits b.asSlice := by
  rcases hb with hb | hb
  · rw [show DltBuffer.mmapFile tickFile = some (.mmap (packed fourTicks)) from (C60_mmap_file _ _).2 ⟨rfl, rfl, by decide, rfl⟩] at hb
    cases hb
    exact (C90_order_varies [] true).1
  · have h : some (DltBuffer.read []) = some b := hb
    cases h
    show Fits []
    decide +kernel

theorem tick_a_run : ∃ o ok, CmdText 2 (packed fourTicks) .parIter (o, ok) := ⟨_, true, (C90_order_varies _ true).2.2 ⟨rfl, .inl rfl⟩⟩

theorem parIter_room {room num : Nat} {f : OsFile} {prog m x : String} {b : DltBuffer} (hopen : Opened f m b)
    (hF : ∀ b, DltBuffer.mmapFile f = some b ∨ DltBuffer.readFile f = some b → Fits b.asSlice) (a n : Nat)
    (ha : (text (String.intercalate " " [prog, m, "par_iter", x] ++ "\n")).length = a)
    (h : ∀ o ok, CmdText num b.asSlice .parIter (o, ok) → ok = true ∧ o.length = n) (hex : ∃ o ok, CmdText num b.asSlice .parIter (o, ok)) :
    (∃ p, RipRunProcOn (.upTo room) num f ([prog, m, "par_iter", x].map utf8) p) ∧
    ∀ p, RipRunProcOn (.upTo room) num f ([prog, m, "par_iter", x].map utf8) p → (p.code = 0 ↔ a + n ≤ room) := by
  constructor
  · obtain ⟨o, ok, h1⟩ := hex
    obtain ⟨q, hq⟩ := parIter_a_run (prog := prog) (x := x) hopen h1
    obtain ⟨p, hp, -⟩ := C144_exists (.upTo room) num f _ q hq
    exact ⟨p, hp⟩
  · intro p hp
    obtain ⟨q, hq, -, h2⟩ := C144_limited room num f hF _ p hp
    obtain ⟨h3, h4⟩ := parIter_length hopen a n ha h q hq
    rw [h2, h3, h4]
    omega

/-- C144: the hypotheses hold of the file of the previous example; with room for `room` bytes there are runs, and their exit code is 0 exactly if
`room` is at least 109. -/
example (room : Nat) : (∃ p, RipRunProcOn (.upTo room) 2 tickFile (parIterArgs.map utf8) p) ∧
    ∀ p, RipRunProcOn (.upTo room) 2 tickFile (parIterArgs.map utf8) p → (p.code = 0 ↔ 109 ≤ room) :=
  parIter_room (prog := "ripdlt") (x := "x.dlt") tickFile_opened tickFile_fits 27 82 echo_length tick_length tick_a_run

/-- **C144** what comes out need not be a front of the text of a run: on an output that refuses once and then recovers, a line of one thread
can follow a part of the line of another. Two threads that count 1 and 0 lifecycles can print `10 lifecycles`; the exit code is 101. -/
theorem C144_gap : ∃ p, RipRunProcOn flaky 2 tickFile (parIterArgs.map utf8) p ∧ p.code = 101 ∧
    p.out = utf8 "ripdlt mmap par_iter x.dlt\navailable parallelism = 2, slices = 2\n10 lifecycles >= 1800s\n" ∧
    ∀ q, RipProc 2 tickFile (parIterArgs.map utf8) q → q.code = 0 ∧ ¬ p.out <+: q.out := by
  obtain ⟨full, hfull⟩ : ∃ full, utf8 "ripdlt mmap par_iter x.dlt\navailable parallelism = 2, slices = 2\n10 lifecycles >= 1800s\n" = full :=
    ⟨_, rfl⟩
  obtain ⟨echo, hecho⟩ : ∃ echo, utf8 "ripdlt mmap par_iter x.dlt\n" = echo := ⟨_, rfl⟩
  rw [hfull]
  obtain ⟨c0, c1, c2, c3⟩ := gap_facts echo full hecho hfull
  obtain ⟨hp, i1, i2⟩ := tick_lines
  exact flaky_gap (prog := "ripdlt") (m := "mmap") (x := "x.dlt") tickFile_opened hp i1 i2 echo c0 full c1 c2 c3
    fun o ok h => ⟨((C90_order_varies o ok).2.1 h).1, gap_no echo full hecho hfull o ((C90_order_varies o ok).2.1 h).2⟩

end Verif
