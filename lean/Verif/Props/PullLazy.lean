import Verif.Model.Pull
import Verif.Lemmas.Pull
import Verif.Props.RevAgain
import Verif.Props.Generator

/-! # C102, C103: how far `groupby` pulls its source, and sources that start again after `None` -/

set_option linter.unusedSimpArgs false

namespace Verif

open Spec

/-- The source yields `xs` in its next `xs.length` calls, and is then in state `s'`. Nothing is said about later calls. -/
inductive Yields {α : Type} (it : Pull α) : it.σ → List α → it.σ → Prop where
  | done {s : it.σ} : Yields it s [] s
  | step {s s' s'' : it.σ} {x : α} {xs : List α} (h : it.next s = some (.ok (s', some x))) (hs : Yields it s' xs s'') :
      Yields it s (x :: xs) s''

section
variable {α : Type} {it : Pull α} {f : α → α → Bool}

theorem pullGroup_lazy {b : α} (xs : List α) {s s' : it.σ} (a e : α)
    (hr : ∀ i p q, (e :: xs)[i]? = some p → (e :: xs)[i + 1]? = some q → f p q = true)
    (hl : ∀ z, (e :: xs).getLast? = some z → f z b = false) (hy : Yields it s (xs ++ [b]) s') :
    ∃ z, (e :: xs).getLast? = some z ∧
      fromAdaptNext (groupByStage (pure2 f)) it (.lazy a e) s = some (.ok ((.consumed b, s'), some (a, z))) := by
  induction xs generalizing s e with
  | nil =>
    refine ⟨e, rfl, ?_⟩
    cases hy with
    | step h hs =>
      cases hs with
      | done =>
        rw [fromAdaptNext]
        simp only [h, groupByAdapt, pure2, hl e rfl]
  | cons x xs ih =>
    cases hy with
    | step h hs =>
      obtain ⟨z, h1, h2⟩ := ih x (fun i p q hp hq => hr (i + 1) p q (by simpa using hp) (by simpa using hq))
        (fun z hz => hl z (by rw [List.getLast?_cons_cons]; exact hz)) hs
      refine ⟨z, by rw [List.getLast?_cons_cons]; exact h1, ?_⟩
      rw [fromAdaptNext]
      simp only [h, groupByAdapt, pure2, hr 0 e x rfl rfl]
      exact h2

theorem pullGroup_consumed {b : α} (xs : List α) {s s' : it.σ} (e : α) (he : f e e = true)
    (hr : ∀ i p q, (e :: xs)[i]? = some p → (e :: xs)[i + 1]? = some q → f p q = true)
    (hl : ∀ z, (e :: xs).getLast? = some z → f z b = false) (hy : Yields it s (xs ++ [b]) s') :
    ∃ z, (e :: xs).getLast? = some z ∧
      fromAdaptNext (groupByStage (pure2 f)) it (.consumed e) s = some (.ok ((.consumed b, s'), some (e, z))) := by
  cases xs with
  | nil =>
    refine ⟨e, rfl, ?_⟩
    cases hy with
    | step h hs =>
      cases hs with
      | done =>
        rw [fromAdaptNext]
        simp only [h, groupByAdapt, pure2, hl e rfl, he]
  | cons x xs =>
    cases hy with
    | step h hs =>
      obtain ⟨z, h1, h2⟩ := pullGroup_lazy xs e x (fun i p q hp hq => hr (i + 1) p q (by simpa using hp) (by simpa using hq))
        (fun z hz => hl z (by rw [List.getLast?_cons_cons]; exact hz)) hs
      refine ⟨z, by rw [List.getLast?_cons_cons]; exact h1, ?_⟩
      rw [fromAdaptNext]
      simp only [h, groupByAdapt, pure2, hr 0 e x rfl rfl]
      exact h2

/-- **C102**: a call of `next` on a fresh pull-based `groupby` takes from its source exactly the first run and the one element
after it (which shows that the run has ended), and no more; it does not matter whether the source ever ends. -/
theorem C102_first_group (e b : α) (xs : List α) (s s' : it.σ) (he : f e e = true)
    (hr : ∀ i p q, (e :: xs)[i]? = some p → (e :: xs)[i + 1]? = some q → f p q = true)
    (hl : ∀ z, (e :: xs).getLast? = some z → f z b = false) (hy : Yields it s (e :: xs ++ [b]) s') :
    ∃ z, (e :: xs).getLast? = some z ∧
      (pullGroupBy (pure2 f) it).next (.empty, s) = some (.ok ((.consumed b, s'), some (e, z))) := by
  cases hy with
  | step h hs =>
    obtain ⟨z, h1, h2⟩ := pullGroup_consumed xs e he hr hl hs
    refine ⟨z, h1, ?_⟩
    change fromAdaptNext _ _ _ _ = _
    rw [fromAdaptNext]
    simp only [h, groupByAdapt]
    exact h2

/-- **C102**: each further call continues with that one element, and again takes exactly the rest of its run and one more. -/
theorem C102_next_group (e b : α) (xs : List α) (s s' : it.σ) (he : f e e = true)
    (hr : ∀ i p q, (e :: xs)[i]? = some p → (e :: xs)[i + 1]? = some q → f p q = true)
    (hl : ∀ z, (e :: xs).getLast? = some z → f z b = false) (hy : Yields it s (xs ++ [b]) s') :
    ∃ z, (e :: xs).getLast? = some z ∧
      (pullGroupBy (pure2 f) it).next (.consumed e, s) = some (.ok ((.consumed b, s'), some (e, z))) :=
  pullGroup_consumed xs e he hr hl hy

/-- **C102**: if the source goes on for ever in one run, the call does not return. -/
theorem C102_endless_run (last : it.σ → α) (hend : ∀ s, ∃ s' x, it.next s = some (.ok (s', some x)) ∧ f (last s) x = true ∧ last s' = x)
    (a : α) (s : it.σ) : (pullGroupBy (pure2 f) it).next (.lazy a (last s), s) = none := by
  have h : ∀ (sa : GroupByState α) (si : it.σ) q, fromAdaptNext (groupByStage (pure2 f)) it sa si = some q →
      (∃ a, sa = .lazy a (last si)) → False := by
    apply fromAdaptNext.partial_correctness (groupByStage (pure2 f)) it
    rintro F ih sa si q h ⟨a, rfl⟩
    obtain ⟨s', x, h1, h2, h3⟩ := hend si
    simp only [h1, groupByAdapt, pure2, h2] at h
    exact ih _ _ _ h ⟨a, by rw [h3]⟩
  cases hq : (pullGroupBy (pure2 f) it).next (.lazy a (last s), s) with
  | none => rfl
  | some q => exact (h _ _ _ hq ⟨a, rfl⟩).elim

end

/-- The source that counts up for ever. -/
@[reducible] def naturals : Pull Nat where
  σ := Nat
  next n := some (.ok (n + 1, some n))

/-- The case: grouping the natural numbers by tens; the first call takes eleven numbers. -/
example : ∃ z, (List.range 10).getLast? = some z ∧
    (pullGroupBy (pure2 fun a b => a / 10 == b / 10) naturals).next (.empty, 0) = some (.ok ((.consumed 10, 11), some (0, z))) := by
  refine C102_first_group (it := naturals) (f := fun a b => a / 10 == b / 10) 0 10 [1, 2, 3, 4, 5, 6, 7, 8, 9] 0 11 rfl ?_ ?_ ?_
  · intro i p q hp hq
    have : i < 9 := by
      have := (List.getElem?_eq_some_iff.1 hq).1
      simp at this; omega
    have h : ∀ i < 9, ∀ p q, [0, 1, 2, 3, 4, 5, 6, 7, 8, 9][i]? = some p → [0, 1, 2, 3, 4, 5, 6, 7, 8, 9][i + 1]? = some q →
        (p / 10 == q / 10) = true := by
      intro i hi p q
      match i, hi with
      | 0, _ | 1, _ | 2, _ | 3, _ | 4, _ | 5, _ | 6, _ | 7, _ | 8, _ =>
        intro hp hq
        simp at hp hq
        subst hp hq
        rfl
    exact h i this p q hp hq
  · intro z hz
    simp at hz
    subst hz
    rfl
  · repeat' first | exact Yields.done | refine Yields.step (s' := _) rfl ?_

/-! ## A source that starts again -/

/-- **C103 (partial)** over a source that yields `xs` and then `None` for ever, `groupby` yields first and last element of
every maximal run, in order, the last group included, and then `None` for ever. Missing: sources that start again after
`None`, for which the claim is false (`C103_rev_groupby_never_ends`). -/
theorem C103_ends_partial {α : Type} (f : α → α → Bool) (hf : ∀ a, f a a = true) (it : Pull α) (s : it.σ) (xs : List α)
    (hit : ∀ n, it.calls n s = some (.ok (streamOf xs n))) :
    ∃ runs, MaximalRuns (fun a b => f a b = true) xs runs ∧
      ∀ n, (pullGroupBy (fun a b => .ok (f a b)) it).calls n (.empty, s) = some (.ok (streamOf (runs.filterMap ends) n)) := by
  obtain ⟨runs, h1, h2, -⟩ := C39_groupby_maximal_runs_partial Chain.nil f xs xs (C37_nil_chain xs) fun y _ => hf y
  exact ⟨runs, h1, C44_pull_groupby_eq_push _ it s xs _ hit h2⟩

/-- The hypotheses are met: a list; the last group is returned before `None`. -/
example : ∃ runs, MaximalRuns (fun a b : Nat => decide (a ≤ b) = true) [1, 2, 0] runs ∧
    ∀ n, (pullGroupBy (fun a b : Nat => .ok (decide (a ≤ b))) (listPull Nat)).calls n (.empty, [1, 2, 0]) =
      some (.ok (streamOf (runs.filterMap ends) n)) :=
  C103_ends_partial _ (by simp) _ _ _ (listPull_streams [1, 2, 0])

/-- **C103**: `groupby` forgets that its source has ended: the last group is returned when the source says `None`, and the
next call asks the source again; if it then has an element, the answer is not `None`. -/
theorem C103_asks_again {α : Type} {it : Pull α} {f : α → α → Bool} (e x b : α) (s s1 s2 s3 : it.σ) (he : f e e = true)
    (hx : f x x = true) (hxb : f x b = false) (h1 : it.next s = some (.ok (s1, none)))
    (h2 : it.next s1 = some (.ok (s2, some x))) (h3 : it.next s2 = some (.ok (s3, some b)) ∨ it.next s2 = some (.ok (s3, none))) :
    ∃ t, (pullGroupBy (pure2 f) it).next (.consumed e, s) = some (.ok ((.empty, s1), some (e, e))) ∧
      (pullGroupBy (pure2 f) it).next (.empty, s1) = some (.ok ((t, s3), some (x, x))) := by
  have hfin : ∀ q, f q q = true → fromAdaptFin (groupByStage (pure2 f)) (.consumed q) = some (.ok (.empty, some (q, q))) := by
    intro q hq
    rw [fromAdaptFin]
    simp only [groupByFin, pure2, hq]
  have ha : (pullGroupBy (pure2 f) it).next (.consumed e, s) = some (.ok ((.empty, s1), some (e, e))) := by
    change fromAdaptNext _ _ _ _ = _
    rw [fromAdaptNext]
    simp only [h1, hfin e he]
  rcases h3 with h3 | h3
  · refine ⟨.consumed b, ha, ?_⟩
    change fromAdaptNext _ _ _ _ = _
    rw [fromAdaptNext]
    simp only [h2, groupByAdapt]
    rw [fromAdaptNext]
    simp only [h3, groupByAdapt, pure2, hxb, hx]
  · refine ⟨.empty, ha, ?_⟩
    change fromAdaptNext _ _ _ _ = _
    rw [fromAdaptNext]
    simp only [h2, groupByAdapt]
    rw [fromAdaptNext]
    simp only [h3, hfin x hx]

/-- A backward search over a file, as an iterator. -/
@[reducible] def pullRev (bytes : Bytes) : Pull (Nat × StorageEntry) := pullOf (revNext dltStorage bytes)

section
variable {bytes : Bytes} {f : Nat × StorageEntry → Nat × StorageEntry → Bool}

theorem revNext_max (hF : Fits bytes) (hmsg : ∃ i e, MsgAt bytes i e) :
    ∃ i e, revNext dltStorage bytes usizeMax = .ok (some (i, e), i) ∧ i ≤ bytes.length := by
  have h0 : revNext dltStorage bytes 0 = .ok (none, usizeMax) := by
    rcases revNext_spec dlt_lawful.toSearches hF 0 (Nat.zero_le _) with ⟨h, _⟩ | ⟨i, v, _, h, _⟩
    · exact h
    · have : dltStorage.marker.length = 4 := rfl
      omega
  rcases C21_after_none_partial bytes hF 0 usizeMax (Nat.zero_le _) h0 with ⟨_, h⟩ | ⟨i, e, h, hm, _⟩
  · obtain ⟨i, e, hm⟩ := hmsg
    exact absurd hm (h i e)
  · exact ⟨i, e, h, by have := hm.bounds; omega⟩

/-- In these states the next call returns a group. -/
def RevGood (bytes : Bytes) (st : GroupByState (Nat × StorageEntry)) (off : Nat) : Prop :=
  (off ≤ bytes.length ∧ (st = .empty → ∃ x off', revNext dltStorage bytes off = .ok (some x, off'))) ∨ off = usizeMax

theorem revGroup_low (hF : Fits bytes) (hrefl : ∀ x, f x x = true) (off : Nat) (hoff : off ≤ bytes.length)
    (st : GroupByState (Nat × StorageEntry)) (hst : st = .empty → ∃ x off', revNext dltStorage bytes off = .ok (some x, off')) :
    ∃ st' off' g, fromAdaptNext (groupByStage (pure2 f)) (pullRev bytes) st off = some (.ok ((st', off'), some g)) ∧
      RevGood bytes st' off' := by
  have hl : dltStorage.marker.length = 4 := rfl
  induction off using Nat.strongRecOn generalizing st with
  | ind off ih =>
    rw [fromAdaptNext]
    rcases revNext_spec dlt_lawful.toSearches hF off hoff with ⟨h, _⟩ | ⟨i, v, h, hi, _⟩
    · simp only [h]
      cases st with
      | empty => obtain ⟨x, o, h'⟩ := hst rfl; rw [h] at h'; cases h'
      | consumed p =>
        refine ⟨.empty, usizeMax, (p, p), ?_, Or.inr rfl⟩
        rw [fromAdaptFin]
        simp only [groupByFin, pure2, hrefl p]
      | lazy a b =>
        refine ⟨.empty, usizeMax, (a, b), ?_, Or.inr rfl⟩
        rw [fromAdaptFin]
        simp only [groupByFin]
    · simp only [h]
      cases st with
      | empty =>
        simp only [groupByAdapt]
        exact ih i (by omega) (by omega) _ (by intro h; cases h)
      | consumed p =>
        by_cases hf : f p (i, v) = true
        · simp only [groupByAdapt, pure2, hf]
          exact ih i (by omega) (by omega) _ (by intro h; cases h)
        · have hf : f p (i, v) = false := by simpa using hf
          simp only [groupByAdapt, pure2, hf, hrefl p]
          exact ⟨_, _, _, rfl, Or.inl ⟨by omega, by intro h; cases h⟩⟩
      | lazy a b =>
        by_cases hf : f b (i, v) = true
        · simp only [groupByAdapt, pure2, hf]
          exact ih i (by omega) (by omega) _ (by intro h; cases h)
        · have hf : f b (i, v) = false := by simpa using hf
          simp only [groupByAdapt, pure2, hf]
          exact ⟨_, _, _, rfl, Or.inl ⟨by omega, by intro h; cases h⟩⟩

theorem revGroup_next (hF : Fits bytes) (hmsg : ∃ i e, MsgAt bytes i e) (hrefl : ∀ x, f x x = true)
    (off : Nat) (st : GroupByState (Nat × StorageEntry)) (hg : RevGood bytes st off) :
    ∃ st' off' g, fromAdaptNext (groupByStage (pure2 f)) (pullRev bytes) st off = some (.ok ((st', off'), some g)) ∧
      RevGood bytes st' off' := by
  rcases hg with ⟨h1, h2⟩ | rfl
  · exact revGroup_low hF hrefl off h1 st h2
  · obtain ⟨i, v, h, hi⟩ := revNext_max hF hmsg
    rw [fromAdaptNext]
    simp only [h]
    cases st with
    | empty =>
      simp only [groupByAdapt]
      exact revGroup_low hF hrefl i hi _ (by intro h; cases h)
    | consumed p =>
      by_cases hf : f p (i, v) = true
      · simp only [groupByAdapt, pure2, hf]
        exact revGroup_low hF hrefl i hi _ (by intro h; cases h)
      · have hf : f p (i, v) = false := by simpa using hf
        simp only [groupByAdapt, pure2, hf, hrefl p]
        exact ⟨_, _, _, rfl, Or.inl ⟨hi, by intro h; cases h⟩⟩
    | lazy a b =>
      by_cases hf : f b (i, v) = true
      · simp only [groupByAdapt, pure2, hf]
        exact revGroup_low hF hrefl i hi _ (by intro h; cases h)
      · have hf : f b (i, v) = false := by simpa using hf
        simp only [groupByAdapt, pure2, hf]
        exact ⟨_, _, _, rfl, Or.inl ⟨hi, by intro h; cases h⟩⟩

/-- **C103**: on every file with a message in front of `off`, grouping a backward search from `off` never ends: however
often `next` is called, it returns a group. (The grouped backward search itself says `None` at the front of the file, and
starts again at the end when asked again: C21.) -/
theorem C103_rev_groupby_never_ends (hF : Fits bytes) (hrefl : ∀ x, f x x = true) (off : Nat) (hoff : off ≤ bytes.length)
    (i : Nat) (e : StorageEntry) (hm : MsgAt bytes i e) (hi : i + 4 ≤ off) (n : Nat) :
    ∃ gs : List ((Nat × StorageEntry) × (Nat × StorageEntry)), gs.length = n ∧
      (pullGroupBy (pure2 f) (pullRev bytes)).calls n (.empty, off) = some (.ok (gs.map some)) := by
  have hgood : RevGood bytes .empty off := by
    refine Or.inl ⟨hoff, fun _ => ?_⟩
    rcases revNext_spec dlt_lawful.toSearches hF off hoff with ⟨_, h⟩ | ⟨j, v, h, _⟩
    · exact absurd (readableAt_iff_msgAt.2 hm) (h i e hi)
    · exact ⟨_, _, h⟩
  suffices h : ∀ n st off, RevGood bytes st off → ∃ gs : List ((Nat × StorageEntry) × (Nat × StorageEntry)), gs.length = n ∧
      (pullGroupBy (pure2 f) (pullRev bytes)).calls n (st, off) = some (.ok (gs.map some)) from h n .empty off hgood
  intro n
  induction n with
  | zero => intro st off _; exact ⟨[], rfl, rfl⟩
  | succ n ih =>
    intro st off hg
    obtain ⟨st', off', g, h1, h2⟩ := revGroup_next hF ⟨i, e, hm⟩ hrefl off st hg
    obtain ⟨gs, h3, h4⟩ := ih st' off' h2
    refine ⟨g :: gs, by simp [h3], ?_⟩
    rw [Pull.calls]
    simp only [h1, h4, List.map_cons]

end

/-- The case: a file of one message; grouping everything, the same group comes again and again. -/
example (n : Nat) : ∃ gs : List ((Nat × StorageEntry) × (Nat × StorageEntry)), gs.length = n ∧
    (pullGroupBy (pure2 fun _ _ => true) (pullRev (encode msg0))).calls n (.empty, (encode msg0).length) =
      some (.ok (gs.map some)) :=
  C103_rev_groupby_never_ends (f := fun _ _ => true) (by decide +kernel) (fun _ => rfl) _ (Nat.le_refl _) 0 msg0
    ⟨by decide, [], [], by simp, rfl⟩ (by decide +kernel) n

end Verif
