import Verif.Props.Program
import Verif.Lemmas.RunsLength

/-! # C39: exactly when `groupby` returns the maximal runs -/

set_option linter.unusedSimpArgs false

namespace Verif

open Spec

section
variable {α : Type} (f : α → α → Bool)

mutual
/-- The output of `groupby` for a relation that does not panic, having kept `a`. -/
def aloneL (a : α) : List α → List (α × α)
  | [] => if f a a then [(a, a)] else []
  | x :: xs => if f a x then runL a x xs else if f a a then (a, a) :: aloneL x xs else aloneL a xs
/-- The output of `groupby` for a relation that does not panic, in a run from `a` to `z`. -/
def runL (a z : α) : List α → List (α × α)
  | [] => [(a, z)]
  | x :: xs => if f z x then runL a x xs else (a, z) :: aloneL x xs
end

mutual
/-- Every run of one element is related to itself: the run of `a` is not yet known to be longer. -/
def okA (a : α) : List α → Prop
  | [] => f a a = true
  | x :: xs => if f a x then okR x xs else f a a = true ∧ okA x xs
/-- Every run of one element is related to itself: the run of `z` has more elements. -/
def okR (z : α) : List α → Prop
  | [] => True
  | x :: xs => if f z x then okR x xs else okA x xs
end

theorem aloneV_pure (xs : List α) : (∀ a, aloneV (fun a b => .ok (f a b)) a xs = .ok (aloneL f a xs)) ∧
    ∀ a z, runV (fun a b => .ok (f a b)) a z xs = .ok (runL f a z xs) := by
  induction xs with
  | nil => exact ⟨fun a => rfl, fun a z => rfl⟩
  | cons x xs ih =>
    refine ⟨fun a => ?_, fun a z => ?_⟩
    · rw [aloneV, aloneL]
      simp only [Res.bind]
      cases f a x with
      | true => exact ih.2 a x
      | false =>
        cases f a a with
        | true => simp only [ih.1 x]; rfl
        | false => exact ih.1 a
    · rw [runV, runL]
      simp only [Res.bind]
      cases f z x with
      | true => exact ih.2 a x
      | false => simp only [ih.1 x]; rfl

theorem breaks_cons (x y : α) (xs : List α) : breaks f (x :: y :: xs) = (if f x y then 0 else 1) + breaks f (y :: xs) := rfl

theorem breaks_cons_le (x : α) (xs : List α) : breaks f xs ≤ breaks f (x :: xs) := by
  cases xs with
  | nil => exact Nat.zero_le _
  | cons y xs => rw [breaks_cons]; exact Nat.le_add_left _ _

theorem breaks_cons_ge (x : α) (xs : List α) : breaks f (x :: xs) ≤ 1 + breaks f xs := by
  cases xs with
  | nil => exact Nat.zero_le _
  | cons y xs => rw [breaks_cons]; split <;> omega

/-- Never more pairs than runs. -/
theorem aloneL_le (xs : List α) : (∀ a, (aloneL f a xs).length ≤ 1 + breaks f (a :: xs)) ∧
    ∀ a z, (runL f a z xs).length ≤ 1 + breaks f (z :: xs) := by
  induction xs with
  | nil =>
    refine ⟨fun a => ?_, fun a z => Nat.le_refl _⟩
    rw [aloneL]; split <;> simp [breaks]
  | cons x xs ih =>
    refine ⟨fun a => ?_, fun a z => ?_⟩
    · rw [aloneL, breaks_cons]
      have h1 := ih.1 x
      have h2 := ih.2 a x
      have h3 := ih.1 a
      have h4 := breaks_cons_le f x xs
      have h5 := breaks_cons_ge f a xs
      split
      · omega
      · split
        · rw [List.length_cons]; omega
        · omega
    · rw [runL, breaks_cons]
      have h1 := ih.1 x
      have h2 := ih.2 a x
      split
      · omega
      · rw [List.length_cons]; omega

/-- An element that is related neither to itself nor to the next costs a pair. -/
theorem aloneL_lt (a : α) (ha : f a a = false) (xs : List α) (hx : ∀ y, xs.head? = some y → f a y = false) :
    (aloneL f a xs).length < 1 + breaks f (a :: xs) := by
  induction xs with
  | nil => rw [aloneL, if_neg (by simp [ha])]; simp [breaks]
  | cons x xs ih =>
    have hax := hx x rfl
    rw [aloneL, if_neg (by simp [hax]), if_neg (by simp [ha]), breaks_cons, if_neg (by simp [hax])]
    have h4 := breaks_cons_le f x xs
    have h5 := breaks_cons_ge f a xs
    cases xs with
    | nil => have := ih (by simp); omega
    | cons y ys =>
      cases hy : f a y with
      | false => have := ih (by simpa using hy); omega
      | true =>
        have := (aloneL_le f (y :: ys)).1 a
        have h6 : breaks f (a :: y :: ys) = breaks f (y :: ys) := by rw [breaks_cons, if_pos hy]; omega
        omega

theorem aloneL_ok (xs : List α) :
    (∀ a, (okA f a xs → aloneL f a xs = runsAux f a a xs) ∧
      (¬ okA f a xs → (aloneL f a xs).length < 1 + breaks f (a :: xs))) ∧
    ∀ a z, (okR f z xs → runL f a z xs = runsAux f a z xs) ∧
      (¬ okR f z xs → (runL f a z xs).length < 1 + breaks f (z :: xs)) := by
  induction xs with
  | nil =>
    refine ⟨fun a => ⟨fun h => ?_, fun h => ?_⟩, fun a z => ⟨fun _ => rfl, fun h => absurd trivial h⟩⟩
    · rw [aloneL, if_pos (by simpa [okA] using h)]; rfl
    · rw [aloneL, if_neg (by simpa [okA] using h)]; simp [breaks]
  | cons x xs ih =>
    have ihx := ih.1 x
    refine ⟨fun a => ?_, fun a z => ?_⟩
    · have ihr := ih.2 a x
      rw [okA, runsAux]
      cases hx : f a x with
      | true =>
        rw [aloneL, if_pos hx, breaks_cons, if_pos hx]
        simp only [if_true, Nat.zero_add]
        exact ihr
      | false =>
        simp only [Bool.false_eq_true, if_false]
        cases ha : f a a with
        | true =>
          rw [aloneL, if_neg (by simp [hx]), if_pos ha, breaks_cons, if_neg (by simp [hx])]
          refine ⟨fun h => by rw [ihx.1 h.2], fun h => ?_⟩
          have := ihx.2 fun q => h ⟨rfl, q⟩
          rw [List.length_cons]; omega
        | false =>
          exact ⟨fun h => absurd h.1 (by simp), fun _ => aloneL_lt f a ha _ (by simpa using hx)⟩
    · have ihr := ih.2 a x
      rw [okR, runsAux, runL, breaks_cons]
      cases hx : f z x with
      | true => simp only [if_true, Nat.zero_add]; exact ihr
      | false =>
        simp only [Bool.false_eq_true, if_false, List.length_cons]
        exact ⟨fun h => by rw [ihx.1 h], fun h => by have := ihx.2 h; omega⟩

theorem ok_iff (xs : List α) : (∀ a, okA f a xs ↔ ∀ b, [b] ∈ runsL f (a :: xs) → f b b = true) ∧
    ∀ z, okR f z xs ↔ ∀ b, [b] ∈ (runsL f (z :: xs)).tail → f b b = true := by
  induction xs with
  | nil => exact ⟨fun a => by simp [okA, runsL], fun z => by simp [okR, runsL]⟩
  | cons x xs ih =>
    obtain ⟨r, rs, h⟩ := runsL_cons f x xs
    have i1 := ih.1 x
    have i2 := ih.2 x
    rw [h] at i1 i2
    refine ⟨fun a => ?_, fun z => ?_⟩
    · rw [okA, runsL_cons_cons f a x xs r rs h]
      cases f a x with
      | true =>
        simp only [if_true]
        rw [i2]
        simp
      | false =>
        simp only [Bool.false_eq_true, if_false]
        rw [i1]
        constructor
        · rintro ⟨h1, h2⟩ b hb
          rcases List.mem_cons.1 hb with h3 | h3
          · simp only [List.cons.injEq, and_true] at h3; subst h3; exact h1
          · exact h2 b h3
        · intro h1
          exact ⟨h1 a List.mem_cons_self, fun b hb => h1 b (List.mem_cons_of_mem _ hb)⟩
    · rw [okR, runsL_cons_cons f z x xs r rs h]
      cases f z x with
      | true => simp only [if_true]; rw [i2]; simp
      | false => simp only [Bool.false_eq_true, if_false]; rw [i1]; simp

end

theorem ends_length {α : Type} : ∀ rs : List (List α), (∀ r ∈ rs, r ≠ []) → (rs.filterMap ends).length = rs.length
  | [], _ => rfl
  | r :: rs, h => by
    obtain ⟨e, he⟩ : ∃ e, ends r = some e := by
      cases r with
      | nil => exact absurd rfl (h [] List.mem_cons_self)
      | cons a r =>
        unfold ends
        cases hg : (a :: r).getLast? with
        | none => rw [List.getLast?_eq_none_iff] at hg; simp at hg
        | some b => exact ⟨_, rfl⟩
    rw [List.filterMap_cons_some he, List.length_cons, List.length_cons,
      ends_length rs fun q hq => h q (List.mem_cons_of_mem _ hq)]

/-- **C39** exactly when the claim is true: for every relation and every input, `groupby` returns, never returns more
pairs than there are maximal runs, and returns first and last element of every maximal run if and only if every run of
only one element is related to itself; otherwise it returns fewer pairs. -/
theorem C39_groupby_exact {α β : Type} (c : Chain α β) (f : β → β → Bool) (xs : List α) (ys : List β)
    (h : collected c xs = some (.ok ys)) (runs : List (List β)) (hr : MaximalRuns (fun a b => f a b = true) ys runs) :
    ∃ out, collected (c.groupby fun a b => .ok (f a b)) xs = some (.ok out) ∧ out.length ≤ runs.length ∧
      (out = runs.filterMap ends ↔ ∀ b, [b] ∈ runs → f b b = true) ∧
      (out.length < runs.length ↔ ∃ b, [b] ∈ runs ∧ f b b = false) := by
  have e := maximalRuns_eq f hr
  subst e
  have hc := C83_chain_exact (c.groupby fun a b => .ok (f a b)) xs
  have h' := C83_chain_exact c xs
  rw [h, Option.some.injEq] at h'
  rw [hc]
  have hv : chainV (c.groupby fun a b => .ok (f a b)) xs = groupV (fun a b => .ok (f a b)) ys := by
    rw [chainV, ← h']; rfl
  rw [hv]
  cases ys with
  | nil => exact ⟨[], rfl, by simp [runsL], by simp [runsL], by simp [runsL]⟩
  | cons y ys =>
    refine ⟨aloneL f y ys, by rw [groupV, (aloneV_pure f ys).1], ?_, ?_, ?_⟩
    · rw [runsL_length f _ (by simp)]; exact (aloneL_le f ys).1 y
    · obtain ⟨h1, h2⟩ := (aloneL_ok f ys).1 y
      rw [ends_runsL_cons, ← (ok_iff f ys).1]
      refine ⟨fun q => ?_, h1⟩
      apply Classical.byContradiction
      intro hn
      have h3 := h2 hn
      rw [q, ← ends_runsL_cons, ends_length _ hr.nonempty, runsL_length f _ (by simp)] at h3
      exact Nat.lt_irrefl _ h3
    · obtain ⟨h1, h2⟩ := (aloneL_ok f ys).1 y
      rw [runsL_length f _ (by simp)]
      constructor
      · intro q
        apply Classical.byContradiction
        intro hn
        have h3 : okA f y ys := ((ok_iff f ys).1 y).2 fun b hb => by
          cases hf : f b b with
          | true => rfl
          | false => exact absurd ⟨b, hb, hf⟩ hn
        rw [h1 h3, ← ends_runsL_cons, ends_length _ hr.nonempty, runsL_length f _ (by simp)] at q
        exact Nat.lt_irrefl _ q
      · rintro ⟨b, hb, hf⟩
        exact h2 fun ho => by
          have := ((ok_iff f ys).1 y).1 ho b hb
          rw [hf] at this
          cases this

/-- **C39** the relations for which the claim is true of every input are the reflexive ones. -/
theorem C39_reflexive_iff {α : Type} (f : α → α → Bool) :
    (∀ xs runs, MaximalRuns (fun a b => f a b = true) xs runs →
      collected (Chain.nil.groupby fun a b => .ok (f a b)) xs = some (.ok (runs.filterMap ends))) ↔
    ∀ a, f a a = true := by
  constructor
  · intro h a
    have hr := maximalRuns_runsL f [a]
    obtain ⟨out, h1, -, h2, -⟩ := C39_groupby_exact Chain.nil f [a] [a] (C37_nil_chain _) _ hr
    have := h [a] _ hr
    rw [h1] at this
    simp only [Option.some.injEq, Res.ok.injEq] at this
    exact h2.1 this a (by simp [runsL])
  · intro h xs runs hr
    obtain ⟨out, h1, -, h2, -⟩ := C39_groupby_exact Chain.nil f xs xs (C37_nil_chain _) _ hr
    rw [h1, h2.2 fun b _ => h b]

/-- Not reflexive, and yet the runs are found, as no run has only one element; with one more element they are not. -/
example :
    collected (Chain.nil.groupby fun (a b : Nat) => .ok (decide (a < b))) [3, 4, 1, 2] = some (.ok [(3, 4), (1, 2)]) ∧
    ∃ out, collected (Chain.nil.groupby fun (a b : Nat) => .ok (decide (a < b))) [3, 4, 1, 2, 0] = some (.ok out) ∧
      out.length < 3 := by
  constructor
  · obtain ⟨out, h1, -, h2, -⟩ := C39_groupby_exact Chain.nil (fun a b : Nat => decide (a < b)) [3, 4, 1, 2]
      [3, 4, 1, 2] (C37_nil_chain _) _ (maximalRuns_runsL _ _)
    rw [h1, h2.2 (by intro b hb; simp [runsL] at hb)]
    rfl
  · obtain ⟨out, h1, -, -, h2⟩ := C39_groupby_exact Chain.nil (fun a b : Nat => decide (a < b)) [3, 4, 1, 2, 0]
      [3, 4, 1, 2, 0] (C37_nil_chain _) _ (maximalRuns_runsL _ _)
    exact ⟨out, h1, h2.2 ⟨0, by simp [runsL], rfl⟩⟩

end Verif
