import Verif.Model.FoldMut
import Verif.Props.Generator

/-! # C77: `fold` with a closure that keeps state. C78: what `collect` copies -/

set_option linter.unusedSimpArgs false

namespace Verif

/-- The specification: the closure is called once per item, in order, each time with what it kept and returned the time
before; the first panic ends everything. -/
inductive Spec.FoldRuns {α ι γ : Type} (f : γ → ι → α → Res (γ × ι)) : γ → ι → List α → Res ι → Prop where
  | nil (c : γ) (i : ι) : FoldRuns f c i [] (.ok i)
  | panic (c : γ) (i : ι) (x : α) (xs : List α) : f c i x = .panic → FoldRuns f c i (x :: xs) .panic
  | step (c c' : γ) (i i' : ι) (x : α) (xs : List α) (r : Res ι) : f c i x = .ok (c', i') → FoldRuns f c' i' xs r →
      FoldRuns f c i (x :: xs) r

open Spec

theorem foldMut_feed {α ι γ : Type} (i0 : ι) (c0 : γ) (f : γ → ι → α → Res (γ × ι)) :
    ∀ (xs : List α) (c : γ) (i : ι) (r : Res ι), FoldRuns f c i xs r ↔
      (match feed (foldMutRed i0 c0 f) (c, i) xs with | .panic => Res.panic | .ok s => .ok s.2) = r
  | [], c, i, r => by
    simp only [feed]
    constructor
    · rintro ⟨⟩; rfl
    · rintro rfl; exact .nil c i
  | x :: xs, c, i, r => by
    simp only [feed]
    cases h : f c i x with
    | panic =>
      constructor
      · intro hr
        cases hr with
        | panic => rfl
        | step c' i' _ _ h' => rw [h] at *; contradiction
      · intro hr
        rw [← hr]; exact .panic c i x xs h
    | ok p =>
      obtain ⟨c', i'⟩ := p
      have ih := foldMut_feed i0 c0 f xs c' i' r
      dsimp only
      rw [← ih]
      constructor
      · intro hr
        generalize hl : x :: xs = l at hr
        cases hr with
        | nil => cases hl
        | panic _ _ y ys h' => cases hl; rw [h] at h'; cases h'
        | step _ c'' _ i'' y ys _ h' hr => cases hl; rw [h] at h'; cases h'; exact hr
      · intro hr
        exact .step c c' i i' x xs r h hr

theorem runRed_panic {α ρ : Type} {r : Red α ρ} {xs : List α} (h : feed r r.init xs = .panic) :
    runRed r xs = some .panic := by unfold runRed; rw [h]

theorem runRed_ok {α ρ : Type} {r : Red α ρ} {xs : List α} {s : r.σ} (h : feed r r.init xs = .ok s) :
    runRed r xs = r.fin s := by unfold runRed; rw [h]

/-- **C77** `fold` with any closure, whatever it keeps between calls. -/
theorem C77_fold_stateful {α ι γ : Type} (i0 : ι) (c0 : γ) (f : γ → ι → α → Res (γ × ι)) (xs : List α) (r : Res ι) :
    runRed (foldMutRed i0 c0 f) xs = some r ↔ FoldRuns f c0 i0 xs r := by
  rw [foldMut_feed i0 c0]
  cases h : feed (foldMutRed i0 c0 f) (c0, i0) xs with
  | panic => rw [runRed_panic h, Option.some.injEq]
  | ok s => rw [runRed_ok h, Option.some.injEq]

/-- **C77** a closure that keeps nothing: the plain fold of the other theorems. -/
theorem C77_fold_stateless {α ι : Type} (i0 : ι) (f : ι → α → Res ι) (xs : List α) :
    runRed (foldMutRed i0 () fun _ i x => (f i x).bind fun i' => .ok ((), i')) xs = runRed (foldRed i0 f) xs := by
  have key : ∀ (xs : List α) (i : ι), feed (foldMutRed i0 () fun _ i x => (f i x).bind fun i' => .ok ((), i')) ((), i) xs =
      (feed (foldRed i0 f) i xs).bind fun i' => .ok ((), i') := by
    intro xs
    induction xs with
    | nil => intro i; rfl
    | cons x xs ih =>
      intro i
      simp only [feed]
      cases h : f i x with
      | panic => rfl
      | ok i' => exact ih i'
  have h := key xs i0
  cases h' : feed (foldRed i0 f) i0 xs with
  | panic => rw [h'] at h; rw [runRed_panic h', runRed_panic h]
  | ok s => rw [h'] at h; rw [runRed_ok h', runRed_ok h]

/-- A closure that numbers the items it sees. -/
example : runRed (foldMutRed ([] : List (Nat × Char)) 0 fun n acc x => .ok (n + 1, acc ++ [(n, x)])) ['a', 'b', 'c'] =
    some (.ok [(0, 'a'), (1, 'b'), (2, 'c')]) := rfl

example : FoldRuns (fun (n : Nat) (i : Nat) (x : Nat) => if n = 2 then Res.panic else .ok (n + 1, i + x)) 0 0 [5, 6, 7, 8] .panic :=
  (C77_fold_stateful 0 0 _ _ _).1 rfl

/-! ## C78 -/

/-- Forgetting the counter gives the fold. -/
theorem C78_copies_erase {α ι : Type} (size : ι → Nat) (i0 : ι) (f : ι → α → Res ι) (xs : List α) :
    (runRed (foldCopies size i0 f) xs).map (fun r => r.bind fun p => .ok p.1) = runRed (foldRed i0 f) xs := by
  have key : ∀ (xs : List α) (i : ι) (n : Nat),
      (match feed (foldCopies size i0 f) (i, n) xs with | .panic => Res.panic | .ok s => .ok s.1) =
      feed (foldRed i0 f) i xs := by
    intro xs
    induction xs with
    | nil => intro i n; rfl
    | cons x xs ih =>
      intro i n
      simp only [feed]
      cases h : f i x with
      | panic => rfl
      | ok i' => exact ih i' _
  have h := key xs i0 0
  cases h' : feed (foldCopies size i0 f) (i0, 0) xs with
  | panic => rw [h'] at h; rw [runRed_panic h', runRed_panic h.symm]; rfl
  | ok s => rw [h'] at h; rw [runRed_ok h', runRed_ok h.symm]; rfl

/-- **C78 (exact)** collecting `n` items clones `n * (n + 1) / 2` items: every step clones the whole list collected so
far. Partial, as the claim (a linear number) is false (`C78_not_linear`). -/
theorem C78_collect_copies_partial {α : Type} (xs : List α) :
    runRed (foldCopies List.length ([] : List α) fun acc x => .ok (acc ++ [x])) xs =
      some (.ok (xs, xs.length * (xs.length + 1) / 2)) := by
  have key : ∀ (xs acc : List α) (n : Nat), 2 * n + acc.length = acc.length * acc.length →
      ∃ m, feed (foldCopies List.length ([] : List α) fun acc x => .ok (acc ++ [x])) (acc, n) xs = .ok (acc ++ xs, m) ∧
        2 * m + (acc ++ xs).length = (acc ++ xs).length * (acc ++ xs).length := by
    intro xs
    induction xs with
    | nil => intro acc n h; exact ⟨n, by rw [List.append_nil]; rfl, by rw [List.append_nil]; exact h⟩
    | cons x xs ih =>
      intro acc n h
      obtain ⟨m, h1, h2⟩ := ih (acc ++ [x]) (n + acc.length) (by
        rw [List.length_append]
        show 2 * (n + acc.length) + (acc.length + 1) = (acc.length + 1) * (acc.length + 1)
        simp only [Nat.add_mul, Nat.mul_add, Nat.mul_one, Nat.one_mul]; omega)
      rw [List.append_assoc, List.singleton_append] at h1 h2
      exact ⟨m, h1, h2⟩
  obtain ⟨m, h1, h2⟩ := key xs [] 0 rfl
  rw [runRed_ok h1]
  dsimp only
  rw [List.nil_append] at h2 ⊢
  have h3 : m + xs.length = xs.length * (xs.length + 1) / 2 := by
    rw [Nat.mul_add]; omega
  rw [h3]

/-- **C78 (violated)** so no linear bound holds. -/
theorem C78_not_linear : ¬ ∃ c, ∀ (xs ys : List Nat) (n : Nat),
    runRed (foldCopies List.length ([] : List Nat) fun acc x => .ok (acc ++ [x])) xs = some (.ok (ys, n)) →
      n ≤ c * xs.length + c := by
  rintro ⟨c, h⟩
  have h1 := h _ _ _ (C78_collect_copies_partial (List.replicate (4 * c + 2) 0))
  rw [List.length_replicate] at h1
  have h2 : (4 * c + 2) * (4 * c + 2 + 1) / 2 = (2 * c + 1) * (4 * c + 3) := by
    rw [show (4 * c + 2) * (4 * c + 2 + 1) = 2 * ((2 * c + 1) * (4 * c + 3)) by
      rw [← Nat.mul_assoc]; congr 1; omega]
    omega
  rw [h2] at h1
  have h3 : (2 * c + 1) * (4 * c + 3) = 2 * (c * (4 * c + 2)) + 2 * c + 4 * c + 3 := by
    simp only [Nat.add_mul, Nat.mul_add]; rw [Nat.mul_assoc]; omega
  omega

example : runRed (foldCopies List.length ([] : List Char) fun acc x => .ok (acc ++ [x])) ['a', 'b', 'c'] =
    some (.ok (['a', 'b', 'c'], 6)) := rfl

end Verif
