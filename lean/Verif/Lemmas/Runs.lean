import Verif.Lemmas.Generator
import Verif.Spec.Generator

/-! # Lemmas about groupby and maximal runs -/

set_option linter.unusedSimpArgs false

namespace Verif

open Spec

section
variable {α : Type} (f : α → α → Bool)

/-- The maximal runs, computed. -/
def runsL : List α → List (List α)
  | [] => []
  | x :: xs =>
    match runsL xs with
    | [] => [[x]]
    | [] :: rs => [x] :: rs
    | (y :: r) :: rs => if f x y then (x :: y :: r) :: rs else [x] :: (y :: r) :: rs

theorem runsL_cons (x : α) (xs : List α) : ∃ r rs, runsL f (x :: xs) = (x :: r) :: rs := by
  simp only [runsL]
  split
  · exact ⟨_, _, rfl⟩
  · exact ⟨_, _, rfl⟩
  · split <;> exact ⟨_, _, rfl⟩

theorem runsL_cons_cons (x y : α) (xs r : List α) (rs : List (List α)) (h : runsL f (y :: xs) = (y :: r) :: rs) :
    runsL f (x :: y :: xs) = if f x y then (x :: y :: r) :: rs else [x] :: (y :: r) :: rs := by
  rw [runsL, h]

theorem maximalRuns_runsL (xs : List α) : MaximalRuns (fun a b => f a b = true) xs (runsL f xs) := by
  induction xs with
  | nil => exact ⟨rfl, by simp [runsL], by simp [runsL], by simp [runsL]⟩
  | cons x xs ih =>
    cases xs with
    | nil =>
      refine ⟨rfl, by simp [runsL], ?_, ?_⟩
      · intro r hr i a b h1 h2
        simp only [runsL, List.mem_singleton] at hr
        subst hr
        simp at h2
      · intro i r r' a b h1 h2
        simp [runsL] at h2
    | cons y xs =>
      obtain ⟨r, rs, h⟩ := runsL_cons f y xs
      rw [runsL_cons_cons f x y xs r rs h]
      rw [h] at ih
      have hfl : y :: r ++ rs.flatten = y :: xs := ih.flatten
      split
      · next hf =>
        refine ⟨by rw [List.flatten_cons, List.cons_append, hfl], ?_, ?_, ?_⟩
        · intro q hq
          rcases List.mem_cons.1 hq with h' | h'
          · subst h'; simp
          · exact ih.nonempty q (List.mem_cons_of_mem _ h')
        · intro q hq i a b h1 h2
          rcases List.mem_cons.1 hq with h' | h'
          · subst h'
            cases i with
            | zero =>
              simp only [List.getElem?_cons_zero, List.getElem?_cons_succ, Option.some.injEq] at h1 h2
              subst h1 h2
              exact hf
            | succ i =>
              simp only [List.getElem?_cons_succ] at h1 h2
              exact ih.related (y :: r) List.mem_cons_self i a b h1 (by simpa using h2)
          · exact ih.related q (List.mem_cons_of_mem _ h') i a b h1 h2
        · intro i q q' a b h1 h2 h3 h4
          cases i with
          | zero =>
            simp only [List.getElem?_cons_zero, Option.some.injEq] at h1
            subst h1
            exact ih.maximal 0 (y :: r) q' a b rfl (by simpa using h2) (by simpa using h3) h4
          | succ i =>
            exact ih.maximal (i + 1) q q' a b (by simpa using h1) (by simpa using h2) h3 h4
      · next hf =>
        refine ⟨by rw [List.flatten_cons, List.flatten_cons, hfl]; rfl, ?_, ?_, ?_⟩
        · intro q hq
          rcases List.mem_cons.1 hq with h' | h'
          · subst h'; simp
          · exact ih.nonempty q h'
        · intro q hq i a b h1 h2
          rcases List.mem_cons.1 hq with h' | h'
          · subst h'; simp at h2
          · exact ih.related q h' i a b h1 h2
        · intro i q q' a b h1 h2 h3 h4
          cases i with
          | zero =>
            simp only [List.getElem?_cons_zero, List.getElem?_cons_succ, Option.some.injEq] at h1 h2
            subst h1 h2
            simp only [List.getLast?_singleton, List.head?_cons, Option.some.injEq] at h3 h4
            subst h3 h4
            exact hf
          | succ i =>
            exact ih.maximal i q q' a b (by simpa using h1) (by simpa using h2) h3 h4

theorem MaximalRuns.tail {R : α → α → Prop} {xs r : List α} {rs : List (List α)} (h : MaximalRuns R xs (r :: rs)) :
    MaximalRuns R rs.flatten rs :=
  ⟨rfl, fun q hq => h.nonempty q (List.mem_cons_of_mem _ hq),
    fun q hq => h.related q (List.mem_cons_of_mem _ hq),
    fun i q q' a b h1 h2 => h.maximal (i + 1) q q' a b (by simpa using h1) (by simpa using h2)⟩

theorem maximalRuns_eq {xs : List α} {runs : List (List α)} (h : MaximalRuns (fun a b => f a b = true) xs runs) :
    runs = runsL f xs := by
  induction xs generalizing runs with
  | nil =>
    cases runs with
    | nil => rfl
    | cons r rs =>
      have := h.flatten
      simp only [List.flatten_cons, List.append_eq_nil_iff] at this
      exact absurd this.1 (h.nonempty r List.mem_cons_self)
  | cons x xs ih =>
    cases runs with
    | nil => have := h.flatten; simp at this
    | cons q rs =>
      cases q with
      | nil => exact absurd rfl (h.nonempty [] List.mem_cons_self)
      | cons x' r =>
        have hfl := h.flatten
        simp only [List.flatten_cons, List.cons_append, List.cons.injEq] at hfl
        obtain ⟨rfl, hfl⟩ := hfl
        cases r with
        | nil =>
          simp only [List.nil_append] at hfl
          have ht := MaximalRuns.tail h
          rw [hfl] at ht
          have hrs := ih ht
          cases xs with
          | nil => subst hrs; rfl
          | cons y xs =>
            obtain ⟨r', rs', hc⟩ := runsL_cons f y xs
            rw [hc] at hrs
            subst hrs
            rw [runsL_cons_cons f x' y xs r' rs' hc, if_neg]
            exact h.maximal 0 [x'] (y :: r') x' y rfl rfl rfl rfl
        | cons y r =>
          have ht : MaximalRuns (fun a b => f a b = true) xs ((y :: r) :: rs) := by
            refine ⟨hfl, ?_, ?_, ?_⟩
            · intro q hq
              rcases List.mem_cons.1 hq with h' | h'
              · subst h'; simp
              · exact h.nonempty q (List.mem_cons_of_mem _ h')
            · intro q hq i a b h1 h2
              rcases List.mem_cons.1 hq with h' | h'
              · subst h'
                exact h.related (x' :: y :: r) List.mem_cons_self (i + 1) a b (by simpa using h1) (by simpa using h2)
              · exact h.related q (List.mem_cons_of_mem _ h') i a b h1 h2
            · intro i q q' a b h1 h2 h3 h4
              cases i with
              | zero =>
                simp only [List.getElem?_cons_zero, Option.some.injEq] at h1
                subst h1
                exact h.maximal 0 (x' :: y :: r) q' a b rfl (by simpa using h2) (by simpa using h3) h4
              | succ i => exact h.maximal (i + 1) q q' a b (by simpa using h1) (by simpa using h2) h3 h4
          have hrs := ih ht
          cases xs with
          | nil => simp at hfl
          | cons y' xs =>
            have : y' = y := by simpa using (List.cons.inj hfl).1.symm
            subst this
            rw [runsL_cons_cons f x' y' xs r rs hrs.symm, if_pos]
            exact h.related (x' :: y' :: r) List.mem_cons_self 0 x' y' rfl rfl

/-- What `groupby` computes when it is in the run from `start` to `stop`. -/
def runsAux (start stop : α) : List α → List (α × α)
  | [] => [(start, stop)]
  | x :: xs => if f stop x then runsAux start x xs else (start, stop) :: runsAux x x xs

theorem runsAux_eq (start x : α) (xs r : List α) (rs : List (List α)) (h : runsL f (x :: xs) = (x :: r) :: rs) :
    ∃ b, (x :: r).getLast? = some b ∧ runsAux f start x xs = (start, b) :: rs.filterMap ends := by
  induction xs generalizing start x r rs with
  | nil =>
    simp only [runsL, List.cons.injEq, true_and] at h
    obtain ⟨rfl, rfl⟩ := h
    exact ⟨x, rfl, rfl⟩
  | cons y xs ih =>
    obtain ⟨r', rs', hc⟩ := runsL_cons f y xs
    rw [runsL_cons_cons f x y xs r' rs' hc] at h
    rw [runsAux]
    split at h
    · next hf =>
      simp only [List.cons.injEq, true_and] at h
      obtain ⟨rfl, rfl⟩ := h
      rw [if_pos hf]
      obtain ⟨b, h1, h2⟩ := ih start y r' rs' hc
      exact ⟨b, by simpa using h1, h2⟩
    · next hf =>
      simp only [List.cons.injEq, true_and] at h
      obtain ⟨rfl, rfl⟩ := h
      rw [if_neg hf]
      obtain ⟨b, h1, h2⟩ := ih y y r' rs' hc
      refine ⟨x, rfl, ?_⟩
      rw [h2]
      have : ends (y :: r') = some (y, b) := by
        unfold ends
        rw [h1]
        rfl
      simp [this]

theorem ends_runsL_cons (x : α) (xs : List α) : (runsL f (x :: xs)).filterMap ends = runsAux f x x xs := by
  obtain ⟨r, rs, h⟩ := runsL_cons f x xs
  obtain ⟨b, h1, h2⟩ := runsAux_eq f x x xs r rs h
  rw [h, h2]
  have : ends (x :: r) = some (x, b) := by unfold ends; rw [h1]; rfl
  simp [this]

/-- Pure closures of two arguments. -/
abbrev pure2 {α β γ : Type} (f : α → β → γ) : α → β → Res γ := fun a b => .ok (f a b)

theorem groupBy_feed (xs : List α) (hr : ∀ x ∈ xs, f x x = true) :
    (∀ p, f p p = true → ∃ s ys w, feedOut (groupByStage (pure2 f)) (.consumed p) xs = .ok (s, ys) ∧
      Drains (groupByStage (pure2 f)) s (.ok w) ∧ ys ++ w = runsAux f p p xs) ∧
    (∀ a b, ∃ s ys w, feedOut (groupByStage (pure2 f)) (.lazy a b) xs = .ok (s, ys) ∧
      Drains (groupByStage (pure2 f)) s (.ok w) ∧ ys ++ w = runsAux f a b xs) := by
  induction xs with
  | nil =>
    constructor
    · intro p hp
      refine ⟨.consumed p, [], [(p, p)], rfl, ?_, rfl⟩
      have := Drains.some (a := groupByStage (pure2 f)) (s := GroupByState.consumed p) (s' := GroupByState.empty)
        (o := (p, p)) (by simp only [groupByFin, pure2, hp]) (groupBy_drains_empty _)
      exact this
    · intro a b
      refine ⟨.lazy a b, [], [(a, b)], rfl, ?_, rfl⟩
      have := Drains.some (a := groupByStage (pure2 f)) (s := GroupByState.lazy a b) (s' := GroupByState.empty)
        (o := (a, b)) rfl (groupBy_drains_empty _)
      exact this
  | cons x xs ih =>
    have hx := hr x List.mem_cons_self
    obtain ⟨ih1, ih2⟩ := ih (fun y hy => hr y (List.mem_cons_of_mem _ hy))
    constructor
    · intro p hp
      by_cases hf : f p x = true
      · obtain ⟨s, ys, w, h1, h2, h3⟩ := ih2 p x
        refine ⟨s, ys, w, ?_, h2, ?_⟩
        · rw [feedOut]; simp only [groupByStage, groupByAdapt, pure2, hf]; exact h1
        · rw [runsAux, if_pos hf]; exact h3
      · obtain ⟨s, ys, w, h1, h2, h3⟩ := ih1 x hx
        have hff : f p x = false := by simpa using hf
        refine ⟨s, (p, p) :: ys, w, ?_, h2, ?_⟩
        · rw [feedOut]; simp only [groupByStage, groupByAdapt, pure2, hff, hp]
          have h1' : feedOut (groupByStage (pure2 f)) (.consumed x) xs = .ok (s, ys) := h1
          simp only [groupByStage, pure2] at h1'
          rw [h1']; rfl
        · rw [runsAux, if_neg hf, ← h3]; rfl
    · intro a b
      by_cases hf : f b x = true
      · obtain ⟨s, ys, w, h1, h2, h3⟩ := ih2 a x
        refine ⟨s, ys, w, ?_, h2, ?_⟩
        · rw [feedOut]; simp only [groupByStage, groupByAdapt, pure2, hf]; exact h1
        · rw [runsAux, if_pos hf]; exact h3
      · obtain ⟨s, ys, w, h1, h2, h3⟩ := ih1 x hx
        have hff : f b x = false := by simpa using hf
        refine ⟨s, (a, b) :: ys, w, ?_, h2, ?_⟩
        · rw [feedOut]; simp only [groupByStage, groupByAdapt, pure2, hff]
          have h1' : feedOut (groupByStage (pure2 f)) (.consumed x) xs = .ok (s, ys) := h1
          simp only [groupByStage, pure2] at h1'
          rw [h1']; rfl
        · rw [runsAux, if_neg hf, ← h3]; rfl

theorem outs_groupBy (xs : List α) (hr : ∀ x ∈ xs, f x x = true) :
    Outs (groupByStage (pure2 f)) xs (.ok ((runsL f xs).filterMap ends)) := by
  cases xs with
  | nil =>
    exact Or.inr ⟨.empty, [], .ok [], rfl, groupBy_drains_empty _, rfl⟩
  | cons x xs =>
    obtain ⟨s, ys, w, h1, h2, h3⟩ :=
      (groupBy_feed f xs (fun y hy => hr y (List.mem_cons_of_mem _ hy))).1 x (hr x List.mem_cons_self)
    refine Or.inr ⟨s, ys, .ok w, ?_, h2, ?_⟩
    · show feedOut (groupByStage (pure2 f)) .empty (x :: xs) = _
      rw [feedOut]; exact h1
    · rw [ends_runsL_cons, ← h3]; rfl

end

end Verif
