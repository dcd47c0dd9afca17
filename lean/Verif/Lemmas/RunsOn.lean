import Verif.Lemmas.Runs

/-! # `groupby` with a closure that is known only on the inputs, or that panics on some -/

set_option linter.unusedSimpArgs false

namespace Verif

open Spec

section
variable {α : Type} {F : α → α → Res Bool} {f : α → α → Bool} {P : α → Prop}

theorem groupBy_feed_on (hF : ∀ a b, P a → P b → F a b = .ok (f a b)) (xs : List α) (hP : ∀ x ∈ xs, P x)
    (hr : ∀ x ∈ xs, f x x = true) :
    (∀ p, P p → f p p = true → ∃ s ys w, feedOut (groupByStage F) (.consumed p) xs = .ok (s, ys) ∧
      Drains (groupByStage F) s (.ok w) ∧ ys ++ w = runsAux f p p xs) ∧
    (∀ a b, P b → ∃ s ys w, feedOut (groupByStage F) (.lazy a b) xs = .ok (s, ys) ∧
      Drains (groupByStage F) s (.ok w) ∧ ys ++ w = runsAux f a b xs) := by
  induction xs with
  | nil =>
    constructor
    · intro p hp hpp
      refine ⟨.consumed p, [], [(p, p)], rfl, ?_, rfl⟩
      have := Drains.some (a := groupByStage F) (s := GroupByState.consumed p) (s' := GroupByState.empty)
        (o := (p, p)) (by simp only [groupByFin, hF p p hp hp, hpp]) (groupBy_drains_empty _)
      exact this
    · intro a b _
      refine ⟨.lazy a b, [], [(a, b)], rfl, ?_, rfl⟩
      have := Drains.some (a := groupByStage F) (s := GroupByState.lazy a b) (s' := GroupByState.empty)
        (o := (a, b)) rfl (groupBy_drains_empty _)
      exact this
  | cons x xs ih =>
    have hx := hr x List.mem_cons_self
    have hPx := hP x List.mem_cons_self
    obtain ⟨ih1, ih2⟩ := ih (fun y hy => hP y (List.mem_cons_of_mem _ hy)) (fun y hy => hr y (List.mem_cons_of_mem _ hy))
    constructor
    · intro p hp hpp
      by_cases hf : f p x = true
      · obtain ⟨s, ys, w, h1, h2, h3⟩ := ih2 p x hPx
        refine ⟨s, ys, w, ?_, h2, ?_⟩
        · rw [feedOut]; simp only [groupByStage, groupByAdapt, hF p x hp hPx, hf]; exact h1
        · rw [runsAux, if_pos hf]; exact h3
      · obtain ⟨s, ys, w, h1, h2, h3⟩ := ih1 x hPx hx
        have hff : f p x = false := by simpa using hf
        refine ⟨s, (p, p) :: ys, w, ?_, h2, ?_⟩
        · rw [feedOut]; simp only [groupByStage, groupByAdapt, hF p x hp hPx, hF p p hp hp, hff, hpp]
          have h1' : feedOut (groupByStage F) (.consumed x) xs = .ok (s, ys) := h1
          simp only [groupByStage] at h1'
          rw [h1']; rfl
        · rw [runsAux, if_neg hf, ← h3]; rfl
    · intro a b hb
      by_cases hf : f b x = true
      · obtain ⟨s, ys, w, h1, h2, h3⟩ := ih2 a x hPx
        refine ⟨s, ys, w, ?_, h2, ?_⟩
        · rw [feedOut]; simp only [groupByStage, groupByAdapt, hF b x hb hPx, hf]; exact h1
        · rw [runsAux, if_pos hf]; exact h3
      · obtain ⟨s, ys, w, h1, h2, h3⟩ := ih1 x hPx hx
        have hff : f b x = false := by simpa using hf
        refine ⟨s, (a, b) :: ys, w, ?_, h2, ?_⟩
        · rw [feedOut]; simp only [groupByStage, groupByAdapt, hF b x hb hPx, hff]
          have h1' : feedOut (groupByStage F) (.consumed x) xs = .ok (s, ys) := h1
          simp only [groupByStage] at h1'
          rw [h1']; rfl
        · rw [runsAux, if_neg hf, ← h3]; rfl

/-- `groupby` with a closure that is pure and reflexive on the inputs. -/
theorem outs_groupBy_on (hF : ∀ a b, P a → P b → F a b = .ok (f a b)) (xs : List α) (hP : ∀ x ∈ xs, P x)
    (hr : ∀ x ∈ xs, f x x = true) : Outs (groupByStage F) xs (.ok ((runsL f xs).filterMap ends)) := by
  cases xs with
  | nil =>
    exact Or.inr ⟨.empty, [], .ok [], rfl, groupBy_drains_empty _, rfl⟩
  | cons x xs =>
    obtain ⟨s, ys, w, h1, h2, h3⟩ :=
      (groupBy_feed_on hF xs (fun y hy => hP y (List.mem_cons_of_mem _ hy)) (fun y hy => hr y (List.mem_cons_of_mem _ hy))).1 x
        (hP x List.mem_cons_self) (hr x List.mem_cons_self)
    refine Or.inr ⟨s, ys, .ok w, ?_, h2, ?_⟩
    · show feedOut (groupByStage F) .empty (x :: xs) = _
      rw [feedOut]; exact h1
    · rw [ends_runsL_cons, ← h3]; rfl

theorem groupBy_feed_panic (hF : ∀ a b, ¬ P a ∨ ¬ P b → F a b = .panic) (xs : List α) :
    (∀ p, ¬ P p ∨ (∃ x ∈ xs, ¬ P x) → feedOut (groupByStage F) (.consumed p) xs = .panic ∨
      ∃ s ys, feedOut (groupByStage F) (.consumed p) xs = .ok (s, ys) ∧ Drains (groupByStage F) s .panic) ∧
    (∀ a b, ¬ P b ∧ xs ≠ [] ∨ (∃ x ∈ xs, ¬ P x) → feedOut (groupByStage F) (.lazy a b) xs = .panic ∨
      ∃ s ys, feedOut (groupByStage F) (.lazy a b) xs = .ok (s, ys) ∧ Drains (groupByStage F) s .panic) := by
  have step : ∀ (s s' : GroupByState α) (o : Option (α × α)) (x : α) (xs : List α),
      groupByAdapt F s x = .ok (s', .cont o) →
      (feedOut (groupByStage F) s' xs = .panic ∨
        ∃ t ys, feedOut (groupByStage F) s' xs = .ok (t, ys) ∧ Drains (groupByStage F) t .panic) →
      feedOut (groupByStage F) s (x :: xs) = .panic ∨
        ∃ t ys, feedOut (groupByStage F) s (x :: xs) = .ok (t, ys) ∧ Drains (groupByStage F) t .panic := by
    intro s s' o x xs ha h
    rw [feedOut]
    simp only [ha]
    cases o with
    | none => exact h
    | some o =>
      rcases h with h | ⟨t, ys, h1, h2⟩
      · left
        exact congrArg (fun z => Res.bind z _) h
      · right
        exact ⟨t, o :: ys, congrArg (fun z => Res.bind z _) h1, h2⟩
  induction xs with
  | nil =>
    constructor
    · intro p hp
      simp only [List.not_mem_nil, false_and, exists_false, or_false] at hp
      right
      refine ⟨.consumed p, [], rfl, ?_⟩
      have := Drains.panic (a := groupByStage F) (s := GroupByState.consumed p)
        (by simp only [groupByFin, hF p p (Or.inl hp)])
      exact this
    · intro a b h
      simp at h
  | cons x xs ih =>
    obtain ⟨ih1, ih2⟩ := ih
    have hbad : ∀ p, ¬ P p ∨ ¬ P x → groupByAdapt F (.consumed p) x = .panic := by
      intro p hp
      simp only [groupByAdapt, hF p x hp]
    have hbad2 : ∀ a b, ¬ P b ∨ ¬ P x → groupByAdapt F (.lazy a b) x = .panic := by
      intro a b hp
      simp only [groupByAdapt, hF b x hp]
    constructor
    · intro p hp
      by_cases hpx : ¬ P p ∨ ¬ P x
      · left; rw [feedOut]; simp only [hbad p hpx]
      · have hrest : ∃ y ∈ xs, ¬ P y := by
          rcases hp with h | ⟨y, hy, h⟩
          · exact absurd (Or.inl h) hpx
          · rcases List.mem_cons.1 hy with h' | h'
            · subst h'; exact absurd (Or.inr h) hpx
            · exact ⟨y, h', h⟩
        rcases hfx : F p x with b | _
        · cases b with
          | true => exact step _ (.lazy p x) none _ _ (by simp only [groupByAdapt, hfx]) (ih2 p x (Or.inr hrest))
          | false =>
            rcases hfp : F p p with b | _
            · cases b with
              | true => exact step _ (.consumed x) (some (p, p)) _ _ (by simp only [groupByAdapt, hfx, hfp]) (ih1 x (Or.inr hrest))
              | false => exact step _ (.consumed p) none _ _ (by simp only [groupByAdapt, hfx, hfp]) (ih1 p (Or.inr hrest))
            · left; rw [feedOut]; simp only [groupByStage, groupByAdapt, hfx, hfp]
        · left; rw [feedOut]; simp only [groupByStage, groupByAdapt, hfx]
    · intro a b hp
      by_cases hpx : ¬ P b ∨ ¬ P x
      · left; rw [feedOut]; simp only [hbad2 a b hpx]
      · have hrest : ∃ y ∈ xs, ¬ P y := by
          rcases hp with ⟨h, -⟩ | ⟨y, hy, h⟩
          · exact absurd (Or.inl h) hpx
          · rcases List.mem_cons.1 hy with h' | h'
            · subst h'; exact absurd (Or.inr h) hpx
            · exact ⟨y, h', h⟩
        rcases hfx : F b x with c | _
        · cases c with
          | true => exact step _ (.lazy a x) none _ _ (by simp only [groupByAdapt, hfx]) (ih2 a x (Or.inr hrest))
          | false => exact step _ (.consumed x) (some (a, b)) _ _ (by simp only [groupByAdapt, hfx]) (ih1 x (Or.inr hrest))
        · left; rw [feedOut]; simp only [groupByStage, groupByAdapt, hfx]

/-- Every input of `groupby` reaches the closure: if the closure panics on some input, whatever the other
argument, so does `groupby`. -/
theorem outs_groupBy_panic (hF : ∀ a b, ¬ P a ∨ ¬ P b → F a b = .panic) (xs : List α) (h : ∃ x ∈ xs, ¬ P x) :
    Outs (groupByStage F) xs .panic := by
  cases xs with
  | nil => simp at h
  | cons x xs =>
    have h' : ¬ P x ∨ ∃ y ∈ xs, ¬ P y := by
      obtain ⟨y, hy, h⟩ := h
      rcases List.mem_cons.1 hy with h' | h'
      · subst h'; exact Or.inl h
      · exact Or.inr ⟨y, h', h⟩
    have hs : feedOut (groupByStage F) .empty (x :: xs) = feedOut (groupByStage F) (.consumed x) xs := by
      rw [feedOut]; rfl
    rcases (groupBy_feed_panic hF xs).1 x h' with h1 | ⟨s, ys, h1, h2⟩
    · exact Or.inl ⟨hs.trans h1, rfl⟩
    · exact Or.inr ⟨s, ys, .panic, hs.trans h1, h2, rfl⟩

end

end Verif
