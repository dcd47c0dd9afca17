import Verif.Model.Ripdlt
import Verif.Lemmas.Split

/-! # Reducers whose `finalize` returns -/

set_option linter.unusedSimpArgs false

namespace Verif

/-- `finalize` returns (a value or a panic) in every state. -/
def Total {α ρ : Type} (r : Red α ρ) : Prop := ∀ s, r.fin s ≠ none

theorem total_fold {α ι : Type} (i : ι) (f : ι → α → Res ι) : Total (foldRed i f) := by
  intro s h; simp at h

theorem total_reducer {α β ρ : Type} {r : Red β ρ} {a : Stage α β} (hr : Total r) (ha : Good a) : Total (reducer r a) := by
  rintro ⟨sr, sa⟩ h
  obtain ⟨w, hw⟩ := ha.drains sa
  have hd := reducerDrain_eq (r := r) hw sr
  have hfin : (reducer r a).fin (sr, sa) = match reducerDrain r a sr sa with
    | none => none
    | some .panic => some .panic
    | some (.ok sr) => r.fin sr := rfl
  rw [hfin, hd] at h
  cases hz : (w.bind fun ws => feed r sr ws) with
  | panic => rw [hz] at h; simp at h
  | ok s' => rw [hz] at h; exact hr s' h

theorem total_fork {α ρ τ : Type} {r1 : Red α ρ} {r2 : Red α τ} (h1 : Total r1) (h2 : Total r2) : Total (forkRed r1 r2) := by
  rintro ⟨s1, s2⟩ h
  simp only [forkRed] at h
  have a := h1 s1
  have b := h2 s2
  rcases e1 : r1.fin s1 with _ | _ | _
  · exact a e1
  · rcases e2 : r2.fin s2 with _ | _ | _
    · exact b e2
    · simp [e1, e2] at h
    · simp [e1, e2] at h
  · simp [e1] at h

theorem total_split {α κ ρ : Type} [Key κ] {keyfn : α → Res κ} {redfn : κ → Red α ρ} (h : ∀ k, Total (redfn k)) :
    Total (splitRed keyfn redfn) := by
  intro m hm
  have : ∀ acc l, splitFin redfn acc l ≠ none := by
    intro acc l
    induction l generalizing acc with
    | nil => simp [splitFin]
    | cons x l ih =>
      obtain ⟨k, v⟩ := x
      rw [splitFin]
      have hv := h v.1 v.2
      rcases e : (redfn v.1).fin v.2 with _ | _ | _
      · exact absurd e hv
      · exact ih _
      · simp
  exact this _ _ hm

theorem total_count {α : Type} : Total (genCount α) := total_reducer (total_fold _ _) (good_nil α)

theorem total_run {α ρ : Type} {r : Red α ρ} (h : Total r) (xs : List α) : runRed r xs ≠ none := by
  rw [runRed_eq]
  cases feed r r.init xs with
  | panic => simp [Res.andThen]
  | ok s => exact h s

/-- A reducer that returns no value panics. -/
theorem total_panic {α ρ : Type} {r : Red α ρ} (h : Total r) {xs : List α} (hx : ∀ v, runRed r xs ≠ some (.ok v)) :
    runRed r xs = some .panic := by
  have := total_run h xs
  rcases hr : runRed r xs with _ | _ | _
  · exact absurd hr this
  · exact absurd hr (hx _)
  · rfl

/-- `split` panics if the reducer of some key does. -/
theorem split_panic {α κ ρ : Type} [Key κ] [DecidableEq κ] {keyfn : α → Res κ} {key : α → κ} {redfn : κ → Red α ρ}
    (h : ∀ k, Total (redfn k)) (xs : List α) (hx : ∀ x ∈ xs, keyfn x = .ok (key x)) {x : α} (hm : x ∈ xs)
    (hp : runRed (redfn (key x)) (xs.filter fun y => decide (key y = key x)) = some .panic) :
    runRed (splitRed keyfn redfn) xs = some .panic := by
  refine total_panic (total_split h) fun m hr => ?_
  obtain ⟨h1, h2, h3⟩ := (runRed_split_iff xs hx m).1 hr
  obtain ⟨⟨k, v⟩, hy, he⟩ := List.mem_map.1 ((h2 (key x)).2 (List.mem_map_of_mem hm))
  simp only at he; subst he
  have := h3 _ _ hy
  rw [hp] at this
  simp at this

end Verif
