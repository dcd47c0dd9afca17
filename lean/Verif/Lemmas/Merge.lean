import Verif.Lemmas.Runs
import Verif.Lemmas.OrdMap

/-! # Lemmas about merge -/

set_option linter.unusedSimpArgs false

namespace Verif

open Spec

section
variable {α κ : Type} [Key κ] (f : α → α → Option α) (key : α → κ)

/-- The entry `merge` picks for `next`, with the merged value. -/
def mergePick (next : α) : List (κ × α) → Option (α × α)
  | [] => none
  | (_, prev) :: rest =>
    match f prev next with
    | some val => some (prev, val)
    | none => mergePick next rest

/-- One step of `merge` on its map. -/
def mergeStep (m : OrdMap κ α) (next : α) : OrdMap κ α :=
  match mergePick f next m with
  | some (prev, val) => (m.remove (key prev)).insert (key val) val
  | none => m.insert (key next) next

omit [Key κ] in
theorem mergeFind_eq (next : α) (m : List (κ × α)) : mergeFind (pure2 f) next m = .ok (mergePick f next m) := by
  induction m with
  | nil => rfl
  | cons x m ih =>
    obtain ⟨k, p⟩ := x
    simp only [mergeFind, mergePick, pure2]
    cases f p next with
    | none => exact ih
    | some v => rfl

omit [Key κ] in
theorem mergePick_some {next : α} {m : List (κ × α)} {p v : α} (h : mergePick f next m = some (p, v)) :
    f p next = some v ∧ ∃ k, (k, p) ∈ m := by
  induction m with
  | nil => simp [mergePick] at h
  | cons x m ih =>
    obtain ⟨k, q⟩ := x
    simp only [mergePick] at h
    cases hf : f q next with
    | none =>
      rw [hf] at h
      obtain ⟨h1, k', h2⟩ := ih h
      exact ⟨h1, k', List.mem_cons_of_mem _ h2⟩
    | some w =>
      rw [hf] at h
      simp only [Option.some.injEq, Prod.mk.injEq] at h
      obtain ⟨rfl, rfl⟩ := h
      exact ⟨hf, k, List.mem_cons_self⟩

omit [Key κ] in
theorem mergePick_none {next : α} {m : List (κ × α)} (h : mergePick f next m = none) :
    ∀ x ∈ m, f x.2 next = none := by
  induction m with
  | nil => simp
  | cons x m ih =>
    obtain ⟨k, q⟩ := x
    simp only [mergePick] at h
    cases hf : f q next with
    | some w => rw [hf] at h; simp at h
    | none =>
      rw [hf] at h
      intro y hy
      rcases List.mem_cons.1 hy with h' | h'
      · subst h'; exact hf
      · exact ih h y h'

theorem mergeAdapt_eq (m : OrdMap κ α) (it : Option (List (κ × α))) (next : α) :
    mergeAdapt (pure2 f) key (m, it) next = .ok ((mergeStep f key m next, it), .cont none) := by
  unfold mergeAdapt mergeStep
  rw [mergeFind_eq]
  cases mergePick f next m with
  | none => rfl
  | some p => rfl

theorem merge_feed (m : OrdMap κ α) (xs : List α) :
    feedOut (mergeStage (pure2 f) key) (m, none) xs = .ok ((xs.foldl (mergeStep f key) m, none), []) := by
  induction xs generalizing m with
  | nil => rfl
  | cons x xs ih =>
    rw [feedOut]
    simp only [mergeAdapt_eq]
    exact ih _

theorem outs_merge (xs : List α) :
    Outs (mergeStage (pure2 f) key) xs (.ok ((xs.foldl (mergeStep f key) []).map (·.2))) :=
  Or.inr ⟨_, [], _, merge_feed f key [] xs, merge_drains_none _ _ _, rfl⟩

/-- The map is sorted and every value is stored under its key. -/
structure MergeInv (m : OrdMap κ α) : Prop where
  sorted : m.Sorted
  keyed : ∀ x ∈ m, x.1 = key x.2

theorem mergeInv_step {m : OrdMap κ α} (h : MergeInv key m) (next : α) : MergeInv key (mergeStep f key m next) := by
  unfold mergeStep
  split
  · next p v hp =>
    refine ⟨OrdMap.sorted_insert (OrdMap.sorted_remove h.sorted _) _ _, ?_⟩
    intro x hx
    rcases OrdMap.mem_insert_sub hx with h' | h'
    · subst h'; rfl
    · exact h.keyed x (OrdMap.mem_remove_sub h')
  · refine ⟨OrdMap.sorted_insert h.sorted _ _, ?_⟩
    intro x hx
    rcases OrdMap.mem_insert_sub hx with h' | h'
    · subst h'; rfl
    · exact h.keyed x h'

theorem mergeInv_foldl {m : OrdMap κ α} (h : MergeInv key m) (xs : List α) :
    MergeInv key (xs.foldl (mergeStep f key) m) := by
  induction xs generalizing m with
  | nil => exact h
  | cons x xs ih => exact ih (mergeInv_step f key h x)

theorem mergeInv_nil : MergeInv key ([] : OrdMap κ α) := ⟨OrdMap.sorted_nil, by simp⟩

/-- Which values are in the map after a step. -/
theorem mem_mergeStep {m : OrdMap κ α} (h : MergeInv key m) (next w : α) :
    (∃ k, (k, w) ∈ mergeStep f key m next) ↔
      match mergePick f next m with
      | some (p, v) => w = v ∨ ((∃ k, (k, w) ∈ m) ∧ key w ≠ key p ∧ key w ≠ key v)
      | none => w = next ∨ ((∃ k, (k, w) ∈ m) ∧ key w ≠ key next) := by
  unfold mergeStep
  cases hp : mergePick f next m with
  | none =>
    simp only [OrdMap.mem_insert h.sorted]
    constructor
    · rintro ⟨k, h1 | ⟨h1, h2⟩⟩
      · simp only [Prod.mk.injEq] at h1; exact Or.inl h1.2
      · have hk := h.keyed _ h1; simp only at hk
        exact Or.inr ⟨⟨k, h1⟩, hk ▸ h2⟩
    · rintro (rfl | ⟨⟨k, h1⟩, h2⟩)
      · exact ⟨_, Or.inl rfl⟩
      · have hk := h.keyed _ h1; simp only at hk
        exact ⟨k, Or.inr ⟨h1, by simp only [hk]; exact h2⟩⟩
  | some pv =>
    obtain ⟨p, v⟩ := pv
    simp only [OrdMap.mem_insert (OrdMap.sorted_remove h.sorted _), OrdMap.mem_remove h.sorted]
    constructor
    · rintro ⟨k, h1 | ⟨⟨h1, h2⟩, h3⟩⟩
      · simp only [Prod.mk.injEq] at h1; exact Or.inl h1.2
      · have hk := h.keyed _ h1; simp only at hk
        exact Or.inr ⟨⟨k, h1⟩, hk ▸ h2, hk ▸ h3⟩
    · rintro (rfl | ⟨⟨k, h1⟩, h2, h3⟩)
      · exact ⟨_, Or.inl rfl⟩
      · have hk := h.keyed _ h1; simp only at hk
        exact ⟨k, Or.inr ⟨⟨h1, by simp only [hk]; exact h2⟩, by simp only [hk]; exact h3⟩⟩

variable {T : Type} (cover : α → T → Prop)

theorem merge_cover_step (hf : ∀ a b c, f a b = some c → ∀ t, cover c t ↔ cover a t ∨ cover b t)
    (hk : ∀ a b, key a = key b → ∀ t, cover a t ↔ cover b t) {m : OrdMap κ α} (h : MergeInv key m) (next : α) (t : T) :
    (∃ x ∈ mergeStep f key m next, cover x.2 t) ↔ (∃ x ∈ m, cover x.2 t) ∨ cover next t := by
  have hm := fun w => mem_mergeStep f key h next w
  have := OrdMap.decEq (κ := κ)
  constructor
  · rintro ⟨⟨k, w⟩, hw, hc⟩
    have := (hm w).1 ⟨k, hw⟩
    cases hp : mergePick f next m with
    | none =>
      rw [hp] at this
      rcases this with rfl | ⟨⟨k', h1⟩, -⟩
      · exact Or.inr hc
      · exact Or.inl ⟨_, h1, hc⟩
    | some pv =>
      obtain ⟨p, v⟩ := pv
      rw [hp] at this
      rcases this with rfl | ⟨⟨k', h1⟩, -⟩
      · obtain ⟨h1, k', h2⟩ := mergePick_some f hp
        rcases (hf _ _ _ h1 t).1 hc with h3 | h3
        · exact Or.inl ⟨_, h2, h3⟩
        · exact Or.inr h3
      · exact Or.inl ⟨_, h1, hc⟩
  · intro hc
    suffices hs : ∃ w, (∃ k, (k, w) ∈ mergeStep f key m next) ∧ cover w t by
      obtain ⟨w, ⟨k, h1⟩, h2⟩ := hs
      exact ⟨_, h1, h2⟩
    cases hp : mergePick f next m with
    | none =>
      simp only [hp] at hm
      rcases hc with ⟨⟨k, w⟩, h1, h2⟩ | h1
      · by_cases hke : key w = key next
        · exact ⟨next, (hm next).2 (Or.inl rfl), (hk _ _ hke t).1 h2⟩
        · exact ⟨w, (hm w).2 (Or.inr ⟨⟨k, h1⟩, hke⟩), h2⟩
      · exact ⟨next, (hm next).2 (Or.inl rfl), h1⟩
    | some pv =>
      obtain ⟨p, v⟩ := pv
      simp only [hp] at hm
      obtain ⟨hfv, -⟩ := mergePick_some f hp
      have hv : cover v t → ∃ w, (∃ k, (k, w) ∈ mergeStep f key m next) ∧ cover w t :=
        fun h => ⟨v, (hm v).2 (Or.inl rfl), h⟩
      rcases hc with ⟨⟨k, w⟩, h1, h2⟩ | h1
      · by_cases hke : key w = key p
        · exact hv ((hf _ _ _ hfv t).2 (Or.inl ((hk _ _ hke t).1 h2)))
        · by_cases hke' : key w = key v
          · exact hv ((hk _ _ hke' t).1 h2)
          · exact ⟨w, (hm w).2 (Or.inr ⟨⟨k, h1⟩, hke, hke'⟩), h2⟩
      · exact hv ((hf _ _ _ hfv t).2 (Or.inr h1))

theorem merge_cover_foldl (hf : ∀ a b c, f a b = some c → ∀ t, cover c t ↔ cover a t ∨ cover b t)
    (hk : ∀ a b, key a = key b → ∀ t, cover a t ↔ cover b t) {m : OrdMap κ α} (h : MergeInv key m) (xs : List α) (t : T) :
    (∃ x ∈ xs.foldl (mergeStep f key) m, cover x.2 t) ↔ (∃ x ∈ m, cover x.2 t) ∨ ∃ x ∈ xs, cover x t := by
  induction xs generalizing m with
  | nil => simp
  | cons x xs ih =>
    rw [List.foldl_cons, ih (mergeInv_step f key h x), merge_cover_step f key cover hf hk h]
    simp [or_assoc]

theorem length_mergeStep_le (m : OrdMap κ α) (next : α) :
    (mergeStep f key m next).length ≤ m.length + 1 := by
  unfold mergeStep
  split
  · next p v hp =>
    have h1 := OrdMap.length_insert_le (m.remove (key p)) (key v) v
    have h2 := OrdMap.length_remove_le m (key p)
    omega
  · exact OrdMap.length_insert_le _ _ _

theorem length_merge_le (m : OrdMap κ α) (xs : List α) :
    (xs.foldl (mergeStep f key) m).length ≤ m.length + xs.length := by
  induction xs generalizing m with
  | nil => simp
  | cons x xs ih =>
    rw [List.foldl_cons]
    have h1 := ih (mergeStep f key m x)
    have h2 := length_mergeStep_le f key m x
    simp only [List.length_cons]
    omega

/-- A property of the inputs that merging preserves holds of the outputs. -/
theorem merge_forall (P : α → Prop) (hf : ∀ a b c, P a → P b → f a b = some c → P c) {m : OrdMap κ α}
    (h : MergeInv key m) (hm : ∀ x ∈ m, P x.2) (xs : List α) (hx : ∀ x ∈ xs, P x) :
    ∀ x ∈ xs.foldl (mergeStep f key) m, P x.2 := by
  induction xs generalizing m with
  | nil => exact hm
  | cons x xs ih =>
    refine ih (mergeInv_step f key h x) ?_ (fun y hy => hx y (List.mem_cons_of_mem _ hy))
    rintro ⟨k, w⟩ hw
    have := (mem_mergeStep f key h x w).1 ⟨k, hw⟩
    cases hp : mergePick f x m with
    | none =>
      rw [hp] at this
      rcases this with rfl | ⟨⟨k', h1⟩, -⟩
      · exact hx _ List.mem_cons_self
      · exact hm (k', w) h1
    | some pv =>
      obtain ⟨p, v⟩ := pv
      rw [hp] at this
      rcases this with rfl | ⟨⟨k', h1⟩, -⟩
      · obtain ⟨h1, k', h2⟩ := mergePick_some f hp
        exact hf _ _ _ (hm _ h2) (hx _ List.mem_cons_self) h1
      · exact hm (k', w) h1

end

end Verif
