import Verif.Lemmas.PullEffect

/-! # Iterators without effects: the model with effects is the model without -/

set_option linter.unusedSimpArgs false

namespace Verif

/-- An iterator without effects. -/
@[reducible] def Pull.lift (W : Type) {α : Type} (it : Pull α) : PullE W α where
  σ := it.σ
  next s := fun w => (it.next s).map fun q => (w, q)

theorem fromAdaptFinE_lift (W : Type) {α β : Type} (a : Stage α β) (sa : a.σ) (w : W) :
    fromAdaptFinE (a.lift W) sa w = (fromAdaptFin a sa).map fun q => (w, q) := by
  have h1 : ∀ sa q, fromAdaptFin a sa = some q → fromAdaptFinE (a.lift W) sa w = some (w, q) := by
    apply fromAdaptFin.partial_correctness
    intro f ih sa q h
    rw [fromAdaptFinE]
    simp only at h ⊢
    cases ha : a.fin sa with
    | none => rw [ha] at h; cases h
    | some p =>
      rw [ha] at h
      simp only [Option.map_some]
      rcases p with ⟨sa', fl⟩ | _
      · rcases fl with _ | o
        · cases h; rfl
        · cases o with
          | none => simp only at h ⊢; exact ih _ _ h
          | some o => cases h; rfl
      · cases h; rfl
  have h2 : ∀ sa (w : W) q, fromAdaptFinE (a.lift W) sa w = some q → q.1 = w ∧ fromAdaptFin a sa = some q.2 := by
    apply fromAdaptFinE.partial_correctness
    intro f ih sa w q h
    rw [fromAdaptFin]
    simp only at h ⊢
    cases ha : a.fin sa with
    | none => rw [ha] at h; cases h
    | some p =>
      rw [ha] at h
      simp only [Option.map_some] at h ⊢
      rcases p with ⟨sa', fl⟩ | _
      · rcases fl with _ | o
        · cases h; exact ⟨rfl, rfl⟩
        · cases o with
          | none => simp only at h ⊢; exact ih _ _ _ h
          | some o => cases h; exact ⟨rfl, rfl⟩
      · cases h; exact ⟨rfl, rfl⟩
  cases hp : fromAdaptFin a sa with
  | some q => exact h1 sa q hp
  | none =>
    cases hq : fromAdaptFinE (a.lift W) sa w with
    | none => rfl
    | some q => have := (h2 sa w q hq).2; rw [hp] at this; cases this

theorem fromAdaptNextE_lift (W : Type) {α β : Type} (a : Stage α β) (it : Pull α) (sa : a.σ) (si : it.σ) (w : W) :
    fromAdaptNextE (a.lift W) (it.lift W) sa si w = (fromAdaptNext a it sa si).map fun q => (w, q) := by
  have h1 : ∀ sa si q, fromAdaptNext a it sa si = some q → fromAdaptNextE (a.lift W) (it.lift W) sa si w = some (w, q) := by
    apply fromAdaptNext.partial_correctness
    intro f ih sa si q h
    rw [fromAdaptNextE]
    simp only at h ⊢
    rcases hi : it.next si with _ | ⟨si', o⟩ | _
    · rw [hi] at h; cases h
    · rw [hi] at h
      cases o with
      | none =>
        simp only [Option.map_some, fromAdaptFinE_lift] at h ⊢
        rcases hf : fromAdaptFin a sa with _ | ⟨sa', o⟩ | _
        · rw [hf] at h; cases h
        · rw [hf] at h; cases h; rfl
        · rw [hf] at h; cases h; rfl
      | some x =>
        simp only [Option.map_some, Res.eff] at h ⊢
        rcases ha : a.adapt sa x with ⟨sa', fl⟩ | _
        · rw [ha] at h
          rcases fl with _ | o
          · simp only [fromAdaptFinE_lift] at h ⊢
            rcases hf : fromAdaptFin a sa' with _ | ⟨sa'', o⟩ | _
            · rw [hf] at h; cases h
            · rw [hf] at h; cases h; rfl
            · rw [hf] at h; cases h; rfl
          · cases o with
            | none => exact ih _ _ _ h
            | some o => cases h; rfl
        · rw [ha] at h; cases h; rfl
    · rw [hi] at h; cases h; rfl
  have h2 : ∀ sa si (w : W) q, fromAdaptNextE (a.lift W) (it.lift W) sa si w = some q → q.1 = w ∧ fromAdaptNext a it sa si = some q.2 := by
    apply fromAdaptNextE.partial_correctness
    intro f ih sa si w q h
    rw [fromAdaptNext]
    simp only at h ⊢
    rcases hi : it.next si with _ | ⟨si', o⟩ | _
    · rw [hi] at h; cases h
    · rw [hi] at h
      cases o with
      | none =>
        simp only [Option.map_some, fromAdaptFinE_lift] at h ⊢
        rcases hf : fromAdaptFin a sa with _ | ⟨sa', o⟩ | _
        · rw [hf] at h; cases h
        · rw [hf] at h; cases h; exact ⟨rfl, rfl⟩
        · rw [hf] at h; cases h; exact ⟨rfl, rfl⟩
      | some x =>
        simp only [Option.map_some, Res.eff] at h ⊢
        rcases ha : a.adapt sa x with ⟨sa', fl⟩ | _
        · rw [ha] at h
          rcases fl with _ | o
          · simp only [fromAdaptFinE_lift] at h ⊢
            rcases hf : fromAdaptFin a sa' with _ | ⟨sa'', o⟩ | _
            · rw [hf] at h; cases h
            · rw [hf] at h; cases h; exact ⟨rfl, rfl⟩
            · rw [hf] at h; cases h; exact ⟨rfl, rfl⟩
          · cases o with
            | none => exact ih _ _ _ _ h
            | some o => cases h; exact ⟨rfl, rfl⟩
        · rw [ha] at h; cases h; exact ⟨rfl, rfl⟩
    · rw [hi] at h; cases h; exact ⟨rfl, rfl⟩
  cases hp : fromAdaptNext a it sa si with
  | some q => exact h1 sa si q hp
  | none =>
    cases hq : fromAdaptNextE (a.lift W) (it.lift W) sa si w with
    | none => rfl
    | some q => have := (h2 sa si w q hq).2; rw [hp] at this; cases this

theorem pullFilterNextE_lift (W : Type) {α : Type} (f : α → Res Bool) (it : Pull α) (si : it.σ) (w : W) :
    pullFilterNextE (fun x => (f x).eff) (it.lift W) si w = (pullFilterNext f it si).map fun q => (w, q) := by
  have h1 : ∀ si q, pullFilterNext f it si = some q → pullFilterNextE (fun x => (f x).eff) (it.lift W) si w = some (w, q) := by
    apply pullFilterNext.partial_correctness
    intro g ih si q h
    rw [pullFilterNextE]
    simp only at h ⊢
    rcases hi : it.next si with _ | ⟨si', o⟩ | _
    · rw [hi] at h; cases h
    · rw [hi] at h
      cases o with
      | none => cases h; rfl
      | some x =>
        simp only [Option.map_some, Res.eff] at h ⊢
        rcases ha : f x with b | _
        · rw [ha] at h
          cases b with
          | true => cases h; rfl
          | false => exact ih _ _ h
        · rw [ha] at h; cases h; rfl
    · rw [hi] at h; cases h; rfl
  have h2 : ∀ si (w : W) q, pullFilterNextE (fun x => (f x).eff) (it.lift W) si w = some q → q.1 = w ∧ pullFilterNext f it si = some q.2 := by
    apply pullFilterNextE.partial_correctness
    intro g ih si w q h
    rw [pullFilterNext]
    simp only at h ⊢
    rcases hi : it.next si with _ | ⟨si', o⟩ | _
    · rw [hi] at h; cases h
    · rw [hi] at h
      cases o with
      | none => cases h; exact ⟨rfl, rfl⟩
      | some x =>
        simp only [Option.map_some, Res.eff] at h ⊢
        rcases ha : f x with b | _
        · rw [ha] at h
          cases b with
          | true => cases h; exact ⟨rfl, rfl⟩
          | false => exact ih _ _ _ h
        · rw [ha] at h; cases h; exact ⟨rfl, rfl⟩
    · rw [hi] at h; cases h; exact ⟨rfl, rfl⟩
  cases hp : pullFilterNext f it si with
  | some q => exact h1 si q hp
  | none =>
    cases hq : pullFilterNextE (fun x => (f x).eff) (it.lift W) si w with
    | none => rfl
    | some q => have := (h2 si w q hq).2; rw [hp] at this; cases this

theorem pullReduceFromE_lift (W : Type) {α ρ : Type} (r : Red α ρ) (it : Pull α) (sr : r.σ) (si : it.σ) (w : W) :
    pullReduceFromE (r.lift W) (it.lift W) sr si w = (pullReduceFrom r it sr si).map fun q => (w, q) := by
  have h1 : ∀ sr si q, pullReduceFrom r it sr si = some q → pullReduceFromE (r.lift W) (it.lift W) sr si w = some (w, q) := by
    apply pullReduceFrom.partial_correctness
    intro g ih sr si q h
    rw [pullReduceFromE]
    simp only at h ⊢
    rcases hi : it.next si with _ | ⟨si', o⟩ | _
    · rw [hi] at h; cases h
    · rw [hi] at h
      cases o with
      | none =>
        simp only [Option.map_some] at h ⊢
        rw [h]
        rfl
      | some x =>
        simp only [Option.map_some, Res.eff] at h ⊢
        rcases ha : r.next sr x with sr' | _
        · rw [ha] at h; exact ih _ _ _ h
        · rw [ha] at h; cases h; rfl
    · rw [hi] at h; cases h; rfl
  have h2 : ∀ sr si (w : W) q, pullReduceFromE (r.lift W) (it.lift W) sr si w = some q → q.1 = w ∧ pullReduceFrom r it sr si = some q.2 := by
    apply pullReduceFromE.partial_correctness
    intro g ih sr si w q h
    rw [pullReduceFrom]
    simp only at h ⊢
    rcases hi : it.next si with _ | ⟨si', o⟩ | _
    · rw [hi] at h; cases h
    · rw [hi] at h
      cases o with
      | none =>
        simp only [Option.map_some] at h ⊢
        rcases hr : r.fin sr with _ | q'
        · rw [hr] at h; cases h
        · rw [hr] at h; cases h; exact ⟨rfl, rfl⟩
      | some x =>
        simp only [Option.map_some, Res.eff] at h ⊢
        rcases ha : r.next sr x with sr' | _
        · rw [ha] at h; exact ih _ _ _ _ h
        · rw [ha] at h; cases h; exact ⟨rfl, rfl⟩
    · rw [hi] at h; cases h; exact ⟨rfl, rfl⟩
  cases hp : pullReduceFrom r it sr si with
  | some q => exact h1 sr si q hp
  | none =>
    cases hq : pullReduceFromE (r.lift W) (it.lift W) sr si w with
    | none => rfl
    | some q => have := (h2 sr si w q hq).2; rw [hp] at this; cases this

theorem pullMapE_lift (W : Type) {α β : Type} (f : α → Res β) (it : Pull α) :
    pullMapE (fun x => (f x).eff) (it.lift W) = (pullMap f it).lift W := by
  unfold pullMapE pullMap Pull.lift
  congr 1
  funext s w
  dsimp only
  rcases it.next s with _ | ⟨s', o⟩ | _
  · rfl
  · cases o with
    | none => rfl
    | some x =>
      simp only [Option.map_some, Res.eff]
      rcases f x with b | _ <;> rfl
  · rfl

theorem pullFilterE_lift (W : Type) {α : Type} (f : α → Res Bool) (it : Pull α) :
    pullFilterE (fun x => (f x).eff) (it.lift W) = (pullFilter f it).lift W := by
  unfold pullFilterE pullFilter
  congr 1
  funext s w
  exact pullFilterNextE_lift W f it s w

theorem fromAdaptE_lift (W : Type) {α β : Type} (a : Stage α β) (it : Pull α) :
    fromAdaptE (a.lift W) (it.lift W) = (fromAdapt a it).lift W := by
  unfold fromAdaptE fromAdapt
  congr 1
  funext s w
  exact fromAdaptNextE_lift W a it s.1 s.2 w

end Verif
