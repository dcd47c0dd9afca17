import Verif.Model.Effect

/-! # Closures without effects: the model with effects is the model without -/

set_option linter.unusedSimpArgs false

namespace Verif

/-- A closure without effects, as one with effects. -/
def Res.eff {W α : Type} (r : Res α) : Eff W α := fun w => (w, r)

theorem bind_apply {W α β : Type} (x : Eff W α) (f : α → Eff W β) (w : W) :
    x.bind f w = match x w with
      | (w', .panic) => (w', .panic)
      | (w', .ok a) => f a w' := rfl

theorem bind_ok {W α β : Type} {x : Eff W α} {f : α → Eff W β} {w w' : W} {a : α} (h : x w = (w', .ok a)) :
    x.bind f w = f a w' := by rw [bind_apply, h]

theorem bind_panic {W α β : Type} {x : Eff W α} {f : α → Eff W β} {w w' : W} (h : x w = (w', .panic)) :
    x.bind f w = (w', .panic) := by rw [bind_apply, h]

theorem ok_bind {W α β : Type} (a : α) (f : α → Eff W β) : (Eff.ok a).bind f = f a := rfl

theorem bind_assoc {W α β γ : Type} (x : Eff W α) (f : α → Eff W β) (g : β → Eff W γ) :
    (x.bind f).bind g = x.bind fun a => (f a).bind g := by
  funext w
  simp only [bind_apply]
  rcases x w with ⟨w', _ | _⟩ <;> rfl

/-- A stage without effects. -/
@[reducible] def Stage.lift (W : Type) {α β : Type} (a : Stage α β) : StageE W α β where
  σ := a.σ
  init := a.init
  adapt s x := (a.adapt s x).eff
  fin s := fun w => (a.fin s).map fun r => (w, r)

/-- A reducer without effects. -/
@[reducible] def Red.lift (W : Type) {α ρ : Type} (r : Red α ρ) : RedE W α ρ where
  σ := r.σ
  init := r.init
  next s x := (r.next s x).eff
  fin s := fun w => (r.fin s).map fun q => (w, q)

/-- The chain with the same closures. -/
def Chain.lift (W : Type) {α : Type} : {β : Type} → Chain α β → ChainE W α β
  | _, .nil => .nil
  | _, .filter c f => .filter (c.lift W) fun x => (f x).eff
  | _, .map c f => .map (c.lift W) fun x => (f x).eff
  | _, .groupby c f => .groupby (c.lift W) fun x y => (f x y).eff
  | _, .merge K c f key => .merge K (c.lift W) (fun x y => (f x y).eff) fun x => .ok (key x)

theorem filterStageE_lift (W : Type) {α : Type} (f : α → Res Bool) :
    filterStageE (fun x => (f x).eff) = (filterStage f).lift W := by
  unfold filterStageE filterStage Stage.lift
  congr 1
  funext s x w
  simp only [bind_apply, Res.eff]
  rcases f x with b | _
  · cases b <;> rfl
  · rfl

theorem mapStageE_lift (W : Type) {α β : Type} (f : α → Res β) :
    mapStageE (fun x => (f x).eff) = (mapStage f).lift W := by
  unfold mapStageE mapStage Stage.lift
  congr 1
  funext s x w
  simp only [bind_apply, Res.eff]
  rcases f x with b | _ <;> rfl

theorem groupByStageE_lift (W : Type) {α : Type} (f : α → α → Res Bool) :
    groupByStageE (fun x y => (f x y).eff) = (groupByStage f).lift W := by
  unfold groupByStageE groupByStage Stage.lift
  congr 1
  · funext s x w
    cases s with
    | empty => rfl
    | consumed p =>
      simp only [groupByAdaptE, groupByAdapt, bind_apply, Res.eff]
      rcases f p x with b | _
      · cases b with
        | true => rfl
        | false =>
          simp only [Bool.false_eq_true, if_false, bind_apply]
          rcases f p p with b | _
          · cases b <;> rfl
          · rfl
      · rfl
    | lazy a b =>
      simp only [groupByAdaptE, groupByAdapt, bind_apply, Res.eff]
      rcases f b x with b | _
      · cases b <;> rfl
      · rfl
  · funext s w
    cases s with
    | empty => rfl
    | consumed p =>
      simp only [groupByFinE, groupByFin, bind_apply, Res.eff, Option.map_some]
      rcases f p p with b | _
      · cases b <;> rfl
      · rfl
    | lazy a b => rfl

theorem mergeFindE_lift (W : Type) {α κ : Type} (f : α → α → Res (Option α)) (next : α) (l : List (κ × α)) :
    mergeFindE (W := W) (fun x y => (f x y).eff) next l = (mergeFind f next l).eff := by
  induction l with
  | nil => rfl
  | cons x l ih =>
    obtain ⟨k, p⟩ := x
    funext w
    simp only [mergeFindE, mergeFind, bind_apply, Res.eff]
    rcases f p next with o | _
    · cases o with
      | none => exact congrFun ih w
      | some v => rfl
    · rfl

theorem mergeStageE_lift (W : Type) {α κ : Type} [Key κ] (f : α → α → Res (Option α)) (key : α → κ) :
    mergeStageE (fun x y => (f x y).eff) (fun x => .ok (key x)) = (mergeStage f key).lift W := by
  unfold mergeStageE mergeStage Stage.lift
  congr 1
  funext s x w
  simp only [mergeAdaptE, mergeFindE_lift, mergeAdapt, bind_apply, Res.eff]
  rcases mergeFind f x s.1 with o | _
  · rcases o with _ | ⟨p, v⟩ <;> rfl
  · rfl

theorem adapterFinE_lift (W : Type) {α β γ : Type} (i : Stage β γ) (a : Stage α β) (si : i.σ) (sa : a.σ) (w : W) :
    adapterFinE (i.lift W) (a.lift W) si sa w = (adapterFin i a si sa).map fun r => (w, r) := by
  have h1 : ∀ sa r, adapterFin i a si sa = some r → adapterFinE (i.lift W) (a.lift W) si sa w = some (w, r) := by
    apply adapterFin.partial_correctness i a si
    intro f ih sa r h
    rw [adapterFinE]
    simp only at h ⊢
    cases ha : a.fin sa with
    | none => rw [ha] at h; cases h
    | some q =>
      rw [ha] at h
      simp only [Option.map_some]
      rcases q with ⟨sa', fl⟩ | _
      · rcases fl with _ | o
        · simp only at h ⊢
          cases hi : i.fin si with
          | none => rw [hi] at h; cases h
          | some q =>
            rw [hi] at h
            simp only [Option.map_some]
            rcases q with ⟨si', r'⟩ | _ <;> cases h <;> rfl
        · cases o with
          | none => simp only at h ⊢; exact ih _ _ h
          | some o =>
            simp only [bind_apply, Res.eff] at h ⊢
            rcases hi : i.adapt si o with ⟨si', r'⟩ | _ <;> rw [hi] at h <;> cases h <;> rfl
      · cases h; rfl
  have h2 : ∀ sa (w : W) q, adapterFinE (i.lift W) (a.lift W) si sa w = some q →
      q.1 = w ∧ adapterFin i a si sa = some q.2 := by
    apply adapterFinE.partial_correctness (i.lift W) (a.lift W) si
    intro f ih sa w r h
    rw [adapterFin]
    simp only at h ⊢
    cases ha : a.fin sa with
    | none => rw [ha] at h; cases h
    | some q =>
      rw [ha] at h
      simp only [Option.map_some] at h ⊢
      rcases q with ⟨sa', fl⟩ | _
      · rcases fl with _ | o
        · simp only at h ⊢
          cases hi : i.fin si with
          | none => rw [hi] at h; cases h
          | some q =>
            rw [hi] at h
            simp only [Option.map_some] at h ⊢
            rcases q with ⟨si', r'⟩ | _ <;> cases h <;> exact ⟨rfl, rfl⟩
        · cases o with
          | none => simp only at h ⊢; exact ih _ _ _ h
          | some o =>
            simp only [bind_apply, Res.eff] at h ⊢
            rcases hi : i.adapt si o with ⟨si', r'⟩ | _ <;> rw [hi] at h <;> cases h <;> exact ⟨rfl, rfl⟩
      · cases h; exact ⟨rfl, rfl⟩
  cases hp : adapterFin i a si sa with
  | some r => exact h1 sa r hp
  | none =>
    cases hq : adapterFinE (i.lift W) (a.lift W) si sa w with
    | none => rfl
    | some q => have := (h2 sa w q hq).2; rw [hp] at this; cases this

theorem adapterE_lift (W : Type) {α β γ : Type} (i : Stage β γ) (a : Stage α β) :
    adapterE (i.lift W) (a.lift W) = (adapter i a).lift W := by
  unfold adapterE adapter Stage.lift
  congr 1
  · funext s x w
    simp only [bind_apply, Res.eff]
    rcases a.adapt s.2 x with ⟨sa', fl⟩ | _
    · rcases fl with _ | o
      · rfl
      · cases o with
        | none => rfl
        | some o =>
          simp only [bind_apply]
          rcases i.adapt s.1 o with ⟨si', r'⟩ | _ <;> rfl
    · rfl
  · funext s w
    exact adapterFinE_lift W i a s.1 s.2 w

theorem chain_lift (W : Type) {α β : Type} (c : Chain α β) : (c.lift W).stage = c.stage.lift W := by
  induction c with
  | nil => rfl
  | filter c f ih => rw [Chain.lift, ChainE.stage, ih, filterStageE_lift, adapterE_lift]; rfl
  | map c f ih => rw [Chain.lift, ChainE.stage, ih, mapStageE_lift, adapterE_lift]; rfl
  | groupby c f ih => rw [Chain.lift, ChainE.stage, ih, groupByStageE_lift, adapterE_lift]; rfl
  | merge K c f key ih => rw [Chain.lift, ChainE.stage, ih, mergeStageE_lift, adapterE_lift]; rfl

theorem reducerDrainE_lift (W : Type) {α β ρ : Type} (r : Red β ρ) (a : Stage α β) (sr : r.σ) (sa : a.σ) (w : W) :
    reducerDrainE (r.lift W) (a.lift W) sr sa w = (reducerDrain r a sr sa).map fun q => (w, q) := by
  have h1 : ∀ sr sa q, reducerDrain r a sr sa = some q → reducerDrainE (r.lift W) (a.lift W) sr sa w = some (w, q) := by
    apply reducerDrain.partial_correctness
    intro f ih sr sa q h
    rw [reducerDrainE]
    simp only at h ⊢
    cases ha : a.fin sa with
    | none => rw [ha] at h; cases h
    | some p =>
      rw [ha] at h
      simp only [Option.map_some]
      rcases p with ⟨sa', fl⟩ | _
      · rcases fl with _ | o
        · cases h; rfl
        · cases o with
          | none => simp only at h ⊢; exact ih _ _ _ h
          | some o =>
            simp only [Res.eff] at h ⊢
            rcases hr : r.next sr o with sr' | _
            · rw [hr] at h; exact ih _ _ _ h
            · rw [hr] at h; cases h; rfl
      · cases h; rfl
  have h2 : ∀ sr sa (w : W) q, reducerDrainE (r.lift W) (a.lift W) sr sa w = some q →
      q.1 = w ∧ reducerDrain r a sr sa = some q.2 := by
    apply reducerDrainE.partial_correctness
    intro f ih sr sa w q h
    rw [reducerDrain]
    simp only at h ⊢
    cases ha : a.fin sa with
    | none => rw [ha] at h; cases h
    | some p =>
      rw [ha] at h
      simp only [Option.map_some] at h ⊢
      rcases p with ⟨sa', fl⟩ | _
      · rcases fl with _ | o
        · cases h; exact ⟨rfl, rfl⟩
        · cases o with
          | none => simp only at h ⊢; exact ih _ _ _ _ h
          | some o =>
            simp only [Res.eff] at h ⊢
            rcases hr : r.next sr o with sr' | _
            · rw [hr] at h; exact ih _ _ _ _ h
            · rw [hr] at h; cases h; exact ⟨rfl, rfl⟩
      · cases h; exact ⟨rfl, rfl⟩
  cases hp : reducerDrain r a sr sa with
  | some q => exact h1 sr sa q hp
  | none =>
    cases hq : reducerDrainE (r.lift W) (a.lift W) sr sa w with
    | none => rfl
    | some q => have := (h2 sr sa w q hq).2; rw [hp] at this; cases this

theorem reducerE_lift (W : Type) {α β ρ : Type} (r : Red β ρ) (a : Stage α β) :
    reducerE (r.lift W) (a.lift W) = (reducer r a).lift W := by
  unfold reducerE reducer Stage.lift Red.lift
  congr 1
  · funext s x w
    simp only [bind_apply, Res.eff]
    rcases a.adapt s.2 x with ⟨sa', fl⟩ | _
    · rcases fl with _ | o
      · rfl
      · cases o with
        | none => rfl
        | some o =>
          simp only [bind_apply]
          rcases r.next s.1 o with sr' | _ <;> rfl
    · rfl
  · funext s w
    have h := reducerDrainE_lift W r a s.1 s.2 w
    unfold Stage.lift Red.lift at h
    dsimp only
    rw [h]
    rcases reducerDrain r a s.1 s.2 with _ | q
    · rfl
    · cases q <;> rfl

theorem foldRedE_lift (W : Type) {α ι : Type} (i0 : ι) (f : ι → α → Res ι) :
    foldRedE i0 (fun i x => (f i x).eff) = (foldRed i0 f).lift W := rfl

theorem forkRedE_lift (W : Type) {α ρ τ : Type} (r1 : Red α ρ) (r2 : Red α τ) :
    forkRedE (r1.lift W) (r2.lift W) = (forkRed r1 r2).lift W := by
  unfold forkRedE forkRed Red.lift
  congr 1
  · funext s x w
    simp only [bind_apply, Res.eff]
    rcases r1.next s.1 x with s1 | _
    · simp only [bind_apply]
      rcases r2.next s.2 x with s2 | _ <;> rfl
    · rfl
  · funext s w
    dsimp only
    rcases r1.fin s.1 with _ | q
    · rfl
    · rcases q with a | _
      · simp only [Option.map_some]
        rcases r2.fin s.2 with _ | q
        · rfl
        · cases q <;> rfl
      · rfl

theorem splitFinE_lift (W : Type) {α κ ρ : Type} [Key κ] (redfn : κ → Red α ρ) (acc : OrdMap κ ρ)
    (l : List (κ × ((k : κ) × (redfn k).σ))) (w : W) :
    splitFinE (fun k => (redfn k).lift W) acc l w = (splitFin redfn acc l).map fun q => (w, q) := by
  induction l generalizing acc with
  | nil => rfl
  | cons x l ih =>
    obtain ⟨k, v⟩ := x
    rw [splitFinE, splitFin]
    dsimp only
    rcases (redfn v.1).fin v.2 with _ | q
    · rfl
    · rcases q with r | _
      · exact ih _
      · rfl

theorem splitRedE_lift (W : Type) {α κ ρ : Type} [Key κ] (keyfn : α → Res κ) (redfn : κ → Red α ρ) :
    splitRedE (fun x => (keyfn x).eff) (fun _ => .ok ()) (fun k => (redfn k).lift W) = (splitRed keyfn redfn).lift W := by
  unfold splitRedE splitRed Red.lift
  congr 1
  · funext m x w
    simp only [splitNextE, splitNext, bind_apply, Res.eff]
    rcases keyfn x with k | _
    · simp only [ok_bind, bind_apply]
      rcases (redfn ((m.get k).getD ⟨k, (redfn k).init⟩).1).next ((m.get k).getD ⟨k, (redfn k).init⟩).2 x with s' | _ <;> rfl
    · rfl
  · funext m w
    exact splitFinE_lift W redfn [] m w

theorem feedE_lift (W : Type) {α ρ : Type} (r : Red α ρ) (s : r.σ) (xs : List α) :
    feedE (r.lift W) s xs = (feed r s xs).eff := by
  induction xs generalizing s with
  | nil => rfl
  | cons x xs ih =>
    funext w
    simp only [feedE, feed, bind_apply, Res.eff]
    rcases r.next s x with s' | _
    · exact congrFun (ih s') w
    · rfl

theorem runRedE_lift (W : Type) {α ρ : Type} (r : Red α ρ) (xs : List α) (w : W) :
    runRedE (r.lift W) xs w = (runRed r xs).map fun q => (w, q) := by
  unfold runRedE runRed
  have h := congrFun (feedE_lift W r r.init xs) w
  rw [show (r.lift W).init = r.init from rfl, h]
  simp only [Res.eff]
  rcases feed r r.init xs with s | _ <;> rfl

end Verif
