import Verif.Model.Generator

/-!
# The generators with closures that have effects

The same code as in `Model/Generator.lean`. Closures may print, count, change what they captured or share (`Cell`,
`RefCell`, `FnMut`): each call changes a world `W`. `Lemmas/Effect.lean` proves that with closures that leave the world alone
this is the model of `Model/Generator.lean`.
-/

namespace Verif

/-- A call with effects: the world afterwards, and the result or a panic. What was done before a panic stays done. -/
def Eff (W α : Type) : Type := W → W × Res α

/-- Return without an effect. -/
def Eff.ok {W α : Type} (a : α) : Eff W α := fun w => (w, .ok a)

/-- One call after the other; a panic ends the sequence. -/
def Eff.bind {W α β : Type} (x : Eff W α) (f : α → Eff W β) : Eff W β := fun w =>
  match x w with
  | (w', .panic) => (w', .panic)
  | (w', .ok a) => f a w'

/-- A call with effects that may not return. -/
def EffD (W α : Type) : Type := W → Option (W × Res α)

/-- `AdaptFnTrait` (adapter.rs:17-23), `AdapterTrait` (adapter.rs:25-33). -/
structure StageE (W α β : Type) where
  σ : Type
  init : σ
  adapt : σ → α → Eff W (σ × Flow β)
  fin : σ → EffD W (σ × Flow β)

/-- `NilAdapter` (adapter.rs:102-128). -/
@[reducible] def nilStageE (W α : Type) : StageE W α α where
  σ := Unit
  init := ()
  adapt _ next := .ok ((), .cont (some next))
  fin _ := fun w => some (w, .ok ((), .brk))

/-- `Filter` (adapter.rs:197-224). -/
@[reducible] def filterStageE {W α : Type} (f : α → Eff W Bool) : StageE W α α where
  σ := Unit
  init := ()
  adapt _ next := (f next).bind fun b => .ok ((), .cont (if b then some next else none))
  fin _ := fun w => some (w, .ok ((), .brk))

/-- `Map` (adapter.rs:226-248). -/
@[reducible] def mapStageE {W α β : Type} (f : α → Eff W β) : StageE W α β where
  σ := Unit
  init := ()
  adapt _ next := (f next).bind fun b => .ok ((), .cont (some b))
  fin _ := fun w => some (w, .ok ((), .brk))

/-- `GroupBy::adapt` (groupby.rs:36-63). -/
def groupByAdaptE {W α : Type} (f : α → α → Eff W Bool) (s : GroupByState α) (next : α) :
    Eff W (GroupByState α × Flow (α × α)) :=
  match s with
  | .empty => .ok (.consumed next, .cont none)
  | .consumed prev =>
    (f prev next).bind fun b =>
      if b then .ok (.lazy prev next, .cont none)
      else (f prev prev).bind fun b' =>
        if b' then .ok (.consumed next, .cont (some (prev, prev))) else .ok (.consumed prev, .cont none)
  | .lazy start stop =>
    (f stop next).bind fun b =>
      if b then .ok (.lazy start next, .cont none) else .ok (.consumed next, .cont (some (start, stop)))

/-- `GroupBy::finalize` (groupby.rs:66-84). -/
def groupByFinE {W α : Type} (f : α → α → Eff W Bool) (s : GroupByState α) : Eff W (GroupByState α × Flow (α × α)) :=
  match s with
  | .empty => .ok (.empty, .brk)
  | .consumed prev =>
    (f prev prev).bind fun b => if b then .ok (.empty, .cont (some (prev, prev))) else .ok (.empty, .brk)
  | .lazy start stop => .ok (.empty, .cont (some (start, stop)))

/-- `GroupBy` (groupby.rs:15-85). -/
@[reducible] def groupByStageE {W α : Type} (f : α → α → Eff W Bool) : StageE W α (α × α) where
  σ := GroupByState α
  init := .empty
  adapt := groupByAdaptE f
  fin s := fun w => some (groupByFinE f s w)

/-- The search loop of `Merge::adapt` (groupby.rs:130-136). -/
def mergeFindE {W α κ : Type} (f : α → α → Eff W (Option α)) (next : α) : List (κ × α) → Eff W (Option (α × α))
  | [] => .ok none
  | (_, prev) :: rest =>
    (f prev next).bind fun o =>
      match o with
      | some val => .ok (some (prev, val))
      | none => mergeFindE f next rest

/-- `Merge::adapt` (groupby.rs:126-144), with the calls of the key function: for the value removed and the merged value
(137-139), or for the new value (141). -/
def mergeAdaptE {W α κ : Type} [Key κ] (f : α → α → Eff W (Option α)) (key : α → Eff W κ)
    (s : OrdMap κ α × Option (List (κ × α))) (next : α) :
    Eff W ((OrdMap κ α × Option (List (κ × α))) × Flow α) :=
  (mergeFindE f next s.1).bind fun o =>
    match o with
    | some (prev, val) => (key prev).bind fun k => (key val).bind fun k' =>
        .ok (((s.1.remove k).insert k' val, s.2), .cont none)
    | none => (key next).bind fun k => .ok ((s.1.insert k next, s.2), .cont none)

/-- `Merge` (groupby.rs:88-145). -/
@[reducible] def mergeStageE {W α κ : Type} [Key κ] (f : α → α → Eff W (Option α)) (key : α → Eff W κ) :
    StageE W α α where
  σ := OrdMap κ α × Option (List (κ × α))
  init := ([], none)
  adapt := mergeAdaptE f key
  fin s := fun w => some (w, .ok (mergeFin s))

/-- `Adapter::finalize` (adapter.rs:185-194). -/
def adapterFinE {W α β γ : Type} (i : StageE W β γ) (a : StageE W α β) (si : i.σ) (sa : a.σ) (w : W) :
    Option (W × Res ((i.σ × a.σ) × Flow γ)) :=
  match a.fin sa w with
  | none => none
  | some (w', .panic) => some (w', .panic)
  | some (w', .ok (sa', .cont (some o))) =>
    some (((i.adapt si o).bind fun r => .ok ((r.1, sa'), r.2)) w')
  | some (w', .ok (sa', .cont none)) => adapterFinE i a si sa' w'
  | some (w', .ok (sa', .brk)) =>
    match i.fin si w' with
    | none => none
    | some (w'', .panic) => some (w'', .panic)
    | some (w'', .ok (si', r)) => some (w'', .ok ((si', sa'), r))
partial_fixpoint

/-- `Adapter(i, a)` (adapter.rs:130-195). -/
@[reducible] def adapterE {W α β γ : Type} (i : StageE W β γ) (a : StageE W α β) : StageE W α γ where
  σ := i.σ × a.σ
  init := (i.init, a.init)
  adapt s next :=                                                              -- 174-182
    (a.adapt s.2 next).bind fun r =>
      match r.2 with
      | .brk => .ok ((s.1, r.1), .brk)
      | .cont none => .ok ((s.1, r.1), .cont none)
      | .cont (some o) => (i.adapt s.1 o).bind fun q => .ok ((q.1, r.1), q.2)
  fin s := adapterFinE i a s.1 s.2

/-- The chains a user can build (generator.rs:55-89, adapter.rs:64-98). -/
inductive ChainE (W : Type) (α : Type) : Type → Type 1 where
  | nil : ChainE W α α
  | filter {β : Type} (c : ChainE W α β) (f : β → Eff W Bool) : ChainE W α β
  | map {β γ : Type} (c : ChainE W α β) (f : β → Eff W γ) : ChainE W α γ
  | groupby {β : Type} (c : ChainE W α β) (f : β → β → Eff W Bool) : ChainE W α (β × β)
  | merge {β κ : Type} (K : Key κ) (c : ChainE W α β) (f : β → β → Eff W (Option β)) (key : β → Eff W κ) : ChainE W α β

/-- What the builder methods construct. -/
def ChainE.stage {W α : Type} : {β : Type} → ChainE W α β → StageE W α β
  | _, .nil => nilStageE W α
  | _, .filter c f => adapterE (filterStageE f) c.stage
  | _, .map c f => adapterE (mapStageE f) c.stage
  | _, .groupby c f => adapterE (groupByStageE f) c.stage
  | _, .merge _ c f key => adapterE (mergeStageE f key) c.stage

/-- `ReducerTrait` (reducer.rs:7-13). -/
structure RedE (W α ρ : Type) where
  σ : Type
  init : σ
  next : σ → α → Eff W σ
  fin : σ → EffD W ρ

/-- The loop of `Reducer::finalize` (reducer.rs:41-47). -/
def reducerDrainE {W α β ρ : Type} (r : RedE W β ρ) (a : StageE W α β) (sr : r.σ) (sa : a.σ) (w : W) :
    Option (W × Res r.σ) :=
  match a.fin sa w with
  | none => none
  | some (w', .panic) => some (w', .panic)
  | some (w', .ok (_, .brk)) => some (w', .ok sr)
  | some (w', .ok (sa', .cont none)) => reducerDrainE r a sr sa' w'
  | some (w', .ok (sa', .cont (some o))) =>
    match r.next sr o w' with
    | (w'', .panic) => some (w'', .panic)
    | (w'', .ok sr') => reducerDrainE r a sr' sa' w''
partial_fixpoint

/-- `Reducer(r, a)` (reducer.rs:15-51). -/
@[reducible] def reducerE {W α β ρ : Type} (r : RedE W β ρ) (a : StageE W α β) : RedE W α ρ where
  σ := r.σ × a.σ
  init := (r.init, a.init)
  next s next :=                                                               -- 31-37
    (a.adapt s.2 next).bind fun q =>
      match q.2 with
      | .cont (some o) => (r.next s.1 o).bind fun sr' => .ok (sr', q.1)
      | .cont none => .ok (s.1, q.1)
      | .brk => .ok (s.1, q.1)
  fin s := fun w =>                                                            -- 40-50
    match reducerDrainE r a s.1 s.2 w with
    | none => none
    | some (w', .panic) => some (w', .panic)
    | some (w', .ok sr) => r.fin sr w'

/-- `Fold` (reducer.rs:116-140). -/
@[reducible] def foldRedE {W α ι : Type} (init : ι) (f : ι → α → Eff W ι) : RedE W α ι where
  σ := ι
  init := init
  next := f
  fin s := fun w => some (w, .ok s)

/-- `Fork` (reducer.rs:88-114). -/
@[reducible] def forkRedE {W α ρ τ : Type} (r1 : RedE W α ρ) (r2 : RedE W α τ) : RedE W α (ρ × τ) where
  σ := r1.σ × r2.σ
  init := (r1.init, r2.init)
  next s next :=                                                               -- 104-107
    (r1.next s.1 next).bind fun s1 => (r2.next s.2 next).bind fun s2 => .ok (s1, s2)
  fin s := fun w =>                                                            -- 110-112
    match r1.fin s.1 w with
    | none => none
    | some (w', .panic) => some (w', .panic)
    | some (w', .ok a) =>
      match r2.fin s.2 w' with
      | none => none
      | some (w'', .panic) => some (w'', .panic)
      | some (w'', .ok b) => some (w'', .ok (a, b))

/-- `Split::next` (reducer.rs:71-75): the argument of `or_insert` is evaluated before it is known whether the key is new,
so the closure that makes reducers (`make`: its effects; `redfn`: the reducer, which may depend on the key only) is
called for every input. -/
def splitNextE {W α κ ρ : Type} [Key κ] (keyfn : α → Eff W κ) (make : κ → Eff W Unit) (redfn : κ → RedE W α ρ)
    (m : OrdMap κ ((k : κ) × (redfn k).σ)) (next : α) : Eff W (OrdMap κ ((k : κ) × (redfn k).σ)) :=
  (keyfn next).bind fun key => (make key).bind fun _ =>
    let cur : (k : κ) × (redfn k).σ := (m.get key).getD ⟨key, (redfn key).init⟩
    ((redfn cur.1).next cur.2 next).bind fun s' => .ok (m.insert key ⟨cur.1, s'⟩)

/-- The loop of `Split::finalize` (reducer.rs:79-84). -/
def splitFinE {W α κ ρ : Type} [Key κ] (redfn : κ → RedE W α ρ) (acc : OrdMap κ ρ) :
    List (κ × ((k : κ) × (redfn k).σ)) → EffD W (OrdMap κ ρ)
  | [] => fun w => some (w, .ok acc)
  | (k, v) :: rest => fun w =>
    match (redfn v.1).fin v.2 w with
    | none => none
    | some (w', .panic) => some (w', .panic)
    | some (w', .ok r) => splitFinE redfn (acc.insert k r) rest w'

/-- `Split` (reducer.rs:53-85). -/
@[reducible] def splitRedE {W α κ ρ : Type} [Key κ] (keyfn : α → Eff W κ) (make : κ → Eff W Unit)
    (redfn : κ → RedE W α ρ) : RedE W α (OrdMap κ ρ) where
  σ := OrdMap κ ((k : κ) × (redfn k).σ)
  init := []
  next := splitNextE keyfn make redfn
  fin m := splitFinE redfn [] m

/-- Feeding a sequence of inputs: `for x in xs { r.next(x) }`. -/
def feedE {W α ρ : Type} (r : RedE W α ρ) : r.σ → List α → Eff W r.σ
  | s, [] => .ok s
  | s, x :: xs => (r.next s x).bind fun s' => feedE r s' xs

/-- Feeding a sequence of inputs to a fresh reducer, then `finalize()`. -/
def runRedE {W α ρ : Type} (r : RedE W α ρ) (xs : List α) : EffD W ρ := fun w =>
  match feedE r r.init xs w with
  | (w', .panic) => some (w', .panic)
  | (w', .ok s) => r.fin s w'

end Verif
