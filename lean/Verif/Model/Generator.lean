import Verif.Model.OrdMap

/-!
# Model of the push-based generators (matchit/src/generator)

Closures may panic (`Res`). A stage is a state machine; `finalize` contains loops, so it may diverge: the
outer `Option` is `none` in that case.
-/

namespace Verif

/-- `ControlFlow<(), Option<B>>`. -/
inductive Flow (β : Type) where
  | brk
  | cont (o : Option β)

/-- Sequencing of a terminating computation with one that may diverge. -/
def Res.andThen {α β : Type} (x : Res α) (f : α → Option (Res β)) : Option (Res β) :=
  match x with
  | .panic => some .panic
  | .ok a => f a

/-- A type implementing `AdaptFnTrait` (adapter.rs:17-23) or `AdapterTrait` (adapter.rs:25-33):
its state, the initial state, `adapt` and `finalize`. -/
structure Stage (α β : Type) where
  σ : Type
  init : σ
  adapt : σ → α → Res (σ × Flow β)
  fin : σ → Option (Res (σ × Flow β))

/-- `NilAdapter` (adapter.rs:102-128). -/
@[reducible] def nilStage (α : Type) : Stage α α where
  σ := Unit
  init := ()
  adapt _ next := .ok ((), .cont (some next))
  fin _ := some (.ok ((), .brk))

/-- `Filter` (adapter.rs:197-224). -/
@[reducible] def filterStage {α : Type} (f : α → Res Bool) : Stage α α where
  σ := Unit
  init := ()
  adapt _ next :=
    match f next with
    | .panic => .panic
    | .ok true => .ok ((), .cont (some next))
    | .ok false => .ok ((), .cont none)
  fin _ := some (.ok ((), .brk))

/-- `Map` (adapter.rs:226-248). -/
@[reducible] def mapStage {α β : Type} (f : α → Res β) : Stage α β where
  σ := Unit
  init := ()
  adapt _ next :=
    match f next with
    | .panic => .panic
    | .ok b => .ok ((), .cont (some b))
  fin _ := some (.ok ((), .brk))

/-- `GroupByState` (groupby.rs:6-13). -/
inductive GroupByState (α : Type) where
  | empty
  | consumed (prev : α)
  | lazy (start stop : α)

/-- `GroupBy::adapt` (groupby.rs:36-63). -/
def groupByAdapt {α : Type} (f : α → α → Res Bool) (s : GroupByState α) (next : α) :
    Res (GroupByState α × Flow (α × α)) :=
  match s with
  | .empty => .ok (.consumed next, .cont none)                          -- 38-41
  | .consumed prev =>
    match f prev next with
    | .panic => .panic
    | .ok true => .ok (.lazy prev next, .cont none)                     -- 43-45
    | .ok false =>
      match f prev prev with
      | .panic => .panic
      | .ok true => .ok (.consumed next, .cont (some (prev, prev)))     -- 46-48
      | .ok false => .ok (.consumed prev, .cont none)                   -- 49-51
  | .lazy start stop =>
    match f stop next with
    | .panic => .panic
    | .ok true => .ok (.lazy start next, .cont none)                    -- 54-56
    | .ok false => .ok (.consumed next, .cont (some (start, stop)))     -- 57-60

/-- `GroupBy::finalize` (groupby.rs:66-84). -/
def groupByFin {α : Type} (f : α → α → Res Bool) (s : GroupByState α) :
    Res (GroupByState α × Flow (α × α)) :=
  match s with
  | .empty => .ok (.empty, .brk)
  | .consumed prev =>
    match f prev prev with
    | .panic => .panic
    | .ok true => .ok (.empty, .cont (some (prev, prev)))
    | .ok false => .ok (.empty, .brk)
  | .lazy start stop => .ok (.empty, .cont (some (start, stop)))

/-- `GroupBy` (groupby.rs:15-85). -/
@[reducible] def groupByStage {α : Type} (f : α → α → Res Bool) : Stage α (α × α) where
  σ := GroupByState α
  init := .empty
  adapt := groupByAdapt f
  fin s := some (groupByFin f s)

/-- The search loop of `Merge::adapt` (groupby.rs:130-136): the first entry that can be merged with `next`. -/
def mergeFind {α κ : Type} (f : α → α → Res (Option α)) (next : α) : List (κ × α) → Res (Option (α × α))
  | [] => .ok none
  | (_, prev) :: rest =>
    match f prev next with
    | .panic => .panic
    | .ok (some val) => .ok (some (prev, val))
    | .ok none => mergeFind f next rest

/-- `Merge::adapt` (groupby.rs:126-144); the key function is taken to be total. -/
def mergeAdapt {α κ : Type} [Key κ] (f : α → α → Res (Option α)) (key : α → κ)
    (s : OrdMap κ α × Option (List (κ × α))) (next : α) :
    Res ((OrdMap κ α × Option (List (κ × α))) × Flow α) :=
  match mergeFind f next s.1 with
  | .panic => .panic
  | .ok (some (prev, val)) => .ok (((s.1.remove (key prev)).insert (key val) val, s.2), .cont none)   -- 137-139
  | .ok none => .ok ((s.1.insert (key next) next, s.2), .cont none)                                   -- 140-142

/-- `Merge::finalize` (groupby.rs:112-123): the fourth field is the iterator over a copy of the map, created
at the first call. -/
def mergeFin {α κ : Type} (s : OrdMap κ α × Option (List (κ × α))) :
    (OrdMap κ α × Option (List (κ × α))) × Flow α :=
  let it := match s.2 with
    | none => s.1
    | some it => it
  match it with
  | [] => ((s.1, some []), .brk)
  | (_, v) :: rest => ((s.1, some rest), .cont (some v))

/-- `Merge` (groupby.rs:88-145). -/
@[reducible] def mergeStage {α κ : Type} [Key κ] (f : α → α → Res (Option α)) (key : α → κ) : Stage α α where
  σ := OrdMap κ α × Option (List (κ × α))
  init := ([], none)
  adapt := mergeAdapt f key
  fin s := some (.ok (mergeFin s))

/-- `Adapter::finalize` (adapter.rs:185-194). -/
def adapterFin {α β γ : Type} (i : Stage β γ) (a : Stage α β) (si : i.σ) (sa : a.σ) :
    Option (Res ((i.σ × a.σ) × Flow γ)) :=
  match a.fin sa with
  | none => none
  | some .panic => some .panic
  | some (.ok (sa', .cont (some o))) =>                                        -- 188-190
    match i.adapt si o with
    | .panic => some .panic
    | .ok (si', r) => some (.ok ((si', sa'), r))
  | some (.ok (sa', .cont none)) => adapterFin i a si sa'                      -- 191
  | some (.ok (sa', .brk)) =>                                                  -- 193
    match i.fin si with
    | none => none
    | some .panic => some .panic
    | some (.ok (si', r)) => some (.ok ((si', sa'), r))
partial_fixpoint

/-- `Adapter(i, a)` (adapter.rs:130-195): stage `i` behind the chain `a`. -/
@[reducible] def adapter {α β γ : Type} (i : Stage β γ) (a : Stage α β) : Stage α γ where
  σ := i.σ × a.σ
  init := (i.init, a.init)
  adapt s next :=                                                              -- 174-182
    match a.adapt s.2 next with
    | .panic => .panic
    | .ok (sa', .brk) => .ok ((s.1, sa'), .brk)
    | .ok (sa', .cont none) => .ok ((s.1, sa'), .cont none)
    | .ok (sa', .cont (some o)) =>
      match i.adapt s.1 o with
      | .panic => .panic
      | .ok (si', r) => .ok ((si', sa'), r)
  fin s := adapterFin i a s.1 s.2

/-- The chains a user can build: `Generator::filter/map/groupby/merge` (generator.rs:55-89) start from `NilAdapter`,
the methods of `AdapterTrait` (adapter.rs:64-98) put a stage behind a chain. -/
inductive Chain (α : Type) : Type → Type 1 where
  | nil : Chain α α
  | filter {β : Type} (c : Chain α β) (f : β → Res Bool) : Chain α β
  | map {β γ : Type} (c : Chain α β) (f : β → Res γ) : Chain α γ
  | groupby {β : Type} (c : Chain α β) (f : β → β → Res Bool) : Chain α (β × β)
  | merge {β κ : Type} (K : Key κ) (c : Chain α β) (f : β → β → Res (Option β)) (key : β → κ) : Chain α β

/-- What the builder methods construct. -/
def Chain.stage {α : Type} : {β : Type} → Chain α β → Stage α β
  | _, .nil => nilStage α
  | _, .filter c f => adapter (filterStage f) c.stage
  | _, .map c f => adapter (mapStage f) c.stage
  | _, .groupby c f => adapter (groupByStage f) c.stage
  | _, .merge _ c f key => adapter (mergeStage f key) c.stage

/-- A type implementing `ReducerTrait` (reducer.rs:7-13). -/
structure Red (α ρ : Type) where
  σ : Type
  init : σ
  next : σ → α → Res σ
  fin : σ → Option (Res ρ)

/-- The loop of `Reducer::finalize` (reducer.rs:41-47). -/
def reducerDrain {α β ρ : Type} (r : Red β ρ) (a : Stage α β) (sr : r.σ) (sa : a.σ) : Option (Res r.σ) :=
  match a.fin sa with
  | none => none
  | some .panic => some .panic
  | some (.ok (_, .brk)) => some (.ok sr)
  | some (.ok (sa', .cont none)) => reducerDrain r a sr sa'
  | some (.ok (sa', .cont (some o))) =>
    match r.next sr o with
    | .panic => some .panic
    | .ok sr' => reducerDrain r a sr' sa'
partial_fixpoint

/-- `Reducer(r, a)` (reducer.rs:15-51): the reducer `r` behind the chain `a`. A `Break` from the chain is
ignored by `next`. -/
@[reducible] def reducer {α β ρ : Type} (r : Red β ρ) (a : Stage α β) : Red α ρ where
  σ := r.σ × a.σ
  init := (r.init, a.init)
  next s next :=                                                               -- 31-37
    match a.adapt s.2 next with
    | .panic => .panic
    | .ok (sa', .cont (some o)) =>
      match r.next s.1 o with
      | .panic => .panic
      | .ok sr' => .ok (sr', sa')
    | .ok (sa', .cont none) => .ok (s.1, sa')
    | .ok (sa', .brk) => .ok (s.1, sa')
  fin s :=                                                                     -- 40-50
    match reducerDrain r a s.1 s.2 with
    | none => none
    | some .panic => some .panic
    | some (.ok sr) => r.fin sr

/-- `Fold` (reducer.rs:116-140). -/
@[reducible] def foldRed {α ι : Type} (init : ι) (f : ι → α → Res ι) : Red α ι where
  σ := ι
  init := init
  next := f
  fin s := some (.ok s)

/-- `count` (adapter.rs:142-145, generator.rs:32-35), behind no adapter. -/
@[reducible] def countRed (α : Type) : Red α Nat := foldRed 0 fun acc _ => uadd acc 1

/-- `sum` (adapter.rs:148-153, generator.rs:38-43) over `usize` items (`next.add(acc)`). -/
@[reducible] def sumRed : Red Nat Nat := foldRed 0 fun acc next => uadd next acc

/-- `collect` (adapter.rs:156-161). -/
@[reducible] def collectRed (α : Type) : Red α (List α) := foldRed [] fun acc next => .ok (acc ++ [next])

/-- `Fork` (reducer.rs:88-114). -/
@[reducible] def forkRed {α ρ τ : Type} (r1 : Red α ρ) (r2 : Red α τ) : Red α (ρ × τ) where
  σ := r1.σ × r2.σ
  init := (r1.init, r2.init)
  next s next :=
    match r1.next s.1 next with
    | .panic => .panic
    | .ok s1 =>
      match r2.next s.2 next with
      | .panic => .panic
      | .ok s2 => .ok (s1, s2)
  fin s :=
    match r1.fin s.1 with
    | none => none
    | some .panic => some .panic
    | some (.ok a) =>
      match r2.fin s.2 with
      | none => none
      | some .panic => some .panic
      | some (.ok b) => some (.ok (a, b))

/-- `Split::next` (reducer.rs:71-75): the reducer of the key, created if need be, gets the input. -/
def splitNext {α κ ρ : Type} [Key κ] (keyfn : α → Res κ) (redfn : κ → Red α ρ)
    (m : OrdMap κ ((k : κ) × (redfn k).σ)) (next : α) : Res (OrdMap κ ((k : κ) × (redfn k).σ)) :=
  match keyfn next with
  | .panic => .panic
  | .ok key =>
    let cur : (k : κ) × (redfn k).σ := (m.get key).getD ⟨key, (redfn key).init⟩
    match (redfn cur.1).next cur.2 next with
    | .panic => .panic
    | .ok s' => .ok (m.insert key ⟨cur.1, s'⟩)

/-- The loop of `Split::finalize` (reducer.rs:79-84). -/
def splitFin {α κ ρ : Type} [Key κ] (redfn : κ → Red α ρ) (acc : OrdMap κ ρ) :
    List (κ × ((k : κ) × (redfn k).σ)) → Option (Res (OrdMap κ ρ))
  | [] => some (.ok acc)
  | (k, v) :: rest =>
    match (redfn v.1).fin v.2 with
    | none => none
    | some .panic => some .panic
    | some (.ok r) => splitFin redfn (acc.insert k r) rest

/-- `Split` (reducer.rs:53-85). The state of a reducer is stored with the key it was created for (in Rust
the reducer value carries its closures). -/
@[reducible] def splitRed {α κ ρ : Type} [Key κ] (keyfn : α → Res κ) (redfn : κ → Red α ρ) : Red α (OrdMap κ ρ) where
  σ := OrdMap κ ((k : κ) × (redfn k).σ)
  init := []
  next := splitNext keyfn redfn
  fin m := splitFin redfn [] m

/-- Feeding a sequence of inputs: `for x in xs { r.next(x) }`. -/
def feed {α ρ : Type} (r : Red α ρ) : r.σ → List α → Res r.σ
  | s, [] => .ok s
  | s, x :: xs =>
    match r.next s x with
    | .panic => .panic
    | .ok s' => feed r s' xs

/-- Feeding a sequence of inputs to a fresh reducer, then `finalize()`. `none`: divergence. -/
def runRed {α ρ : Type} (r : Red α ρ) (xs : List α) : Option (Res ρ) :=
  match feed r r.init xs with
  | .panic => some .panic
  | .ok s => r.fin s

end Verif
