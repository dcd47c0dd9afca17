import Verif.Model.Effect
import Verif.Model.Pull

/-!
# Iterators and closures that have effects

The same code as in `Model/Pull.lean`. The source may read, log or count when it is asked for the next item, and closures may
have effects as in `Model/Effect.lean`. `Lemmas/PullEffect.lean` proves that without effects this is the model of `Model/Pull.lean`.
-/

namespace Verif

/-- A type implementing `Iterator<Item = α>` whose `next` may have effects, panic or not return. -/
structure PullE (W α : Type) where
  σ : Type
  next : σ → EffD W (σ × Option α)

/-- The second loop of `FromAdaptFn::next` (matchit/src/fromgenerator.rs:30-37). -/
def fromAdaptFinE {W α β : Type} (a : StageE W α β) (sa : a.σ) (w : W) : Option (W × Res (a.σ × Option β)) :=
  match a.fin sa w with
  | none => none
  | some (w', .panic) => some (w', .panic)
  | some (w', .ok (sa', .cont (some o))) => some (w', .ok (sa', some o))              -- 32-34
  | some (w', .ok (sa', .cont none)) => fromAdaptFinE a sa' w'                        -- 35
  | some (w', .ok (sa', .brk)) => some (w', .ok (sa', none))                          -- 37
partial_fixpoint

/-- `FromAdaptFn::next` (matchit/src/fromgenerator.rs:20-38). -/
def fromAdaptNextE {W α β : Type} (a : StageE W α β) (it : PullE W α) (sa : a.σ) (si : it.σ) (w : W) :
    Option (W × Res ((a.σ × it.σ) × Option β)) :=
  match it.next si w with
  | none => none
  | some (w', .panic) => some (w', .panic)
  | some (w', .ok (si', some x)) =>                                                   -- 21
    match a.adapt sa x w' with
    | (w'', .panic) => some (w'', .panic)
    | (w'', .ok (sa', .cont (some r))) => some (w'', .ok ((sa', si'), some r))        -- 23-24
    | (w'', .ok (sa', .cont none)) => fromAdaptNextE a it sa' si' w''
    | (w'', .ok (sa', .brk)) =>                                                       -- 25-27
      match fromAdaptFinE a sa' w'' with
      | none => none
      | some (v, .panic) => some (v, .panic)
      | some (v, .ok (sa'', o)) => some (v, .ok ((sa'', si'), o))
  | some (w', .ok (si', none)) =>
    match fromAdaptFinE a sa w' with
    | none => none
    | some (v, .panic) => some (v, .panic)
    | some (v, .ok (sa'', o)) => some (v, .ok ((sa'', si'), o))
partial_fixpoint

/-- `FromAdaptFn` (matchit/src/fromgenerator.rs:5-39). -/
@[reducible] def fromAdaptE {W α β : Type} (a : StageE W α β) (it : PullE W α) : PullE W β where
  σ := a.σ × it.σ
  next s := fromAdaptNextE a it s.1 s.2

/-- The loop of `Iterator::filter` (std): pulls until an item passes. -/
def pullFilterNextE {W α : Type} (p : α → Eff W Bool) (it : PullE W α) (s : it.σ) (w : W) : Option (W × Res (it.σ × Option α)) :=
  match it.next s w with
  | none => none
  | some (w', .panic) => some (w', .panic)
  | some (w', .ok (s', none)) => some (w', .ok (s', none))
  | some (w', .ok (s', some x)) =>
    match p x w' with
    | (w'', .panic) => some (w'', .panic)
    | (w'', .ok true) => some (w'', .ok (s', some x))
    | (w'', .ok false) => pullFilterNextE p it s' w''
partial_fixpoint

/-- `Iterator::filter` (std; used at ripdlt/src/main.rs:111,156,167,...). -/
@[reducible] def pullFilterE {W α : Type} (p : α → Eff W Bool) (it : PullE W α) : PullE W α where
  σ := it.σ
  next := pullFilterNextE p it

/-- `Iterator::map` (std). -/
@[reducible] def pullMapE {W α β : Type} (f : α → Eff W β) (it : PullE W α) : PullE W β where
  σ := it.σ
  next s := fun w =>
    match it.next s w with
    | none => none
    | some (w', .panic) => some (w', .panic)
    | some (w', .ok (s', none)) => some (w', .ok (s', none))
    | some (w', .ok (s', some x)) =>
      match f x w' with
      | (w'', .panic) => some (w'', .panic)
      | (w'', .ok b) => some (w'', .ok (s', some b))

/-- The loop of a consumer: `for i in it.by_ref() { r.next(i) }`, then `r.finalize()`. With `Split` as the reducer it is
`FromAdaptFnCall::split` (matchit/src/fromgenerator.rs:51-65). -/
def pullReduceFromE {W α ρ : Type} (r : RedE W α ρ) (it : PullE W α) (sr : r.σ) (s : it.σ) (w : W) : Option (W × Res ρ) :=
  match it.next s w with
  | none => none
  | some (w', .panic) => some (w', .panic)
  | some (w', .ok (_, none)) => r.fin sr w'
  | some (w', .ok (s', some x)) =>
    match r.next sr x w' with
    | (w'', .panic) => some (w'', .panic)
    | (w'', .ok sr') => pullReduceFromE r it sr' s' w''
partial_fixpoint

/-- A consumer with a fresh reducer. -/
def pullReduceE {W α ρ : Type} (r : RedE W α ρ) (it : PullE W α) (s : it.σ) (w : W) : Option (W × Res ρ) :=
  pullReduceFromE r it r.init s w

/-- The iterator with these adapters: `filter` and `map` of std, `groupby` (matchit/src/fromgenerator.rs:44-49), and
`FromAdaptFn::new(Merge::new(f, key), it)` (matchit/src/fromgenerator.rs:7-9, matchit/src/generator/groupby.rs:95-97). -/
def ChainE.pulled {W α : Type} (it : PullE W α) : {β : Type} → ChainE W α β → PullE W β
  | _, .nil => it
  | _, .filter c f => pullFilterE f (c.pulled it)
  | _, .map c f => pullMapE f (c.pulled it)
  | _, .groupby c f => fromAdaptE (groupByStageE f) (c.pulled it)
  | _, .merge _ c f key => fromAdaptE (mergeStageE f key) (c.pulled it)

/-- The adapters as they are made, around a source in state `s`. -/
def ChainE.start {W α : Type} {it : PullE W α} (s : it.σ) : {β : Type} → (c : ChainE W α β) → (c.pulled it).σ
  | _, .nil => s
  | _, .filter c _ => c.start s
  | _, .map c _ => c.start s
  | _, .groupby c _ => (.empty, c.start s)
  | _, .merge _ c _ _ => (([], none), c.start s)

end Verif
