import Verif.Model.Generator
import Verif.Model.Iter

/-!
# Pull iterators: `std::iter::Iterator` and matchit/src/fromgenerator.rs

An iterator is its mutable state and `next`. The outer `Option` is `none` if the call does not return.
-/

namespace Verif

/-- A type implementing `Iterator<Item = α>`. -/
structure Pull (α : Type) where
  σ : Type
  next : σ → Option (Res (σ × Option α))

/-- The results of `n` successive calls of `next`. -/
def Pull.calls {α : Type} (it : Pull α) : Nat → it.σ → Option (Res (List (Option α)))
  | 0, _ => some (.ok [])
  | n + 1, s =>
    match it.next s with
    | none => none
    | some .panic => some .panic
    | some (.ok (s', o)) =>
      match it.calls n s' with
      | none => none
      | some .panic => some .panic
      | some (.ok os) => some (.ok (o :: os))

/-- The offset-based iterators of Model/Iter as iterators. -/
@[reducible] def pullOf {α : Type} (next : NextFn α) : Pull α where
  σ := Nat
  next off :=
    match next off with
    | .panic => some .panic
    | .ok (o, off') => some (.ok (off', o))

/-- The loop of `Iterator::filter` (std): pulls until an item passes. -/
def pullFilterNext {α : Type} (p : α → Res Bool) (it : Pull α) (s : it.σ) : Option (Res (it.σ × Option α)) :=
  match it.next s with
  | none => none
  | some .panic => some .panic
  | some (.ok (s', none)) => some (.ok (s', none))
  | some (.ok (s', some x)) =>
    match p x with
    | .panic => some .panic
    | .ok true => some (.ok (s', some x))
    | .ok false => pullFilterNext p it s'
partial_fixpoint

/-- `Iterator::filter` (std; used at ripdlt/src/main.rs:111,156,167,...). -/
@[reducible] def pullFilter {α : Type} (p : α → Res Bool) (it : Pull α) : Pull α where
  σ := it.σ
  next := pullFilterNext p it

/-- `Iterator::map` (std). -/
@[reducible] def pullMap {α β : Type} (f : α → Res β) (it : Pull α) : Pull β where
  σ := it.σ
  next s :=
    match it.next s with
    | none => none
    | some .panic => some .panic
    | some (.ok (s', none)) => some (.ok (s', none))
    | some (.ok (s', some x)) =>
      match f x with
      | .panic => some .panic
      | .ok b => some (.ok (s', some b))

/-- The second loop of `FromAdaptFn::next` (fromgenerator.rs:30-37). -/
def fromAdaptFin {α β : Type} (a : Stage α β) (sa : a.σ) : Option (Res (a.σ × Option β)) :=
  match a.fin sa with
  | none => none
  | some .panic => some .panic
  | some (.ok (sa', .cont (some o))) => some (.ok (sa', some o))              -- 32-34
  | some (.ok (sa', .cont none)) => fromAdaptFin a sa'                        -- 35
  | some (.ok (sa', .brk)) => some (.ok (sa', none))                          -- 37
partial_fixpoint

/-- `FromAdaptFn::next` (fromgenerator.rs:20-38). -/
def fromAdaptNext {α β : Type} (a : Stage α β) (it : Pull α) (sa : a.σ) (si : it.σ) :
    Option (Res ((a.σ × it.σ) × Option β)) :=
  match it.next si with
  | none => none
  | some .panic => some .panic
  | some (.ok (si', some x)) =>                                               -- 21
    match a.adapt sa x with
    | .panic => some .panic
    | .ok (sa', .cont (some r)) => some (.ok ((sa', si'), some r))            -- 23-24
    | .ok (sa', .cont none) => fromAdaptNext a it sa' si'
    | .ok (sa', .brk) =>                                                      -- 25-27
      match fromAdaptFin a sa' with
      | none => none
      | some .panic => some .panic
      | some (.ok (sa'', o)) => some (.ok ((sa'', si'), o))
  | some (.ok (si', none)) =>
    match fromAdaptFin a sa with
    | none => none
    | some .panic => some .panic
    | some (.ok (sa'', o)) => some (.ok ((sa'', si'), o))
partial_fixpoint

/-- `FromAdaptFn` (fromgenerator.rs:5-39). Its third field is never read. -/
@[reducible] def fromAdapt {α β : Type} (a : Stage α β) (it : Pull α) : Pull β where
  σ := a.σ × it.σ
  next s := fromAdaptNext a it s.1 s.2

/-- `FromAdaptFnCall::groupby` (fromgenerator.rs:44-49). -/
@[reducible] def pullGroupBy {α : Type} (f : α → α → Res Bool) (it : Pull α) : Pull (α × α) :=
  fromAdapt (groupByStage f) it

/-- The loop of a consumer: `for i in it.by_ref() { r.next(i) }`, then `r.finalize()`. Models
`FromAdaptFnCall::split` (fromgenerator.rs:51-65), `Iterator::count`, `sum` and `collect` (std), with the
corresponding reducer. -/
def pullReduceFrom {α ρ : Type} (r : Red α ρ) (it : Pull α) (sr : r.σ) (s : it.σ) : Option (Res ρ) :=
  match it.next s with
  | none => none
  | some .panic => some .panic
  | some (.ok (_, none)) => r.fin sr
  | some (.ok (s', some x)) =>
    match r.next sr x with
    | .panic => some .panic
    | .ok sr' => pullReduceFrom r it sr' s'
partial_fixpoint

/-- A consumer with a fresh reducer. -/
def pullReduce {α ρ : Type} (r : Red α ρ) (it : Pull α) (s : it.σ) : Option (Res ρ) := pullReduceFrom r it r.init s

/-- `FromAdaptFnCall::split` (fromgenerator.rs:51-65). -/
def pullSplit {α κ ρ : Type} [Key κ] (keyfn : α → Res κ) (redfn : κ → Red α ρ) (it : Pull α) (s : it.σ) :
    Option (Res (OrdMap κ ρ)) := pullReduce (splitRed keyfn redfn) it s

/-- `Iterator::count` (std): a `usize` counter. -/
def pullCount {α : Type} (it : Pull α) (s : it.σ) : Option (Res Nat) := pullReduce (countRed α) it s

end Verif
