import Verif.Model.Program

/-!
# What the stages and reducers keep between two calls

The fields of the structs of matchit/src/generator that hold values of the user: counted, not measured in bytes. An
accumulated value counts as one, whatever it contains (`collect` keeps a list).
-/

namespace Verif

/-- `GroupByState` (groupby.rs:6-13): nothing, `prev`, or `start` and `end`. -/
def GroupByState.held {α : Type} : GroupByState α → Nat
  | .empty => 0
  | .consumed _ => 1
  | .lazy _ _ => 2

/-- `Merge` (groupby.rs:88-95): the values of the map, and those the iterator over the copy of the map has not handed out
yet (the copy is made by the first `finalize`, groupby.rs:113-116). -/
def mergeHeld {α κ : Type} (s : OrdMap κ α × Option (List (κ × α))) : Nat :=
  s.1.length + match s.2 with
    | none => 0
    | some it => it.length

/-- A chain of adapters (`Adapter(i, a)`, adapter.rs:130-131): what its stages hold; `Filter` and `Map` hold nothing but
their closures (adapter.rs:197,226). -/
def Chain.held {α : Type} : {β : Type} → (c : Chain α β) → c.stage.σ → Nat
  | _, .nil, _ => 0
  | _, .filter c _, s => c.held s.2
  | _, .map c _, s => c.held s.2
  | _, .groupby c _, s => GroupByState.held s.1 + c.held s.2
  | _, .merge _ c _ _, s => mergeHeld s.1 + c.held s.2

/-- A reducer: `Fold(init, fun)` holds the accumulated value (reducer.rs:116-119), `Fork` its two reducers (88-91), `Split`
a reducer for each key (53-57), `Reducer(r, a)` what `r` and the chain `a` hold (15-19). -/
def Prog.held : {α ρ : Type} → (p : Prog α ρ) → p.red.σ → Nat
  | _, _, .fold _ _ _, _ => 1
  | _, _, .fork p q, s => p.held s.1 + q.held s.2
  | _, _, .split (κ := κ) _ _ _ sub, m =>
      ((m : List (κ × ((k : κ) × (sub k).red.σ))).map fun e => (sub e.2.1).held e.2.2).sum
  | _, _, .behind c p, s => p.held s.1 + c.held s.2

end Verif
