import Verif.Model.FoldMut

/-! # The reducers a user can build (matchit/src/generator/generator.rs:13-53, adapter.rs:36-61,142-161, reducer.rs) -/

namespace Verif

/-- A reducer built with the API: `fold` (generator.rs:24-29, adapter.rs:47-52; `count`, `sum` and `collect`,
generator.rs:32-43, adapter.rs:142-161, are folds), `fork` (generator.rs:47-53, adapter.rs:55-61) and `split`
(generator.rs:13-21, adapter.rs:36-44), put behind chains of adapters and nested in any way. The closure of a fold may
keep a state `γ` between its calls (`FnMut`); `split` creates the reducers of its keys by a closure. -/
inductive Prog : Type → Type → Type 1 where
  | fold {α ι γ : Type} (init : ι) (c0 : γ) (f : γ → ι → α → Res (γ × ι)) : Prog α ι
  | fork {α ρ τ : Type} (p : Prog α ρ) (q : Prog α τ) : Prog α (ρ × τ)
  | split {α κ ρ : Type} (K : Key κ) (D : DecidableEq κ) (key : α → Res κ) (sub : κ → Prog α ρ) : Prog α (OrdMap κ ρ)
  | behind {α β ρ : Type} (c : Chain α β) (p : Prog β ρ) : Prog α ρ

/-- What the builder methods construct (`Reducer::new(Fold::new(..), ..)`, `Fork::new`, `Split::new`; `Reducer(r, a)` is
reducer.rs:15-51). -/
def Prog.red : {α ρ : Type} → Prog α ρ → Red α ρ
  | _, _, .fold init c0 f => foldMutRed init c0 f
  | _, _, .fork p q => forkRed p.red q.red
  | _, _, .split _ _ key sub => splitRed key fun k => (sub k).red
  | _, _, .behind c p => reducer p.red c.stage

end Verif
