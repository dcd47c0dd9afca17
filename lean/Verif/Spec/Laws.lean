import Verif.Spec.Pipeline

/-! # When two pipelines are the same for a user -/

namespace Verif.Spec

open Verif

/-- Two reducers built with the API give the same result on every sequence of inputs: the same value, or both panic. -/
def SameRuns {α ρ : Type} (p q : Prog α ρ) : Prop := ∀ xs, runRed p.red xs = runRed q.red xs

/-- `.collect()` behind two chains of adapters gives the same on every sequence of inputs. -/
def SameOutput {α β : Type} (c d : Chain α β) : Prop := 
  ∀ xs, runRed (reducer (collectRed β) c.stage) xs = runRed (reducer (collectRed β) d.stage) xs

/-- First one closure, then the other. -/
def andThen {α β γ : Type} (f : α → Res β) (g : β → Res γ) (x : α) : Res γ := (f x).bind g

/-- Both conditions; the second is asked only if the first holds. -/
def bothOf {α : Type} (p q : α → Res Bool) (x : α) : Res Bool := (p x).bind fun b => if b then q x else .ok false

end Verif.Spec
