import Verif.Model.Effect
import Verif.Spec.Generator

/-! # What a user expects of closures with effects -/

namespace Verif.Spec

/-- A chain of filters and maps, in the order in which the user writes them. -/
inductive Pipe (W : Type) (α : Type) : Type → Type 1 where
  | nil : Pipe W α α
  | filter {β : Type} (p : Pipe W α β) (f : β → Eff W Bool) : Pipe W α β
  | map {β γ : Type} (p : Pipe W α β) (f : β → Eff W γ) : Pipe W α γ

/-- The same chain, built with the library. -/
def Pipe.chain {W α : Type} : {β : Type} → Pipe W α β → ChainE W α β
  | _, .nil => .nil
  | _, .filter p f => .filter p.chain f
  | _, .map p f => .map p.chain f

/-- The body of the loop a user would write by hand: test and convert one input, `none` if a filter drops it. -/
def Pipe.body {W α : Type} : {β : Type} → Pipe W α β → α → Eff W (Option β)
  | _, .nil, x => .ok (some x)
  | _, .filter p f, x => (p.body x).bind fun o =>
      match o with
      | none => .ok none                                    -- continue
      | some y => (f y).bind fun b => .ok (if b then some y else none)
  | _, .map p f, x => (p.body x).bind fun o =>
      match o with
      | none => .ok none
      | some y => (f y).bind fun z => .ok (some z)

/-- One round of the loop: the body, then the accumulator. -/
def round {W α β ι : Type} (p : Pipe W α β) (h : ι → β → Eff W ι) (i : ι) (x : α) : Eff W ι :=
  (p.body x).bind fun o =>
    match o with
    | none => .ok i
    | some y => h i y

/-- `for x in xs { i = step(i, x) }`. -/
def forEach {W α ι : Type} (step : ι → α → Eff W ι) : List α → ι → Eff W ι
  | [], i => .ok i
  | x :: xs, i => (step i x).bind (forEach step xs)

/-- Neighbours in a list. -/
def pairs {α : Type} : List α → List (α × α)
  | a :: b :: rest => (a, b) :: pairs (b :: rest)
  | _ => []

/-- A run of one element is asked about with itself. -/
def loneCall {α : Type} : List α → List (α × α)
  | [a] => [(a, a)]
  | _ => []

/-- The pair across the border of two lists. -/
def borderCall {α : Type} (r rest : List α) : List (α × α) :=
  match r.getLast?, rest.head? with
  | some a, some b => [(a, b)]
  | _, _ => []

/-- The questions asked when grouping: inside a run each neighbour pair once, then the pair across the border to the
next run, then, for a run of one element, the element with itself. -/
def groupCalls {α : Type} : List (List α) → List (α × α)
  | [] => []
  | r :: rest => pairs r ++ borderCall r rest.flatten ++ loneCall r ++ groupCalls rest

/-- A closure that writes down what it is asked. -/
def logged {A α : Type} (f : A → α) (a : A) : Eff (List A) α := fun w => (w ++ [a], .ok (f a))

/-- The call may have effects, but it returns (or panics) the same way whatever they are. -/
def SameAnswer {W α : Type} (x : Eff W α) (r : Res α) : Prop := ∀ w, (x w).2 = r

/-- Two chains built in the same way, with closures that answer the same; those of the first may have effects. -/
inductive SameChain (W : Type) {α : Type} : {β : Type} → ChainE W α β → Chain α β → Prop where
  | nil : SameChain W .nil .nil
  | filter {β : Type} {c : ChainE W α β} {c' : Chain α β} {f : β → Eff W Bool} {f' : β → Res Bool} (h : SameChain W c c')
      (hf : ∀ x, SameAnswer (f x) (f' x)) : SameChain W (.filter c f) (.filter c' f')
  | map {β γ : Type} {c : ChainE W α β} {c' : Chain α β} {f : β → Eff W γ} {f' : β → Res γ} (h : SameChain W c c')
      (hf : ∀ x, SameAnswer (f x) (f' x)) : SameChain W (.map c f) (.map c' f')
  | groupby {β : Type} {c : ChainE W α β} {c' : Chain α β} {f : β → β → Eff W Bool} {f' : β → β → Res Bool}
      (h : SameChain W c c') (hf : ∀ x y, SameAnswer (f x y) (f' x y)) : SameChain W (.groupby c f) (.groupby c' f')
  | merge {β κ : Type} {K : Key κ} {c : ChainE W α β} {c' : Chain α β} {f : β → β → Eff W (Option β)}
      {f' : β → β → Res (Option β)} {key : β → Eff W κ} {key' : β → κ} (h : SameChain W c c')
      (hf : ∀ x y, SameAnswer (f x y) (f' x y)) (hk : ∀ x, SameAnswer (key x) (.ok (key' x))) :
      SameChain W (.merge K c f key) (.merge K c' f' key')

/-- Two reducers built in the same way, with closures that answer the same; those of the first may have effects. -/
inductive SameRed (W : Type) : {α ρ : Type} → RedE W α ρ → Red α ρ → Prop where
  | fold {α ι : Type} (i0 : ι) {f : ι → α → Eff W ι} {f' : ι → α → Res ι} (hf : ∀ i x, SameAnswer (f i x) (f' i x)) :
      SameRed W (foldRedE i0 f) (foldRed i0 f')
  | chain {α β ρ : Type} {c : ChainE W α β} {c' : Chain α β} {r : RedE W β ρ} {r' : Red β ρ} (hc : SameChain W c c')
      (hr : SameRed W r r') : SameRed W (reducerE r c.stage) (reducer r' c'.stage)
  | fork {α ρ τ : Type} {r1 : RedE W α ρ} {r1' : Red α ρ} {r2 : RedE W α τ} {r2' : Red α τ} (h1 : SameRed W r1 r1')
      (h2 : SameRed W r2 r2') : SameRed W (forkRedE r1 r2) (forkRed r1' r2')
  | split {α κ ρ : Type} [Key κ] {keyfn : α → Eff W κ} {keyfn' : α → Res κ} {make : κ → Eff W Unit}
      {redfn : κ → RedE W α ρ} {redfn' : κ → Red α ρ} (hk : ∀ x, SameAnswer (keyfn x) (keyfn' x))
      (hm : ∀ k, SameAnswer (make k) (.ok ())) (hr : ∀ k, SameRed W (redfn k) (redfn' k)) :
      SameRed W (splitRedE keyfn make redfn) (splitRed keyfn' redfn')

end Verif.Spec
