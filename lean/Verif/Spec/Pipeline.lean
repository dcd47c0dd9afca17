import Verif.Model.Program

/-! # What pipelines compute, as functions on lists -/

namespace Verif.Spec

open Verif

/-- The values of a list on which a closure that may panic says `true`. -/
def filterV {α : Type} (p : α → Res Bool) : List α → Res (List α)
  | [] => .ok []
  | x :: xs =>
    match p x with
    | .panic => .panic
    | .ok true => (filterV p xs).bind fun ys => .ok (x :: ys)
    | .ok false => filterV p xs

/-- The results of a closure that may panic. -/
def mapV {α β : Type} (f : α → Res β) : List α → Res (List β)
  | [] => .ok []
  | x :: xs => (f x).bind fun y => (mapV f xs).bind fun ys => .ok (y :: ys)

mutual
/-- Grouping when `a` is the pending value: values `a` is related to continue its run; if there is none, `a` is
reported on its own if it is related to itself, and otherwise it stays pending and the next value is lost. -/
def aloneV {α : Type} (f : α → α → Res Bool) (a : α) : List α → Res (List (α × α))
  | [] => (f a a).bind fun self => .ok (if self then [(a, a)] else [])
  | x :: xs => (f a x).bind fun rel =>
      if rel then runV f a x xs
      else (f a a).bind fun self =>
        if self then (aloneV f x xs).bind fun out => .ok ((a, a) :: out)
        else aloneV f a xs
/-- Grouping in a run that started with `a` and has got to `z`. -/
def runV {α : Type} (f : α → α → Res Bool) (a z : α) : List α → Res (List (α × α))
  | [] => .ok [(a, z)]
  | x :: xs => (f z x).bind fun rel =>
      if rel then runV f a x xs
      else (aloneV f x xs).bind fun out => .ok ((a, z) :: out)
end

/-- Grouping a list. -/
def groupV {α : Type} (f : α → α → Res Bool) : List α → Res (List (α × α))
  | [] => .ok []
  | x :: xs => aloneV f x xs

/-- The first value (in key order) that can be merged with `x`, and the result. -/
def mergeWithV {α κ : Type} (f : α → α → Res (Option α)) (x : α) : List (κ × α) → Res (Option (α × α))
  | [] => .ok none
  | e :: es => (f e.2 x).bind fun o =>
      match o with
      | some v => .ok (some (e.2, v))
      | none => mergeWithV f x es

/-- Merging a list into a map: a value is merged with the first value it can be merged with, which it replaces; values
with equal keys replace one another. -/
def mergeV {α κ : Type} [Key κ] (f : α → α → Res (Option α)) (key : α → κ) : OrdMap κ α → List α → Res (OrdMap κ α)
  | m, [] => .ok m
  | m, x :: xs => (mergeWithV f x m).bind fun o =>
      match o with
      | some (p, v) => mergeV f key ((m.remove (key p)).insert (key v) v) xs
      | none => mergeV f key (m.insert (key x) x) xs

/-- What a chain of adapters makes of a list: each stage works on the whole output of the stage before. -/
def chainV {α : Type} : {β : Type} → Chain α β → List α → Res (List β)
  | _, .nil, xs => .ok xs
  | _, .filter c p, xs => (chainV c xs).bind (filterV p)
  | _, .map c f, xs => (chainV c xs).bind (mapV f)
  | _, .groupby c f, xs => (chainV c xs).bind (groupV f)
  | _, .merge _ c f key, xs => (chainV c xs).bind fun ys => (mergeV f key [] ys).bind fun m => .ok (m.map (·.2))

/-- A fold with a closure that keeps a state. -/
def foldV {α ι γ : Type} (f : γ → ι → α → Res (γ × ι)) : γ → ι → List α → Res ι
  | _, i, [] => .ok i
  | c, i, x :: xs => (f c i x).bind fun s => foldV f s.1 s.2 xs

/-- The inputs with a given key. -/
def withKey {α κ : Type} [DecidableEq κ] (key : α → Res κ) (j : κ) (xs : List α) : List α :=
  xs.filter fun y => match key y with
    | .ok k => decide (k = j)
    | .panic => false

/-- The result of a program on a list of inputs. -/
def Means : {α ρ : Type} → Prog α ρ → List α → Res ρ → Prop
  | _, _, .fold init c0 f, xs, r => r = foldV f c0 init xs
  | _, _, .fork p q, xs, r =>
      -- both results; a panic if one of the two panics
      (∃ a b, Means p xs (.ok a) ∧ Means q xs (.ok b) ∧ r = .ok (a, b)) ∨
      ((Means p xs .panic ∨ Means q xs .panic) ∧ r = .panic)
  | _, _, .split _ _ key sub, xs, r =>
      -- a panic of the key function
      ((∃ x ∈ xs, key x = .panic) ∧ r = .panic) ∨
      (∀ x ∈ xs, key x ≠ .panic) ∧
        -- a panic of the program of a key that occurs, on the inputs with that key
        (((∃ x ∈ xs, ∃ j, key x = .ok j ∧ Means (sub j) (withKey key j xs) .panic) ∧ r = .panic) ∨
        -- the keys that occur, in order, with the results of their programs on the inputs with that key
        ∃ m, r = .ok m ∧ (m.Pairwise fun a b => Key.lt a.1 b.1) ∧
          (∀ j, j ∈ m.map (·.1) ↔ ∃ x ∈ xs, key x = .ok j) ∧
          ∀ j v, (j, v) ∈ m → Means (sub j) (withKey key j xs) (.ok v))
  | _, _, .behind c p, xs, r =>
      (chainV c xs = .panic ∧ r = .panic) ∨ ∃ ys, chainV c xs = .ok ys ∧ Means p ys r

end Verif.Spec
