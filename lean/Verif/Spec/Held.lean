import Verif.Spec.Pipeline

/-! # What a pipeline has in memory after a list of inputs, as a function of the list -/

namespace Verif.Spec

open Verif

mutual
/-- Grouping, `a` pending: the groups that are complete, and the number of values kept. -/
def aloneOpen {α : Type} (f : α → α → Res Bool) (a : α) : List α → Res (List (α × α) × Nat)
  | [] => .ok ([], 1)
  | x :: xs => (f a x).bind fun rel =>
      if rel then runOpen f a x xs
      else (f a a).bind fun self =>
        if self then (aloneOpen f x xs).bind fun r => .ok ((a, a) :: r.1, r.2)
        else aloneOpen f a xs
/-- Grouping, in a run from `a` to `z`: its two ends are kept. -/
def runOpen {α : Type} (f : α → α → Res Bool) (a z : α) : List α → Res (List (α × α) × Nat)
  | [] => .ok ([], 2)
  | x :: xs => (f z x).bind fun rel =>
      if rel then runOpen f a x xs
      else (aloneOpen f x xs).bind fun r => .ok ((a, z) :: r.1, r.2)
end

/-- Grouping a list that may go on. -/
def groupOpen {α : Type} (f : α → α → Res Bool) : List α → Res (List (α × α) × Nat)
  | [] => .ok ([], 0)
  | x :: xs => aloneOpen f x xs

/-- A chain of adapters after a list that may go on: what has come out of it, and the number of values it keeps. A merge lets
nothing out and keeps the merged values. -/
def chainOpen {α : Type} : {β : Type} → Chain α β → List α → Res (List β × Nat)
  | _, .nil, xs => .ok (xs, 0)
  | _, .filter c p, xs => (chainOpen c xs).bind fun r => (filterV p r.1).bind fun ys => .ok (ys, r.2)
  | _, .map c f, xs => (chainOpen c xs).bind fun r => (mapV f r.1).bind fun ys => .ok (ys, r.2)
  | _, .groupby c f, xs => (chainOpen c xs).bind fun r => (groupOpen f r.1).bind fun g => .ok (g.1, r.2 + g.2)
  | _, .merge _ c f key, xs => (chainOpen c xs).bind fun r => (mergeV f key [] r.1).bind fun m => .ok ([], r.2 + m.length)

/-- `n` values are kept after the inputs `xs`. -/
def Keeps : {α ρ : Type} → Prog α ρ → List α → Nat → Prop
  | _, _, .fold _ _ _, _, n => n = 1
  | _, _, .fork p q, xs, n => ∃ a b, Keeps p xs a ∧ Keeps q xs b ∧ n = a + b
  | _, _, .split (κ := κ) _ _ key sub, xs, n =>
      -- one reducer for each key that occurs, which keeps what it keeps of the inputs with that key
      ∃ (ks : List κ) (m : κ → Nat), ks.Pairwise Key.lt ∧ (∀ j, j ∈ ks ↔ ∃ x ∈ xs, key x = .ok j) ∧
        (∀ j ∈ ks, Keeps (sub j) (withKey key j xs) (m j)) ∧ n = (ks.map m).sum
  | _, _, .behind c p, xs, n => ∃ ys a b, chainOpen c xs = .ok (ys, a) ∧ Keeps p ys b ∧ n = a + b

/-- The number of `groupby` stages; `none` if there is a `merge`. -/
def groupBys {α : Type} : {β : Type} → Chain α β → Option Nat
  | _, .nil => some 0
  | _, .filter c _ => groupBys c
  | _, .map c _ => groupBys c
  | _, .groupby c _ => (groupBys c).map (· + 1)
  | _, .merge _ _ _ _ => none

/-- A pipeline without `merge` and `split`, with `n` folds and `groupby` stages that count twice. -/
def Slots : {α ρ : Type} → Prog α ρ → Nat → Prop
  | _, _, .fold _ _ _, n => n = 1
  | _, _, .fork p q, n => ∃ a b, Slots p a ∧ Slots q b ∧ n = a + b
  | _, _, .split _ _ _ _, _ => False
  | _, _, .behind c p, n => ∃ g b, groupBys c = some g ∧ Slots p b ∧ n = 2 * g + b

end Verif.Spec
