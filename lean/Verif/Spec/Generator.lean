import Verif.Model.Prim

/-! # Runs, intervals and streams: specifications for the generators -/

namespace Verif.Spec

/-- `runs` cuts `xs` into maximal runs of consecutive elements related by `R`. -/
structure MaximalRuns {α : Type} (R : α → α → Prop) (xs : List α) (runs : List (List α)) : Prop where
  /-- every element belongs to exactly one run, in order -/
  flatten : runs.flatten = xs
  nonempty : ∀ r ∈ runs, r ≠ []
  /-- neighbours in a run are related -/
  related : ∀ r ∈ runs, ∀ i a b, r[i]? = some a → r[i + 1]? = some b → R a b
  /-- the last element of a run and the first of the next are not -/
  maximal : ∀ i r r' a b, runs[i]? = some r → runs[i + 1]? = some r' → r.getLast? = some a → r'.head? = some b →
    ¬ R a b

/-- First and last element of a run. -/
def ends {α : Type} (r : List α) : Option (α × α) :=
  match r.head?, r.getLast? with
  | some a, some b => some (a, b)
  | _, _ => none

/-- `n` calls of an iterator that yields `xs` and then stays exhausted. -/
def streamOf {α : Type} (xs : List α) (n : Nat) : List (Option α) := (xs.map some ++ List.replicate n none).take n

/-- The points of the interval from `lo` to `hi` (empty if `hi < lo`). -/
def Covers (lo hi t : Nat) : Prop := lo ≤ t ∧ t ≤ hi

end Verif.Spec
