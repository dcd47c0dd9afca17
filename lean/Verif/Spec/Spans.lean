import Verif.Spec.Generator

/-! # Spans of time and the groups they form -/

namespace Verif.Spec

/-- Two spans, given by their first and last second, have a second in common. -/
def Meet (a b : Nat × Nat) : Prop := ∃ t, Covers a.1 a.2 t ∧ Covers b.1 b.2 t

/-- From `a` one gets to `b` by going from spans of the list to spans of the list that they meet. -/
inductive Linked (l : List (Nat × Nat)) (a : Nat × Nat) : Nat × Nat → Prop where
  | here : a ∈ l → Linked l a a
  | next {b c : Nat × Nat} : Linked l a b → c ∈ l → Meet b c → Linked l a c

/-- No span bridges a gap that is there when it arrives: any two earlier spans it meets are linked already. -/
def NoBridge (l : List (Nat × Nat)) : Prop :=
  ∀ before y after, l = before ++ y :: after → ∀ a ∈ before, ∀ b ∈ before, Meet a y → Meet b y → Linked before a b

/-- What becomes of the spans `S` when `y` arrives: it stands alone if it meets none of them; otherwise the first of those it
meets is extended to cover `y` too, and the others stay as they are. -/
def Absorbs (S : List (Nat × Nat)) (y : Nat × Nat) (S' : List (Nat × Nat)) : Prop :=
  ((∀ z ∈ S, ¬ Meet z y) ∧ ∀ z, z ∈ S' ↔ z = y ∨ z ∈ S) ∨
  (∃ p ∈ S, Meet p y ∧ (∀ q ∈ S, Meet q y → p.1 ≤ q.1) ∧
    ∀ z, z ∈ S' ↔ z = (min p.1 y.1, max p.2 y.2) ∨ (z ∈ S ∧ z ≠ p))

/-- The spans, in order of their starts, after the spans of a list have arrived one after the other. -/
inductive Absorbed : List (Nat × Nat) → List (Nat × Nat) → Prop where
  | nil : Absorbed [] []
  | snoc {ys S S' : List (Nat × Nat)} {y : Nat × Nat} : Absorbed ys S → Absorbs S y S' → (S'.Pairwise fun a b => a.1 < b.1) →
      Absorbed (ys ++ [y]) S'

end Verif.Spec
