import Verif.Spec.Top

/-! # Partitions -/

namespace Verif.Spec

/-- `rs` are non-empty, adjacent ranges in order, covering exactly `a .. b`. -/
def Tiles (a : Nat) : List (Nat × Nat) → Nat → Prop
  | [], b => a = b
  | (s, t) :: rs, b => s = a ∧ s < t ∧ Tiles t rs b

/-- Both lists have the same length, and `P` holds position by position. -/
def Each {α β : Type} (P : α → β → Prop) : List α → List β → Prop
  | [], [] => True
  | a :: as, b :: bs => P a b ∧ Each P as bs
  | _, _ => False

end Verif.Spec
