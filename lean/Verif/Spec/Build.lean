import Verif.Model.Build

/-! # Arithmetic that is right as long as nothing overflows -/

namespace Verif.Spec

open Verif

/-- The results are the mathematical ones where these can be represented. What happens on overflow is left open. -/
structure Exact (A : Arith) : Prop where
  add : ∀ a b, a + b < 2 ^ 64 → A.add a b = .ok (a + b)
  mul : ∀ a b, a * b < 2 ^ 64 → A.mul a b = .ok (a * b)
  sub : ∀ a b : UInt32, b.toNat ≤ a.toNat → ∃ c : UInt32, A.sub32 a b = .ok c ∧ c.toNat = a.toNat - b.toNat

/-- The same for a machine whose largest number is `M`. -/
structure ExactTo (M : Nat) (A : Arith) : Prop where
  add : ∀ a b, a + b ≤ M → A.add a b = .ok (a + b)
  mul : ∀ a b, a * b ≤ M → A.mul a b = .ok (a * b)
  sub : ∀ a b : UInt32, b.toNat ≤ a.toNat → ∃ c : UInt32, A.sub32 a b = .ok c ∧ c.toNat = a.toNat - b.toNat

end Verif.Spec
