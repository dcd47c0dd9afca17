import Verif.Spec.File

/-! # Damaged files -/

namespace Verif.Spec

open Verif

/-- Two files of the same length that differ at most in the bytes from `s` to `t` (`t` excluded). -/
def SameOutside (a b : Bytes) (s t : Nat) : Prop :=
  a.length = b.length ∧ ∀ p, p < s ∨ t ≤ p → a[p]? = b[p]?

/-- Byte `p` is part of the frame of one of the messages: of its start marker or of its length field. -/
def InFrame (items : List (Nat × StorageEntry)) (p : Nat) : Prop :=
  ∃ x ∈ items, (x.1 ≤ p ∧ p < x.1 + 4) ∨ p = x.1 + 18 ∨ p = x.1 + 19

/-- Byte `p` lies in one of the messages. -/
def InMessages (items : List (Nat × StorageEntry)) (p : Nat) : Prop :=
  ∃ x ∈ items, x.1 ≤ p ∧ p < x.1 + (encode x.2).length

end Verif.Spec
