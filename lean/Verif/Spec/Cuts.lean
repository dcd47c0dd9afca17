import Verif.Spec.Partition

/-! # Where a file is cut -/

namespace Verif.Spec

open Verif

/-- The place of the cut if `p` was aimed at: the start of the top-level message around `p`, else `p` itself.
(A `p` at the last byte of the file is not moved.) -/
def CutPoint (len : Nat) (G : List (Nat × StorageEntry)) (p c : Nat) : Prop :=
  (∃ x ∈ G, StrictlyInside p x ∧ p + 1 < len ∧ c = x.1) ∨
  ((p + 1 < len → ∀ x ∈ G, ¬ StrictlyInside p x) ∧ c = p)

/-- The slices of a file of `len` bytes with the top-level messages `G`, from byte `c0` on: cut every `size` bytes;
give up if the file ends before, or if the cut does not move forward; take the whole rest if less than a quarter of
a slice would be left. -/
inductive Cuts (len size : Nat) (G : List (Nat × StorageEntry)) : Nat → List (Nat × Nat) → Prop where
  | beyond {c0 : Nat} : len < c0 + size → Cuts len size G c0 []
  | stuck {c0 c : Nat} : c0 + size ≤ len → CutPoint len G (c0 + size) c → c ≤ c0 → Cuts len size G c0 []
  | last {c0 c : Nat} : c0 + size ≤ len → CutPoint len G (c0 + size) c → c0 < c → len ≤ c + size / 4 →
      Cuts len size G c0 [(c0, len)]
  | cut {c0 c : Nat} {rest : List (Nat × Nat)} : c0 + size ≤ len → CutPoint len G (c0 + size) c → c0 < c →
      c + size / 4 < len → Cuts len size G c rest → Cuts len size G c0 ((c0, c) :: rest)

/-- The sizes of slices: all but the last have between `lo` and `hi` bytes, the last at most `hi + hi / 4`. -/
def Balanced (lo hi : Nat) : List (Nat × Nat) → Prop
  | [] => True
  | [r] => r.2 - r.1 ≤ hi + hi / 4
  | r :: r' :: rs => lo ≤ r.2 - r.1 ∧ r.2 - r.1 ≤ hi ∧ Balanced lo hi (r' :: rs)

/-- Every complete message that starts inside a top-level message ends in it. -/
def WellNested (bytes : Bytes) (G : List (Nat × StorageEntry)) : Prop :=
  ∀ x ∈ G, ∀ j e, MsgAt bytes j e → StrictlyInside j x → j + (encode e).length ≤ x.1 + (encode x.2).length

end Verif.Spec
