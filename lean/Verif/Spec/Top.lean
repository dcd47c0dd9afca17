import Verif.Spec.Scan
import Verif.Spec.Wire

/-! # Top-level messages of a file -/

namespace Verif.Spec

open Verif

/-- The top-level messages: scan the file from the start, take the first complete message, go on behind it. -/
def TopLevel (bytes : Bytes) (G : List (Nat × StorageEntry)) : Prop := Greedy dltStorage bytes 0 G

/-- Position `p` lies strictly inside the message `x` (behind its first byte, before its end). -/
def StrictlyInside (p : Nat) (x : Nat × StorageEntry) : Prop :=
  x.1 < p ∧ p < x.1 + (encode x.2).length

instance (p : Nat) (x : Nat × StorageEntry) : Decidable (StrictlyInside p x) := by
  unfold StrictlyInside; infer_instance

/-- No complete message starts in the last three bytes of a top-level message (so that its four-byte marker
would straddle the end). -/
def NoStraddle (bytes : Bytes) (G : List (Nat × StorageEntry)) : Prop :=
  ∀ x ∈ G, ∀ j e, MsgAt bytes j e → StrictlyInside j x → j + 4 ≤ x.1 + (encode x.2).length

/-- Every top-level message has at most `L` bytes. -/
def AtMost (L : Nat) (G : List (Nat × StorageEntry)) : Prop := ∀ x ∈ G, (encode x.2).length ≤ L

end Verif.Spec
