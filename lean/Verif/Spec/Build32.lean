import Verif.Model.Print
import Verif.Spec.Stats

/-! # The storage time histograms of builds for 32 bits -/

namespace Verif.Spec

open Verif

/-- A run of messages from the first to the last second that can be stored. -/
def WholeRange (r : List StorageEntry) : Prop :=
  ∃ a b, r.head? = some a ∧ r.getLast? = some b ∧ secsOf a = 0 ∧ secsOf b = 2 ^ 32 - 1

/-- Three outputs of a histogram of storage times that contains a run of `2^32 - 1` seconds: of a 64-bit build, of a debug
build and of a release build for 32 bits. -/
structure Broken (v : Nat) (out64 outDebug outRelease : Bytes × Bool → Prop) : Prop where
  prints : ∃ pre : Bytes,
    (∀ out, out64 out ↔ out = (pre ++ text s!"4294967295-4294967296 secs: {v}\n", true)) ∧
    (∀ out, outDebug out ↔ out = (pre, false)) ∧
    ∀ out, outRelease out ↔ out = (pre ++ text s!"4294967295-0 secs: {v}\n", true)

end Verif.Spec
