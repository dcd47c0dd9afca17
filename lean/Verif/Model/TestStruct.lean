import Verif.Model.Iter

/-!
# Model of the test type of `test_matchit/src/lib.rs`

The repository's own second implementation of the traits. It is used to replay the repository's unit tests on the
model (Props/Conformance.lean).
-/

namespace Verif

/-- `TestStruct` (test_matchit/src/lib.rs:12-16). -/
structure TestStruct where
  pattern : B4
  val : UInt32
  deriving DecidableEq, Repr

namespace TestStruct

/-- `try_read` (test_matchit/src/lib.rs:23-26): `ref_from_prefix`. The fields are taken to lie in declaration order. -/
def readPrefix (bs : Bytes) : Option (Nat × TestStruct) :=
  if 8 ≤ bs.length then some (8, ⟨b4At bs 0, be32 (b4At bs 4)⟩) else none

/-- `impl SearchableMarkerTrait / FromBytesReadableTrait for WrapTestStruct` (test_matchit/src/lib.rs:28-54). `len` and
`max_len` are the size of a reference: 8 bytes on 64-bit targets. `try_read` reads behind the marker. -/
def searchable : SearchableMarker TestStruct where
  tryRead bs :=
    match slice bs 0 4 with
    | .panic => .panic
    | .ok s => if s ≠ [1, 2, 3, 4] then .ok none else
      match sliceFrom bs 4 with
      | .panic => .panic
      | .ok t => .ok (readPrefix t)
  len _ := 8
  maxLen := 8
  marker := [1, 2, 3, 4]
  marker_pos := by decide
  tryReadValidMarker bs := .ok (readPrefix bs)

end TestStruct

end Verif
