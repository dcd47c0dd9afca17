import Verif.Spec.Stats
import Verif.Model.Hello

/-! # What the pattern `H.* World` matches -/

namespace Verif.Spec

open Verif

/-- The bytes `s .. e` of the file are an `H`, well-formed UTF-8 text without a line break, and ` World`. -/
def HelloAt (bytes : Bytes) (s e : Nat) : Prop :=
  ∃ mid : Bytes, Utf8 mid ∧ 10 ∉ mid ∧ 72 :: (mid ++ [32, 87, 111, 114, 108, 100]) <+: bytes.drop s ∧
    e = s + (mid.length + 7)

end Verif.Spec

namespace Verif.Spec

open Verif

/-- The message contains a match of `H.* World` behind its start marker. -/
def SaysHello (e : StorageEntry) : Prop := ∃ s t, HelloAt ((encode e).drop 4) s t

end Verif.Spec
