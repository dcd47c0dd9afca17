import Verif.Model.Buffer

/-! # What the claims about standard input say about it -/

namespace Verif.Spec

/-- The bytes that can be read in front of the end of the input or the first error. Interruptions do not count as errors. -/
def delivered : List ReadEvent → Bytes
  | [] => []
  | .data b bs :: rest => b :: (bs ++ delivered rest)
  | .interrupted :: rest => delivered rest
  | .error :: _ => []

/-- All bytes, also those behind an error. -/
def allBytes (events : List ReadEvent) : Bytes :=
  (events.map fun | .data b bs => b :: bs | .interrupted => [] | .error => []).flatten

end Verif.Spec
