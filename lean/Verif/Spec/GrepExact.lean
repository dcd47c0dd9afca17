import Verif.Spec.Grep

/-! # What a search for a pattern comes upon, in any byte sequence and for any pattern -/

namespace Verif.Spec

open Verif

/-- The leftmost match starting at or after `off` is `s .. e`, with capture group 1 at `g`. -/
def NextMatch (re : Regex) (bytes : Bytes) (off s e : Nat) (g : Option (Nat × Nat)) : Prop :=
  off ≤ s ∧ re.matchAt bytes s = some (e, g) ∧ ∀ j e', off ≤ j → j < s → ¬ Matches re bytes j e'

/-- The message the byte `s` is attributed to: the complete message `x` whose marker is the last one that ends at or
before `s`. (If the last marker starts no complete message, `s` is attributed to none.) -/
def Owner (bytes : Bytes) (s : Nat) (x : Nat × StorageEntry) : Prop :=
  x.1 + 4 ≤ s ∧ MsgAt bytes x.1 x.2 ∧ ∀ j, x.1 < j → j + 4 ≤ s → ¬ dltMarker <+: bytes.drop j

/-- The match `s .. e` does not lie in a message it is attributed to. -/
def Outside (bytes : Bytes) (s e : Nat) : Prop :=
  ∀ x, Owner bytes s x → x.1 + (encode x.2).length < e

/-- The outcome of a search from `off`: nothing, or a message with the capture group 1 of the match in it. Matches
that lie outside messages are skipped as a whole. -/
inductive Search (re : Regex) (bytes : Bytes) :
    Nat → Option ((Nat × StorageEntry) × Option (Nat × Nat)) → Prop where
  /-- the file has ended -/
  | past {off : Nat} : bytes.length ≤ off → Search re bytes off none
  /-- no match is left -/
  | noMatch {off : Nat} : (∀ s e, off ≤ s → ¬ Matches re bytes s e) → Search re bytes off none
  /-- the next match lies in its message -/
  | hit {off s e : Nat} {g : Option (Nat × Nat)} {x : Nat × StorageEntry} : off < bytes.length →
      NextMatch re bytes off s e g → Owner bytes s x → e ≤ x.1 + (encode x.2).length →
      Search re bytes off (some (x, g))
  /-- the next match lies outside: go on at its end -/
  | skip {off s e : Nat} {g : Option (Nat × Nat)} {o : Option ((Nat × StorageEntry) × Option (Nat × Nat))} :
      off < bytes.length → NextMatch re bytes off s e g → Outside bytes s e → Search re bytes e o →
      Search re bytes off o

/-- The offsets a search from `off` gets to by skipping matches. -/
inductive Skips (re : Regex) (bytes : Bytes) : Nat → Nat → Prop where
  | here (off : Nat) : Skips re bytes off off
  | skip {off s e q : Nat} {g : Option (Nat × Nat)} : off < bytes.length → NextMatch re bytes off s e g →
      Outside bytes s e → Skips re bytes e q → Skips re bytes off q

/-- What grep yields from `off` on: after a hit it goes on at the end of the message. -/
inductive GrepYields (re : Regex) (bytes : Bytes) : Nat → List (Nat × StorageEntry) → Prop where
  | done {off : Nat} : Search re bytes off none → GrepYields re bytes off []
  | hit {off : Nat} {x : Nat × StorageEntry} {g : Option (Nat × Nat)} {rest : List (Nat × StorageEntry)} :
      Search re bytes off (some (x, g)) → GrepYields re bytes (x.1 + (encode x.2).length) rest →
      GrepYields re bytes off (x :: rest)

/-- What the capture iterator yields from `off` on: it ends at the first match without a group 1; after a hit in the
message at `i` with group 1 at `a .. b` it goes on at `i + b`. -/
inductive CaptureYields (re : Regex) (bytes : Bytes) : Nat → List (Nat × (Nat × Nat)) → Prop where
  | done {off : Nat} : Search re bytes off none → CaptureYields re bytes off []
  | noGroup {off : Nat} {x : Nat × StorageEntry} : Search re bytes off (some (x, none)) →
      CaptureYields re bytes off []
  | hit {off a b : Nat} {x : Nat × StorageEntry} {rest : List (Nat × (Nat × Nat))} :
      Search re bytes off (some (x, some (a, b))) → CaptureYields re bytes (x.1 + b) rest →
      CaptureYields re bytes off ((x.1, (a, b)) :: rest)

end Verif.Spec
