import Verif.Spec.GrepExact
import Verif.Spec.Contained

/-!
# The specifications of C79 to C82 for any message type

The library `matchit` is generic: a user's type brings a marker, `try_read`, `len` and `max_len`. What follows says the
same as Spec/Contained.lean and Spec/GrepExact.lean, with these in place of the DLT format.
-/

namespace Verif.Spec

open Verif

variable {T : Type}

/-- `free` is the set of the offsets of values that count as not contained in another one: those where a value can be
read, such that no free value that starts in the `max_len()` bytes before reaches the end of the marker. -/
def IsFreeOf (S : SearchableMarker T) (bytes : Bytes) (free : Nat → Prop) : Prop :=
  ∀ c, free c ↔ (∃ v, ReadableAt S bytes c v) ∧
    ∀ d w, free d → ReadableAt S bytes d w → d < c → c ≤ d + S.maxLen → d + S.len w < c + S.marker.length

/-- A free value that starts in the `max_len()` bytes before `p0` and reaches `p1`. -/
def ReachesOf (S : SearchableMarker T) (bytes : Bytes) (free : Nat → Prop) (p0 p1 : Nat) (x : Nat × T) : Prop :=
  free x.1 ∧ ReadableAt S bytes x.1 x.2 ∧ x.1 < p0 ∧ p0 ≤ x.1 + S.maxLen ∧ p1 ≤ x.1 + S.len x.2

/-- The first of them. -/
def FirstReachingOf (S : SearchableMarker T) (bytes : Bytes) (free : Nat → Prop) (p0 p1 : Nat) (x : Nat × T) : Prop :=
  ReachesOf S bytes free p0 p1 x ∧ ∀ y, ReachesOf S bytes free p0 p1 y → x.1 ≤ y.1

/-- Where the cut is if `p` was aimed at. -/
def CutAtOf (S : SearchableMarker T) (bytes : Bytes) (free : Nat → Prop) (p c : Nat) : Prop :=
  (p + 1 < bytes.length ∧ ∃ x, FirstReachingOf S bytes free p (p + 1) x ∧ c = x.1) ∨
  ((p + 1 < bytes.length → ∀ x, ¬ ReachesOf S bytes free p (p + 1) x) ∧ c = p)

/-- The value the byte `s` is attributed to: the one read at the last marker that ends at or before `s`. -/
def OwnerOf (S : SearchableMarker T) (bytes : Bytes) (s : Nat) (x : Nat × T) : Prop :=
  x.1 + S.marker.length ≤ s ∧ ReadableAt S bytes x.1 x.2 ∧
    ∀ j, x.1 < j → j + S.marker.length ≤ s → ¬ MarkerAt S bytes j

/-- The match `s .. e` does not lie in a value it is attributed to. -/
def OutsideOf (S : SearchableMarker T) (bytes : Bytes) (s e : Nat) : Prop :=
  ∀ x, OwnerOf S bytes s x → x.1 + S.len x.2 < e

/-- The outcome of a search from `off`: nothing, or a value with the capture group 1 of the match in it. -/
inductive SearchOf (S : SearchableMarker T) (re : Regex) (bytes : Bytes) :
    Nat → Option ((Nat × T) × Option (Nat × Nat)) → Prop where
  /-- the file has ended -/
  | past {off : Nat} : bytes.length ≤ off → SearchOf S re bytes off none
  /-- no match is left -/
  | noMatch {off : Nat} : (∀ s e, off ≤ s → ¬ Matches re bytes s e) → SearchOf S re bytes off none
  /-- the next match lies in its value -/
  | hit {off s e : Nat} {g : Option (Nat × Nat)} {x : Nat × T} : off < bytes.length →
      NextMatch re bytes off s e g → OwnerOf S bytes s x → e ≤ x.1 + S.len x.2 → SearchOf S re bytes off (some (x, g))
  /-- the next match lies outside: go on at its end -/
  | skip {off s e : Nat} {g : Option (Nat × Nat)} {o : Option ((Nat × T) × Option (Nat × Nat))} :
      off < bytes.length → NextMatch re bytes off s e g → OutsideOf S bytes s e → SearchOf S re bytes e o →
      SearchOf S re bytes off o

/-- The offsets a search from `off` gets to by skipping matches. -/
inductive SkipsOf (S : SearchableMarker T) (re : Regex) (bytes : Bytes) : Nat → Nat → Prop where
  | here (off : Nat) : SkipsOf S re bytes off off
  | skip {off s e q : Nat} {g : Option (Nat × Nat)} : off < bytes.length → NextMatch re bytes off s e g →
      OutsideOf S bytes s e → SkipsOf S re bytes e q → SkipsOf S re bytes off q

/-- What grep yields from `off` on: after a hit it goes on at the end of the value. -/
inductive GrepYieldsOf (S : SearchableMarker T) (re : Regex) (bytes : Bytes) : Nat → List (Nat × T) → Prop where
  | done {off : Nat} : SearchOf S re bytes off none → GrepYieldsOf S re bytes off []
  | hit {off : Nat} {x : Nat × T} {g : Option (Nat × Nat)} {rest : List (Nat × T)} :
      SearchOf S re bytes off (some (x, g)) → GrepYieldsOf S re bytes (x.1 + S.len x.2) rest →
      GrepYieldsOf S re bytes off (x :: rest)

/-- What the capture iterator yields from `off` on. -/
inductive CaptureYieldsOf (S : SearchableMarker T) (re : Regex) (bytes : Bytes) :
    Nat → List (Nat × (Nat × Nat)) → Prop where
  | done {off : Nat} : SearchOf S re bytes off none → CaptureYieldsOf S re bytes off []
  | noGroup {off : Nat} {x : Nat × T} : SearchOf S re bytes off (some (x, none)) → CaptureYieldsOf S re bytes off []
  | hit {off a b : Nat} {x : Nat × T} {rest : List (Nat × (Nat × Nat))} :
      SearchOf S re bytes off (some (x, some (a, b))) → CaptureYieldsOf S re bytes (x.1 + b) rest →
      CaptureYieldsOf S re bytes off ((x.1, (a, b)) :: rest)

end Verif.Spec
