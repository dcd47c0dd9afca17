import Verif.Model.AnyMarker
import Verif.Spec.GrepExact

/-! # Types of messages without a marker -/

namespace Verif.Spec

open Verif

variable {T : Type}

/-- A value can be read at `p`. -/
def ValueAt (S : AnyMarker T) (bytes : Bytes) (p : Nat) (v : T) : Prop := ∃ n, S.tryReadValidMarker (bytes.drop p) = .ok (some (n, v))

/-- Reading in this slice does not panic, and no value claims to reach behind the end of the address space. -/
def Harmless (S : AnyMarker T) (bytes : Bytes) : Prop :=
  (∀ p, p ≤ bytes.length → S.tryReadValidMarker (bytes.drop p) ≠ .panic) ∧
  ∀ p v, p ≤ bytes.length → ValueAt S bytes p v → p + S.len v ≤ usizeMax

/-- The outcome of a search for a pattern from `off`: the first value that starts where a match starts, with the capture group 1
of the match. Matches at which no value starts are skipped as a whole. -/
inductive StartSearch (S : AnyMarker T) (re : Regex) (bytes : Bytes) : Nat → Option ((Nat × T) × Option (Nat × Nat)) → Prop where
  /-- the file has ended -/
  | past {off : Nat} : bytes.length ≤ off → StartSearch S re bytes off none
  /-- no match is left -/
  | noMatch {off : Nat} : (∀ s e, off ≤ s → ¬ Matches re bytes s e) → StartSearch S re bytes off none
  /-- a value starts with the next match -/
  | hit {off s e : Nat} {g : Option (Nat × Nat)} {v : T} : off < bytes.length → NextMatch re bytes off s e g →
      ValueAt S bytes s v → StartSearch S re bytes off (some ((s, v), g))
  /-- none does: go on at the end of the match -/
  | skip {off s e : Nat} {g : Option (Nat × Nat)} {o : Option ((Nat × T) × Option (Nat × Nat))} : off < bytes.length →
      NextMatch re bytes off s e g → (∀ v, ¬ ValueAt S bytes s v) → StartSearch S re bytes e o → StartSearch S re bytes off o

/-- The offsets a search from `off` gets to by skipping matches. -/
inductive StartSkips (S : AnyMarker T) (re : Regex) (bytes : Bytes) : Nat → Nat → Prop where
  | here (off : Nat) : StartSkips S re bytes off off
  | skip {off s e q : Nat} {g : Option (Nat × Nat)} : off < bytes.length → NextMatch re bytes off s e g →
      (∀ v, ¬ ValueAt S bytes s v) → StartSkips S re bytes e q → StartSkips S re bytes off q

/-- What grep yields from `off` on: after a hit it goes on at the end of the value. -/
inductive StartGrep (S : AnyMarker T) (re : Regex) (bytes : Bytes) : Nat → List (Nat × T) → Prop where
  | done {off : Nat} : StartSearch S re bytes off none → StartGrep S re bytes off []
  | hit {off : Nat} {x : Nat × T} {g : Option (Nat × Nat)} {rest : List (Nat × T)} : StartSearch S re bytes off (some (x, g)) →
      StartGrep S re bytes (x.1 + S.len x.2) rest → StartGrep S re bytes off (x :: rest)

/-- What the capture iterator yields from `off` on: it ends at the first match at the start of a value without a group 1; after a
hit at `i` with group 1 at `a .. b` it goes on at `i + b`. -/
inductive StartCapture (S : AnyMarker T) (re : Regex) (bytes : Bytes) : Nat → List (Nat × (Nat × Nat)) → Prop where
  | done {off : Nat} : StartSearch S re bytes off none → StartCapture S re bytes off []
  | noGroup {off : Nat} {x : Nat × T} : StartSearch S re bytes off (some (x, none)) → StartCapture S re bytes off []
  | hit {off a b : Nat} {x : Nat × T} {rest : List (Nat × (Nat × Nat))} : StartSearch S re bytes off (some (x, some (a, b))) →
      StartCapture S re bytes (x.1 + b) rest → StartCapture S re bytes off ((x.1, (a, b)) :: rest)

/-- A value (read without looking for a marker) that starts in the `max_len()` bytes before `p` and goes on behind the byte `p`. -/
def GoesOver (S : AnyMarker T) (bytes : Bytes) (p c : Nat) : Prop :=
  c < p ∧ p ≤ c + S.maxLen ∧ ∃ n v, S.tryRead (bytes.drop c) = .ok (some (n, v)) ∧ p < c + S.len v

/-- Where the cut is if `p` was aimed at: at the first value that covers it, else at `p`. (A `p` at the last byte of the file is
not moved.) -/
def CutAtFirst (S : AnyMarker T) (bytes : Bytes) (p c : Nat) : Prop :=
  (p + 1 < bytes.length ∧ GoesOver S bytes p c ∧ ∀ d, GoesOver S bytes p d → c ≤ d) ∨
  ((p + 1 < bytes.length → ∀ d, ¬ GoesOver S bytes p d) ∧ c = p)

end Verif.Spec
