import Verif.Model.Traits

/-!
# Reading a file: declarative specifications

Nothing here refers to the iterators: only to where the marker occurs and where `try_read` succeeds.
-/

namespace Verif.Spec

open Verif

/-- Rust guarantees that no slice is longer than `isize::MAX` bytes. -/
def Fits (bytes : Bytes) : Prop := bytes.length < 2 ^ 63

instance (bytes : Bytes) : Decidable (Fits bytes) := by unfold Fits; infer_instance

/-- The start marker occurs at offset `i`. -/
def MarkerAt {T : Type} (S : SearchableMarker T) (bytes : Bytes) (i : Nat) : Prop :=
  S.marker <+: bytes.drop i

/-- `try_read` succeeds at offset `i` with value `v`. -/
def ReadableAt {T : Type} (S : SearchableMarker T) (bytes : Bytes) (i : Nat) (v : T) : Prop :=
  ∃ n, S.tryRead (bytes.drop i) = .ok (some (n, v))

/-- `i` is the first marker position at or after `start`. -/
def FirstMarker {T : Type} (S : SearchableMarker T) (bytes : Bytes) (start i : Nat) : Prop :=
  start ≤ i ∧ MarkerAt S bytes i ∧ ∀ j, start ≤ j → j < i → ¬ MarkerAt S bytes j

/-- What a reader yields that goes from marker to marker, jumps over each message and gives up at the
first marker that does not start a readable message. -/
inductive Scan {T : Type} (S : SearchableMarker T) (bytes : Bytes) : Nat → List (Nat × T) → Prop where
  /-- no marker is left -/
  | done (start : Nat) : (∀ j, start ≤ j → ¬ MarkerAt S bytes j) → Scan S bytes start []
  /-- the next marker starts nothing readable -/
  | bad (start i : Nat) : FirstMarker S bytes start i → (∀ v, ¬ ReadableAt S bytes i v) →
      Scan S bytes start []
  /-- the next marker starts message `v`; go on behind it -/
  | msg (start i : Nat) (v : T) (rest : List (Nat × T)) : FirstMarker S bytes start i →
      ReadableAt S bytes i v → Scan S bytes (i + S.len v) rest → Scan S bytes start ((i, v) :: rest)

/-- The leftmost-greedy ("top-level") messages from `start` on: take the first readable message, go on
behind it. -/
inductive Greedy {T : Type} (S : SearchableMarker T) (bytes : Bytes) : Nat → List (Nat × T) → Prop where
  | done (start : Nat) : (∀ j v, start ≤ j → ¬ ReadableAt S bytes j v) → Greedy S bytes start []
  | msg (start i : Nat) (v : T) (rest : List (Nat × T)) : start ≤ i → ReadableAt S bytes i v →
      (∀ j w, start ≤ j → j < i → ¬ ReadableAt S bytes j w) →
      Greedy S bytes (i + S.len v) rest → Greedy S bytes start ((i, v) :: rest)

/-- What the sequential reader needs of a type. -/
structure Reads {T : Type} (S : SearchableMarker T) : Prop where
  /-- reading never panics -/
  total : ∀ bs, ∃ r, S.tryReadValidMarker bs = .ok r
  /-- `try_read` is `try_read_valid_marker` behind a marker check -/
  tryRead_eq : ∀ bs, S.tryRead bs = if S.marker <+: bs then S.tryReadValidMarker bs else .ok none
  /-- the size reported is `len()`, larger than the marker and inside the slice -/
  size : ∀ bs n v, S.tryReadValidMarker bs = .ok (some (n, v)) →
    n = S.len v ∧ S.marker.length < n ∧ n ≤ bs.length

/-- What the searching iterators need. -/
structure Searches {T : Type} (S : SearchableMarker T) : Prop extends Reads S where
  /-- two occurrences of the marker never overlap -/
  borderless : ∀ k, 0 < k → k < S.marker.length → ¬ (S.marker.drop k <+: S.marker)

/-- The laws a type must satisfy to be read reliably. -/
structure Lawful {T : Type} (S : SearchableMarker T) : Prop extends Searches S where
  /-- bytes behind the value do not matter -/
  prefix_only : ∀ bs bs' n v, S.tryReadValidMarker bs = .ok (some (n, v)) →
    bs'.take n = bs.take n → S.tryReadValidMarker bs' = .ok (some (n, v))

instance {T : Type} {S : SearchableMarker T} : Coe (Searches S) (Reads S) := ⟨Searches.toReads⟩

instance {T : Type} {S : SearchableMarker T} : Coe (Lawful S) (Searches S) := ⟨Lawful.toSearches⟩

end Verif.Spec
