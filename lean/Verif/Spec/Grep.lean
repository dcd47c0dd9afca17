import Verif.Model.Grep
import Verif.Spec.Top

/-! # What grep should find -/

namespace Verif.Spec

open Verif

/-- The pattern matches the bytes `s .. e` of the file (as the preferred match starting at `s`). -/
def Matches (re : Regex) (bytes : Bytes) (s e : Nat) : Prop := ∃ g, re.matchAt bytes s = some (e, g)

/-- The pattern has no empty match in the file. -/
def NonEmpty (re : Regex) (bytes : Bytes) : Prop := ∀ s e, Matches re bytes s e → s < e

/-- The match lies in the message, behind its marker. -/
def MatchIn (re : Regex) (bytes : Bytes) (x : Nat × StorageEntry) (s e : Nat) : Prop :=
  Matches re bytes s e ∧ x.1 + 4 ≤ s ∧ e ≤ x.1 + (encode x.2).length

/-- The message contains a match. -/
def ContainsMatch (re : Regex) (bytes : Bytes) (x : Nat × StorageEntry) : Prop := ∃ s e, MatchIn re bytes x s e

/-- No match that lies in a message is overlapped from the left by a match that does not lie in that message. -/
def NoHiding (re : Regex) (bytes : Bytes) (G : List (Nat × StorageEntry)) : Prop :=
  ∀ x ∈ G, ∀ s e s' e', MatchIn re bytes x s' e' → Matches re bytes s e → s < s' → s' < e → MatchIn re bytes x s e

/-- The start marker occurs only at the starts of top-level messages. -/
def MarkersAreMessages (bytes : Bytes) (G : List (Nat × StorageEntry)) : Prop :=
  ∀ j, dltMarker <+: bytes.drop j → ∃ e, (j, e) ∈ G

/-- Searching for a fixed byte string. -/
def literal (needle : Bytes) : Regex where
  matchAt bs s := if needle <+: bs.drop s ∧ s ≤ bs.length then some (s + needle.length, none) else none
  law bs s e g h := by
    split at h
    · next hp =>
      obtain ⟨rfl, rfl⟩ : s + needle.length = e ∧ (none : Option (Nat × Nat)) = g := by simpa using h
      have := hp.1.length_le
      rw [List.length_drop] at this
      refine ⟨by omega, by omega, fun a b h => by simp at h⟩
    · simp at h

end Verif.Spec
