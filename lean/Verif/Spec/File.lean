import Verif.Spec.Wire

/-! # Files of messages with garbage between them -/

namespace Verif.Spec

open Verif

/-- A file: each message preceded by some bytes, and trailing bytes at the end. -/
def fileOf (segs : List (Bytes × StorageEntry)) (trailing : Bytes) : Bytes :=
  (segs.map fun s => s.1 ++ encode s.2).flatten ++ trailing

/-- The messages of such a file with their byte offsets, the file starting at offset `o`. -/
def messagesAt (o : Nat) : List (Bytes × StorageEntry) → List (Nat × StorageEntry)
  | [] => []
  | (g, e) :: rest => (o + g.length, e) :: messagesAt (o + g.length + (encode e).length) rest

/-- The garbage contains no start marker, the messages are well-formed. -/
def Clean (segs : List (Bytes × StorageEntry)) (trailing : Bytes) : Prop :=
  (∀ s ∈ segs, ¬ dltMarker <:+: s.1 ∧ WF s.2) ∧ ¬ dltMarker <:+: trailing

/-- Where the last of the items ends (`start` if there are none). -/
def endOf {T : Type} (len : T → Nat) (start : Nat) : List (Nat × T) → Nat
  | [] => start
  | (i, v) :: rest => endOf len (i + len v) rest

/-- All offsets moved by `d`. -/
def shift {T : Type} (d : Nat) (items : List (Nat × T)) : List (Nat × T) :=
  items.map fun x => (d + x.1, x.2)

end Verif.Spec
