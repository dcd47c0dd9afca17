import Verif.Spec.File

/-!
# A file that changes while it is mapped: specifications

`v c a` is the file as the access number `a` of the call number `c` of `next` sees it. Nothing here refers to the iterator.
-/

namespace Verif.Spec

open Verif

/-- The mapping has `n` bytes all the time. -/
def Mapped (n : Nat) (v : Nat → Nat → Bytes) : Prop := n < 2 ^ 63 ∧ ∀ c a, (v c a).length = n

/-- Messages written back to back. -/
def backToBack (es : List StorageEntry) : Bytes := (es.map encode).flatten

/-- Where message number `j` of them starts (behind the last one: where it ends). -/
def startOf (es : List StorageEntry) (j : Nat) : Nat := (backToBack (es.take j)).length

/-- Every message with the offset where it starts. -/
def placed (es : List StorageEntry) : List (Nat × StorageEntry) := es.mapIdx fun j e => (startOf es j, e)

/-- The file when the first `w` bytes of the messages have been written into a file of `n` zeros. -/
def written (n : Nat) (es : List StorageEntry) (w : Nat) : Bytes :=
  (backToBack es).take w ++ List.replicate (n - ((backToBack es).take w).length) 0

/-- The file when the first `m` of the messages have been written into a file of `n` zeros. -/
def filled (n : Nat) (es : List StorageEntry) (m : Nat) : Bytes :=
  backToBack (es.take m) ++ List.replicate (n - (backToBack (es.take m)).length) 0

/-- Message `e` with its first `r ≥ 20` bytes only (the headers, and some of what follows), zeros instead of the others. -/
def half (e : StorageEntry) (r : Nat) : StorageEntry :=
  ⟨e.storageHeader, ⟨e.dlt.header, e.dlt.tail.take (r - 20) ++ List.replicate (e.dlt.tail.length - (r - 20)) 0⟩⟩

/-- How many messages are taken before call `c` by a reader that takes message number `j` with call `c` if `can c j`. -/
def taken (can : Nat → Nat → Prop) [∀ c j, Decidable (can c j)] : Nat → Nat
  | 0 => 0
  | c + 1 => if can c (taken can c) then taken can c + 1 else taken can c

end Verif.Spec
