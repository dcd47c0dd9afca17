import Verif.Spec.Top

/-! # What contains a byte range, in any byte sequence -/

namespace Verif.Spec

open Verif

/-- `free` is the set of the offsets of messages that count as not contained in another one: those where a complete
message starts, such that no free message that starts in the 65535 bytes before reaches the end of the marker. (The
condition speaks about smaller offsets only, so there is exactly one such set.) -/
def IsFree (bytes : Bytes) (free : Nat → Prop) : Prop :=
  ∀ c, free c ↔ (∃ e, MsgAt bytes c e) ∧
    ∀ d w, free d → MsgAt bytes d w → d < c → c ≤ d + 65535 → d + (encode w).length < c + 4

/-- A free message that starts in the 65535 bytes before `p0` and reaches `p1`. -/
def Reaches (bytes : Bytes) (free : Nat → Prop) (p0 p1 : Nat) (x : Nat × StorageEntry) : Prop :=
  free x.1 ∧ MsgAt bytes x.1 x.2 ∧ x.1 < p0 ∧ p0 ≤ x.1 + 65535 ∧ p1 ≤ x.1 + (encode x.2).length

/-- The first of them. -/
def FirstReaching (bytes : Bytes) (free : Nat → Prop) (p0 p1 : Nat) (x : Nat × StorageEntry) : Prop :=
  Reaches bytes free p0 p1 x ∧ ∀ y, Reaches bytes free p0 p1 y → x.1 ≤ y.1

/-- Where the cut is if `p` was aimed at: the start of the first free message that reaches behind `p`, else `p` itself.
(A `p` at the last byte of the file is not moved.) -/
def CutAt (bytes : Bytes) (free : Nat → Prop) (p c : Nat) : Prop :=
  (p + 1 < bytes.length ∧ ∃ x, FirstReaching bytes free p (p + 1) x ∧ c = x.1) ∨
  ((p + 1 < bytes.length → ∀ x, ¬ Reaches bytes free p (p + 1) x) ∧ c = p)

/-- The slices, given where the cuts are: cut every `size` bytes; give up if the file ends before, or if the cut does
not move forward; take the whole rest if less than a quarter of a slice would be left. -/
inductive CutsBy (len size : Nat) (cut : Nat → Nat → Prop) : Nat → List (Nat × Nat) → Prop where
  | beyond {c0 : Nat} : len < c0 + size → CutsBy len size cut c0 []
  | stuck {c0 c : Nat} : c0 + size ≤ len → cut (c0 + size) c → c ≤ c0 → CutsBy len size cut c0 []
  | last {c0 c : Nat} : c0 + size ≤ len → cut (c0 + size) c → c0 < c → len ≤ c + size / 4 →
      CutsBy len size cut c0 [(c0, len)]
  | cut {c0 c : Nat} {rest : List (Nat × Nat)} : c0 + size ≤ len → cut (c0 + size) c → c0 < c →
      c + size / 4 < len → CutsBy len size cut c rest → CutsBy len size cut c0 ((c0, c) :: rest)

end Verif.Spec
