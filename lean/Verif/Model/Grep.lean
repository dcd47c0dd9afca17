import Verif.Model.Iter

/-!
# Model of the grep iterators (matchit/src/searchable/grepit.rs)

`regex::bytes::Regex` is a parameter: what matters of a pattern is, for every start position of the
haystack, whether a match starts there, where the preferred one ends and where its capture group 1 lies.
`find_at` then returns the match with the smallest start (leftmost-first semantics of the `regex` crate).
-/

namespace Verif

/-- A compiled `regex::bytes::Regex`. -/
structure Regex where
  /-- the preferred match starting at a position: its end, and the range of capture group 1 (if the group
  exists and took part in the match) -/
  matchAt : Bytes → Nat → Option (Nat × Option (Nat × Nat))
  /-- matches lie in the haystack, group 1 inside the match -/
  law : ∀ bs s e g, matchAt bs s = some (e, g) →
    s ≤ e ∧ e ≤ bs.length ∧ ∀ a b, g = some (a, b) → s ≤ a ∧ a ≤ b ∧ b ≤ e

/-- `Regex::captures_read_at` (for `offset ≤ len`): the leftmost match starting at or after `offset`:
start, end, group 1. -/
def Regex.capturesAt (re : Regex) (bs : Bytes) (offset : Nat) : Option (Nat × Nat × Option (Nat × Nat)) :=
  (List.range' offset (bs.length + 1 - offset)).findSome? fun s =>
    (re.matchAt bs s).map fun m => (s, m.1, m.2)

/-- `Regex::find_at`: start and end of that match. -/
def Regex.findAt (re : Regex) (bs : Bytes) (offset : Nat) : Option (Nat × Nat) :=
  (re.capturesAt bs offset).map fun m => (m.1, m.2.1)

/-- `GrepIterator::search` (grepit.rs:34-57). The outer `Option` is divergence: `none` means that the
recursion never returns (at run time: an endless loop or a stack overflow). -/
def grepSearch {T : Type} (S : SearchableMarker T) (re : Regex) (bytes : Bytes) (offset : Nat) :
    Option (Res (Option (Nat × T))) :=
  if offset ≥ bytes.length then some (.ok none)                                    -- 35-37
  else
    match re.findAt bytes offset with                                              -- 38
    | none => some (.ok none)
    | some (start, stop) =>
      match revSearch S bytes start with                                           -- 40
      | .panic => some .panic
      | .ok (some (off, val)) =>
        match uadd off (S.len val) with
        | .panic => some .panic
        | .ok e =>
          if off < start ∧ e < stop then grepSearch S re bytes stop                -- 42-44
          else some (.ok (some (off, val)))                                        -- 46
      | .ok none =>
        if stop ≥ bytes.length then some (.ok none)                                -- 50-52
        else grepSearch S re bytes stop                                            -- 53
partial_fixpoint

/-- `GrepIterator::next` (grepit.rs:66-74); the state is the field `offset`. -/
def grepNext {T : Type} (S : SearchableMarker T) (re : Regex) (bytes : Bytes) (self : Nat) :
    Option (Res (Option (Nat × T) × Nat)) :=
  match grepSearch S re bytes self with
  | none => none
  | some .panic => some .panic
  | some (.ok none) => some (.ok (none, self))
  | some (.ok (some (offset, val))) =>
    match uadd offset (S.len val) with
    | .panic => some .panic
    | .ok self' => some (.ok (some (offset, val), self'))

/-- `RegExMatcherIterator::capture` (grepit.rs:103-128). -/
def regexCapture {T : Type} (S : SearchableMarker T) (re : Regex) (bytes : Bytes) (offset : Nat) :
    Option (Res (Option (Nat × (Nat × Nat)))) :=
  if offset ≥ bytes.length then some (.ok none)                                    -- 104-106
  else
    match re.capturesAt bytes offset with                                          -- 107-110
    | none => some (.ok none)
    | some (start, stop, group) =>
      match revSearch S bytes start with                                           -- 112
      | .panic => some .panic
      | .ok (some (off, val)) =>
        match uadd off (S.len val) with
        | .panic => some .panic
        | .ok e =>
          if off < start ∧ e < stop then regexCapture S re bytes stop              -- 114-116
          else
            match group with                                                       -- 118
            | some g => some (.ok (some (off, g)))
            | none => some (.ok none)
      | .ok none =>
        if stop ≥ bytes.length then some (.ok none)                                -- 122-124
        else regexCapture S re bytes stop                                          -- 125
partial_fixpoint

/-- `RegExMatcherIterator::next` (grepit.rs:138-146). -/
def regexNext {T : Type} (S : SearchableMarker T) (re : Regex) (bytes : Bytes) (self : Nat) :
    Option (Res (Option (Nat × (Nat × Nat)) × Nat)) :=
  match regexCapture S re bytes self with
  | none => none
  | some .panic => some .panic
  | some (.ok none) => some (.ok (none, self))
  | some (.ok (some (offset, val))) =>
    match uadd offset val.2 with
    | .panic => some .panic
    | .ok self' => some (.ok (some (offset, val), self'))

/-- Draining an iterator whose `next` may diverge: at most `fuel` calls. `none`: not finished by then. -/
def collectDN {α : Type} (next : Nat → Option (Res (Option α × Nat))) : Nat → Nat → Option (Res (List α))
  | 0, _ => none
  | fuel + 1, off =>
    match next off with
    | none => none
    | some .panic => some .panic
    | some (.ok (none, _)) => some (.ok [])
    | some (.ok (some a, off')) =>
      match collectDN next fuel off' with
      | none => none
      | some .panic => some .panic
      | some (.ok as) => some (.ok (a :: as))

/-- Draining the iterator from state `off` ends normally and yields exactly `items`. -/
def CollectsD {α : Type} (next : Nat → Option (Res (Option α × Nat))) (off : Nat) (items : List α) : Prop :=
  ∃ fuel, collectDN next fuel off = some (.ok items)

end Verif
