import Verif.Model.AnyMarker
import Verif.Model.Grep

/-!
# The grep iterators and `partition_from` for every marker, the empty one included

The same code as in `Model/Grep.lean` and `Model/Partition.lean`, on top of `Model/AnyMarker.lean`. As there, the outer `Option`
is `none` if a call does not return.
-/

set_option linter.unusedVariables false

namespace Verif

/-- `GrepIterator::search` (grepit.rs:34-57). -/
def grepSearchM {T : Type} (S : AnyMarker T) (re : Regex) (bytes : Bytes) (offset : Nat) : Option (Res (Option (Nat × T))) :=
  if offset ≥ bytes.length then some (.ok none)                                    -- 35-37
  else
    match re.findAt bytes offset with                                              -- 38
    | none => some (.ok none)
    | some (start, stop) =>
      match revSearchM S bytes start with                                          -- 40
      | .panic => some .panic
      | .ok (some (off, val)) =>
        match uadd off (S.len val) with
        | .panic => some .panic
        | .ok e =>
          if off < start ∧ e < stop then grepSearchM S re bytes stop               -- 42-44
          else some (.ok (some (off, val)))                                        -- 46
      | .ok none =>
        if stop ≥ bytes.length then some (.ok none)                                -- 50-52
        else grepSearchM S re bytes stop                                           -- 53
partial_fixpoint

/-- `GrepIterator::next` (grepit.rs:66-74). -/
def grepNextM {T : Type} (S : AnyMarker T) (re : Regex) (bytes : Bytes) (self : Nat) : Option (Res (Option (Nat × T) × Nat)) :=
  match grepSearchM S re bytes self with
  | none => none
  | some .panic => some .panic
  | some (.ok none) => some (.ok (none, self))
  | some (.ok (some (offset, val))) =>
    match uadd offset (S.len val) with
    | .panic => some .panic
    | .ok self' => some (.ok (some (offset, val), self'))

/-- `RegExMatcherIterator::capture` (grepit.rs:103-128). -/
def regexCaptureM {T : Type} (S : AnyMarker T) (re : Regex) (bytes : Bytes) (offset : Nat) :
    Option (Res (Option (Nat × (Nat × Nat)))) :=
  if offset ≥ bytes.length then some (.ok none)                                    -- 104-106
  else
    match re.capturesAt bytes offset with                                          -- 107-110
    | none => some (.ok none)
    | some (start, stop, group) =>
      match revSearchM S bytes start with                                          -- 112
      | .panic => some .panic
      | .ok (some (off, val)) =>
        match uadd off (S.len val) with
        | .panic => some .panic
        | .ok e =>
          if off < start ∧ e < stop then regexCaptureM S re bytes stop             -- 114-116
          else
            match group with                                                       -- 118
            | some g => some (.ok (some (off, g)))
            | none => some (.ok none)
      | .ok none =>
        if stop ≥ bytes.length then some (.ok none)                                -- 122-124
        else regexCaptureM S re bytes stop                                         -- 125
partial_fixpoint

/-- `RegExMatcherIterator::next` (grepit.rs:138-146). -/
def regexNextM {T : Type} (S : AnyMarker T) (re : Regex) (bytes : Bytes) (self : Nat) :
    Option (Res (Option (Nat × (Nat × Nat)) × Nat)) :=
  match regexCaptureM S re bytes self with
  | none => none
  | some .panic => some .panic
  | some (.ok none) => some (.ok (none, self))
  | some (.ok (some (offset, val))) =>
    match uadd offset val.2 with
    | .panic => some .panic
    | .ok self' => some (.ok (some (offset, val), self'))

/-- The loop of `partition_from` (matchit/src/lib.rs:121-151); simplified as `partitionLoop`. -/
def partitionLoopM {T : Type} (S : AnyMarker T) (bytes : Bytes) (size c0 c1 : Nat) : Res (List (Nat × Nat)) :=
  if c0 > bytes.length ∨ c1 > bytes.length then .ok []                               -- 123-125
  else
    match containedByM S bytes c1 (c1 + 1) with                                      -- 126
    | .panic => .panic
    | .ok r =>
      let c1' := match r with
        | some (container, _) => container                                           -- 127-130
        | none => c1                                                                 -- 131-135
      if h0 : c0 ≥ c1' then .ok []                                                   -- 139-141
      else if h1 : c1' + size / 4 ≥ bytes.length then                                -- 144
        match sliceFrom bytes c0 with                                                -- 145
        | .panic => .panic
        | .ok _ => .ok [(c0, bytes.length)]
      else
        match slice bytes c0 c1' with                                                -- 148
        | .panic => .panic
        | .ok _ =>
          match partitionLoopM S bytes size c1' (c1' + size) with                    -- 149
          | .panic => .panic
          | .ok rest => .ok ((c0, c1') :: rest)
termination_by bytes.length - c0
decreasing_by omega

/-- `partition_from` (matchit/src/lib.rs:114-155), as ranges of `bytes`; simplified as `partitionRanges`. -/
def partitionRangesM {T : Type} (S : AnyMarker T) (bytes : Bytes) (num : Nat) : Res (List (Nat × Nat)) :=
  if num = 0 then .panic
  else
    let size := bytes.length / num
    partitionLoopM S bytes size 0 size

end Verif
