import Verif.Model.Partition

/-!
# The stack `contained_by` and `partition_from` need

`contained_by` (matchit/src/lib.rs:77-108) calls itself from its loop (100), and goes on with the loop afterwards, so every
call in progress occupies the stack. The functions of `Model/Partition.lean` with room for a given number of calls in
progress: `none` is a stack overflow, which ends the process. `Lemmas/Stack.lean` proves that whatever they return otherwise
is what those functions return.
-/

namespace Verif

/-- The `for` loop of `contained_by` (matchit/src/lib.rs:91-107); `nested` is the call in line 100. -/
def containedByLoopStack {T : Type} (S : SearchableMarker T) (bytes : Bytes)
    (nested : Nat → Nat → Option (Res (Option (Nat × T)))) (p0 p1 : Nat) : List Nat → Option (Res (Option (Nat × T)))
  | [] => some (.ok none)                                                            -- 107
  | c :: cs =>
    if c ≥ p0 then some (.ok none)                                                   -- 92-94
    else
      match sliceFrom bytes c with                                                   -- 95
      | .panic => some .panic
      | .ok t =>
        match S.tryRead t with
        | .panic => some .panic
        | .ok none => containedByLoopStack S bytes nested p0 p1 cs
        | .ok (some (_, container)) =>
          match uadd c (S.len container) with                                        -- 98
          | .panic => some .panic
          | .ok e =>
            if e ≥ p1 then
              match nested c (c + S.marker.length) with                              -- 100
              | none => none
              | some .panic => some .panic
              | some (.ok (some _)) => containedByLoopStack S bytes nested p0 p1 cs  -- 101
              | some (.ok none) => some (.ok (some (c, container)))                  -- 102
            else containedByLoopStack S bytes nested p0 p1 cs

/-- `ContainedBySearch::contained_by` (matchit/src/lib.rs:77-108) with room for `frames` calls in progress. -/
def containedByStack {T : Type} (S : SearchableMarker T) (bytes : Bytes) :
    (frames : Nat) → Nat → Nat → Option (Res (Option (Nat × T)))
  | 0, _, _ => none
  | frames + 1, p0, p1 =>
    if p0 ≥ bytes.length ∨ p1 ≥ bytes.length ∨ p0 ≥ p1 ∨ p1 = 0 then some (.ok none) -- 79-81
    else
      match sliceFrom bytes (p0 - S.maxLen) with                                     -- 84-89
      | .panic => some .panic
      | .ok t => containedByLoopStack S bytes (containedByStack S bytes frames) p0 p1
          ((findIter S.marker t).map (· + (p0 - S.maxLen)))

/-- The loop of `partition_from` (matchit/src/lib.rs:121-151) with room for `frames` calls of `contained_by` in progress. -/
def partitionLoopStack {T : Type} (S : SearchableMarker T) (bytes : Bytes) (frames size c0 c1 : Nat) :
    Option (Res (List (Nat × Nat))) :=
  if c0 > bytes.length ∨ c1 > bytes.length then some (.ok [])                        -- 123-125
  else
    match containedByStack S bytes frames c1 (c1 + 1) with                           -- 126
    | none => none
    | some .panic => some .panic
    | some (.ok r) =>
      let c1' := match r with
        | some (container, _) => container                                           -- 127-130
        | none => c1                                                                 -- 131-135
      if _h0 : c0 ≥ c1' then some (.ok [])                                           -- 139-141
      else if _h1 : c1' + size / 4 ≥ bytes.length then                               -- 144
        match sliceFrom bytes c0 with                                                -- 145
        | .panic => some .panic
        | .ok _ => some (.ok [(c0, bytes.length)])
      else
        match slice bytes c0 c1' with                                                -- 148
        | .panic => some .panic
        | .ok _ =>
          match partitionLoopStack S bytes frames size c1' (c1' + size) with         -- 149
          | none => none
          | some .panic => some .panic
          | some (.ok rest) => some (.ok ((c0, c1') :: rest))
termination_by bytes.length - c0
decreasing_by omega

/-- `partition_from` (matchit/src/lib.rs:114-155), as ranges of `bytes`, with room for `frames` calls of `contained_by` in
progress. -/
def partitionRangesStack {T : Type} (S : SearchableMarker T) (bytes : Bytes) (frames num : Nat) :
    Option (Res (List (Nat × Nat))) :=
  if num = 0 then some .panic
  else partitionLoopStack S bytes frames (bytes.length / num) 0 (bytes.length / num)

end Verif
