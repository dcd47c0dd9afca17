import Verif.Model.Partition
import Verif.Model.Grep

/-!
# The cost of `contained_by` and `partition_from`, and the depth of the recursion of `GrepIterator::search`

The functions of `Model/Partition.lean` with a counter of the calls of `T::try_read` (matchit/src/lib.rs:95).
`Lemmas/Cost.lean` proves that without the counter they are those functions.
-/

set_option linter.unusedVariables false

namespace Verif

mutual

/-- `ContainedBySearch::contained_by` (matchit/src/lib.rs:77-108), with the number of calls of `try_read`. -/
def containedByC {T : Type} (S : SearchableMarker T) (bytes : Bytes) (p0 p1 : Nat) :
    Res (Option (Nat × T)) × Nat :=
  if p0 ≥ bytes.length ∨ p1 ≥ bytes.length ∨ p0 ≥ p1 ∨ p1 = 0 then (.ok none, 0)     -- 79-81
  else
    let backwardsOffset := p0 - S.maxLen                                             -- 84-87
    match sliceFrom bytes backwardsOffset with                                       -- 89
    | .panic => (.panic, 0)
    | .ok t => containedByLoopC S bytes p0 p1 ((findIter S.marker t).map (· + backwardsOffset))
termination_by (p0, 1, 0)

/-- The `for` loop of `contained_by` (matchit/src/lib.rs:91-107), with the number of calls of `try_read`. -/
def containedByLoopC {T : Type} (S : SearchableMarker T) (bytes : Bytes) (p0 p1 : Nat) :
    List Nat → Res (Option (Nat × T)) × Nat
  | [] => (.ok none, 0)                                                              -- 107
  | c :: cs =>
    if h : c ≥ p0 then (.ok none, 0)                                                 -- 92-94
    else
      match sliceFrom bytes c with                                                   -- 95
      | .panic => (.panic, 0)
      | .ok t =>
        match S.tryRead t with
        | .panic => (.panic, 1)
        | .ok none =>
          let r := containedByLoopC S bytes p0 p1 cs
          (r.1, 1 + r.2)
        | .ok (some (_, container)) =>
          match uadd c (S.len container) with                                        -- 98
          | .panic => (.panic, 1)
          | .ok e =>
            if e ≥ p1 then
              let q := containedByC S bytes c (c + S.marker.length)                  -- 100
              match q.1 with
              | .panic => (.panic, 1 + q.2)
              | .ok (some _) =>                                                      -- 101
                let r := containedByLoopC S bytes p0 p1 cs
                (r.1, 1 + q.2 + r.2)
              | .ok none => (.ok (some (c, container)), 1 + q.2)                     -- 102
            else
              let r := containedByLoopC S bytes p0 p1 cs
              (r.1, 1 + r.2)
termination_by cs => (p0, 0, cs.length)

end

/-- The loop of `partition_from` (matchit/src/lib.rs:121-151), with the number of calls of `try_read`. -/
def partitionLoopC {T : Type} (S : SearchableMarker T) (bytes : Bytes) (size c0 c1 : Nat) :
    Res (List (Nat × Nat)) × Nat :=
  if c0 > bytes.length ∨ c1 > bytes.length then (.ok [], 0)                          -- 123-125
  else
    let q := containedByC S bytes c1 (c1 + 1)                                        -- 126
    match q.1 with
    | .panic => (.panic, q.2)
    | .ok r =>
      let c1' := match r with
        | some (container, _) => container                                           -- 127-130
        | none => c1                                                                 -- 131-135
      if h0 : c0 ≥ c1' then (.ok [], q.2)                                            -- 139-141
      else if h1 : c1' + size / 4 ≥ bytes.length then                                -- 144
        match sliceFrom bytes c0 with                                                -- 145
        | .panic => (.panic, q.2)
        | .ok _ => (.ok [(c0, bytes.length)], q.2)
      else
        match slice bytes c0 c1' with                                                -- 148
        | .panic => (.panic, q.2)
        | .ok _ =>
          let r := partitionLoopC S bytes size c1' (c1' + size)                      -- 149
          match r.1 with
          | .panic => (.panic, q.2 + r.2)
          | .ok rest => (.ok ((c0, c1') :: rest), q.2 + r.2)
termination_by bytes.length - c0
decreasing_by omega

/-- `partition_from` (matchit/src/lib.rs:114-155), as ranges of `bytes`, with the number of calls of `try_read`. -/
def partitionRangesC {T : Type} (S : SearchableMarker T) (bytes : Bytes) (num : Nat) :
    Res (List (Nat × Nat)) × Nat :=
  if num = 0 then (.panic, 0)
  else
    let size := bytes.length / num
    partitionLoopC S bytes size 0 size

/-- `GrepIterator::search` (grepit.rs:34-57) with room for `frames` nested calls on the stack: `none` is a stack overflow.
(The recursive calls are in tail position, but Rust does not guarantee their elimination.) -/
def grepStack {T : Type} (S : SearchableMarker T) (re : Regex) (bytes : Bytes) :
    (frames : Nat) → (offset : Nat) → Option (Res (Option (Nat × T)))
  | 0, _ => none
  | frames + 1, offset =>
    if offset ≥ bytes.length then some (.ok none)                                    -- 35-37
    else
      match re.findAt bytes offset with                                              -- 38
      | none => some (.ok none)
      | some (start, stop) =>
        match revSearch S bytes start with                                           -- 40
        | .panic => some .panic
        | .ok (some (off, val)) =>
          match uadd off (S.len val) with
          | .panic => some .panic
          | .ok e =>
            if off < start ∧ e < stop then grepStack S re bytes frames stop          -- 42-44
            else some (.ok (some (off, val)))                                        -- 46
        | .ok none =>
          if stop ≥ bytes.length then some (.ok none)                                -- 50-52
          else grepStack S re bytes frames stop                                      -- 53

end Verif
