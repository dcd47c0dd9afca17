import Verif.Model.Iter

/-!
# Model of `ContainedBySearch` and `partition_from` (matchit/src/lib.rs:57-155)
-/

set_option linter.unusedVariables false

namespace Verif

mutual

/-- `ContainedBySearch::contained_by` (matchit/src/lib.rs:77-108). The lazily evaluated `find_iter`
(89, 91) is modelled by the list of all its positions. -/
def containedBy {T : Type} (S : SearchableMarker T) (bytes : Bytes) (p0 p1 : Nat) :
    Res (Option (Nat × T)) :=
  if p0 ≥ bytes.length ∨ p1 ≥ bytes.length ∨ p0 ≥ p1 ∨ p1 = 0 then .ok none          -- 79-81
  else
    let backwardsOffset := p0 - S.maxLen                                             -- 84-87
    match sliceFrom bytes backwardsOffset with                                       -- 89
    | .panic => .panic
    | .ok t => containedByLoop S bytes p0 p1 ((findIter S.marker t).map (· + backwardsOffset))
termination_by (p0, 1, 0)

/-- The `for` loop of `contained_by` (matchit/src/lib.rs:91-107). -/
def containedByLoop {T : Type} (S : SearchableMarker T) (bytes : Bytes) (p0 p1 : Nat) :
    List Nat → Res (Option (Nat × T))
  | [] => .ok none                                                                   -- 107
  | c :: cs =>
    if h : c ≥ p0 then .ok none                                                      -- 92-94
    else
      match sliceFrom bytes c with                                                   -- 95
      | .panic => .panic
      | .ok t =>
        match S.tryRead t with
        | .panic => .panic
        | .ok none => containedByLoop S bytes p0 p1 cs
        | .ok (some (_, container)) =>
          match uadd c (S.len container) with                                        -- 98
          | .panic => .panic
          | .ok e =>
            if e ≥ p1 then
              match containedBy S bytes c (c + S.marker.length) with                 -- 100
              | .panic => .panic
              | .ok (some _) => containedByLoop S bytes p0 p1 cs                     -- 101
              | .ok none => .ok (some (c, container))                                -- 102
            else containedByLoop S bytes p0 p1 cs
termination_by cs => (p0, 0, cs.length)

end

/-- The loop of `partition_from` (matchit/src/lib.rs:121-151). A sub-slice of `bytes` is represented by
its range `(start, stop)`. The additions at 126, 144 and 149 stay below `2 * isize::MAX` and are
unchecked here. -/
def partitionLoop {T : Type} (S : SearchableMarker T) (bytes : Bytes) (size c0 c1 : Nat) :
    Res (List (Nat × Nat)) :=
  if c0 > bytes.length ∨ c1 > bytes.length then .ok []                               -- 123-125
  else
    match containedBy S bytes c1 (c1 + 1) with                                       -- 126
    | .panic => .panic
    | .ok r =>
      let c1' := match r with
        | some (container, _) => container                                           -- 127-130
        | none => c1                                                                 -- 131-135
      if h0 : c0 ≥ c1' then .ok []                                                   -- 139-141
      else if h1 : c1' + size / 4 ≥ bytes.length then                                -- 144
        match sliceFrom bytes c0 with                                                -- 145
        | .panic => .panic
        | .ok _ => .ok [(c0, bytes.length)]
      else
        match slice bytes c0 c1' with                                                -- 148
        | .panic => .panic
        | .ok _ =>
          match partitionLoop S bytes size c1' (c1' + size) with                     -- 149
          | .panic => .panic
          | .ok rest => .ok ((c0, c1') :: rest)
termination_by bytes.length - c0
decreasing_by omega

/-- `partition_from` (matchit/src/lib.rs:114-155), as ranges of `bytes`. `bytes.len() / num` (117) panics
for `num = 0`. -/
def partitionRanges {T : Type} (S : SearchableMarker T) (bytes : Bytes) (num : Nat) :
    Res (List (Nat × Nat)) :=
  if num = 0 then .panic
  else
    let size := bytes.length / num
    partitionLoop S bytes size 0 size

/-- `partition_from` (matchit/src/lib.rs:114-155): the contents of the returned slices. -/
def partitionFrom {T : Type} (S : SearchableMarker T) (bytes : Bytes) (num : Nat) : Res (List Bytes) :=
  match partitionRanges S bytes num with
  | .panic => .panic
  | .ok rs => .ok (rs.map fun r => (bytes.take r.2).drop r.1)

end Verif
