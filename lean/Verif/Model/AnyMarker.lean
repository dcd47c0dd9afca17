import Verif.Model.Partition

/-!
# The code of `matchit` for every marker, the empty one included

The same code as in `Model/Iter.lean` and `Model/Partition.lean`, without the assumption that `marker()` is not empty. With an
empty marker `next` may not return; the outer `Option` is `none` then. `Lemmas/AnyMarker.lean` proves that for the
other markers this is the model of `Model/Iter.lean` and `Model/Partition.lean`.
-/

set_option linter.unusedVariables false

namespace Verif

/-- `SearchableMarkerTrait` (matchit/src/searchable/mod.rs:9-14). -/
structure AnyMarker (T : Type) extends FromBytesReadable T where
  marker : Bytes
  tryReadValidMarker : Bytes → Res (Option (Nat × T))

/-- A type with a marker that is not empty. -/
def SearchableMarker.any {T : Type} (S : SearchableMarker T) : AnyMarker T where
  toFromBytesReadable := S.toFromBytesReadable
  marker := S.marker
  tryReadValidMarker := S.tryReadValidMarker

/-- `ReadFallbackIterator::next` (matchit/src/searchable/readfallbackit.rs:47-81). -/
def fallbackNextM {T : Type} (S : AnyMarker T) (bytes : Bytes) (offset : Nat) : Option (Res (Option (Nat × T) × Nat)) :=
  match uadd offset S.marker.length with
  | .panic => some .panic
  | .ok e =>
    if e ≥ bytes.length then some (.ok (none, offset))                        -- 48-50
    else
      match slice bytes offset e with                                         -- 51
      | .panic => some .panic
      | .ok s =>
        match sliceFrom bytes offset with                                     -- 53, 65
        | .panic => some .panic
        | .ok t =>
          if s = S.marker then
            match S.tryReadValidMarker t with                                 -- 53
            | .panic => some .panic
            | .ok (some (bytesRead, val)) =>                                  -- 54-58
              match uadd offset bytesRead with
              | .panic => some .panic
              | .ok offset' => some (.ok (some (offset, val), offset'))
            | .ok none => some (.ok (none, offset))                           -- 59-61
          else
            match find S.marker t with                                        -- 65
            | some position =>
              if position = 0 then some (.ok (none, offset))                  -- 67-70
              else
                match uadd offset position with
                | .panic => some .panic
                | .ok offset' => fallbackNextM S bytes offset'                -- 72-73
            | none => some (.ok (none, offset))                               -- 76-78
partial_fixpoint

/-- `SearchIterator::search` (matchit/src/searchable/searchit.rs:33-42). -/
def searchSearchM {T : Type} (S : AnyMarker T) (bytes : Bytes) (offset : Nat) : Res (Option (Nat × T)) :=
  if offset ≥ bytes.length then .ok none
  else
    match sliceFrom bytes offset with
    | .panic => .panic
    | .ok t =>
      match find S.marker t with
      | none => .ok none
      | some candidate =>
        match uadd candidate offset with
        | .panic => .panic
        | .ok candidate =>
          match sliceFrom bytes candidate with
          | .panic => .panic
          | .ok t' =>
            match S.tryReadValidMarker t' with
            | .panic => .panic
            | .ok none => .ok none
            | .ok (some (_, v)) => .ok (some (candidate, v))

/-- `SearchIterator::next` (matchit/src/searchable/searchit.rs:53-67). -/
def searchNextM {T : Type} (S : AnyMarker T) (bytes : Bytes) (self : Nat) : Option (Res (Option (Nat × T) × Nat)) :=
  match searchSearchM S bytes self with
  | .panic => some .panic
  | .ok (some (offset, t)) =>
    match uadd offset (S.len t) with
    | .panic => some .panic
    | .ok off' => some (.ok (some (offset, t), off'))
  | .ok none =>
    match uadd self S.marker.length with
    | .panic => some .panic
    | .ok self' =>
      if self' ≥ bytes.length then some (.ok (none, self'))
      else searchNextM S bytes self'
partial_fixpoint

/-- `RevSearchIterator::search` (matchit/src/searchable/searchit.rs:83-91). -/
def revSearchM {T : Type} (S : AnyMarker T) (bytes : Bytes) (offset : Nat) : Res (Option (Nat × T)) :=
  if offset > bytes.length ∨ offset = usizeMax then .ok none
  else
    match sliceTo bytes offset with
    | .panic => .panic
    | .ok t =>
      match rfind S.marker t with
      | none => .ok none
      | some candidate =>
        match sliceFrom bytes candidate with
        | .panic => .panic
        | .ok t' =>
          match S.tryReadValidMarker t' with
          | .panic => .panic
          | .ok none => .ok none
          | .ok (some (_, v)) => .ok (some (candidate, v))

/-- `RevSearchIterator::next` (matchit/src/searchable/searchit.rs:109-126). -/
def revNextM {T : Type} (S : AnyMarker T) (bytes : Bytes) (self : Nat) : Option (Res (Option (Nat × T) × Nat)) :=
  match revSearchM S bytes self with
  | .panic => some .panic
  | .ok (some (offset, t)) => some (.ok (some (offset, t), offset))
  | .ok none =>
    if S.marker.length ≤ self then                                            -- 116-119
      if self - S.marker.length = usizeMax then some (.ok (none, self - S.marker.length))
      else revNextM S bytes (self - S.marker.length)
    else some (.ok (none, usizeMax))
partial_fixpoint

mutual

/-- `ContainedBySearch::contained_by` (matchit/src/lib.rs:77-108). -/
def containedByM {T : Type} (S : AnyMarker T) (bytes : Bytes) (p0 p1 : Nat) : Res (Option (Nat × T)) :=
  if p0 ≥ bytes.length ∨ p1 ≥ bytes.length ∨ p0 ≥ p1 ∨ p1 = 0 then .ok none          -- 79-81
  else
    let backwardsOffset := p0 - S.maxLen                                             -- 84-87
    match sliceFrom bytes backwardsOffset with                                       -- 89
    | .panic => .panic
    | .ok t => containedByLoopM S bytes p0 p1 ((findIter S.marker t).map (· + backwardsOffset))
termination_by (p0, 1, 0)

/-- The `for` loop of `contained_by` (matchit/src/lib.rs:91-107). -/
def containedByLoopM {T : Type} (S : AnyMarker T) (bytes : Bytes) (p0 p1 : Nat) : List Nat → Res (Option (Nat × T))
  | [] => .ok none                                                                   -- 107
  | c :: cs =>
    if h : c ≥ p0 then .ok none                                                      -- 92-94
    else
      match sliceFrom bytes c with                                                   -- 95
      | .panic => .panic
      | .ok t =>
        match S.tryRead t with
        | .panic => .panic
        | .ok none => containedByLoopM S bytes p0 p1 cs
        | .ok (some (_, container)) =>
          match uadd c (S.len container) with                                        -- 98
          | .panic => .panic
          | .ok e =>
            if e ≥ p1 then
              match containedByM S bytes c (c + S.marker.length) with                -- 100
              | .panic => .panic
              | .ok (some _) => containedByLoopM S bytes p0 p1 cs                    -- 101
              | .ok none => .ok (some (c, container))                                -- 102
            else containedByLoopM S bytes p0 p1 cs
termination_by cs => (p0, 0, cs.length)

end

end Verif
