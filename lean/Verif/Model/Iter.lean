import Verif.Model.Traits

/-!
# Model of the reading iterators of `matchit`

`Iterator::next(&mut self)` becomes a function from the mutable state (the field `offset`; `bytes`
and the prebuilt finders never change) to the returned item and the new offset.
-/

set_option linter.unusedVariables false

namespace Verif

/-- A `next` function over an `offset` state. -/
abbrev NextFn (α : Type) := Nat → Res (Option α × Nat)

/-- The items a `for` loop / `.collect()` / `.count()` obtains from an iterator, by at most `fuel`
calls of `next`; `none` if the iterator has not returned `None` by then. -/
def collectN {α : Type} (next : NextFn α) : Nat → Nat → Option (Res (List α))
  | 0, _ => none
  | fuel + 1, off =>
    match next off with
    | .panic => some .panic
    | .ok (none, _) => some (.ok [])
    | .ok (some a, off') =>
      match collectN next fuel off' with
      | none => none
      | some .panic => some .panic
      | some (.ok as) => some (.ok (a :: as))

/-- Draining the iterator from state `off` ends normally and yields exactly `items`. -/
def Collects {α : Type} (next : NextFn α) (off : Nat) (items : List α) : Prop :=
  ∃ fuel, collectN next fuel off = some (.ok items)

/-- `ReadFallbackIterator::next` (matchit/src/searchable/readfallbackit.rs:47-81). -/
def readFallbackNext {T : Type} (S : SearchableMarker T) (bytes : Bytes) (offset : Nat) :
    Res (Option (Nat × T) × Nat) :=
  match hadd : uadd offset S.marker.length with
  | .panic => .panic
  | .ok e =>
    if hlen : e ≥ bytes.length then .ok (none, offset)                        -- 48-50
    else
      match slice bytes offset e with                                         -- 51
      | .panic => .panic
      | .ok s =>
        match sliceFrom bytes offset with                                     -- 53, 65
        | .panic => .panic
        | .ok t =>
          if s = S.marker then
            match S.tryReadValidMarker t with                                 -- 53
            | .panic => .panic
            | .ok (some (bytesRead, val)) =>                                  -- 54-58
              match uadd offset bytesRead with
              | .panic => .panic
              | .ok offset' => .ok (some (offset, val), offset')
            | .ok none => .ok (none, offset)                                  -- 59-61
          else
            match searchMarker S t with                                       -- 65
            | some position =>
              if hp : position = 0 then .ok (none, offset)                    -- 67-70
              else
                match hadd2 : uadd offset position with
                | .panic => .panic
                | .ok offset' => readFallbackNext S bytes offset'             -- 72-73
            | none => .ok (none, offset)                                      -- 76-78
termination_by bytes.length - offset
decreasing_by
  have h1 : e = offset + S.marker.length := by
    unfold uadd at hadd; split at hadd <;> simp at hadd; exact hadd.symm
  have h2 : offset' = offset + position := by
    unfold uadd at hadd2; split at hadd2 <;> simp at hadd2; exact hadd2.symm
  omega

/-- `dltit_offset(b)` (dlt_v1.rs:440-442): the `next` function of `DltIterator::new(b, 0)`. -/
def dltitOffsetNext (bytes : Bytes) : NextFn (Nat × StorageEntry) := readFallbackNext dltStorage bytes

/-- `NoOffsetIterator::next` (matchit/src/lib.rs:31-34). -/
def noOffsetNext {T : Type} (inner : NextFn (Nat × T)) : NextFn T := fun off =>
  match inner off with
  | .panic => .panic
  | .ok (none, off') => .ok (none, off')
  | .ok (some (_, v), off') => .ok (some v, off')

/-- `dltit(b)` (dlt_v1.rs:444-446). -/
def dltitNext (bytes : Bytes) : NextFn StorageEntry := noOffsetNext (dltitOffsetNext bytes)

/-- `SearchIterator::search` (matchit/src/searchable/searchit.rs:33-42). -/
def searchSearch {T : Type} (S : SearchableMarker T) (bytes : Bytes) (offset : Nat) :
    Res (Option (Nat × T)) :=
  if offset ≥ bytes.length then .ok none
  else
    match sliceFrom bytes offset with
    | .panic => .panic
    | .ok t =>
      match find S.marker t with
      | none => .ok none
      | some candidate =>
        match uadd candidate offset with
        | .panic => .panic
        | .ok candidate =>
          match sliceFrom bytes candidate with
          | .panic => .panic
          | .ok t' =>
            match S.tryReadValidMarker t' with
            | .panic => .panic
            | .ok none => .ok none
            | .ok (some (_, v)) => .ok (some (candidate, v))

/-- `SearchIterator::next` (matchit/src/searchable/searchit.rs:53-67). -/
def searchNext {T : Type} (S : SearchableMarker T) (bytes : Bytes) (self : Nat) :
    Res (Option (Nat × T) × Nat) :=
  match searchSearch S bytes self with
  | .panic => .panic
  | .ok (some (offset, t)) =>
    match uadd offset (S.len t) with
    | .panic => .panic
    | .ok off' => .ok (some (offset, t), off')
  | .ok none =>
    match hadd : uadd self S.marker.length with
    | .panic => .panic
    | .ok self' =>
      if self' ≥ bytes.length then .ok (none, self')
      else searchNext S bytes self'
termination_by bytes.length - self
decreasing_by
  have h1 : self' = self + S.marker.length := by
    unfold uadd at hadd; split at hadd <;> simp at hadd; exact hadd.symm
  have := S.marker_pos
  omega

/-- `RevSearchIterator::search` (matchit/src/searchable/searchit.rs:83-91). -/
def revSearch {T : Type} (S : SearchableMarker T) (bytes : Bytes) (offset : Nat) :
    Res (Option (Nat × T)) :=
  if offset > bytes.length ∨ offset = usizeMax then .ok none
  else
    match sliceTo bytes offset with
    | .panic => .panic
    | .ok t =>
      match rfind S.marker t with
      | none => .ok none
      | some candidate =>
        match sliceFrom bytes candidate with
        | .panic => .panic
        | .ok t' =>
          match S.tryReadValidMarker t' with
          | .panic => .panic
          | .ok none => .ok none
          | .ok (some (_, v)) => .ok (some (candidate, v))

/-- `RevSearchIterator::next` (matchit/src/searchable/searchit.rs:109-126). The recursion always
ends: the offset falls by the marker length until the subtraction fails. -/
def revNext {T : Type} (S : SearchableMarker T) (bytes : Bytes) (self : Nat) :
    Res (Option (Nat × T) × Nat) :=
  match revSearch S bytes self with
  | .panic => .panic
  | .ok (some (offset, t)) => .ok (some (offset, t), offset)
  | .ok none =>
    -- `checked_sub` (116-119)
    if _h : S.marker.length ≤ self then
      let self' := self - S.marker.length
      if self' = usizeMax then .ok (none, self')
      else revNext S bytes self'
    else .ok (none, usizeMax)
termination_by self
decreasing_by have := S.marker_pos; omega

/-- `ReadIterator::next` (matchit/src/readit.rs:43-57). -/
def readNext {T : Type} (S : FromBytesReadable T) (bytes : Bytes) (offset : Nat) :
    Res (Option (Nat × T) × Nat) :=
  if offset ≥ bytes.length then .ok (none, offset)
  else
    match sliceFrom bytes offset with
    | .panic => .panic
    | .ok t =>
      match S.tryRead t with
      | .panic => .panic
      | .ok (some (bytesRead, val)) =>
        match uadd offset bytesRead with
        | .panic => .panic
        | .ok off' => .ok (some (offset, val), off')
      | .ok none => .ok (none, offset)

end Verif
