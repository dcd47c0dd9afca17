import Verif.Model.Iter

/-!
# `RevSearchIterator` for other sizes of `usize`

It uses `checked_sub` and `usize::MAX` and is the same in debug and release builds, but not for every size of `usize`.
-/

namespace Verif

variable {T : Type} (max : Nat) (S : SearchableMarker T) (bytes : Bytes)

/-- `RevSearchIterator::search` (matchit/src/searchable/searchit.rs:83-91), `usize::MAX = max`. -/
def revSearchTo (offset : Nat) : Res (Option (Nat × T)) :=
  if offset > bytes.length ∨ offset = max then .ok none                               -- 84
  else
    match sliceTo bytes offset with                                                   -- 87
    | .panic => .panic
    | .ok t =>
      match rfind S.marker t with
      | none => .ok none
      | some candidate =>
        match sliceFrom bytes candidate with                                          -- 89
        | .panic => .panic
        | .ok t' =>
          match S.tryReadValidMarker t' with
          | .panic => .panic
          | .ok none => .ok none
          | .ok (some (_, v)) => .ok (some (candidate, v))

/-- `RevSearchIterator::next` (matchit/src/searchable/searchit.rs:109-126), `usize::MAX = max`. -/
def revNextTo (self : Nat) : Res (Option (Nat × T) × Nat) :=
  match revSearchTo max S bytes self with
  | .panic => .panic
  | .ok (some (offset, t)) => .ok (some (offset, t), offset)
  | .ok none =>
    if _h : S.marker.length ≤ self then                                               -- 116-117
      let self' := self - S.marker.length
      if self' = max then .ok (none, self')                                           -- 120
      else revNextTo self'
    else .ok (none, max)                                                              -- 118
termination_by self
decreasing_by have := S.marker_pos; omega

/-- `n` calls of `RevSearchIterator::next`: what they return. -/
def revAskTo : Nat → Nat → List (Res (Option (Nat × T)))
  | 0, _ => []
  | n + 1, self =>
    match revNextTo max S bytes self with
    | .panic => [.panic]
    | .ok (o, self') => .ok o :: revAskTo n self'

end Verif
