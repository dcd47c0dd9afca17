import Verif.Model.Iter
import Verif.Model.Grep

/-!
# The work done by the iterators

The functions of `Model/Iter.lean` and `Model/Grep.lean` with counters. `Lemmas/Work.lean` proves that without the counters
they are those functions.
-/

set_option linter.unusedVariables false

namespace Verif

/-- The counters of one call of `next`: the number of nested calls (stack frames), the bytes searched through for the
marker, and the calls of `T::try_read_valid_marker`. -/
structure Work where
  frames : Nat
  scanned : Nat
  reads : Nat
  deriving DecidableEq, Repr

/-- One call more. -/
def Work.frame (w : Work) : Work := { w with frames := w.frames + 1 }

/-- A search more. -/
def Work.scan (w : Work) (n : Nat) : Work := { w with scanned := w.scanned + n }

/-- A read more. -/
def Work.read (w : Work) : Work := { w with reads := w.reads + 1 }

/-- The work of a nested call added. -/
def Work.plus (w v : Work) : Work := ⟨w.frames + v.frames, w.scanned + v.scanned, w.reads + v.reads⟩

/-- The work of a later call added: the stack is used again. -/
def Work.after (w v : Work) : Work := ⟨max w.frames v.frames, w.scanned + v.scanned, w.reads + v.reads⟩

/-- Nothing done. -/
def Work.zero : Work := ⟨0, 0, 0⟩

/-- The bytes a forward search goes through: up to the end of the occurrence, or all (`memchr::memmem::Finder::find`, linear
in this number; comparisons with the marker are not counted extra). -/
def findSpan (needle hay : Bytes) : Nat :=
  match find needle hay with
  | some i => i + needle.length
  | none => hay.length

/-- The bytes a backward search goes through (`memchr::memmem::FinderRev::rfind`). -/
def rfindSpan (needle hay : Bytes) : Nat :=
  match rfind needle hay with
  | some i => hay.length - i
  | none => hay.length

/-- `ReadFallbackIterator::next` (matchit/src/searchable/readfallbackit.rs:47-81) with counters; the comparison with the
marker (51) counts as a search through the marker's length. -/
def readFallbackNextW {T : Type} (S : SearchableMarker T) (bytes : Bytes) (offset : Nat) :
    Res (Option (Nat × T) × Nat) × Work :=
  match hadd : uadd offset S.marker.length with
  | .panic => (.panic, Work.zero.frame)
  | .ok e =>
    if hlen : e ≥ bytes.length then (.ok (none, offset), Work.zero.frame)     -- 48-50
    else
      let w := Work.zero.frame.scan S.marker.length                           -- 51
      match slice bytes offset e with
      | .panic => (.panic, w)
      | .ok s =>
        match sliceFrom bytes offset with                                     -- 53, 65
        | .panic => (.panic, w)
        | .ok t =>
          if s = S.marker then
            match S.tryReadValidMarker t with                                 -- 53
            | .panic => (.panic, w.read)
            | .ok (some (bytesRead, val)) =>                                  -- 54-58
              match uadd offset bytesRead with
              | .panic => (.panic, w.read)
              | .ok offset' => (.ok (some (offset, val), offset'), w.read)
            | .ok none => (.ok (none, offset), w.read)                        -- 59-61
          else
            let w := w.scan (findSpan S.marker t)                             -- 65
            match searchMarker S t with
            | some position =>
              if hp : position = 0 then (.ok (none, offset), w)               -- 67-70
              else
                match hadd2 : uadd offset position with
                | .panic => (.panic, w)
                | .ok offset' =>                                              -- 72-73
                  let r := readFallbackNextW S bytes offset'
                  (r.1, w.plus r.2)
            | none => (.ok (none, offset), w)                                 -- 76-78
termination_by bytes.length - offset
decreasing_by
  have h1 : e = offset + S.marker.length := by
    unfold uadd at hadd; split at hadd <;> simp at hadd; exact hadd.symm
  have h2 : offset' = offset + position := by
    unfold uadd at hadd2; split at hadd2 <;> simp at hadd2; exact hadd2.symm
  omega

/-- `SearchIterator::search` (matchit/src/searchable/searchit.rs:33-42) with counters. -/
def searchSearchW {T : Type} (S : SearchableMarker T) (bytes : Bytes) (offset : Nat) :
    Res (Option (Nat × T)) × Work :=
  if offset ≥ bytes.length then (.ok none, Work.zero)
  else
    match sliceFrom bytes offset with
    | .panic => (.panic, Work.zero)
    | .ok t =>
      let w := Work.zero.scan (findSpan S.marker t)                           -- 37
      match find S.marker t with
      | none => (.ok none, w)
      | some candidate =>
        match uadd candidate offset with
        | .panic => (.panic, w)
        | .ok candidate =>
          match sliceFrom bytes candidate with
          | .panic => (.panic, w)
          | .ok t' =>
            match S.tryReadValidMarker t' with                                -- 40
            | .panic => (.panic, w.read)
            | .ok none => (.ok none, w.read)
            | .ok (some (_, v)) => (.ok (some (candidate, v)), w.read)

/-- `SearchIterator::next` (matchit/src/searchable/searchit.rs:53-67) with counters. -/
def searchNextW {T : Type} (S : SearchableMarker T) (bytes : Bytes) (self : Nat) :
    Res (Option (Nat × T) × Nat) × Work :=
  let s := searchSearchW S bytes self
  let w := s.2.frame
  match s.1 with
  | .panic => (.panic, w)
  | .ok (some (offset, t)) =>
    match uadd offset (S.len t) with
    | .panic => (.panic, w)
    | .ok off' => (.ok (some (offset, t), off'), w)
  | .ok none =>
    match hadd : uadd self S.marker.length with
    | .panic => (.panic, w)
    | .ok self' =>
      if self' ≥ bytes.length then (.ok (none, self'), w)
      else
        let r := searchNextW S bytes self'                                    -- 64
        (r.1, w.plus r.2)
termination_by bytes.length - self
decreasing_by
  have h1 : self' = self + S.marker.length := by
    unfold uadd at hadd; split at hadd <;> simp at hadd; exact hadd.symm
  have := S.marker_pos
  omega

/-- `RevSearchIterator::search` (matchit/src/searchable/searchit.rs:83-91) with counters. -/
def revSearchW {T : Type} (S : SearchableMarker T) (bytes : Bytes) (offset : Nat) :
    Res (Option (Nat × T)) × Work :=
  if offset > bytes.length ∨ offset = usizeMax then (.ok none, Work.zero)
  else
    match sliceTo bytes offset with
    | .panic => (.panic, Work.zero)
    | .ok t =>
      let w := Work.zero.scan (rfindSpan S.marker t)                          -- 87
      match rfind S.marker t with
      | none => (.ok none, w)
      | some candidate =>
        match sliceFrom bytes candidate with
        | .panic => (.panic, w)
        | .ok t' =>
          match S.tryReadValidMarker t' with                                  -- 89
          | .panic => (.panic, w.read)
          | .ok none => (.ok none, w.read)
          | .ok (some (_, v)) => (.ok (some (candidate, v)), w.read)

/-- `RevSearchIterator::next` (matchit/src/searchable/searchit.rs:109-126) with counters. -/
def revNextW {T : Type} (S : SearchableMarker T) (bytes : Bytes) (self : Nat) :
    Res (Option (Nat × T) × Nat) × Work :=
  let s := revSearchW S bytes self
  let w := s.2.frame
  match s.1 with
  | .panic => (.panic, w)
  | .ok (some (offset, t)) => (.ok (some (offset, t), offset), w)
  | .ok none =>
    if _h : S.marker.length ≤ self then
      let self' := self - S.marker.length
      if self' = usizeMax then (.ok (none, self'), w)
      else
        let r := revNextW S bytes self'                                       -- 124
        (r.1, w.plus r.2)
    else (.ok (none, usizeMax), w)
termination_by self
decreasing_by have := S.marker_pos; omega

/-- `GrepIterator::search` (grepit.rs:34-57) with room for `frames` nested calls, with the bytes searched backwards for the
marker (the work of the regular expression itself is not counted). -/
def grepStackW {T : Type} (S : SearchableMarker T) (re : Regex) (bytes : Bytes) :
    (frames : Nat) → (offset : Nat) → Option (Res (Option (Nat × T)) × Work)
  | 0, _ => none
  | frames + 1, offset =>
    if offset ≥ bytes.length then some (.ok none, Work.zero.frame)                   -- 35-37
    else
      match re.findAt bytes offset with                                              -- 38
      | none => some (.ok none, Work.zero.frame)
      | some (start, stop) =>
        let s := revSearchW S bytes start                                            -- 40
        let w := s.2.frame
        match s.1 with
        | .panic => some (.panic, w)
        | .ok (some (off, val)) =>
          match uadd off (S.len val) with
          | .panic => some (.panic, w)
          | .ok e =>
            if off < start ∧ e < stop then                                           -- 42-44
              (grepStackW S re bytes frames stop).map fun r => (r.1, w.plus r.2)
            else some (.ok (some (off, val)), w)                                     -- 46
        | .ok none =>
          if stop ≥ bytes.length then some (.ok none, w)                             -- 50-52
          else (grepStackW S re bytes frames stop).map fun r => (r.1, w.plus r.2)    -- 53

/-- The work of draining an iterator (`for`, `.count()`, `.collect()`), over at most `fuel` calls of `next`: the sum over all
calls, the last one included; `frames` is the deepest nesting. -/
def drainW {α : Type} (next : Nat → Res (Option α × Nat) × Work) : Nat → Nat → Option (Res (List α) × Work)
  | 0, _ => none
  | fuel + 1, off =>
    let n := next off
    match n.1 with
    | .panic => some (.panic, n.2)
    | .ok (none, _) => some (.ok [], n.2)
    | .ok (some a, off') =>
      match drainW next fuel off' with
      | none => none
      | some (.panic, w) => some (.panic, n.2.after w)
      | some (.ok as, w) => some (.ok (a :: as), n.2.after w)

end Verif
