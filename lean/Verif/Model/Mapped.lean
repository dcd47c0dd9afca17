import Verif.Model.Iter

/-!
# Reading a mapped file while somebody writes to it

`DltBuffer::mmap_file` (rapiddlt/src/dltbuffer.rs:10-14) maps the file read-only and shared (`MmapOptions::map` of `memmap`
uses `MAP_SHARED`): the slice has the length the file had when it was mapped, its bytes are those the file has at the
moment they are looked at. Simplifications: each *access* of `next` (comparing the four bytes, `try_read_valid_marker`,
one search for the marker) sees one version of the file; a message is a copy of what `try_read_valid_marker` saw (in
the program it consists of references into the mapping, so its bytes can change later still); the file does not get
shorter (the operating system would end the program with a signal).
-/

namespace Verif

/-- `ReadFallbackIterator::next` (matchit/src/searchable/readfallbackit.rs:47-81) on a slice of `n` bytes (the mapping,
rapiddlt/src/dltbuffer.rs:10-14) that changes: access number `a` to it sees `w a`. -/
def readFallbackNextOn {T : Type} (S : SearchableMarker T) (n : Nat) (w : Nat → Bytes) (a offset : Nat) :
    Res (Option (Nat × T) × Nat) :=
  match hadd : uadd offset S.marker.length with
  | .panic => .panic
  | .ok e =>
    if hlen : e ≥ n then .ok (none, offset)                                   -- 48-50
    else
      match slice (w a) offset e with                                         -- 51
      | .panic => .panic
      | .ok s =>
        match sliceFrom (w (a + 1)) offset with                               -- 53, 65
        | .panic => .panic
        | .ok t =>
          if s = S.marker then
            match S.tryReadValidMarker t with                                 -- 53
            | .panic => .panic
            | .ok (some (bytesRead, val)) =>                                  -- 54-58
              match uadd offset bytesRead with
              | .panic => .panic
              | .ok offset' => .ok (some (offset, val), offset')
            | .ok none => .ok (none, offset)                                  -- 59-61
          else
            match searchMarker S t with                                       -- 65
            | some position =>
              if hp : position = 0 then .ok (none, offset)                    -- 67-70
              else
                match hadd2 : uadd offset position with
                | .panic => .panic
                | .ok offset' => readFallbackNextOn S n w (a + 2) offset'     -- 72-73
            | none => .ok (none, offset)                                      -- 76-78
termination_by n - offset
decreasing_by
  have h1 : e = offset + S.marker.length := by
    unfold uadd at hadd; split at hadd <;> simp at hadd; exact hadd.symm
  have h2 : offset' = offset + position := by
    unfold uadd at hadd2; split at hadd2 <;> simp at hadd2; exact hadd2.symm
  omega

/-- `dltit_offset(mapped.as_slice())` (rapiddlt/src/dlt_v1.rs:440-442, rapiddlt/src/dltbuffer.rs:10-14): call number `c`
of `next` sees the versions `v c 0`, `v c 1`, … one after the other. -/
def dltitMapped (n : Nat) (v : Nat → Nat → Bytes) (c : Nat) : NextFn (Nat × StorageEntry) :=
  readFallbackNextOn dltStorage n (v c) 0

/-- What the calls number `c`, `c + 1`, … of `next` (matchit/src/searchable/readfallbackit.rs:47-81) return, `k` calls
in all, whether or not `None` is among the answers; call number `c` is `next c`. -/
def pollFrom {α : Type} (next : Nat → NextFn α) : Nat → Nat → Nat → Res (List (Option α))
  | 0, _, _ => .ok []
  | k + 1, c, off =>
    match next c off with
    | .panic => .panic
    | .ok (r, off') =>
      match pollFrom next k (c + 1) off' with
      | .panic => .panic
      | .ok rs => .ok (r :: rs)

/-- What `len()` of the message at offset `i` returns when it is called: it reads the length field in the mapping
(rapiddlt/src/dlt_v1.rs:329-331, `header.length()` 104-106). -/
def lenAgain (bytes : Bytes) (i : Nat) : Nat := (be16 (byteAt bytes (i + 18)) (byteAt bytes (i + 19))).toNat + 16

/-- `SearchIterator::search` (matchit/src/searchable/searchit.rs:33-42) on a mapping of `n` bytes that changes: the search
for the marker sees `w a`, `try_read_valid_marker` sees `w (a + 1)`. -/
def searchSearchOn (n : Nat) (w : Nat → Bytes) (a offset : Nat) : Res (Option (Nat × StorageEntry)) :=
  if offset ≥ n then .ok none
  else
    match sliceFrom (w a) offset with
    | .panic => .panic
    | .ok t =>
      match find StorageEntry.marker t with
      | none => .ok none
      | some candidate =>
        match uadd candidate offset with
        | .panic => .panic
        | .ok candidate =>
          match sliceFrom (w (a + 1)) candidate with
          | .panic => .panic
          | .ok t' =>
            match StorageEntry.tryReadValidMarker t' with
            | .panic => .panic
            | .ok none => .ok none
            | .ok (some (_, v)) => .ok (some (candidate, v))

/-- `SearchIterator::next` (matchit/src/searchable/searchit.rs:53-67) for stored messages on such a mapping; `t.len()`
reads the length field once more, in `w (a + 2)`. -/
def searchNextOn (n : Nat) (w : Nat → Bytes) (a self : Nat) : Res (Option (Nat × StorageEntry) × Nat) :=
  match searchSearchOn n w a self with
  | .panic => .panic
  | .ok (some (offset, t)) =>
    match uadd offset (lenAgain (w (a + 2)) offset) with
    | .panic => .panic
    | .ok off' => .ok (some (offset, t), off')
  | .ok none =>
    match hadd : uadd self StorageEntry.marker.length with
    | .panic => .panic
    | .ok self' =>
      if self' ≥ n then .ok (none, self')
      else searchNextOn n w (a + 3) self'
termination_by n - self
decreasing_by
  have h1 : self' = self + StorageEntry.marker.length := by
    unfold uadd at hadd; split at hadd <;> simp at hadd; exact hadd.symm
  have : StorageEntry.marker.length = 4 := rfl
  omega

/-- `SearchIterator::<DltStorageEntry>::new(mapped.as_slice(), 0)` (matchit/src/searchable/searchit.rs:24-28), call number
`c` of `next` seeing the versions `v c 0`, `v c 1`, …. -/
def searchMapped (n : Nat) (v : Nat → Nat → Bytes) (c : Nat) : NextFn (Nat × StorageEntry) := searchNextOn n (v c) 0

end Verif
