import Verif.Model.Dlt

/-!
# Model of the traits of `matchit` (matchit/src/lib.rs, matchit/src/searchable/mod.rs)

A Rust type implementing the traits becomes a record of functions.
-/

namespace Verif

/-- `FromBytesReadableTrait` (matchit/src/lib.rs:42-55). -/
structure FromBytesReadable (T : Type) where
  /-- `try_read` (lib.rs:47) -/
  tryRead : Bytes → Res (Option (Nat × T))
  /-- `len` (lib.rs:51). Simplification: its internal addition cannot overflow. -/
  len : T → Nat
  /-- `max_len` (lib.rs:54) -/
  maxLen : Nat

/-- `SearchableMarkerTrait` (matchit/src/searchable/mod.rs:9-14). Simplification: an empty marker
(with which `SearchIterator::next` recurses forever, C138) is excluded by the type; see Model/AnyMarker.lean. -/
structure SearchableMarker (T : Type) extends FromBytesReadable T where
  /-- `marker` (mod.rs:12) -/
  marker : Bytes
  marker_pos : 0 < marker.length
  /-- `try_read_valid_marker` (mod.rs:13) -/
  tryReadValidMarker : Bytes → Res (Option (Nat × T))

/-- `impl FromBytesReadableTrait for DltEntry` (dlt_v1.rs:415-436). -/
def dltEntryReadable : FromBytesReadable DltEntry where
  tryRead := DltEntry.tryRead
  len := DltEntry.len
  maxLen := DltEntry.maxLen

/-- `impl SearchableMarkerTrait / FromBytesReadableTrait for DltStorageEntry` (dlt_v1.rs:303-336). -/
def dltStorage : SearchableMarker StorageEntry where
  tryRead := StorageEntry.tryRead
  len := StorageEntry.len
  maxLen := StorageEntry.maxLen
  marker := StorageEntry.marker
  marker_pos := by decide
  tryReadValidMarker := StorageEntry.tryReadValidMarker

/-- `search_marker` (matchit/src/searchable/mod.rs:17-21). -/
def searchMarker {T : Type} (S : SearchableMarker T) (bytes : Bytes) : Option Nat :=
  find S.marker bytes

/-- `search_last_marker` (matchit/src/searchable/mod.rs:23-28). -/
def searchLastMarker {T : Type} (S : SearchableMarker T) (bytes : Bytes) : Option Nat :=
  rfind S.marker bytes

end Verif
