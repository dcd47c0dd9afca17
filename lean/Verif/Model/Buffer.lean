import Verif.Model.Partition

/-!
# Model of `rapiddlt/src/dltbuffer.rs`

The operating system is represented by what it answers to the calls: whether the file can be opened, the results
of the successive `read` calls, whether the mapping succeeds. Simplifications: the file does not change while it
is mapped (Model/Mapped.lean is about that), memory allocation does not fail, the file name plays no role.
-/

namespace Verif

/-- The result of one `read` call that is not the end of the file. -/
inductive ReadEvent where
  /-- some bytes (at least one) -/
  | data (first : UInt8) (more : Bytes)
  /-- `ErrorKind::Interrupted` -/
  | interrupted
  /-- any other error -/
  | error
  deriving DecidableEq, Repr

/-- The answers of the operating system for one file. -/
structure OsFile where
  /-- `File::open` succeeds -/
  opens : Bool
  /-- the results of the `read` calls in front of the end of the file -/
  reads : List ReadEvent
  /-- the contents -/
  contents : Bytes
  /-- `mmap` (and `fstat`) succeed -/
  maps : Bool
  deriving Repr

/-- `Read::read_to_end` (std `default_read_to_end`; `BufReader` starts with an empty buffer and delegates to it):
the bytes appended to the vector, and whether the call returns `Ok`. `Interrupted` is retried, any other error
returns at once and keeps the bytes read so far. -/
def readToEnd : List ReadEvent → Bytes × Bool
  | [] => ([], true)
  | .data b bs :: rest => let r := readToEnd rest; (b :: (bs ++ r.1), r.2)
  | .interrupted :: rest => readToEnd rest
  | .error :: _ => ([], false)

/-- `DltBuffer` (rapiddlt/src/dltbuffer.rs:5-8). -/
inductive DltBuffer where
  | mmap (m : Bytes)
  | read (v : Bytes)
  deriving DecidableEq, Repr

namespace DltBuffer

/-- `DltBuffer::mmap_file` (rapiddlt/src/dltbuffer.rs:10-14); `none` is `Err`. `memmap` 0.7 refuses to map a file of
length 0. -/
def mmapFile (f : OsFile) : Option DltBuffer :=
  if f.opens then
    if f.contents.length = 0 then none
    else if f.maps then some (.mmap f.contents) else none
  else none

/-- `DltBuffer::read_file` (rapiddlt/src/dltbuffer.rs:15-21); `none` is `Err`. The result of `read_to_end` is
discarded (19). -/
def readFile (f : OsFile) : Option DltBuffer :=
  if f.opens then
    let (buf, _) := readToEnd f.reads
    some (.read buf)
  else none

/-- `DltBuffer::len` (rapiddlt/src/dltbuffer.rs:22-27). -/
def len : DltBuffer → Nat
  | .mmap m => m.length
  | .read v => v.length

/-- `DltBuffer::as_slice` (rapiddlt/src/dltbuffer.rs:28-33). -/
def asSlice : DltBuffer → Bytes
  | .mmap m => m
  | .read v => v

/-- `DltBuffer::partition` (rapiddlt/src/dltbuffer.rs:38-41). -/
def partition {T : Type} (S : SearchableMarker T) (b : DltBuffer) (num : Nat) : Res (List Bytes) :=
  partitionFrom S b.asSlice num

end DltBuffer

end Verif
