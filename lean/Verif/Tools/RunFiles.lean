import Verif.Model.Ripdlt

/-!
# Running the model on the repository's test files

Not part of any claim. `lake env lean --run Verif/Tools/RunFiles.lean /repo/test/lc_ex003.dlt` prints what the model computes
for a file, to compare it with the numbers the repository's unit tests and test/test_gen.sh expect (see DESIGN.md).
-/

namespace Verif.Tools

open Verif

/-- The text of the unit test at ripdlt/src/main.rs:439. -/
def helloLower : Bytes := "Hello world".toUTF8.toList

/-- The messages of a file, by the model's reader. -/
def messages (bytes : Bytes) : List StorageEntry :=
  match collectN (dltitNext bytes) (bytes.length + 1) 0 with
  | some (.ok es) => es
  | _ => []

def report (path : String) : IO Unit := do
  let bytes := (← IO.FS.readBinFile path).toList
  let es := messages bytes
  let maxLen := es.foldl (fun m e => max m e.dlt.header.len) 0
  let minLen := es.foldl (fun m e => min m e.dlt.header.len) 70000
  let hello := es.filter fun e => match e.dlt.payload with
    | .ok (some p) => (find helloLower p).isSome
    | _ => false
  let maxTime := es.foldl (fun m e => match e.dlt.timestamp with
    | .ok (some t) => max m t
    | _ => m) 0
  IO.println s!"{path}: {bytes.length} bytes, {es.length} messages, lengths {minLen}..{maxLen}, {hello.length} with Hello world, latest time {maxTime}"

end Verif.Tools

def main (args : List String) : IO Unit := do
  for p in args do Verif.Tools.report p
