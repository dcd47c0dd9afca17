import Verif.Model.Buffer

/-! # What reading a file may answer -/

namespace Verif.Spec

open Verif

/-- The answers of `read` calls on a file that holds these bytes: pieces of the contents in order, possibly
interrupted, up to the end or up to an error. -/
inductive Delivers : List ReadEvent → Bytes → Prop where
  | eof : Delivers [] []
  | data (b : UInt8) (bs : Bytes) {rest : List ReadEvent} {d : Bytes} : Delivers rest d →
      Delivers (.data b bs :: rest) (b :: bs ++ d)
  | interrupted {rest : List ReadEvent} {d : Bytes} : Delivers rest d → Delivers (.interrupted :: rest) d
  | error (rest : List ReadEvent) (d : Bytes) : Delivers (.error :: rest) d

/-- The operating system answers as it should for a file with these contents. -/
def Faithful (f : OsFile) : Prop := Delivers f.reads f.contents

end Verif.Spec
