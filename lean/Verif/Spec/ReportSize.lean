import Verif.Spec.Listing

/-! # How long reports are -/

namespace Verif.Spec

open Verif

/-- The number of lines of the table in a report (the total behind the sizes and single numbers not counted). -/
def tableLines : Report → Nat
  | .buckets ls => ls.length
  | .ecus ls => ls.length
  | .infos ls => ls.length
  | .sizes ls _ => ls.length
  | .offsets ls => ls.length
  | .number _ => 0
  | .nothing => 0

/-- The kinds of messages a report can name; the other nine are never listed, because the decoder drops
a bit of the type (C07). -/
def shownKinds : List (Option MsgType) :=
  [none, some (.log .fatal), some (.log .info), some (.log .debug), some (.appTrace .variable), some (.appTrace .state),
   some (.appTrace .vfb), some (.nwTrace .ipc), some (.nwTrace .most), some (.nwTrace .ethernet), some (.control .request)]

/-- How many texts there are whose UTF-8 encoding has four bytes: an id that is none ends the split commands. There are 128 characters
of one byte, 1920 of two, 61440 of three and 1048576 of four. -/
def fourByteTexts : Nat :=
  128 * 128 * 128 * 128 + 3 * (128 * 128 * 1920) + 1920 * 1920 + 2 * (128 * 61440) + 1048576

/-- The most lines the table of a command can have, for a file of `n` bytes. -/
def mostLines (n : Nat) : Cmd → Nat
  -- verbose and not: 22 of the 40 that there are
  | .histogramMessageType => 2 * shownKinds.length
  -- the length field has 16 bits and counts the 4 bytes of the header
  | .histogramPayloadSize | .histogramMessageSize => 65532
  -- 2^32 tenths of milliseconds are 429496.7296 seconds
  | .histogramLifecycles => 429497
  | .histogramTimestamp | .parHistogramTimestamp => 2 ^ 32
  | .histogramHelloWorld => n / 100000000 + 1
  | .splitLifecycles | .splitTimestamp | .parSplitTimestamp => fourByteTexts
  | _ => 0

end Verif.Spec
