import Verif.Model.Dlt

/-!
# The one-byte headers of DLT v1, as a specification

Bit positions and code tables of the DLT v1 standard, stated on numbers, without the masks and shifts
of the code.
-/

namespace Verif.Spec

open Verif

/-- The MSTP/MTIN code tables of the standard: message type `mstp`, type info `mtin`. -/
def msgTypeOfCodes : (mstp mtin : Nat) → Option MsgType
  | 0, 1 => some (.log .fatal)
  | 0, 2 => some (.log .error)
  | 0, 3 => some (.log .warn)
  | 0, 4 => some (.log .info)
  | 0, 5 => some (.log .debug)
  | 0, 6 => some (.log .verbose)
  | 1, 1 => some (.appTrace .variable)
  | 1, 2 => some (.appTrace .functionIn)
  | 1, 3 => some (.appTrace .functionOut)
  | 1, 4 => some (.appTrace .state)
  | 1, 5 => some (.appTrace .vfb)
  | 2, 1 => some (.nwTrace .ipc)
  | 2, 2 => some (.nwTrace .can)
  | 2, 3 => some (.nwTrace .flexray)
  | 2, 4 => some (.nwTrace .most)
  | 2, 5 => some (.nwTrace .ethernet)
  | 2, 6 => some (.nwTrace .someip)
  | 3, 1 => some (.control .request)
  | 3, 2 => some (.control .response)
  | _, _ => none

/-- The numeric code pair of a message type. -/
def codes : MsgType → Nat × Nat
  | .log .fatal => (0, 1) | .log .error => (0, 2) | .log .warn => (0, 3)
  | .log .info => (0, 4) | .log .debug => (0, 5) | .log .verbose => (0, 6)
  | .appTrace .variable => (1, 1) | .appTrace .functionIn => (1, 2) | .appTrace .functionOut => (1, 3)
  | .appTrace .state => (1, 4) | .appTrace .vfb => (1, 5)
  | .nwTrace .ipc => (2, 1) | .nwTrace .can => (2, 2) | .nwTrace .flexray => (2, 3)
  | .nwTrace .most => (2, 4) | .nwTrace .ethernet => (2, 5) | .nwTrace .someip => (2, 6)
  | .control .request => (3, 1) | .control .response => (3, 2)

/-- Message info byte of the standard: verbose = bit 0, MSTP = bits 1–3, MTIN = bits 4–7. -/
def msinInfo (b : Nat) : Bool × Option MsgType :=
  (b % 2 = 1, msgTypeOfCodes (b / 2 % 8) (b / 16 % 16))

end Verif.Spec
