import Verif.Model.Main

/-! # The order of the lines of a report -/

namespace Verif.Spec

open Verif

/-- The message types in the order in which they are listed: messages without a known type first, then log, trace, network
and control messages, each by kind. -/
def listedKinds : List (Option MsgType) :=
  [none,
   some (.log .fatal), some (.log .error), some (.log .warn), some (.log .info), some (.log .debug), some (.log .verbose),
   some (.appTrace .variable), some (.appTrace .functionIn), some (.appTrace .functionOut), some (.appTrace .state),
   some (.appTrace .vfb),
   some (.nwTrace .ipc), some (.nwTrace .can), some (.nwTrace .flexray), some (.nwTrace .most), some (.nwTrace .ethernet),
   some (.nwTrace .someip),
   some (.control .request), some (.control .response)]

/-- Non-verbose messages are listed before verbose ones, messages alike in that by their type. -/
def KindBefore (a b : Bool × Option MsgType) : Prop :=
  (a.1 = false ∧ b.1 = true) ∨ (a.1 = b.1 ∧ listedKinds.idxOf a.2 < listedKinds.idxOf b.2)

/-- Two ECU ids in alphabetical order: at the first byte in which they differ, `a` has the smaller one. -/
def Alphabetical (a b : Bytes) : Prop :=
  ∃ pre x y s t, a = pre ++ x :: s ∧ b = pre ++ y :: t ∧ x < y

/-- The lines of a report are in strictly ascending order: numbers by size, ECU ids alphabetically, message types as
listed above. No two lines say something about the same thing. -/
def InOrder : Report → Prop
  | .buckets ls => ls.Pairwise fun a b => a.1 < b.1
  | .ecus ls => (ls.Pairwise fun a b => Alphabetical a.1 b.1) ∧
      ∀ l ∈ ls, l.2.1.Pairwise fun a b => a.1.toNat < b.1.toNat
  | .infos ls => ls.Pairwise fun a b => KindBefore a.1 b.1
  | .sizes ls _ => ls.Pairwise fun a b => a.1 < b.1
  | .offsets ls => ls.Pairwise fun a b => a.1 < b.1
  | .number _ => True
  | .nothing => True

end Verif.Spec
