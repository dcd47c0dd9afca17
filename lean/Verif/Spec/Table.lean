import Verif.Model.Ripdlt
import Verif.Spec.Histogram

/-! # Tables of ECUs -/

namespace Verif.Spec

open Verif

/-- A table of ECUs: for each ECU id that occurs among the items, in order, the histogram of its durations
(items `(ecu, some duration)`) and the number of its messages (items `(ecu, none)`). -/
structure IsEcuTable (items : List (B4 × Option UInt32)) (m : List (B4 × (OrdMap UInt32 Nat × Nat))) : Prop where
  sorted : m.Pairwise fun a b => Key.lt a.1 b.1
  keys : ∀ ecu, (∃ v, (ecu, v) ∈ m) ↔ ∃ x ∈ items, x.1 = ecu
  count : ∀ ecu hist n, (ecu, hist, n) ∈ m → n = items.count (ecu, none)
  hist : ∀ ecu hist n, (ecu, hist, n) ∈ m →
    IsHistogram (items.filterMap fun x => if x.1 = ecu then x.2 else none) hist

/-- The number of messages a table reports for an ECU (0 if it has no line for it). -/
def msgsIn (m : List (B4 × (OrdMap UInt32 Nat × Nat))) (ecu : B4) : Nat :=
  (m.map fun e => if e.1 = ecu then e.2.2 else 0).sum

/-- The number of spans of duration `d` a table reports for an ECU. -/
def spansIn (m : List (B4 × (OrdMap UInt32 Nat × Nat))) (ecu : B4) (d : UInt32) : Nat :=
  (m.map fun e => if e.1 = ecu then (e.2.1.map fun x => if x.1 = d then x.2 else 0).sum else 0).sum

end Verif.Spec
