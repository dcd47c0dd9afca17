import Verif.Spec.Main
import Verif.Spec.Listing

/-!
# Adding up reports

What it means that the report of a multithreaded command is the sum of the reports on the slices (the property is stated with
it in `Props/Sums.lean`). Nothing here refers to how the reports are computed.
-/

namespace Verif.Spec

/-- The number listed for `k` (0 if there is no line for it). -/
def listed {κ : Type} [DecidableEq κ] (ls : List (κ × Nat)) (k : κ) : Nat := (ls.map fun l => if l.1 = k then l.2 else 0).sum

/-- `total` has a line for everything that has a line in one of the parts and for nothing else, and each line is the sum of the
lines of the parts. -/
def LineSums {κ : Type} [DecidableEq κ] (parts : List (List (κ × Nat))) (total : List (κ × Nat)) : Prop :=
  (∀ k, k ∈ total.map (·.1) ↔ ∃ p ∈ parts, k ∈ p.map (·.1)) ∧ ∀ k, listed total k = (parts.map fun p => listed p k).sum

/-- The histograms the reports list for an ECU. -/
def histsOf (parts : List (List (Bytes × (OrdMap UInt32 Nat × Nat)))) (id : Bytes) : List (OrdMap UInt32 Nat) :=
  parts.flatMap fun p => (p.filter fun l => decide (l.1 = id)).map (·.2.1)

/-- `total` is the sum of the reports `parts`: numbers are added; histograms are added line by line; for each ECU the messages
are added, and the durations line by line. `par_iter` adds up numbers too, but does not report the sum. -/
def AddsUp : Cmd → List Report → Report → Prop
  | .parHistogramTimestamp, parts, total => ∃ (ps : List (List (Nat × Nat × Nat))) (t : List (Nat × Nat × Nat)),
      parts = ps.map .buckets ∧ total = .buckets t ∧ InOrder total ∧
      (∀ l ∈ t, l.2.1 = l.1 + 1) ∧ LineSums (ps.map fun p => p.map fun l => (l.1, l.2.2)) (t.map fun l => (l.1, l.2.2))
  | .parSplitTimestamp, parts, total => ∃ (ps : List (List (Bytes × (OrdMap UInt32 Nat × Nat))))
      (t : List (Bytes × (OrdMap UInt32 Nat × Nat))), parts = ps.map .ecus ∧ total = .ecus t ∧ InOrder total ∧
      LineSums (ps.map fun p => p.map fun l => (l.1, l.2.2)) (t.map fun l => (l.1, l.2.2)) ∧
      ∀ l ∈ t, LineSums (histsOf ps l.1) l.2.1
  | .parIter, parts, total => (∃ ns : List Nat, parts = ns.map .number) ∧ total = .nothing
  | .parCount, parts, total | .parCountHelloWorld, parts, total | .parCountHelloWorldRaw, parts, total
  | .parCountHelloWorldGrepit, parts, total => ∃ ns : List Nat, parts = ns.map .number ∧ total = .number ns.sum
  | _, _, _ => False

end Verif.Spec
