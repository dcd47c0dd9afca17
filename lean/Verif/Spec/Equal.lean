/-! # How many of equally long messages the slices miss -/

namespace Verif.Spec

/-- A file of `k` messages of `L` bytes, cut for `num` threads: the number of messages behind the last slice. A slice holds
`k / num` messages; the remainder is put into the last slice if it is at most a quarter of a slice, and is left out
otherwise. The second line is the case that a slice would end one byte in front of the end of the file, the third that the
messages come out even: then the last slice is left out if the slices were meant to be longer than the messages in them. -/
def leftOut (k L num : Nat) : Nat :=
  if k / num = 0 then k
  else if k % (k / num) = 1 % (k / num) ∧ k % num * L / num + 1 = L then 0
  else if k % (k / num) = 0 then (if k % num * L < num then 0 else k / num)
  else if k % (k / num) ≤ k / (4 * num) then 0
  else k % (k / num)

/-- The number of slices of such a file. -/
def slicesOf (k L num : Nat) : Nat :=
  if k / num = 0 then 0
  else if k / num = 1 ∧ k % num * L / num + 1 = L then k - 1
  else (k - leftOut k L num) / (k / num)

/-- `n` groups: `q` elements in each but the last, which has the rest. -/
def groups {α : Type} (q : Nat) : Nat → List α → List (List α)
  | 0, _ => []
  | 1, xs => [xs]
  | n + 2, xs => xs.take q :: groups q (n + 1) (xs.drop q)

end Verif.Spec
