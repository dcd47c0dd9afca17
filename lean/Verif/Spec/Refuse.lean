import Verif.Model.Refuse

/-! # What the claims about limited outputs say about the output -/

namespace Verif.Spec

/-- Writes of up to `N` bytes are taken completely, always. A blocking pipe or a file on a disk with room does so. -/
def TakesWhole (N : Nat) (acc : Outlet) : Prop :=
  ∀ calls taken len, len ≤ N → ∃ k, acc calls taken len = some k ∧ len ≤ k

end Verif.Spec
