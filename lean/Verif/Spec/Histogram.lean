import Verif.Model.OrdMap

/-! # Histograms -/

namespace Verif.Spec

open Verif

/-- `m` is the histogram of `keys`: in key order, exactly the keys that occur, each with the number of its
occurrences. -/
structure IsHistogram {κ : Type} [Key κ] [DecidableEq κ] (keys : List κ) (m : List (κ × Nat)) : Prop where
  sorted : m.Pairwise fun a b => Key.lt a.1 b.1
  mem : ∀ k v, (k, v) ∈ m ↔ 0 < v ∧ v = keys.count k

end Verif.Spec
