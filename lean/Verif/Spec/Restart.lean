import Verif.Spec.Main

/-! # Steps in time -/

namespace Verif.Spec

open Verif

/-- How many elements of a list are related by `p` to the element in front of them. -/
def neighbours {α : Type} (p : α → α → Bool) (xs : List α) : Nat := ((xs.zip xs.tail).filter fun q => p q.1 q.2).length

/-- The storage time never goes back from one message to the next. -/
def TimeOrder (msgs : List StorageEntry) : Prop := msgs.Pairwise fun a b => secsOf a ≤ secsOf b

end Verif.Spec
