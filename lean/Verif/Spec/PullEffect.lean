import Verif.Model.PullEffect
import Verif.Spec.Effect

/-! # What a user expects of an iterator pipeline whose source and closures have effects -/

namespace Verif.Spec

/-- An iterator over `xs` that does `get x` when it is asked for the item after the ones already handed out: a file that is read
piece by piece, a counter, a progress bar. -/
@[reducible] def readsE {W α β : Type} (get : α → Eff W β) : PullE W β where
  σ := List α
  next
  | [] => fun w => some (w, .ok ([], none))
  | x :: xs => fun w => some (((get x).bind fun y => .ok (xs, some y)) w)

/-- After `None` it is over: every later call answers `None` and does nothing else. -/
def OverIsOver {W α : Type} (it : PullE W α) : Prop :=
  ∃ Done : it.σ → Prop, (∀ s w w' s', it.next s w = some (w', .ok (s', none)) → Done s') ∧
    ∀ s, Done s → ∀ w, ∃ s', it.next s w = some (w, .ok (s', none))

end Verif.Spec
