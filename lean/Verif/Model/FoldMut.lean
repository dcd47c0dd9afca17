import Verif.Model.Generator

/-! # `Fold` with a closure that keeps state, and the copies it makes (matchit/src/generator/reducer.rs:116-140) -/

namespace Verif

/-- `Fold` (reducer.rs:116-140) with an `FnMut` closure: the closure is called through `&mut self`, so what it captured
(`γ`) lives on between the calls. `foldRed` is the case of a closure that captures nothing mutable. -/
@[reducible] def foldMutRed {α ι γ : Type} (init : ι) (c0 : γ) (f : γ → ι → α → Res (γ × ι)) : Red α ι where
  σ := γ × ι
  init := (c0, init)
  next s x :=                                                                  -- 132-134
    match f s.1 s.2 x with
    | .panic => .panic
    | .ok (c', i') => .ok (c', i')
  fin s := some (.ok s.2)                                                      -- 137-139

/-- `Fold` with the number of times an item of the accumulated value was cloned: `next` calls the closure with
`self.0.clone()` (reducer.rs:133) and `finalize` returns `self.0.clone()` (reducer.rs:138). `size` is the number of items
that cloning an accumulated value clones. -/
@[reducible] def foldCopies {α ι : Type} (size : ι → Nat) (init : ι) (f : ι → α → Res ι) : Red α (ι × Nat) where
  σ := ι × Nat
  init := (init, 0)
  next s x :=
    match f s.1 x with
    | .panic => .panic
    | .ok i' => .ok (i', s.2 + size s.1)
  fin s := some (.ok (s.1, s.2 + size s.1))

end Verif
