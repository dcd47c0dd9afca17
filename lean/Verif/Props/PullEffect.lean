import Verif.Lemmas.PullErase
import Verif.Spec.PullEffect
import Verif.Props.Effect

/-! # C137: iterator pipelines with effects -/

set_option linter.unusedSimpArgs false

namespace Verif

open Spec

/-- **C137**: an iterator with any chain of `filter`, `map`, `groupby` and `Merge` around it, drained by any reducer, does what a
`for` loop over the bare iterator does that feeds a generator with the same chain: the same calls of the source and of the closures in the
same order, hence the same effects, the same result, the same panic; it returns exactly when the loop does. The source may have any effects,
but once it has said `None` it must be over. -/
theorem C137_iterator_is_generator {W α β ρ : Type} (it : PullE W α) (hit : OverIsOver it) (c : ChainE W α β) (r : RedE W β ρ) (s : it.σ)
    (w : W) : pullReduceE r (c.pulled it) (c.start s) w = pullReduceE (reducerE r c.stage) it s w :=
  pulled_reduce hit s c r r.init w

/-- The bare loop, item by item. -/
theorem reads_loop {W α β ρ : Type} (get : α → Eff W β) (r : RedE W β ρ) (xs : List α) (sr : r.σ) (w : W) :
    pullReduceFromE r (readsE get) sr xs w =
      match forEach (fun s x => (get x).bind (r.next s)) xs sr w with
      | (w', .panic) => some (w', .panic)
      | (w', .ok s) => r.fin s w' := by
  induction xs generalizing sr w with
  | nil =>
    rw [pullReduceFromE]
    simp only [forEach, Eff.ok]
  | cons x xs ih =>
    rw [pullReduceFromE]
    simp only [forEach, bind_apply]
    rcases get x w with ⟨w', y | _⟩
    · simp only [Eff.ok]
      rcases r.next sr y w' with ⟨w'', s' | _⟩
      · exact ih s' w''
      · rfl
    · rfl

theorem reads_over {W α β : Type} (get : α → Eff W β) : OverIsOver (readsE get) := by
  refine ⟨fun s => s = [], fun s w w' s' h => ?_, fun s hs w => ⟨[], by rw [hs]⟩⟩
  cases s with
  | nil => cases h; rfl
  | cons x xs =>
    simp only [bind_apply] at h
    rcases hg : get x w with ⟨v, y | _⟩ <;> · rw [hg] at h; simp only [Eff.ok] at h; cases h

/-- **C137**: nothing is read ahead and nothing is held back: reading one item, then all that is done with it, then the next item. After the
last one the reducer finalizes. -/
theorem C137_read_process_alternate {W α α' β ρ : Type} (get : α' → Eff W α) (c : ChainE W α β) (r : RedE W β ρ) (xs : List α') (w : W) :
    pullReduceE r (c.pulled (readsE get)) (c.start xs) w =
      match forEach (fun s x => (get x).bind ((reducerE r c.stage).next s)) xs (reducerE r c.stage).init w with
      | (w', .panic) => some (w', .panic)
      | (w', .ok s) => (reducerE r c.stage).fin s w' := by
  rw [C137_iterator_is_generator _ (reads_over get)]
  unfold pullReduceE
  rw [reads_loop get (reducerE r c.stage) xs _ w]
  rcases forEach _ xs _ w with ⟨_, _ | _⟩ <;> rfl

/-- **C137**: `it.filter(..).map(..)` drained by a fold is the loop one would write by hand: read an item, test and convert it, add it to
the result. -/
theorem C137_pipeline_is_loop {W α α' β ι : Type} (get : α' → Eff W α) (p : Pipe W α β) (i0 : ι) (h : ι → β → Eff W ι) (xs : List α') (w : W) :
    pullReduceE (foldRedE i0 h) (p.chain.pulled (readsE get)) (p.chain.start xs) w =
      some (forEach (fun i x => (get x).bind (round p h i)) xs i0 w) := by
  rw [C137_read_process_alternate]
  have hf : ∀ (xs : List α') i, forEach (fun s x => (get x).bind ((reducerE (foldRedE i0 h) p.chain.stage).next s)) xs (i, p.chain.stage.init) =
      (forEach (fun i x => (get x).bind (round p h i)) xs i).bind fun i' => .ok (i', p.chain.stage.init) := by
    intro xs
    induction xs with
    | nil => intro i; rfl
    | cons x xs ih =>
      intro i
      rw [forEach, forEach, bind_assoc, bind_assoc, bind_assoc]
      congr 1
      funext y
      rw [pipe_next, bind_assoc]
      congr 1
      funext i'
      rw [ok_bind, ih]
  rw [show (reducerE (foldRedE i0 h) p.chain.stage).init = (i0, p.chain.stage.init) from rfl, hf, bind_apply]
  rcases forEach (fun i x => (get x).bind (round p h i)) xs i0 w with ⟨w', _ | _⟩
  · simp only [Eff.ok]
    exact pipe_fin p i0 h _ _ w'
  · rfl

/-- A source that only hands out what it has. -/
theorem reads_plain {W α ρ : Type} (r : RedE W α ρ) (xs : List α) (w : W) :
    pullReduceE r (readsE Eff.ok) xs w = runRedE r xs w := by
  unfold pullReduceE runRedE
  rw [reads_loop]
  have : ∀ xs (s : r.σ), forEach (fun s x => (Eff.ok x).bind (r.next s)) xs s = feedE r s xs := by
    intro xs
    induction xs with
    | nil => intro s; rfl
    | cons x xs ih =>
      intro s
      rw [forEach, feedE]
      simp only [ok_bind]
      congr 1
      funext s'
      exact ih s'
  rw [this]
  rcases feedE r r.init xs w with ⟨_, _ | _⟩ <;> rfl

/-- **C137**: over a slice or a `Vec` (a source without effects) the two ways to write a pipeline are the same: adapters around the
iterator, or a generator fed from it. -/
theorem C137_over_a_list {W α β ρ : Type} (c : ChainE W α β) (r : RedE W β ρ) (xs : List α) (w : W) :
    pullReduceE r (c.pulled (readsE Eff.ok)) (c.start xs) w = runRedE (reducerE r c.stage) xs w := by
  rw [C137_iterator_is_generator _ (reads_over _), reads_plain]

/-- **C137**: `groupby` in the middle of a `for` loop asks what it asks in a generator: about every pair of neighbours once, in order, and
about an element and itself exactly for the runs of one element. -/
theorem C137_groupby_calls {α : Type} (f : α → α → Bool) (xs : List α) (runs : List (List α))
    (hr : ∀ x ∈ xs, f x x = true) (h : MaximalRuns (fun a b => f a b = true) xs runs) (w : List (α × α)) :
    pullReduceE (foldRedE [] collectE) (fromAdaptE (groupByStageE fun a b => logged (fun p => f p.1 p.2) (a, b)) (readsE Eff.ok))
      (.empty, xs) w = some (w ++ groupCalls runs, .ok (runs.filterMap ends)) := by
  rw [← C99_groupby_calls f xs runs hr h w]
  exact C137_over_a_list (.groupby .nil fun a b => logged (fun p => f p.1 p.2) (a, b)) (foldRedE [] collectE) xs w

/-- **C137**: closures may print, log, count, as long as their answers do not depend on it: the pipeline then returns what the generator
of `Model/Generator.lean` returns with closures that do nothing else. -/
theorem C137_effects_do_not_matter {W α β ρ : Type} {c : ChainE W α β} {c' : Chain α β} {r : RedE W β ρ} {r' : Red β ρ}
    (hc : SameChain W c c') (hr : SameRed W r r') (xs : List α) (w : W) :
    (pullReduceE r (c.pulled (readsE Eff.ok)) (c.start xs) w).map (·.2) = runRed (reducer r' c'.stage) xs := by
  rw [C137_over_a_list]
  exact C98_effects_do_not_matter (.chain hc hr) xs w

theorem pullReduceE_stage {W α β ρ : Type} (r : RedE W β ρ) (it : PullE W α) {σ : Type} {i : σ} {ad ad' : σ → α → Eff W (σ × Flow β)}
    {fi fi' : σ → EffD W (σ × Flow β)} (h1 : ad = ad') (h2 : fi = fi') (s : σ × it.σ) (w : W) :
    pullReduceE r (fromAdaptE ⟨σ, i, ad, fi⟩ it) s w = pullReduceE r (fromAdaptE ⟨σ, i, ad', fi'⟩ it) s w := by
  subst h1 h2
  rfl

theorem pullReduceE_lift (W : Type) {α β ρ : Type} (a : Stage α β) (r : Red β ρ) (it : Pull α) (s : a.σ × it.σ) (w : W) :
    pullReduceE (r.lift W) (fromAdaptE (a.lift W) (it.lift W)) s w = (pullReduce r (fromAdapt a it) s).map fun q => (w, q) := by
  have h := pullReduceFromE_lift W r (fromAdapt a it) r.init s w
  unfold pullReduceE pullReduce
  rw [← h]
  refine (iter_like (r := r.lift W) (it1 := fromAdaptE (a.lift W) (it.lift W)) (it2 := (fromAdapt a it).lift W) id (fun s w => ?_) _ s w)
  simp only [id]
  rw [fromAdaptNextE_lift W a it s.1 s.2 w]
  rcases fromAdaptNext a it s.1 s.2 with _ | q | _ <;> rfl

/-- **C137**: with a source and closures without effects the world is untouched, and the result is the one of `Model/Pull.lean`: for
`groupby`, -/
theorem C137_no_effects_groupby (W : Type) {α ρ : Type} (f : α → α → Res Bool) (r : Red (α × α) ρ) (it : Pull α) (s : it.σ) (w : W) :
    pullReduceE (r.lift W) (fromAdaptE (groupByStageE fun x y => (f x y).eff) (it.lift W)) (.empty, s) w =
      (pullReduce r (pullGroupBy f it) (.empty, s)).map fun q => (w, q) := by
  have h := groupByStageE_lift W f
  unfold groupByStageE Stage.lift at h
  injection h with _ _ h1 h2
  rw [← pullReduceE_lift]
  exact pullReduceE_stage _ _ h1 h2 _ _

/-- **C137**: ... and for std's `filter` and `map`. -/
theorem C137_no_effects_std (W : Type) {α β ρ : Type} (f : α → Res Bool) (g : α → Res β) (r : Red β ρ) (it : Pull α) (s : it.σ) (w : W) :
    pullReduceE (r.lift W) (pullMapE (fun x => (g x).eff) (pullFilterE (fun x => (f x).eff) (it.lift W))) s w =
      (pullReduce r (pullMap g (pullFilter f it)) s).map fun q => (w, q) := by
  have h := pullReduceFromE_lift W r (pullMap g (pullFilter f it)) r.init s w
  unfold pullReduceE pullReduce
  rw [← h]
  refine (iter_like (r := r.lift W) (it1 := pullMapE (fun x => (g x).eff) (pullFilterE (fun x => (f x).eff) (it.lift W)))
    (it2 := (pullMap g (pullFilter f it)).lift W) id (fun s w => ?_) _ s w)
  simp only [id]
  rw [pullFilterNextE_lift W f it s w]
  rcases pullFilterNext f it s with _ | ⟨s', o⟩ | _
  · rfl
  · cases o with
    | none => rfl
    | some x =>
      simp only [Option.map_some, Res.eff]
      rcases g x with b | _ <;> rfl
  · rfl

/-! The cases. -/

/-- Reading logs what is read. -/
def loggingRead (x : Nat) : Eff (List (String × Nat)) Nat := fun w => (w ++ [("read", x)], .ok x)

/-- Reads and calls alternate. -/
example : pullReduceE (foldRedE 0 fun i y => namedCall "add" y (i + y)) (loggingPipe.chain.pulled (readsE loggingRead))
      (loggingPipe.chain.start [1, 2, 4]) [] =
    some ([("read", 1), ("even", 1), ("read", 2), ("even", 2), ("double", 2), ("add", 4), ("read", 4), ("even", 4), ("double", 4), ("add", 8)],
      .ok 12) := by
  rw [C137_pipeline_is_loop]; rfl

/-- After a panic nothing more is read. -/
example : pullReduceE (foldRedE 0 fun i y => namedCall "add" y (i + y)) (loggingPipe.chain.pulled (readsE loggingRead))
      (loggingPipe.chain.start [2, 13, 4]) [] =
    some ([("read", 2), ("even", 2), ("double", 2), ("add", 4), ("read", 13), ("even", 13)], .panic) := by
  rw [C137_pipeline_is_loop]; rfl

example : OverIsOver (readsE loggingRead) := reads_over _

example : pullReduceE (foldRedE [] collectE) (fromAdaptE (groupByStageE fun a b => logged (fun p => decide (p.1 ≤ p.2)) (a, b)) (readsE Eff.ok))
      (.empty, [0, 1, 0, 5, 3]) [] = some ([(0, 1), (1, 0), (0, 5), (5, 3), (3, 3)], .ok [(0, 1), (0, 5), (3, 3)]) := by
  rw [C137_groupby_calls (fun a b => decide (a ≤ b)) [0, 1, 0, 5, 3] [[0, 1], [0, 5], [3]] (by decide)
    (by exact maximalRuns_runsL (fun a b => decide (a ≤ b)) [0, 1, 0, 5, 3])]
  rfl

/-- A source that counts its calls and starts again after `None`: it says `1`, `None`, `2`, `None`. -/
@[reducible] def restartingE : PullE Nat Nat where
  σ := Nat
  next s := fun w => some (w + 1, .ok (s + 1, if s = 0 then some 1 else if s = 2 then some 2 else none))

theorem restarting_next (s w : Nat) : restartingE.next s w =
    some (w + 1, .ok (s + 1, if s = 0 then some 1 else if s = 2 then some 2 else none)) := rfl

theorem restarting_groups (s w x : Nat) (h0 : (if s = 0 then some 1 else if s = 2 then some 2 else none) = some x)
    (h1 : (if s + 1 = 0 then some 1 else if s + 1 = 2 then some 2 else none : Option Nat) = none) :
    fromAdaptNextE (groupByStageE fun _ _ => .ok true) restartingE .empty s w = some (w + 2, .ok ((.empty, s + 2), some (x, x))) := by
  rw [fromAdaptNextE, restarting_next, h0]
  simp only [groupByAdaptE, Eff.ok]
  rw [fromAdaptNextE, restarting_next, h1]
  simp only
  rw [fromAdaptFinE]
  simp [groupByFinE, Eff.ok, bind_apply]

theorem restarting_over (w : Nat) : fromAdaptNextE (groupByStageE fun _ _ => .ok true) restartingE .empty 4 w =
    some (w + 1, .ok ((.empty, 5), none)) := by
  rw [fromAdaptNextE, restarting_next]
  rw [show (if (4 : Nat) = 0 then some 1 else if (4 : Nat) = 2 then some 2 else none : Option Nat) = none from rfl]
  simp only
  rw [fromAdaptFinE]
  simp [groupByFinE, Eff.ok, bind_apply]

/-- **C137**: for a source that goes on after `None` it is false: around it, `groupby` reads on where the `for` loop stops. -/
theorem C137_over_is_needed :
    pullReduceE (foldRedE [] collectE) (fromAdaptE (groupByStageE fun _ _ => .ok true) restartingE) (.empty, 0) 0 =
        some (5, .ok [(1, 1), (2, 2)]) ∧
      pullReduceE (reducerE (foldRedE [] collectE) (ChainE.groupby .nil fun _ _ => .ok true).stage) restartingE 0 0 =
        some (2, .ok [(1, 1)]) := by
  constructor
  · unfold pullReduceE
    rw [pullReduceFromE]
    simp only
    rw [restarting_groups 0 0 1 rfl rfl]
    simp only [collectE, Eff.ok]
    rw [pullReduceFromE]
    simp only
    rw [restarting_groups 2 2 2 rfl rfl]
    simp only [collectE, Eff.ok]
    rw [pullReduceFromE]
    simp only
    rw [restarting_over]
    rfl
  · have hb : ∀ w, (reducerE (foldRedE [] collectE) (adapterE (groupByStageE fun (_ _ : Nat) => Eff.ok true) (nilStageE Nat Nat))).fin
        ([], (.consumed 1, ())) w = some (w, .ok [(1, 1)]) := by
      intro w
      simp only
      rw [reducerDrainE]
      simp only
      rw [adapterFinE]
      simp only [groupByFinE, bind_apply, Eff.ok, if_true, collectE, List.nil_append]
      rw [reducerDrainE]
      simp only
      rw [adapterFinE]
      simp only [groupByFinE, Eff.ok]
    unfold pullReduceE
    rw [pullReduceFromE, restarting_next]
    simp only [if_true, bind_apply, ChainE.stage, groupByAdaptE, Eff.ok]
    rw [pullReduceFromE, restarting_next]
    exact hb 2

end Verif
