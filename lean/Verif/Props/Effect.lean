import Verif.Lemmas.EffectErase
import Verif.Lemmas.Runs
import Verif.Lemmas.Generator
import Verif.Spec.Effect

/-! # C98–C100: generators whose closures have effects -/

set_option linter.unusedSimpArgs false

namespace Verif

open Spec

/-- A chain of filters and maps: its state never changes, it asks its closures about the input at hand, and it has
nothing to give at the end. -/
theorem pipe_stage {W α β : Type} (p : Pipe W α β) :
    (∀ s x, p.chain.stage.adapt s x = (p.body x).bind fun o => .ok (s, .cont o)) ∧
    ∀ s w, p.chain.stage.fin s w = some (w, .ok (s, .brk)) := by
  induction p with
  | nil => exact ⟨fun s x => rfl, fun s w => rfl⟩
  | filter p f ih =>
    constructor
    · intro s x
      change ((p.chain.stage.adapt s.2 x).bind _) = _
      rw [ih.1, bind_assoc, Pipe.body, bind_assoc]
      congr 1
      funext o
      cases o with
      | none => rfl
      | some y =>
        simp only [ok_bind, bind_assoc]
        rfl
    · intro s w
      change adapterFinE (filterStageE f) p.chain.stage s.1 s.2 w = _
      rw [adapterFinE, ih.2]
      rfl
  | map p f ih =>
    constructor
    · intro s x
      change ((p.chain.stage.adapt s.2 x).bind _) = _
      rw [ih.1, bind_assoc, Pipe.body, bind_assoc]
      congr 1
      funext o
      cases o with
      | none => rfl
      | some y =>
        simp only [ok_bind, bind_assoc]
        rfl
    · intro s w
      change adapterFinE (mapStageE f) p.chain.stage s.1 s.2 w = _
      rw [adapterFinE, ih.2]
      rfl

theorem pipe_next {W α β ι : Type} (p : Pipe W α β) (i0 : ι) (h : ι → β → Eff W ι) (i : ι) (s : p.chain.stage.σ) (x : α) :
    (reducerE (foldRedE i0 h) p.chain.stage).next (i, s) x = (round p h i x).bind fun i' => .ok (i', s) := by
  change ((p.chain.stage.adapt s x).bind _) = _
  rw [(pipe_stage p).1, bind_assoc, round, bind_assoc]
  congr 1
  funext o
  cases o with
  | none => rfl
  | some y => simp only [ok_bind]

theorem pipe_fin {W α β ι : Type} (p : Pipe W α β) (i0 : ι) (h : ι → β → Eff W ι) (i : ι) (s : p.chain.stage.σ) (w : W) :
    (reducerE (foldRedE i0 h) p.chain.stage).fin (i, s) w = some (w, .ok i) := by
  have hd : reducerDrainE (foldRedE i0 h) p.chain.stage i s w = some (w, .ok i) := by
    rw [reducerDrainE, (pipe_stage p).2]
  dsimp only
  rw [hd]

/-- **C98**: a chain of filters and maps feeding a fold is the loop one would write by hand: the same calls of the same
closures in the same order, hence the same effects, the same result, and a panic at the same point with nothing done
after it. -/
theorem C98_pipeline_is_loop {W α β ι : Type} (p : Pipe W α β) (i0 : ι) (h : ι → β → Eff W ι) (xs : List α) (w : W) :
    runRedE (reducerE (foldRedE i0 h) p.chain.stage) xs w = some (forEach (round p h) xs i0 w) := by
  have hf : ∀ (xs : List α) i s, feedE (reducerE (foldRedE i0 h) p.chain.stage) (i, s) xs =
      (forEach (round p h) xs i).bind fun i' => .ok (i', s) := by
    intro xs
    induction xs with
    | nil => intro i s; rfl
    | cons x xs ih =>
      intro i s
      rw [feedE, pipe_next, bind_assoc, forEach, bind_assoc]
      congr 1
      funext i'
      rw [ok_bind, ih]
  unfold runRedE
  rw [show (reducerE (foldRedE i0 h) p.chain.stage).init = (i0, p.chain.stage.init) from rfl, hf, bind_apply]
  rcases forEach (round p h) xs i0 w with ⟨w', _ | _⟩
  · simp only [Eff.ok]
    exact pipe_fin p i0 h _ _ w'
  · rfl

/-- **C98**: a fork of two such pipelines is one loop: per input first all of the first pipeline, then all of the
second. -/
theorem C98_fork_is_loop {W α β γ ι κ : Type} (p : Pipe W α β) (i0 : ι) (h : ι → β → Eff W ι) (q : Pipe W α γ) (k0 : κ)
    (g : κ → γ → Eff W κ) (xs : List α) (w : W) :
    runRedE (forkRedE (reducerE (foldRedE i0 h) p.chain.stage) (reducerE (foldRedE k0 g) q.chain.stage)) xs w =
      some (forEach (fun (ik : ι × κ) x => (round p h ik.1 x).bind fun i => (round q g ik.2 x).bind fun k => .ok (i, k))
        xs (i0, k0) w) := by
  have hf : ∀ (xs : List α) i s k t, feedE (forkRedE (reducerE (foldRedE i0 h) p.chain.stage) (reducerE (foldRedE k0 g) q.chain.stage)) ((i, s), (k, t)) xs =
      (forEach (fun (ik : ι × κ) x => (round p h ik.1 x).bind fun i => (round q g ik.2 x).bind fun k => .ok (i, k)) xs (i, k)).bind fun r =>
        .ok ((r.1, s), (r.2, t)) := by
    intro xs
    induction xs with
    | nil => intro i s k t; rfl
    | cons x xs ih =>
      intro i s k t
      rw [feedE, forEach]
      change (((reducerE (foldRedE i0 h) p.chain.stage).next (i, s) x).bind fun s1 =>
        ((reducerE (foldRedE k0 g) q.chain.stage).next (k, t) x).bind fun s2 => .ok (s1, s2)).bind _ = _
      rw [pipe_next, pipe_next]
      simp only [bind_assoc, ok_bind]
      congr 1
      funext i'
      congr 1
      funext k'
      exact ih _ _ _ _
  unfold runRedE
  rw [show (forkRedE (reducerE (foldRedE i0 h) p.chain.stage) (reducerE (foldRedE k0 g) q.chain.stage)).init =
    ((i0, p.chain.stage.init), (k0, q.chain.stage.init)) from rfl, hf, bind_apply]
  rcases forEach _ xs (i0, k0) w with ⟨w', _ | _⟩
  · rename_i r
    have h1 := pipe_fin p i0 h r.1 p.chain.stage.init w'
    have h2 := pipe_fin q k0 g r.2 q.chain.stage.init w'
    dsimp only [Eff.ok] at h1 h2 ⊢
    rw [h1]
    dsimp only
    rw [h2]
  · rfl

theorem sameChain_erases {W α β : Type} {c : ChainE W α β} {c' : Chain α β} (h : SameChain W c c') :
    ∃ φ, c.stage.Erases c'.stage φ := by
  induction h with
  | nil => exact ⟨_, nilStage_erases W α⟩
  | filter h hf ih => obtain ⟨φ, h⟩ := ih; exact ⟨_, adapter_erases (filterStage_erases hf) h⟩
  | map h hf ih => obtain ⟨φ, h⟩ := ih; exact ⟨_, adapter_erases (mapStage_erases hf) h⟩
  | groupby h hf ih => obtain ⟨φ, h⟩ := ih; exact ⟨_, adapter_erases (groupByStage_erases hf) h⟩
  | merge h hf hk ih => obtain ⟨φ, h⟩ := ih; exact ⟨_, adapter_erases (mergeStage_erases hf hk) h⟩

theorem sameRed_erases {W α ρ : Type} {r : RedE W α ρ} {r' : Red α ρ} (h : SameRed W r r') : ∃ φ, r.Erases r' φ := by
  induction h with
  | fold i0 hf => exact ⟨_, foldRed_erases i0 hf⟩
  | chain hc hr ih =>
    obtain ⟨φ, h⟩ := ih
    obtain ⟨ψ, h'⟩ := sameChain_erases hc
    exact ⟨_, reducer_erases h h'⟩
  | fork h1 h2 ih1 ih2 =>
    obtain ⟨φ, h⟩ := ih1
    obtain ⟨ψ, h'⟩ := ih2
    exact ⟨_, forkRed_erases h h'⟩
  | split hk hm hr ih => exact ⟨_, splitRed_erases hk hm fun k => Classical.choose_spec (ih k)⟩

/-- **C98**: closures may print, log, count, as long as their answers do not depend on it: any program then returns what the
same program returns with closures that do nothing else. -/
theorem C98_effects_do_not_matter {W α ρ : Type} {r : RedE W α ρ} {r' : Red α ρ} (h : SameRed W r r') (xs : List α) (w : W) :
    (runRedE r xs w).map (·.2) = runRed r' xs := by
  obtain ⟨φ, h⟩ := sameRed_erases h
  exact runRed_erases h xs w

/-- **C98**: with closures that have no effects at all, the world is untouched. -/
theorem C98_no_effects (W : Type) {α β ι : Type} (c : Chain α β) (i0 : ι) (h : ι → β → Res ι) (xs : List α) (w : W) :
    runRedE (reducerE (foldRedE i0 fun i y => (h i y).eff) (c.lift W).stage) xs w =
      (runRed (reducer (foldRed i0 h) c.stage) xs).map fun q => (w, q) := by
  rw [chain_lift, foldRedE_lift, reducerE_lift, runRedE_lift]

/-- A closure that logs its name and argument, and panics on `13`. -/
def namedCall {α : Type} (name : String) (x : Nat) (r : α) : Eff (List (String × Nat)) α :=
  fun w => (w ++ [(name, x)], if x = 13 then .panic else .ok r)

/-- Keep the even numbers, double them, add them up; every closure logs its name and argument. -/
def loggingPipe : Pipe (List (String × Nat)) Nat Nat :=
  .map (.filter .nil fun x => namedCall "even" x (x % 2 == 0)) fun x => namedCall "double" x (2 * x)

example : runRedE (reducerE (foldRedE 0 fun i y => namedCall "add" y (i + y)) loggingPipe.chain.stage) [1, 2, 4] [] =
    some ([("even", 1), ("even", 2), ("double", 2), ("add", 4), ("even", 4), ("double", 4), ("add", 8)], .ok 12) := by
  rw [C98_pipeline_is_loop]; rfl

/-- A panic in the middle: the calls before it have been made, none after it. -/
example : runRedE (reducerE (foldRedE 0 fun i y => namedCall "add" y (i + y)) loggingPipe.chain.stage) [2, 13, 4] [] =
    some ([("even", 2), ("double", 2), ("add", 4), ("even", 13)], .panic) := by
  rw [C98_pipeline_is_loop]; rfl


/-! ## groupby -/

/-- What `groupby` asks after `stop`, the last element of the current run; `lone`: it is the only one so far. -/
def callsAux {α : Type} (f : α → α → Bool) (lone : Bool) (stop : α) : List α → List (α × α)
  | [] => if lone then [(stop, stop)] else []
  | x :: xs => (stop, x) ::
    if f stop x then callsAux f false x xs
    else (if lone then [(stop, stop)] else []) ++ callsAux f true x xs

theorem callsAux_eq {α : Type} (f : α → α → Bool) (x : α) (xs r : List α) (rs : List (List α))
    (h : runsL f (x :: xs) = (x :: r) :: rs) :
    callsAux f true x xs = groupCalls ((x :: r) :: rs) ∧ ∀ z, (z, x) :: callsAux f false x xs = groupCalls ((z :: x :: r) :: rs) := by
  induction xs generalizing x r rs with
  | nil =>
    simp only [runsL, List.cons.injEq, true_and] at h
    obtain ⟨rfl, rfl⟩ := h
    exact ⟨rfl, fun z => rfl⟩
  | cons y xs ih =>
    obtain ⟨r', rs', hc⟩ := runsL_cons f y xs
    rw [runsL_cons_cons f x y xs r' rs' hc] at h
    obtain ⟨ih1, ih2⟩ := ih y r' rs' hc
    have hfl : r' ++ rs'.flatten = xs := by
      have := (maximalRuns_runsL f (y :: xs)).flatten
      rw [hc] at this
      simpa using this
    by_cases hf : f x y = true
    · rw [if_pos hf] at h
      simp only [List.cons.injEq, true_and] at h
      obtain ⟨rfl, rfl⟩ := h
      constructor
      · rw [callsAux, if_pos hf]; exact ih2 x
      · intro z
        rw [callsAux, if_pos hf, ih2 x]
        simp [groupCalls, pairs, borderCall, loneCall]
    · rw [if_neg hf] at h
      simp only [List.cons.injEq, true_and] at h
      obtain ⟨rfl, rfl⟩ := h
      constructor
      · rw [callsAux, if_neg hf, ih1]
        simp [groupCalls, pairs, borderCall, loneCall]
      · intro z
        rw [callsAux, if_neg hf, ih1]
        simp [groupCalls, pairs, borderCall, loneCall]

/-- Collecting what comes out. -/
def collectE {W α : Type} (l : List α) (y : α) : Eff W (List α) := .ok (l ++ [y])

/-- `groupby` alone, with a closure that logs what it is asked; the groups are collected. -/
@[reducible] def loggedGroupBy {α : Type} (f : α → α → Bool) : RedE (List (α × α)) α (List (α × α)) :=
  reducerE (foldRedE [] collectE) (adapterE (groupByStageE fun a b => logged (fun p => f p.1 p.2) (a, b)) (nilStageE _ _))

theorem loggedGroupBy_finE {α : Type} (f : α → α → Bool) (l w : List (α × α)) :
    (loggedGroupBy f).fin (l, (.empty, ())) w = some (w, .ok l) := by
  simp only [loggedGroupBy]
  rw [reducerDrainE]
  simp only
  rw [adapterFinE]
  rfl

theorem loggedGroupBy_run {α : Type} (f : α → α → Bool) (xs : List α) (hr : ∀ x ∈ xs, f x x = true) :
    (∀ p l w, f p p = true → ∃ s w', feedE (loggedGroupBy f) (l, (.consumed p, ())) xs w = (w', .ok s) ∧
      (loggedGroupBy f).fin s w' = some (w ++ callsAux f true p xs, .ok (l ++ runsAux f p p xs))) ∧
    (∀ a b l w, ∃ s w', feedE (loggedGroupBy f) (l, (.lazy a b, ())) xs w = (w', .ok s) ∧
      (loggedGroupBy f).fin s w' = some (w ++ callsAux f false b xs, .ok (l ++ runsAux f a b xs))) := by
  induction xs with
  | nil =>
    constructor
    · intro p l w hp
      refine ⟨_, _, rfl, ?_⟩
      have he := loggedGroupBy_finE f (l ++ [(p, p)]) (w ++ [(p, p)])
      simp only [loggedGroupBy] at he ⊢
      rw [reducerDrainE]
      simp only
      rw [adapterFinE]
      simp [groupByFinE, bind_apply, logged, hp, Eff.ok, collectE, callsAux, runsAux, he]
    · intro a b l w
      refine ⟨_, _, rfl, ?_⟩
      have he := loggedGroupBy_finE f (l ++ [(a, b)]) w
      simp only [loggedGroupBy] at he ⊢
      rw [reducerDrainE]
      simp only
      rw [adapterFinE]
      simp [groupByFinE, bind_apply, logged, Eff.ok, collectE, callsAux, runsAux, he]
  | cons x xs ih =>
    have hx := hr x List.mem_cons_self
    obtain ⟨ih1, ih2⟩ := ih (fun y hy => hr y (List.mem_cons_of_mem _ hy))
    constructor
    · intro p l w hp
      by_cases hf : f p x = true
      · obtain ⟨s, w', h1, h2⟩ := ih2 p x l (w ++ [(p, x)])
        refine ⟨s, w', ?_, ?_⟩
        · rw [feedE, ← h1, bind_ok]
          simp [bind_apply, groupByAdaptE, logged, hf, Eff.ok]
        · rw [h2, callsAux, runsAux, if_pos hf, if_pos hf, List.append_assoc]; rfl
      · have hff : f p x = false := by simpa using hf
        obtain ⟨s, w', h1, h2⟩ := ih1 x (l ++ [(p, p)]) (w ++ [(p, x)] ++ [(p, p)]) hx
        refine ⟨s, w', ?_, ?_⟩
        · rw [feedE, ← h1, bind_ok]
          simp [bind_apply, groupByAdaptE, logged, hff, hp, Eff.ok, collectE]
        · rw [h2, callsAux, runsAux, if_neg hf, if_neg hf]; simp
    · intro a b l w
      by_cases hf : f b x = true
      · obtain ⟨s, w', h1, h2⟩ := ih2 a x l (w ++ [(b, x)])
        refine ⟨s, w', ?_, ?_⟩
        · rw [feedE, ← h1, bind_ok]
          simp [bind_apply, groupByAdaptE, logged, hf, Eff.ok]
        · rw [h2, callsAux, runsAux, if_pos hf, if_pos hf, List.append_assoc]; rfl
      · have hff : f b x = false := by simpa using hf
        obtain ⟨s, w', h1, h2⟩ := ih1 x (l ++ [(a, b)]) (w ++ [(b, x)]) hx
        refine ⟨s, w', ?_, ?_⟩
        · rw [feedE, ← h1, bind_ok]
          simp [bind_apply, groupByAdaptE, logged, hff, Eff.ok, collectE]
        · rw [h2, callsAux, runsAux, if_neg hf, if_neg hf]; simp


/-- **C99**: with a reflexive relation, `groupby` asks about every pair of neighbours exactly once, in order, and about an
element and itself exactly for the runs of one element (`groupCalls`); nothing else is asked, and the result is the ends of
the maximal runs. -/
theorem C99_groupby_calls {α : Type} (f : α → α → Bool) (xs : List α) (runs : List (List α))
    (hr : ∀ x ∈ xs, f x x = true) (h : MaximalRuns (fun a b => f a b = true) xs runs) (w : List (α × α)) :
    runRedE (reducerE (foldRedE [] collectE) (ChainE.groupby .nil fun a b => logged (fun p => f p.1 p.2) (a, b)).stage) xs w =
      some (w ++ groupCalls runs, .ok (runs.filterMap ends)) := by
  change runRedE (loggedGroupBy f) xs w = _
  rw [maximalRuns_eq f h]
  cases xs with
  | nil =>
    have he := loggedGroupBy_finE f [] w
    change (loggedGroupBy f).fin ([], (.empty, ())) w = _
    rw [he]
    simp [runsL, groupCalls]
  | cons x xs =>
    obtain ⟨s, w', h1, h2⟩ := (loggedGroupBy_run f xs (fun y hy => hr y (List.mem_cons_of_mem _ hy))).1 x [] w
      (hr x List.mem_cons_self)
    obtain ⟨r, rs, hc⟩ := runsL_cons f x xs
    unfold runRedE
    have h0 : feedE (loggedGroupBy f) (loggedGroupBy f).init (x :: xs) w = (w', .ok s) := by
      rw [← h1, feedE, bind_ok]
      simp [bind_apply, groupByAdaptE, Eff.ok]
    rw [h0]
    change (loggedGroupBy f).fin s w' = _
    rw [h2, (callsAux_eq f x xs r rs hc).1, ← hc, List.nil_append, ends_runsL_cons]

/-- **C99**: the number of questions: one less than the inputs, plus one for every run of one element. -/
theorem C99_groupby_count {α : Type} (f : α → α → Bool) (xs : List α) (runs : List (List α)) (hne : xs ≠ [])
    (h : MaximalRuns (fun a b => f a b = true) xs runs) :
    (groupCalls runs).length = xs.length - 1 + runs.countP (fun r => r.length == 1) := by
  have hp : ∀ (r : List α), (pairs r).length = r.length - 1 := by
    intro r
    induction r with
    | nil => rfl
    | cons a r ih => cases r with
      | nil => rfl
      | cons b r => simp only [pairs, List.length_cons, ih]; omega
  have key : ∀ (runs : List (List α)), (∀ r ∈ runs, r ≠ []) → runs ≠ [] →
      (groupCalls runs).length = runs.flatten.length - 1 + runs.countP (fun r => r.length == 1) := by
    intro runs
    induction runs with
    | nil => intro _ h; exact absurd rfl h
    | cons r rest ih =>
      intro hn _
      have hr := hn r List.mem_cons_self
      have hrl : 0 < r.length := List.length_pos_iff.2 hr
      have h1 : (loneCall r).length = if r.length == 1 then 1 else 0 := by
        rcases r with _ | ⟨a, _ | ⟨b, r⟩⟩ <;> simp [loneCall]
      obtain ⟨z, hz⟩ : ∃ z, r.getLast? = some z := by
        cases hl : r.getLast? with
        | none => exact absurd (List.getLast?_eq_none_iff.1 hl) hr
        | some z => exact ⟨z, rfl⟩
      rw [groupCalls, borderCall, hz]
      cases rest with
      | nil =>
        simp only [List.flatten_nil, List.head?_nil, List.append_nil, groupCalls, List.length_append, List.length_nil, hp, h1,
          List.flatten_cons, List.countP_cons, List.countP_nil, Nat.zero_add, Nat.add_zero]
      | cons r' rest =>
        have hih := ih (fun q hq => hn q (List.mem_cons_of_mem _ hq)) (by simp)
        have hr' := List.length_pos_iff.2 (hn r' (by simp))
        obtain ⟨y, ys, hy⟩ : ∃ y ys, (r' :: rest).flatten = y :: ys := by
          cases r' with
          | nil => simp at hr'
          | cons y r' => exact ⟨y, _, rfl⟩
        rw [hy] at hih ⊢
        simp only [List.head?_cons, List.length_append, hp, h1, hih, List.length_cons, List.length_nil, List.flatten_cons,
          List.countP_cons] at hih ⊢
        have := congrArg List.length hy
        simp only [List.flatten_cons, List.length_append, List.length_cons] at this
        split <;> split <;> omega
  rw [key runs h.nonempty, h.flatten]
  intro hn
  subst hn
  exact hne h.flatten.symm

/-- The case: the example of the test in fromgenerator.rs, with rising runs. -/
example : runRedE (reducerE (foldRedE [] collectE)
      (ChainE.groupby .nil fun a b => logged (fun p => decide (p.1 ≤ p.2)) (a, b)).stage) [0, 1, 0, 5, 3] [] =
    some ([(0, 1), (1, 0), (0, 5), (5, 3), (3, 3)], .ok [(0, 1), (0, 5), (3, 3)]) := by
  rw [C99_groupby_calls (fun a b => decide (a ≤ b)) [0, 1, 0, 5, 3] [[0, 1], [0, 5], [3]] (by decide)
    (by exact maximalRuns_runsL (fun a b => decide (a ≤ b)) [0, 1, 0, 5, 3])]
  rfl

/-! ## split -/

/-- Feeding a split whose factory logs the keys it is asked for. -/
theorem splitLogged_feed {α κ ρ : Type} [Key κ] (key : α → κ) (redfn : κ → Red α ρ) (xs : List α)
    (m m' : OrdMap κ ((k : κ) × (redfn k).σ)) (w : List κ)
    (h : feed (splitRed (fun x => .ok (key x)) redfn) m xs = .ok m') :
    feedE (splitRedE (fun x => .ok (key x)) (logged fun _ => ()) fun k => (redfn k).lift (List κ)) m xs w =
      (w ++ xs.map key, .ok m') := by
  induction xs generalizing m w with
  | nil => cases h; simp [feedE, Eff.ok]
  | cons x xs ih =>
    rw [feed] at h
    cases hn : (splitRed (fun x => Res.ok (key x)) redfn).next m x with
    | panic => rw [hn] at h; cases h
    | ok m1 =>
      rw [hn] at h
      rw [feedE, bind_ok (w' := w ++ [key x]) (a := m1)]
      · rw [ih m1 _ h]; simp
      · have hn : splitNext (fun x => Res.ok (key x)) redfn m x = .ok m1 := hn
        simp only [splitNext] at hn
        simp only [splitNextE, ok_bind, bind_apply, logged, Res.eff, Eff.ok]
        rcases hq : (redfn ((m.get (key x)).getD ⟨key x, (redfn (key x)).init⟩).1).next
          ((m.get (key x)).getD ⟨key x, (redfn (key x)).init⟩).2 x with s' | _
        · rw [hq] at hn; cases hn; rfl
        · rw [hq] at hn; cases hn

/-- **C100**: whenever `split` returns, its factory has been called once per input — with that input's key —
although a reducer is needed once per key only. -/
theorem C100_split_factory_calls {α κ ρ : Type} [Key κ] (key : α → κ) (redfn : κ → Red α ρ) (xs : List α) (m : OrdMap κ ρ)
    (h : runRed (splitRed (fun x => .ok (key x)) redfn) xs = some (.ok m)) (w : List κ) :
    runRedE (splitRedE (fun x => .ok (key x)) (logged fun _ => ()) fun k => (redfn k).lift (List κ)) xs w =
      some (w ++ xs.map key, .ok m) := by
  unfold runRed at h
  cases hf : feed (splitRed (fun x => Res.ok (key x)) redfn) (splitRed (fun x => Res.ok (key x)) redfn).init xs with
  | panic => rw [hf] at h; cases h
  | ok m' =>
    rw [hf] at h
    simp only at h
    unfold runRedE
    have := splitLogged_feed key redfn xs [] m' w hf
    rw [show (splitRedE (fun x => Eff.ok (key x)) (logged fun _ => ()) fun k => (redfn k).lift (List κ)).init = [] from rfl, this]
    simp only
    have h2 := splitFinE_lift (List κ) redfn [] m' (w ++ xs.map key)
    change splitFinE (fun k => (redfn k).lift (List κ)) [] m' (w ++ xs.map key) = _
    rw [h2]
    change splitFin redfn [] m' = _ at h
    rw [h]
    rfl


/-- **C100**: so a factory is not asked once per key: on any input in which two elements have the same key, it is asked
twice for that key. -/
theorem C100_not_once_per_key {α κ ρ : Type} [Key κ] (key : α → κ) (redfn : κ → Red α ρ) (xs : List α) (m : OrdMap κ ρ)
    (h : runRed (splitRed (fun x => .ok (key x)) redfn) xs = some (.ok m)) (hdup : ¬ (xs.map key).Nodup) :
    ∃ log, runRedE (splitRedE (fun x => .ok (key x)) (logged fun _ => ()) fun k => (redfn k).lift (List κ)) xs [] =
      some (log, .ok m) ∧ ¬ log.Nodup :=
  ⟨_, C100_split_factory_calls key redfn xs m h [], by simpa using hdup⟩

/-- The case: counting the even and the odd numbers. -/
example : ∃ log m, runRedE (splitRedE (fun x => .ok (x % 2)) (logged fun _ => ())
      fun k => (foldRed k fun i _ => .ok (i + 1)).lift (List Nat)) [3, 5, 2] [] = some (log, .ok m) ∧ log = [1, 1, 0] :=
  ⟨_, _, C100_split_factory_calls (fun x => x % 2) (fun k => foldRed k fun i _ => .ok (i + 1)) [3, 5, 2]
    [(0, 1), (1, 3)] rfl [], rfl⟩

end Verif
