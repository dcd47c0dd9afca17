import Verif.Lemmas.Pull

/-!
# C37–C44: generator chains

`collected c xs` is what `chain.collect()` returns after feeding `xs` and calling `finalize()`: `none` if
`finalize` does not return, `some .panic` if a closure panicked.
-/

set_option linter.unusedSimpArgs false

namespace Verif

open Spec

/-- `let mut r = chain.collect(); for x in xs { r.next(x) }; r.finalize()`. -/
def collected {α β : Type} (c : Chain α β) (xs : List α) : Option (Res (List β)) :=
  runRed (reducer (collectRed β) c.stage) xs

/-- The stages of `d` appended to the chain `c` (adapter.rs:64-98 applied one after the other). -/
def Chain.andThen {α β γ : Type} (c : Chain α β) : Chain β γ → Chain α γ
  | .nil => c
  | .filter d f => .filter (c.andThen d) f
  | .map d f => .map (c.andThen d) f
  | .groupby d f => .groupby (c.andThen d) f
  | .merge K d f key => .merge K (c.andThen d) f key

theorem collected_of_outs {α β : Type} {c : Chain α β} {xs : List α} {q : Res (List β)} (h : Outs c.stage xs q) :
    collected c xs = some q := runRed_collect_outs h

theorem outs_of_collected {α β : Type} {c : Chain α β} {xs : List α} {q : Res (List β)} (h : collected c xs = some q) :
    Outs c.stage xs q := by
  obtain ⟨r, hr⟩ := outs_exists (good_chain c) xs
  have := collected_of_outs hr
  rw [h] at this
  simp only [Option.some.injEq] at this
  subst this
  exact hr

theorem outs_behind {α β γ : Type} {c : Chain α β} {i : Stage β γ} (gi : Good i) {xs : List α} {r : Res (List β)}
    (h : Outs c.stage xs r) :
    (r = .panic → Outs (adapter i c.stage) xs .panic) ∧
    ∀ ys, r = .ok ys → ∀ q, Outs i ys q → Outs (adapter i c.stage) xs q :=
  outs_adapter gi (good_chain c) h

theorem outs_andThen {α β γ : Type} {c : Chain α β} {d : Chain β γ} {xs : List α} {ys : List β} {q : Res (List γ)}
    (h1 : Outs c.stage xs (.ok ys)) (h2 : Outs d.stage ys q) : Outs (c.andThen d).stage xs q := by
  have key : ∀ {γ δ : Type} (d : Chain β γ) (i : Stage γ δ), Good i →
      (∀ r, Outs d.stage ys r → Outs (c.andThen d).stage xs r) → ∀ q, Outs (adapter i d.stage) ys q →
        Outs (adapter i (c.andThen d).stage) xs q := by
    intro γ δ d i gi ih q hq
    obtain ⟨r, hr⟩ := outs_exists (good_chain d) ys
    have hr' := ih r hr
    cases r with
    | panic =>
      rw [outs_unique hq ((outs_behind gi hr).1 rfl)]
      exact (outs_behind gi hr').1 rfl
    | ok zs =>
      obtain ⟨w, hw⟩ := outs_exists gi zs
      rw [outs_unique hq ((outs_behind gi hr).2 zs rfl w hw)]
      exact (outs_behind gi hr').2 zs rfl w hw
  induction d with
  | nil =>
    rw [outs_unique h2 (outs_nil ys)]
    exact h1
  | filter d f ih => exact key d _ (good_filter f) (fun r hr => ih hr) _ h2
  | map d f ih => exact key d _ (good_map f) (fun r hr => ih hr) _ h2
  | groupby d f ih => exact key d _ (good_groupby f) (fun r hr => ih hr) _ h2
  | merge K d f k ih => exact key d _ (good_merge f k) (fun r hr => ih hr) _ h2

theorem outs_andThen_panic {α β γ : Type} {c : Chain α β} (d : Chain β γ) {xs : List α}
    (h1 : Outs c.stage xs .panic) : Outs (c.andThen d).stage xs .panic := by
  induction d with
  | nil => exact h1
  | filter d f ih => exact (outs_behind (good_filter f) ih).1 rfl
  | map d f ih => exact (outs_behind (good_map f) ih).1 rfl
  | groupby d f ih => exact (outs_behind (good_groupby f) ih).1 rfl
  | merge K d f k ih => exact (outs_behind (good_merge f k) ih).1 rfl

/-! ## C37 -/

/-- **C37** finalisation of every chain returns, on every input sequence. -/
theorem C37_chain_terminates {α β : Type} (c : Chain α β) (xs : List α) : ∃ q, collected c xs = some q := by
  obtain ⟨r, hr⟩ := outs_exists (good_chain c) xs
  exact ⟨r, collected_of_outs hr⟩

/-- **C37** a reducer behind a chain returns what it returns on the list of values the chain emits. -/
theorem C37_reducer_on_collected {α β ρ : Type} (c : Chain α β) (r : Red β ρ) (xs : List α) (ys : List β)
    (h : collected c xs = some (.ok ys)) : runRed (reducer r c.stage) xs = runRed r ys :=
  runRed_reducer (outs_of_collected h)

/-- **C37** if a closure of the chain panics, so does the reducer behind it. -/
theorem C37_reducer_panic {α β ρ : Type} (c : Chain α β) (r : Red β ρ) (xs : List α)
    (h : collected c xs = some .panic) : runRed (reducer r c.stage) xs = some .panic :=
  runRed_reducer (outs_of_collected h)

/-- **C37** the stages `d` appended to the chain `c` process exactly the values `c` emits, in order, each once. -/
theorem C37_chain_composes {α β γ : Type} (c : Chain α β) (d : Chain β γ) (xs : List α) :
    (∀ ys, collected c xs = some (.ok ys) → collected (c.andThen d) xs = collected d ys) ∧
    (collected c xs = some .panic → collected (c.andThen d) xs = some .panic) := by
  constructor
  · intro ys h
    obtain ⟨q, hq⟩ := outs_exists (good_chain d) ys
    rw [collected_of_outs (outs_andThen (outs_of_collected h) hq), collected_of_outs hq]
  · intro h
    exact collected_of_outs (outs_andThen_panic d (outs_of_collected h))

/-- **C37** the empty chain hands its inputs on. -/
theorem C37_nil_chain {α : Type} (xs : List α) : collected (Chain.nil : Chain α α) xs = some (.ok xs) :=
  collected_of_outs (outs_nil xs)

/-! ## C38 -/

theorem outs_filter {α : Type} (p : α → Res Bool) (xs : List α) : Outs (filterStage p) xs (filterR p xs) := by
  have h : feedOut (filterStage p) () xs = (filterR p xs).bind fun ys => .ok ((), ys) := by
    induction xs with
    | nil => rfl
    | cons x xs ih =>
      rw [feedOut, filterR]
      rcases hp : p x with b | _
      · cases b with
        | true =>
          simp only [hp]
          have ih' : feedOut (filterStage p) () xs = (filterR p xs).bind fun ys => .ok ((), ys) := ih
          simp only [filterStage] at ih'
          rw [ih']
          cases filterR p xs <;> rfl
        | false => simp only [hp]; exact ih
      · simp only [hp]; rfl
  cases hf : filterR p xs with
  | panic => exact Or.inl ⟨by rw [hf] at h; exact h, rfl⟩
  | ok ys =>
    rw [hf] at h
    exact Or.inr ⟨(), ys, .ok [], h, .brk (s' := ()) rfl rfl, by simp [Res.bind]⟩

theorem outs_map {α β : Type} (f : α → Res β) (xs : List α) : Outs (mapStage f) xs (mapR f xs) := by
  have h : feedOut (mapStage f) () xs = (mapR f xs).bind fun ys => .ok ((), ys) := by
    induction xs with
    | nil => rfl
    | cons x xs ih =>
      rw [feedOut, mapR]
      rcases hp : f x with b | _
      · simp only [hp]
        have ih' : feedOut (mapStage f) () xs = (mapR f xs).bind fun ys => .ok ((), ys) := ih
        simp only [mapStage] at ih'
        rw [ih']
        cases mapR f xs <;> rfl
      · simp only [hp]; rfl
  cases hf : mapR f xs with
  | panic => exact Or.inl ⟨by rw [hf] at h; exact h, rfl⟩
  | ok ys =>
    rw [hf] at h
    exact Or.inr ⟨(), ys, .ok [], h, .brk (s' := ()) rfl rfl, by simp [Res.bind]⟩

/-- A stage put behind a chain. -/
theorem collected_behind {α β γ : Type} {c : Chain α β} {d : Chain α γ} {i : Stage β γ} (gi : Good i)
    (hd : d.stage = adapter i c.stage) {xs : List α} {ys : List β} {q : Res (List γ)}
    (h : collected c xs = some (.ok ys)) (hq : Outs i ys q) : collected d xs = some q := by
  apply collected_of_outs
  rw [hd]
  exact (outs_behind gi (outs_of_collected h)).2 ys rfl q hq

/-- **C38** `filter`, anywhere in a chain, keeps exactly the values `Iterator::filter` keeps. -/
theorem C38_filter {α β : Type} (c : Chain α β) (p : β → Bool) (xs : List α) (ys : List β)
    (h : collected c xs = some (.ok ys)) :
    collected (c.filter fun x => .ok (p x)) xs = some (.ok (ys.filter p)) :=
  collected_behind (good_filter _) rfl h (filterR_pure p ys ▸ outs_filter _ ys)

/-- **C38** `map`, anywhere in a chain, emits exactly the values `Iterator::map` emits. -/
theorem C38_map {α β γ : Type} (c : Chain α β) (f : β → γ) (xs : List α) (ys : List β)
    (h : collected c xs = some (.ok ys)) :
    collected (c.map fun x => .ok (f x)) xs = some (.ok (ys.map f)) :=
  collected_behind (good_map _) rfl h (mapR_pure f ys ▸ outs_map _ ys)

/-- **C38** the closures are called on every value: the chain panics iff one of the calls panics. -/
theorem C38_panics_iff {α β γ : Type} (c : Chain α β) (p : β → Res Bool) (f : β → Res γ) (xs : List α) (ys : List β)
    (h : collected c xs = some (.ok ys)) :
    (collected (c.filter p) xs = some .panic ↔ ∃ y ∈ ys, p y = .panic) ∧
    (collected (c.map f) xs = some .panic ↔ ∃ y ∈ ys, f y = .panic) := by
  rw [collected_behind (d := c.filter p) (good_filter _) rfl h (outs_filter p ys),
    collected_behind (d := c.map f) (good_map _) rfl h (outs_map f ys), ← filterR_panic, ← mapR_panic]
  simp

/-! ## C39 -/

/-- **C39 (partial)** for a relation under which every input is related to itself, `groupby` emits first and
last element of every maximal run, in order. Missing: relations that are not reflexive on the inputs, for which
the claim is false (`C39_nonreflexive_drops_inputs`). -/
theorem C39_groupby_maximal_runs_partial {α β : Type} (c : Chain α β) (f : β → β → Bool) (xs : List α) (ys : List β)
    (h : collected c xs = some (.ok ys)) (hrefl : ∀ y ∈ ys, f y y = true) :
    ∃ runs, MaximalRuns (fun a b => f a b = true) ys runs ∧
      collected (c.groupby fun a b => .ok (f a b)) xs = some (.ok (runs.filterMap ends)) ∧
      (runs.filterMap ends).length = runs.length := by
  have hm := maximalRuns_runsL f ys
  refine ⟨runsL f ys, hm, collected_behind (good_groupby _) rfl h (outs_groupBy f ys hrefl), ?_⟩
  have : ∀ rs : List (List β), (∀ r ∈ rs, r ≠ []) → (rs.filterMap ends).length = rs.length := by
    intro rs hrs
    induction rs with
    | nil => rfl
    | cons r rs ih =>
      have hr := hrs r List.mem_cons_self
      obtain ⟨e, he⟩ : ∃ e, ends r = some e := by
        cases r with
        | nil => exact absurd rfl hr
        | cons a r =>
          unfold ends
          cases hg : (a :: r).getLast? with
          | none => rw [List.getLast?_eq_none_iff] at hg; simp at hg
          | some b => exact ⟨_, rfl⟩
      rw [List.filterMap_cons_some he, List.length_cons, List.length_cons,
        ih fun q hq => hrs q (List.mem_cons_of_mem _ hq)]
  exact this _ hm.nonempty

/-- **C39** the maximal runs are unique, so the previous theorem determines the output. -/
theorem C39_runs_unique {α : Type} (f : α → α → Bool) (xs : List α) (r1 r2 : List (List α))
    (h1 : MaximalRuns (fun a b => f a b = true) xs r1) (h2 : MaximalRuns (fun a b => f a b = true) xs r2) : r1 = r2 :=
  (maximalRuns_eq f h1).trans (maximalRuns_eq f h2).symm

/-- Inputs the relation `>=` of `ripdlt` meets: reflexive; two runs. -/
example : collected (Chain.nil.groupby fun (a b : Nat) => .ok (decide (a ≤ b))) [1, 2, 0, 5] =
    some (.ok [(1, 2), (0, 5)]) := by
  obtain ⟨runs, h1, h2, -⟩ := C39_groupby_maximal_runs_partial (Chain.nil (α := Nat)) (fun a b => decide (a ≤ b))
    [1, 2, 0, 5] [1, 2, 0, 5] (C37_nil_chain _) (by decide)
  rw [h2, maximalRuns_eq _ h1]
  decide

/-- **C39 (violated)** an input that is not related to itself swallows all following inputs it is not related
to: nothing is emitted for any of them. -/
theorem C39_nonreflexive_drops_inputs {α : Type} (f : α → α → Bool) (a : α) (xs : List α) (ha : f a a = false)
    (hx : ∀ x ∈ xs, f a x = false) :
    collected (Chain.nil.groupby fun a b => .ok (f a b)) (a :: xs) = some (.ok []) := by
  refine collected_behind (c := Chain.nil) (good_groupby _) rfl (C37_nil_chain _) (i := groupByStage (pure2 f)) ?_
  have h : feedOut (groupByStage (pure2 f)) (.consumed a) xs = .ok (.consumed a, []) := by
    induction xs with
    | nil => rfl
    | cons x xs ih =>
      rw [feedOut]
      simp only [groupByAdapt, pure2, ha, hx x List.mem_cons_self]
      exact ih fun y hy => hx y (List.mem_cons_of_mem _ hy)
  refine Or.inr ⟨.consumed a, [], .ok [], ?_, ?_, rfl⟩
  · show feedOut (groupByStage (pure2 f)) .empty (a :: xs) = _
    rw [feedOut]; exact h
  · exact Drains.brk (a := groupByStage (pure2 f)) (s := GroupByState.consumed a) (s' := GroupByState.empty)
      (by simp only [groupByFin, pure2, ha]) rfl

/-- **C39 (violated)** with `<`: the inputs `5, 3, 4` contain the run `3 < 4`, but nothing is emitted. -/
theorem C39_strict_less_loses_run :
    collected (Chain.nil.groupby fun (a b : Nat) => .ok (decide (a < b))) [5, 3, 4] = some (.ok []) ∧
    MaximalRuns (fun a b : Nat => decide (a < b) = true) [5, 3, 4] [[5], [3, 4]] := by
  refine ⟨C39_nonreflexive_drops_inputs _ _ _ (by decide) (by decide), ?_⟩
  have := maximalRuns_runsL (fun a b : Nat => decide (a < b)) [5, 3, 4]
  exact this

/-! ## C42 -/

/-- **C42** `split` behind a chain returns `m` exactly if the keys of `m` are the keys of the emitted values, in
order, and the value of each key is the result of the key's reducer on the emitted values with that key. -/
theorem C42_split {α β κ ρ : Type} [Key κ] [DecidableEq κ] (c : Chain α β) (key : β → κ) (redfn : κ → Red β ρ)
    (xs : List α) (ys : List β) (h : collected c xs = some (.ok ys)) (m : List (κ × ρ)) :
    runRed (reducer (splitRed (fun y => .ok (key y)) redfn) c.stage) xs = some (.ok m) ↔
      (m.Pairwise fun a b => Key.lt a.1 b.1) ∧ (∀ k, k ∈ m.map (·.1) ↔ k ∈ ys.map key) ∧
      ∀ k v, (k, v) ∈ m → runRed (redfn k) (ys.filter fun y => decide (key y = k)) = some (.ok v) := by
  rw [C37_reducer_on_collected c _ xs ys h]
  exact runRed_split_iff ys (fun _ _ => rfl) m

/-- **C42** `split` never loses a key: if every key's reducer succeeds, `split` succeeds. -/
theorem C42_split_total {α κ ρ : Type} [Key κ] [DecidableEq κ] (key : α → κ) (redfn : κ → Red α ρ) (xs : List α)
    (h : ∀ x ∈ xs, ∃ v, runRed (redfn (key x)) (xs.filter fun y => decide (key y = key x)) = some (.ok v)) :
    ∃ m, runRed (splitRed (fun y => .ok (key y)) redfn) xs = some (.ok m) := by
  rcases split_feed (keyfn := fun y => .ok (key y)) (splitInv_nil (key := key) (redfn := redfn)) xs
    (fun _ _ => rfl) with ⟨-, x, h2, h3⟩ | ⟨st, h1, h2⟩
  · obtain ⟨v, hv⟩ := h x h2
    rw [runRed_eq, show xs.filter (fun y => decide (key y = key x)) = ([] ++ xs).filter _ from rfl, h3] at hv
    simp [Res.andThen] at hv
  · rw [List.nil_append] at h2
    obtain ⟨r, hr⟩ := splitFin_exists [] st (by
      rintro ⟨k, c⟩ hc
      have hg := (OrdMap.get_eq_some h2.sorted).2 hc
      by_cases hk : ∃ y ∈ xs, key y = k
      · obtain ⟨s, h3, h4⟩ := h2.present k hk
        rw [hg] at h3
        simp only [Option.some.injEq] at h3
        subst h3
        obtain ⟨y, hy, rfl⟩ := hk
        obtain ⟨v, hv⟩ := h y hy
        rw [runRed_eq, h4] at hv
        exact ⟨v, hv⟩
      · rw [h2.absent k fun y hy h' => hk ⟨y, hy, h'⟩] at hg
        simp at hg)
    refine ⟨r, ?_⟩
    rw [runRed_eq]
    exact (congrArg (fun z => Res.andThen z _) h1).trans hr

/-- The test of generator/mod.rs:198-213, from the characterisation. -/
example : runRed (splitRed (fun y : Nat => .ok (y % 2)) fun _ => sumRed) [1, 2, 3, 4] = some (.ok [(0, 6), (1, 4)]) := by
  rw [runRed_split_iff (key := fun y => y % 2) _ (fun _ _ => rfl)]
  refine ⟨by unfold OrdMap.Sorted; decide, by intro k; simp; omega, ?_⟩
  intro k v hv
  simp only [List.mem_cons, Prod.mk.injEq, List.not_mem_nil, or_false] at hv
  rcases hv with ⟨rfl, rfl⟩ | ⟨rfl, rfl⟩ <;> rw [runRed_sum] <;> rfl

/-! ## C43 -/

/-- **C43** `fork` returns both results exactly if both reducers do on the same inputs. -/
theorem C43_fork {α ρ τ : Type} (r1 : Red α ρ) (r2 : Red α τ) (xs : List α) (a : ρ) (b : τ) :
    runRed (forkRed r1 r2) xs = some (.ok (a, b)) ↔ runRed r1 xs = some (.ok a) ∧ runRed r2 xs = some (.ok b) :=
  runRed_fork_iff xs a b

/-- **C43** `fold` is the left fold. -/
theorem C43_fold {α ι : Type} (i0 : ι) (f : ι → α → ι) (xs : List α) :
    runRed (foldRed i0 fun i x => .ok (f i x)) xs = some (.ok (xs.foldl f i0)) := by
  rw [runRed_fold]
  congr 1
  induction xs generalizing i0 with
  | nil => rfl
  | cons x xs ih => rw [List.foldlM_cons, List.foldl_cons]; exact ih (f i0 x)

/-- **C43** `count` is the number of inputs (and panics beyond `usize::MAX`). -/
theorem C43_count {α : Type} (xs : List α) :
    runRed (countRed α) xs = some (if xs.length ≤ usizeMax then .ok xs.length else .panic) := runRed_count xs

/-- **C43** `sum` is the sum of the inputs (and panics beyond `usize::MAX`). -/
theorem C43_sum (xs : List Nat) :
    runRed sumRed xs = some (if xs.sum ≤ usizeMax then .ok xs.sum else .panic) := runRed_sum xs

/-- **C43** `collect` is the list of inputs. -/
theorem C43_collect {α : Type} (xs : List α) : runRed (collectRed α) xs = some (.ok xs) := runRed_collect xs

/-- A `fork` of `sum` and `count`. -/
example : runRed (forkRed sumRed (countRed Nat)) [3, 4, 5] = some (.ok (12, 3)) := by
  rw [C43_fork, C43_sum, C43_count]; exact ⟨rfl, rfl⟩

/-! ## C44 -/

/-- **C44** pulled through an iterator that yields `xs` and then stays exhausted, `groupby` yields what the
push-based chain emits on `xs`, and then stays exhausted. -/
theorem C44_pull_groupby_eq_push {α : Type} (f : α → α → Res Bool) (it : Pull α) (s : it.σ) (xs : List α)
    (ys : List (α × α)) (hit : ∀ n, it.calls n s = some (.ok (streamOf xs n)))
    (h : collected (Chain.nil.groupby f) xs = some (.ok ys)) :
    ∀ n, (pullGroupBy f it).calls n (.empty, s) = some (.ok (streamOf ys n)) := by
  have hs := streams_of_calls hit
  obtain ⟨q, hq⟩ := outs_exists (good_groupby f) xs
  have := collected_behind (c := Chain.nil) (d := Chain.nil.groupby f) (good_groupby f) rfl (C37_nil_chain xs) hq
  rw [h] at this
  simp only [Option.some.injEq] at this
  subst this
  exact streams_ok_calls (streams_fromAdapt (good_groupby f) hs hq) ys rfl

/-- An iterator over a list (`slice::Iter`). -/
@[reducible] def listPull (α : Type) : Pull α where
  σ := List α
  next l :=
    match l with
    | [] => some (.ok ([], none))
    | x :: xs => some (.ok (xs, some x))

/-- The iterator over a list meets the hypothesis of `C44_pull_groupby_eq_push`. -/
theorem listPull_streams {α : Type} (xs : List α) : ∀ n, (listPull α).calls n xs = some (.ok (streamOf xs n)) := by
  apply streams_ok_calls (r := .ok xs) _ xs rfl
  induction xs with
  | nil =>
    refine .done (exhausted_of_inv (it := listPull α) (fun s => s = []) ?_ rfl)
    rintro s rfl
    exact ⟨[], rfl, rfl⟩
  | cons x xs ih =>
    have := Streams.item (it := listPull α) (s := x :: xs) (s' := xs) (x := x) rfl ih
    exact this

end Verif
