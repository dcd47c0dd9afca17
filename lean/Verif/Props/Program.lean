import Verif.Spec.Pipeline
import Verif.Props.FoldMut

/-! # C83: every program built with the generator API computes its list semantics -/

set_option linter.unusedSimpArgs false

namespace Verif

open Spec

/-! ## The stages -/

theorem filterV_eq {α : Type} (p : α → Res Bool) (xs : List α) : filterV p xs = filterR p xs := by
  induction xs with
  | nil => rfl
  | cons x xs ih =>
    rw [filterV, filterR, ih]
    cases p x with
    | panic => rfl
    | ok b => cases b <;> rfl

theorem mapV_eq {α β : Type} (f : α → Res β) (xs : List α) : mapV f xs = mapR f xs := by
  induction xs with
  | nil => rfl
  | cons x xs ih => rw [mapV, mapR, ih]; cases f x <;> rfl

/-- What feeding and draining from a given state give together. -/
def OutsFrom {α β : Type} (a : Stage α β) (s : a.σ) (xs : List α) (q : Res (List β)) : Prop :=
  (feedOut a s xs = .panic ∧ q = .panic) ∨
  ∃ s' ys w, feedOut a s xs = .ok (s', ys) ∧ Drains a s' w ∧ q = w.bind fun zs => .ok (ys ++ zs)

theorem outsFrom_cons_some {α β : Type} {a : Stage α β} {s s' : a.σ} {x : α} {o : β} {xs : List α} {q : Res (List β)}
    (h : a.adapt s x = .ok (s', .cont (some o))) (hq : OutsFrom a s' xs q) :
    OutsFrom a s (x :: xs) (q.bind fun os => .ok (o :: os)) := by
  rcases hq with ⟨h1, rfl⟩ | ⟨t, ys, w, h1, h2, rfl⟩
  · left; rw [feedOut, h]; simp only; rw [h1]; exact ⟨rfl, rfl⟩
  · right
    refine ⟨t, o :: ys, w, ?_, h2, ?_⟩
    · rw [feedOut, h]; simp only; rw [h1]; rfl
    · cases w <;> rfl

theorem outsFrom_cons_none {α β : Type} {a : Stage α β} {s s' : a.σ} {x : α} {xs : List α} {q : Res (List β)}
    (h : a.adapt s x = .ok (s', .cont none)) (hq : OutsFrom a s' xs q) : OutsFrom a s (x :: xs) q := by
  rcases hq with ⟨h1, rfl⟩ | ⟨t, ys, w, h1, h2, rfl⟩
  · left; exact ⟨by rw [feedOut, h]; exact h1, rfl⟩
  · right
    refine ⟨t, ys, w, ?_, h2, rfl⟩
    rw [feedOut, h]; exact h1

theorem outsFrom_cons_panic {α β : Type} {a : Stage α β} {s : a.σ} {x : α} {xs : List α}
    (h : a.adapt s x = .panic) : OutsFrom a s (x :: xs) .panic := by
  left; rw [feedOut, h]; exact ⟨rfl, rfl⟩

theorem group_outs {α : Type} (f : α → α → Res Bool) (xs : List α) :
    (∀ a, OutsFrom (groupByStage f) (.consumed a) xs (aloneV f a xs)) ∧
    (∀ a z, OutsFrom (groupByStage f) (.lazy a z) xs (runV f a z xs)) := by
  induction xs with
  | nil =>
    constructor
    · intro a
      right
      rw [aloneV]
      cases h : f a a with
      | panic =>
        exact ⟨_, [], .panic, rfl, .panic (a := groupByStage f) (by simp only [groupByFin, h]), rfl⟩
      | ok b =>
        cases b with
        | false =>
          exact ⟨_, [], .ok [], rfl, .brk (a := groupByStage f) (s' := GroupByState.empty)
            (by simp only [groupByFin, h]) rfl, rfl⟩
        | true =>
          have := Drains.some (a := groupByStage f) (s := GroupByState.consumed a) (s' := GroupByState.empty)
            (o := (a, a)) (by simp only [groupByFin, h]) (groupBy_drains_empty _)
          exact ⟨_, [], _, rfl, this, rfl⟩
    · intro a z
      right
      have := Drains.some (a := groupByStage f) (s := GroupByState.lazy a z) (s' := GroupByState.empty)
            (o := (a, z)) rfl (groupBy_drains_empty _)
      exact ⟨_, [], _, rfl, this, rfl⟩
  | cons x xs ih =>
    constructor
    · intro a
      rw [aloneV]
      cases h : f a x with
      | panic => exact outsFrom_cons_panic (a := groupByStage f) (by simp only [groupByAdapt, h])
      | ok b =>
        cases b with
        | true => exact outsFrom_cons_none (a := groupByStage f) (by simp only [groupByAdapt, h]) (ih.2 a x)
        | false =>
          cases h2 : f a a with
          | panic => exact outsFrom_cons_panic (a := groupByStage f) (by simp only [groupByAdapt, h, h2])
          | ok b =>
            cases b with
            | true => exact outsFrom_cons_some (a := groupByStage f) (by simp only [groupByAdapt, h, h2]) (ih.1 x)
            | false => exact outsFrom_cons_none (a := groupByStage f) (by simp only [groupByAdapt, h, h2]) (ih.1 a)
    · intro a z
      rw [runV]
      cases h : f z x with
      | panic => exact outsFrom_cons_panic (a := groupByStage f) (by simp only [groupByAdapt, h])
      | ok b =>
        cases b with
        | true => exact outsFrom_cons_none (a := groupByStage f) (by simp only [groupByAdapt, h]) (ih.2 a x)
        | false => exact outsFrom_cons_some (a := groupByStage f) (by simp only [groupByAdapt, h]) (ih.1 x)

theorem outs_groupV {α : Type} (f : α → α → Res Bool) (xs : List α) : Outs (groupByStage f) xs (groupV f xs) := by
  have : OutsFrom (groupByStage f) .empty xs (groupV f xs) := by
    cases xs with
    | nil => exact Or.inr ⟨_, [], _, rfl, groupBy_drains_empty _, rfl⟩
    | cons x xs => exact outsFrom_cons_none (a := groupByStage f) rfl ((group_outs f xs).1 x)
  exact this

theorem mergeWithV_eq {α κ : Type} (f : α → α → Res (Option α)) (x : α) (m : List (κ × α)) :
    mergeWithV f x m = mergeFind f x m := by
  induction m with
  | nil => rfl
  | cons e m ih =>
    obtain ⟨k, p⟩ := e
    rw [mergeWithV, mergeFind]
    cases f p x with
    | panic => rfl
    | ok o => cases o <;> simp [Res.bind, ih]

theorem merge_outs {α κ : Type} [Key κ] (f : α → α → Res (Option α)) (key : α → κ) (xs : List α) (m : OrdMap κ α) :
    OutsFrom (mergeStage f key) (m, none) xs ((mergeV f key m xs).bind fun m => .ok (m.map (·.2))) := by
  induction xs generalizing m with
  | nil => exact Or.inr ⟨_, [], _, rfl, merge_drains_none f key m, rfl⟩
  | cons x xs ih =>
    rw [mergeV, mergeWithV_eq]
    cases h : mergeFind f x m with
    | panic => exact outsFrom_cons_panic (a := mergeStage f key) (by simp only [mergeAdapt, h])
    | ok o =>
      cases o with
      | none => exact outsFrom_cons_none (a := mergeStage f key) (by simp only [mergeAdapt, h]) (ih _)
      | some pv => exact outsFrom_cons_none (a := mergeStage f key) (by simp only [mergeAdapt, h]) (ih _)

theorem outs_mergeV {α κ : Type} [Key κ] (f : α → α → Res (Option α)) (key : α → κ) (xs : List α) :
    Outs (mergeStage f key) xs ((mergeV f key [] xs).bind fun m => .ok (m.map (·.2))) :=
  merge_outs f key xs []

theorem outs_behindV {α β γ : Type} {c : Chain α β} {i : Stage β γ} (gi : Good i) {xs : List α}
    {w : List β → Res (List γ)} (h : Outs c.stage xs (chainV c xs)) (hi : ∀ ys, Outs i ys (w ys)) :
    Outs (adapter i c.stage) xs ((chainV c xs).bind w) := by
  cases hc : chainV c xs with
  | panic => rw [hc] at h; exact (outs_behind gi h).1 rfl
  | ok ys => rw [hc] at h; exact (outs_behind gi h).2 ys rfl _ (hi ys)

theorem outs_chainV {α β : Type} (c : Chain α β) (xs : List α) : Outs c.stage xs (chainV c xs) := by
  induction c with
  | nil => exact outs_nil xs
  | filter c p ih => exact outs_behindV (good_filter _) ih fun ys => by rw [filterV_eq]; exact outs_filter p ys
  | map c f ih => exact outs_behindV (good_map _) ih fun ys => by rw [mapV_eq]; exact outs_map f ys
  | groupby c f ih => exact outs_behindV (good_groupby _) ih fun ys => outs_groupV f ys
  | merge K c f key ih =>
    exact outs_behindV (w := fun ys => (mergeV f key [] ys).bind fun m => .ok (m.map (·.2))) (good_merge _ _) ih
      fun ys => outs_mergeV f key ys

/-- **C83** a chain of adapters, however long, emits exactly what its stages make of the whole list one after the other,
and panics exactly if one of them does; this covers relations that are not reflexive and merge functions and keys of
any kind. -/
theorem C83_chain_exact {α β : Type} (c : Chain α β) (xs : List α) : collected c xs = some (chainV c xs) :=
  collected_of_outs (outs_chainV c xs)

/-! ## The reducers -/

theorem fold_run {α ι γ : Type} (init : ι) (c0 : γ) (f : γ → ι → α → Res (γ × ι)) (xs : List α) :
    runRed (foldMutRed init c0 f) xs = some (foldV f c0 init xs) := by
  rw [C77_fold_stateful]
  suffices h : ∀ c i, FoldRuns f c i xs (foldV f c i xs) from h c0 init
  induction xs with
  | nil => intro c i; exact .nil c i
  | cons x xs ih =>
    intro c i
    rw [foldV]
    cases h : f c i x with
    | panic => exact .panic c i x xs h
    | ok s => exact .step c s.1 i s.2 x xs _ h (ih s.1 s.2)

theorem fork_total {α ρ τ : Type} {r1 : Red α ρ} {r2 : Red α τ} {xs : List α} {a : Res ρ} {b : Res τ}
    (h1 : runRed r1 xs = some a) (h2 : runRed r2 xs = some b) :
    runRed (forkRed r1 r2) xs = some (a.bind fun x => b.bind fun y => .ok (x, y)) := by
  have hf := feed_fork r1.init r2.init xs
  rw [runRed_eq] at h1 h2
  cases e1 : feed r1 r1.init xs with
  | panic =>
    rw [e1] at h1 hf
    rw [runRed_panic (r := forkRed r1 r2) hf]
    simp only [Res.andThen, Option.some.injEq] at h1
    subst h1; rfl
  | ok s1 =>
    rw [e1] at h1 hf
    simp only [Res.andThen] at h1
    cases e2 : feed r2 r2.init xs with
    | panic =>
      rw [e2] at h2 hf
      rw [runRed_panic (r := forkRed r1 r2) hf]
      simp only [Res.andThen, Option.some.injEq] at h2
      subst h2; cases a <;> rfl
    | ok s2 =>
      rw [e2] at h2 hf
      simp only [Res.andThen] at h2
      rw [runRed_ok (r := forkRed r1 r2) (s := (s1, s2)) hf]
      simp only [h1, h2]
      cases a with
      | panic => rfl
      | ok x => cases b <;> rfl

theorem splitFin_none {α κ ρ : Type} [Key κ] {redfn : κ → Red α ρ} {acc : OrdMap κ ρ}
    {l : List (κ × ((k : κ) × (redfn k).σ))} (h : splitFin redfn acc l = none) :
    ∃ x ∈ l, (redfn x.2.1).fin x.2.2 = none := by
  induction l generalizing acc with
  | nil => simp [splitFin] at h
  | cons x l ih =>
    obtain ⟨k, c⟩ := x
    rw [splitFin] at h
    split at h
    · next h' => exact ⟨_, List.mem_cons_self, h'⟩
    · simp at h
    · obtain ⟨y, hy, h'⟩ := ih h
      exact ⟨y, List.mem_cons_of_mem _ hy, h'⟩

theorem split_terminates {α κ ρ : Type} [Key κ] [DecidableEq κ] {keyfn : α → Res κ} (key : α → κ) (redfn : κ → Red α ρ)
    (xs : List α) (hx : ∀ x ∈ xs, keyfn x = .ok (key x))
    (h : ∀ x ∈ xs, runRed (redfn (key x)) (xs.filter fun y => decide (key y = key x)) ≠ none) :
    runRed (splitRed keyfn redfn) xs ≠ none := by
  intro hn
  rcases split_feed (keyfn := keyfn) (splitInv_nil (key := key) (redfn := redfn)) xs hx with ⟨h1, -⟩ | ⟨st, h1, h2⟩
  · rw [runRed_panic (r := splitRed keyfn redfn) h1] at hn; simp at hn
  · rw [runRed_ok (r := splitRed keyfn redfn) h1] at hn
    obtain ⟨⟨k, c⟩, hc, hf⟩ := splitFin_none hn
    rw [List.nil_append] at h2
    have hg := (OrdMap.get_eq_some h2.sorted).2 hc
    by_cases hk : ∃ y ∈ xs, key y = k
    · obtain ⟨s, h3, h4⟩ := h2.present k hk
      rw [hg] at h3
      simp only [Option.some.injEq] at h3
      subst h3
      obtain ⟨y, hy, rfl⟩ := hk
      apply h y hy
      rw [runRed_eq, h4]
      exact hf
    · rw [h2.absent k fun y hy h' => hk ⟨y, hy, h'⟩] at hg
      simp at hg

theorem split_total {α κ ρ : Type} [Key κ] [DecidableEq κ] {keyfn : α → Res κ} (key : α → κ) (redfn : κ → Red α ρ)
    (xs : List α) (hx : ∀ x ∈ xs, keyfn x = .ok (key x))
    (h : ∀ x ∈ xs, ∃ v, runRed (redfn (key x)) (xs.filter fun y => decide (key y = key x)) = some (.ok v)) :
    ∃ m, runRed (splitRed keyfn redfn) xs = some (.ok m) := by
  rcases split_feed (keyfn := keyfn) (splitInv_nil (key := key) (redfn := redfn)) xs hx with ⟨-, x, h2, h3⟩ | ⟨st, h1, h2⟩
  · obtain ⟨v, hv⟩ := h x h2
    rw [runRed_eq, show xs.filter (fun y => decide (key y = key x)) = ([] ++ xs).filter _ from rfl, h3] at hv
    simp [Res.andThen] at hv
  · rw [List.nil_append] at h2
    obtain ⟨r, hr⟩ := splitFin_exists [] st (by
      rintro ⟨k, c⟩ hc
      have hg := (OrdMap.get_eq_some h2.sorted).2 hc
      by_cases hk : ∃ y ∈ xs, key y = k
      · obtain ⟨s, h3, h4⟩ := h2.present k hk
        rw [hg] at h3
        simp only [Option.some.injEq] at h3
        subst h3
        obtain ⟨y, hy, rfl⟩ := hk
        obtain ⟨v, hv⟩ := h y hy
        rw [runRed_eq, h4] at hv
        exact ⟨v, hv⟩
      · rw [h2.absent k fun y hy h' => hk ⟨y, hy, h'⟩] at hg
        simp at hg)
    refine ⟨r, ?_⟩
    rw [runRed_eq]
    exact (congrArg (fun z => Res.andThen z _) h1).trans hr

/-! ## C83 -/

/-- **C83** every reducer built with the API, however its folds, forks, splits and adapters are nested, returns on every
sequence of inputs, and its result (a value or a panic) is the one the list semantics gives. -/
theorem C83_program_exact {α ρ : Type} (p : Prog α ρ) :
    ∀ xs, ∃ r, runRed p.red xs = some r ∧ ∀ r', Means p xs r' ↔ r' = r := by
  induction p with
  | fold init c0 f =>
    intro xs
    exact ⟨_, fold_run init c0 f xs, fun r' => Iff.rfl⟩
  | fork p q ihp ihq =>
    intro xs
    obtain ⟨a, ha, ha'⟩ := ihp xs
    obtain ⟨b, hb, hb'⟩ := ihq xs
    refine ⟨_, fork_total ha hb, fun r' => ?_⟩
    rw [Means]
    simp only [ha', hb']
    cases a with
    | panic => simp [Res.bind]
    | ok x =>
      cases b with
      | panic => simp [Res.bind]
      | ok y =>
        simp only [Res.bind, Res.ok.injEq, reduceCtorEq, or_self, false_and, or_false]
        constructor
        · rintro ⟨a, b, rfl, rfl, rfl⟩; rfl
        · rintro rfl; exact ⟨x, y, rfl, rfl, rfl⟩
  | behind c p ih =>
    intro xs
    have ho := outs_chainV c xs
    cases hc : chainV c xs with
    | panic =>
      refine ⟨.panic, ?_, fun r' => ?_⟩
      · rw [hc] at ho; exact runRed_reducer ho
      · rw [Means, hc]; simp
    | ok ys =>
      obtain ⟨r, hr, hr'⟩ := ih ys
      refine ⟨r, ?_, fun r' => ?_⟩
      · rw [hc] at ho
        exact (runRed_reducer (r := p.red) ho).trans hr
      · rw [Means, hc]
        simp [hr']
  | @split α κ ρ K D key sub ih =>
    intro xs
    show ∃ r, runRed (splitRed key fun k => (sub k).red) xs = some r ∧ _
    by_cases hk : ∃ x ∈ xs, key x = .panic
    · refine ⟨.panic, split_key_panic xs hk, fun r' => ?_⟩
      rw [Means]
      obtain ⟨x, hx, hp⟩ := hk
      constructor
      · rintro (⟨_, h⟩ | ⟨h, _⟩)
        · exact h
        · exact absurd hp (h x hx)
      · intro h; exact Or.inl ⟨⟨x, hx, hp⟩, h⟩
    · have hok : ∀ x ∈ xs, key x ≠ .panic := fun x hx h => hk ⟨x, hx, h⟩
      cases hxs : xs with
      | nil =>
        refine ⟨.ok [], rfl, fun r' => ?_⟩
        rw [Means]
        constructor
        · rintro (⟨⟨x, hx, _⟩, _⟩ | ⟨_, ⟨⟨x, hx, _⟩, _⟩ | ⟨m, rfl, _, hm, _⟩⟩)
          · simp at hx
          · simp at hx
          · cases m with
            | nil => rfl
            | cons e m => obtain ⟨x, hx, _⟩ := (hm e.1).1 (by simp); simp at hx
        · rintro rfl
          exact Or.inr ⟨by simp, Or.inr ⟨[], rfl, List.Pairwise.nil, by simp, by simp⟩⟩
      | cons x0 xs0 =>
        rw [← hxs]
        obtain ⟨d, hd⟩ : ∃ d, key x0 = .ok d := by
          cases h : key x0 with
          | panic => exact absurd h (hok x0 (by rw [hxs]; simp))
          | ok d => exact ⟨d, rfl⟩
        -- the key function as a total function
        let k : α → κ := fun x => match key x with
          | .ok j => j
          | .panic => d
        have hkk : ∀ x ∈ xs, key x = .ok (k x) := by
          intro x hx
          cases h : key x with
          | panic => exact absurd h (hok x hx)
          | ok j => simp only [k, h]
        have hw : ∀ j, withKey key j xs = xs.filter fun y => decide (k y = j) := by
          intro j
          unfold withKey
          apply List.filter_congr
          intro y hy
          rw [hkk y hy]
        have hsub : ∀ j, ∃ r, runRed (sub j).red (xs.filter fun y => decide (k y = j)) = some r ∧
            ∀ r', Means (sub j) (withKey key j xs) r' ↔ r' = r := by
          intro j; rw [hw]; exact ih j _
        have hiff := fun m => runRed_split_iff (key := k) (redfn := fun j => (sub j).red) xs hkk m
        have hkeys : ∀ j, (∃ x ∈ xs, key x = .ok j) ↔ j ∈ xs.map k := by
          intro j
          simp only [List.mem_map]
          constructor
          · rintro ⟨x, hx, h⟩; exact ⟨x, hx, by have := hkk x hx; rw [h] at this; injection this with this; exact this.symm⟩
          · rintro ⟨x, hx, rfl⟩; exact ⟨x, hx, hkk x hx⟩
        have hmeans : ∀ m, ((m.Pairwise fun a b => Key.lt a.1 b.1) ∧ (∀ j, j ∈ m.map (·.1) ↔ ∃ x ∈ xs, key x = .ok j) ∧
            ∀ j v, (j, v) ∈ m → Means (sub j) (withKey key j xs) (.ok v)) ↔
            runRed (splitRed key fun k => (sub k).red) xs = some (.ok m) := by
          intro m
          rw [hiff]
          refine and_congr Iff.rfl (and_congr (forall_congr' fun j => by rw [hkeys]) ?_)
          refine forall_congr' fun j => forall_congr' fun v => imp_congr Iff.rfl ?_
          obtain ⟨r, h1, h2⟩ := hsub j
          rw [h2, h1]
          constructor
          · rintro rfl; rfl
          · intro h; injection h with h; exact h.symm
        by_cases hp : ∃ x ∈ xs, ∃ j, key x = .ok j ∧ Means (sub j) (withKey key j xs) .panic
        · have hres : runRed (splitRed key fun k => (sub k).red) xs = some .panic := by
            cases hr : runRed (splitRed key fun k => (sub k).red) xs with
            | none =>
              refine absurd hr (split_terminates k (fun j => (sub j).red) xs hkk fun x hx h => ?_)
              obtain ⟨r, h1, _⟩ := hsub (k x)
              rw [h] at h1; cases h1
            | some r =>
              cases r with
              | panic => rfl
              | ok m =>
                exfalso
                obtain ⟨x, hx, j, hj, hm⟩ := hp
                obtain ⟨-, h1, h2⟩ := (hmeans m).2 hr
                obtain ⟨⟨j', v⟩, he, rfl⟩ := List.mem_map.1 ((h1 j).2 ⟨x, hx, hj⟩)
                obtain ⟨r, -, hr'⟩ := hsub j'
                have e1 := (hr' _).1 (h2 j' v he)
                have e2 := (hr' _).1 hm
                rw [← e1] at e2; cases e2
          refine ⟨.panic, hres, fun r' => ?_⟩
          rw [Means]
          constructor
          · rintro (⟨_, h⟩ | ⟨_, ⟨_, h⟩ | ⟨m, rfl, h⟩⟩)
            · exact h
            · exact h
            · have := (hmeans m).1 h; rw [hres] at this; cases this
          · intro h; exact Or.inr ⟨hok, Or.inl ⟨hp, h⟩⟩
        · obtain ⟨m, hm⟩ := split_total k (fun j => (sub j).red) xs hkk fun x hx => by
            obtain ⟨r, h1, h2⟩ := hsub (k x)
            cases r with
            | ok v => exact ⟨v, h1⟩
            | panic => exact absurd ⟨x, hx, k x, hkk x hx, (h2 _).2 rfl⟩ hp
          refine ⟨.ok m, hm, fun r' => ?_⟩
          rw [Means]
          constructor
          · rintro (⟨h, _⟩ | ⟨_, ⟨h, _⟩ | ⟨m', rfl, h⟩⟩)
            · exact absurd h hk
            · exact absurd h hp
            · have := (hmeans m').1 h; rw [hm] at this; injection this with this; exact this.symm
          · rintro rfl; exact Or.inr ⟨hok, Or.inr ⟨m, rfl, (hmeans m).2 hm⟩⟩

/-- **C83** read the other way: whatever result the list semantics gives is the result of the reducer. -/
theorem C83_program_runs {α ρ : Type} (p : Prog α ρ) (xs : List α) (r : Res ρ) (h : Means p xs r) :
    runRed p.red xs = some r := by
  obtain ⟨r', h1, h2⟩ := C83_program_exact p xs
  rw [h1, (h2 r).1 h]

/-- A program with a chain, a split, a fork and two folds, one of them with a closure that counts its calls. -/
def exProg : Prog Nat (OrdMap Nat (Nat × Nat)) :=
  .behind (.filter .nil fun x => .ok (x != 5)) <|
    .split inferInstance inferInstance (fun x => .ok (x % 2)) fun _ =>
      .fork (.fold 0 () fun c a x => .ok (c, a + x)) (.fold 0 1 fun c a x => .ok (c + 1, a + c * x))

example : runRed exProg.red [1, 2, 5, 3, 4] = some (.ok [(0, (6, 10)), (1, (4, 7))]) := by
  apply C83_program_runs
  refine Or.inr ⟨[1, 2, 3, 4], rfl, ?_⟩
  refine Or.inr ⟨by simp, Or.inr ⟨_, rfl, by decide, ?_, ?_⟩⟩
  · intro j; simp; omega
  · intro j v h
    simp only [List.mem_cons, Prod.mk.injEq, List.not_mem_nil, or_false] at h
    rcases h with ⟨rfl, rfl⟩ | ⟨rfl, rfl⟩
    · exact Or.inl ⟨6, 10, rfl, rfl, rfl⟩
    · exact Or.inl ⟨4, 7, rfl, rfl, rfl⟩

end Verif
