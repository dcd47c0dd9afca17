import Verif.Model.Generator

/-! # Lemmas about generator chains -/

set_option linter.unusedSimpArgs false

namespace Verif

/-- The outputs of `adapt` on a sequence of inputs. -/
def feedOut {α β : Type} (a : Stage α β) : a.σ → List α → Res (a.σ × List β)
  | s, [] => .ok (s, [])
  | s, x :: xs =>
    match a.adapt s x with
    | .panic => .panic
    | .ok (s', .cont (some o)) => (feedOut a s' xs).bind fun p => .ok (p.1, o :: p.2)
    | .ok (s', .cont none) => feedOut a s' xs
    | .ok (s', .brk) => feedOut a s' xs

/-- The outputs of repeated `finalize` calls. -/
inductive Drains {α β : Type} (a : Stage α β) : a.σ → Res (List β) → Prop where
  | brk {s s'} : a.fin s = some (.ok (s', .brk)) → a.fin s' = some (.ok (s', .brk)) → Drains a s (.ok [])
  | none {s s' r} : a.fin s = some (.ok (s', .cont none)) → Drains a s' r → Drains a s r
  | some {s s' o r} : a.fin s = some (.ok (s', .cont (some o))) → Drains a s' r →
      Drains a s (r.bind fun os => .ok (o :: os))
  | panic {s} : a.fin s = some .panic → Drains a s .panic

theorem Drains.of_fin_eq {α β : Type} {a : Stage α β} {s t : a.σ} {w : Res (List β)} (h : Drains a t w)
    (he : a.fin s = a.fin t) : Drains a s w := by
  cases h with
  | brk h3 h4 => exact .brk (he.trans h3) h4
  | none h3 h4 => exact .none (he.trans h3) h4
  | some h3 h4 => exact .some (he.trans h3) h4
  | panic h3 => exact .panic (he.trans h3)

/-- A stage that never breaks off and whose finalisation ends. -/
structure Good {α β : Type} (a : Stage α β) : Prop where
  nobrk : ∀ s x s', a.adapt s x ≠ .ok (s', .brk)
  drains : ∀ s, ∃ r, Drains a s r

theorem good_nil (α : Type) : Good (nilStage α) :=
  ⟨by intro s x s' h; simp [nilStage] at h, fun s => ⟨_, .brk rfl rfl⟩⟩

theorem good_filter {α : Type} (f : α → Res Bool) : Good (filterStage f) :=
  ⟨by
    intro s x s' h
    simp only [filterStage] at h
    split at h <;> simp at h, fun s => ⟨_, .brk rfl rfl⟩⟩

theorem good_map {α β : Type} (f : α → Res β) : Good (mapStage f) :=
  ⟨by
    intro s x s' h
    simp only [mapStage] at h
    split at h <;> simp at h, fun s => ⟨_, .brk rfl rfl⟩⟩

theorem groupBy_drains_empty {α : Type} (f : α → α → Res Bool) : Drains (groupByStage f) .empty (.ok []) :=
  .brk (s' := GroupByState.empty) rfl rfl

theorem good_groupby {α : Type} (f : α → α → Res Bool) : Good (groupByStage f) := by
  constructor
  · intro s x s' h
    simp only [groupByStage, groupByAdapt] at h
    split at h
    · simp at h
    · split at h
      · simp at h
      · simp at h
      · split at h <;> simp at h
    · split at h <;> simp at h
  · intro s
    cases s with
    | empty => exact ⟨_, groupBy_drains_empty f⟩
    | consumed p =>
      cases hf : f p p with
      | panic => exact ⟨_, .panic (by simp [groupByStage, groupByFin, hf])⟩
      | ok b =>
        cases b with
        | true =>
          exact ⟨_, .some (s' := GroupByState.empty) (o := (p, p)) (by simp [groupByStage, groupByFin, hf])
            (groupBy_drains_empty f)⟩
        | false => exact ⟨_, .brk (s' := GroupByState.empty) (by simp [groupByStage, groupByFin, hf]) rfl⟩
    | lazy p q => exact ⟨_, .some (s' := GroupByState.empty) (o := (p, q)) rfl (groupBy_drains_empty f)⟩

theorem merge_drains {α κ : Type} [Key κ] (f : α → α → Res (Option α)) (key : α → κ) (m : OrdMap κ α) :
    ∀ it : List (κ × α), Drains (mergeStage f key) (m, some it) (.ok (it.map (·.2)))
  | [] => .brk (s' := (m, some [])) rfl rfl
  | (k, v) :: rest => by
    have := Drains.some (a := mergeStage f key) (s := (m, some ((k, v) :: rest))) (s' := (m, some rest)) (o := v) rfl
      (merge_drains f key m rest)
    exact this

theorem merge_drains_none {α κ : Type} [Key κ] (f : α → α → Res (Option α)) (key : α → κ) (m : OrdMap κ α) :
    Drains (mergeStage f key) (m, none) (.ok (m.map (·.2))) := by
  cases m with
  | nil => exact .brk (s' := ([], some [])) rfl rfl
  | cons x rest =>
    obtain ⟨k, v⟩ := x
    exact Drains.some (a := mergeStage f key) (s := ((k, v) :: rest, none)) (s' := ((k, v) :: rest, some rest)) (o := v)
      rfl (merge_drains f key _ rest)

theorem good_merge {α κ : Type} [Key κ] (f : α → α → Res (Option α)) (key : α → κ) : Good (mergeStage f key) := by
  constructor
  · intro s x s' h
    simp only [mergeStage, mergeAdapt] at h
    split at h <;> simp at h
  · rintro ⟨m, it⟩
    cases it with
    | none => exact ⟨_, merge_drains_none f key m⟩
    | some it => exact ⟨_, merge_drains f key m it⟩

/-! ## Composition -/

section
variable {α β γ : Type} {i : Stage β γ} {a : Stage α β}

theorem feedOut_append (s : a.σ) (xs ys : List α) :
    feedOut a s (xs ++ ys) =
      (feedOut a s xs).bind fun p => (feedOut a p.1 ys).bind fun q => .ok (q.1, p.2 ++ q.2) := by
  induction xs generalizing s with
  | nil =>
    simp only [List.nil_append, feedOut, Res.bind]
    cases feedOut a s ys <;> rfl
  | cons x xs ih =>
    simp only [List.cons_append, feedOut]
    split
    · rfl
    · next s' o _ =>
      rw [ih]
      cases feedOut a s' xs with
      | panic => rfl
      | ok p =>
        simp only [Res.bind]
        cases feedOut a p.1 ys <;> rfl
    · next s' _ => rw [ih]
    · next s' _ => rw [ih]

theorem feedOut_adapter (ga : Good a) (si : i.σ) (sa : a.σ) (xs : List α) :
    feedOut (adapter i a) (si, sa) xs =
      (feedOut a sa xs).bind fun p => (feedOut i si p.2).bind fun q => .ok ((q.1, p.1), q.2) := by
  induction xs generalizing si sa with
  | nil => rfl
  | cons x xs ih =>
    have hu : (adapter i a).adapt (si, sa) x = match a.adapt sa x with
      | .panic => .panic
      | .ok (sa', .brk) => .ok ((si, sa'), .brk)
      | .ok (sa', .cont none) => .ok ((si, sa'), .cont none)
      | .ok (sa', .cont (some o)) =>
        match i.adapt si o with
        | .panic => .panic
        | .ok (si', r) => .ok ((si', sa'), r) := rfl
    rw [feedOut, hu, feedOut]
    cases ha : a.adapt sa x with
    | panic => rfl
    | ok p =>
      obtain ⟨sa', fl⟩ := p
      cases fl with
      | brk => exact absurd ha (ga.nobrk _ _ _)
      | cont o =>
        cases o with
        | none => exact ih si sa'
        | some o =>
          simp only
          cases hi : i.adapt si o with
          | panic =>
            simp only
            cases feedOut a sa' xs with
            | panic => rfl
            | ok q => simp [Res.bind, feedOut, hi]
          | ok q =>
            obtain ⟨si', r⟩ := q
            simp only
            cases r with
            | brk =>
              simp only [ih]
              cases feedOut a sa' xs with
              | panic => rfl
              | ok q => simp [Res.bind, feedOut, hi]
            | cont r =>
              cases r with
              | none =>
                simp only [ih]
                cases feedOut a sa' xs with
                | panic => rfl
                | ok q => simp [Res.bind, feedOut, hi]
              | some r =>
                simp only [ih]
                cases feedOut a sa' xs with
                | panic => rfl
                | ok q =>
                  simp only [Res.bind, feedOut, hi]
                  cases feedOut i si' q.2 <;> rfl

theorem adapterFin_eq (si : i.σ) (sa : a.σ) : (adapter i a).fin (si, sa) = adapterFin i a si sa := rfl

/-- The finalisation outputs of a composition: the rest of `a` goes through `i`, then `i` is finalised. -/
theorem drains_adapter (gi : Good i) {sa : a.σ} {r : Res (List β)} (h : Drains a sa r) (si : i.σ) :
    (r = .panic → Drains (adapter i a) (si, sa) .panic) ∧
    ∀ ys, r = .ok ys →
      (feedOut i si ys = .panic → Drains (adapter i a) (si, sa) .panic) ∧
      ∀ si' zs, feedOut i si ys = .ok (si', zs) → ∀ w, Drains i si' w →
        Drains (adapter i a) (si, sa) (w.bind fun ws => .ok (zs ++ ws)) := by
  induction h generalizing si with
  | @brk s s' h1 h2 =>
    refine ⟨by simp, ?_⟩
    rintro ys hys
    simp only [Res.ok.injEq] at hys
    subst hys
    refine ⟨by simp [feedOut], ?_⟩
    intro si' zs hz w hw
    simp only [feedOut, Res.ok.injEq, Prod.mk.injEq] at hz
    obtain ⟨rfl, rfl⟩ := hz
    have key : ∀ {si : i.σ} {w}, Drains i si w → ∀ {s : a.σ}, a.fin s = some (.ok (s', .brk)) →
        Drains (adapter i a) (si, s) w := by
      intro si w hw
      induction hw with
      | @brk t t' h3 h4 =>
        intro s hs
        refine .brk (s' := (t', s')) ?_ ?_
        · rw [adapterFin_eq, adapterFin, hs]; simp only; rw [h3]
        · rw [adapterFin_eq, adapterFin, h2]; simp only; rw [h4]
      | @none t t' r h3 h4 ih =>
        intro s hs
        refine .none (s' := (t', s')) ?_ (ih h2)
        rw [adapterFin_eq, adapterFin, hs]; simp only; rw [h3]
      | @some t t' o r h3 h4 ih =>
        intro s hs
        refine .some (s' := (t', s')) (o := o) ?_ (ih h2)
        rw [adapterFin_eq, adapterFin, hs]; simp only; rw [h3]
      | @panic t h3 =>
        intro s hs
        apply Drains.panic
        rw [adapterFin_eq, adapterFin, hs]; simp only; rw [h3]
    have := key hw h1
    cases w <;> exact this
  | @none s s' r h1 h2 ih =>
    obtain ⟨ih1, ih2⟩ := ih si
    have back : ∀ {w}, Drains (adapter i a) (si, s') w → Drains (adapter i a) (si, s) w := by
      intro w hw
      have he : (adapter i a).fin (si, s) = (adapter i a).fin (si, s') := by
        rw [adapterFin_eq, adapterFin, h1]
      exact hw.of_fin_eq he
    exact ⟨fun h => back (ih1 h), fun ys hys => ⟨fun h => back ((ih2 ys hys).1 h),
      fun si' zs hz w hw => back ((ih2 ys hys).2 si' zs hz w hw)⟩⟩
  | @some s s' o r h1 h2 ih =>
    have hfin : (adapter i a).fin (si, s) = match i.adapt si o with
        | .panic => some .panic
        | .ok (si', q) => some (.ok ((si', s'), q)) := by
      rw [adapterFin_eq, adapterFin, h1]
      simp only
      cases i.adapt si o <;> rfl
    cases hi : i.adapt si o with
    | panic =>
      rw [hi] at hfin
      have hp : Drains (adapter i a) (si, s) .panic := .panic hfin
      refine ⟨fun _ => hp, fun ys hys => ⟨fun _ => hp, ?_⟩⟩
      intro si' zs hz
      cases r with
      | panic => simp [Res.bind] at hys
      | ok os =>
        simp only [Res.bind, Res.ok.injEq] at hys
        subst hys
        simp [feedOut, hi] at hz
    | ok q =>
      obtain ⟨si', q⟩ := q
      rw [hi] at hfin
      obtain ⟨ih1, ih2⟩ := ih si'
      cases q with
      | brk => exact absurd hi (gi.nobrk _ _ _)
      | cont q =>
        cases q with
        | none =>
          constructor
          · intro hr
            cases r with
            | ok os => simp [Res.bind] at hr
            | panic => exact .none hfin (ih1 rfl)
          · intro ys hys
            cases r with
            | panic => simp [Res.bind] at hys
            | ok os =>
              simp only [Res.bind, Res.ok.injEq] at hys
              subst hys
              simp only [feedOut, hi]
              exact ⟨fun h => .none hfin ((ih2 os rfl).1 h),
                fun si'' zs hz w hw => .none hfin ((ih2 os rfl).2 si'' zs hz w hw)⟩
        | some z =>
          constructor
          · intro hr
            cases r with
            | ok os => simp [Res.bind] at hr
            | panic => exact .some hfin (ih1 rfl)
          · intro ys hys
            cases r with
            | panic => simp [Res.bind] at hys
            | ok os =>
              simp only [Res.bind, Res.ok.injEq] at hys
              subst hys
              simp only [feedOut, hi]
              constructor
              · intro h
                cases hfo : feedOut i si' os with
                | panic => exact .some hfin ((ih2 os rfl).1 hfo)
                | ok p => rw [hfo] at h; simp [Res.bind] at h
              · intro si'' zs hz w hw
                cases hfo : feedOut i si' os with
                | panic => rw [hfo] at hz; simp [Res.bind] at hz
                | ok p =>
                  rw [hfo] at hz
                  simp only [Res.bind, Res.ok.injEq, Prod.mk.injEq] at hz
                  obtain ⟨rfl, rfl⟩ := hz
                  have := Drains.some (o := z) hfin ((ih2 os rfl).2 p.1 p.2 hfo w hw)
                  cases w <;> exact this
  | @panic s h1 =>
    refine ⟨fun _ => .panic ?_, by simp⟩
    rw [adapterFin_eq, adapterFin, h1]

theorem good_adapter (gi : Good i) (ga : Good a) : Good (adapter i a) := by
  constructor
  · rintro ⟨si, sa⟩ x s' h
    simp only [adapter] at h
    split at h
    · simp at h
    · next h' => exact ga.nobrk _ _ _ h'
    · simp at h
    · split at h
      · simp at h
      · next h' =>
        simp only [Res.ok.injEq, Prod.mk.injEq] at h
        rw [h.2] at h'
        exact gi.nobrk _ _ _ h'
  · rintro ⟨si, sa⟩
    obtain ⟨r, hr⟩ := ga.drains sa
    have hd := drains_adapter gi hr si
    cases r with
    | panic => exact ⟨_, hd.1 rfl⟩
    | ok ys =>
      cases hf : feedOut i si ys with
      | panic => exact ⟨_, (hd.2 ys rfl).1 hf⟩
      | ok p =>
        obtain ⟨w, hw⟩ := gi.drains p.1
        exact ⟨_, (hd.2 ys rfl).2 p.1 p.2 hf w hw⟩

end

theorem good_chain {α β : Type} (c : Chain α β) : Good c.stage := by
  induction c with
  | nil => exact good_nil _
  | filter c f ih => exact good_adapter (good_filter f) ih
  | map c f ih => exact good_adapter (good_map f) ih
  | groupby c f ih => exact good_adapter (good_groupby f) ih
  | merge K c f key ih => exact good_adapter (good_merge f key) ih

/-! ## All outputs of a stage -/

/-- Everything the stage emits on the inputs `xs`, including finalisation. -/
def Outs {α β : Type} (a : Stage α β) (xs : List α) (r : Res (List β)) : Prop :=
  (feedOut a a.init xs = .panic ∧ r = .panic) ∨
  ∃ s ys w, feedOut a a.init xs = .ok (s, ys) ∧ Drains a s w ∧ r = w.bind fun ws => .ok (ys ++ ws)

theorem outs_exists {α β : Type} {a : Stage α β} (ga : Good a) (xs : List α) : ∃ r, Outs a xs r := by
  cases hf : feedOut a a.init xs with
  | panic => exact ⟨.panic, Or.inl ⟨hf, rfl⟩⟩
  | ok p =>
    obtain ⟨w, hw⟩ := ga.drains p.1
    exact ⟨_, Or.inr ⟨p.1, p.2, w, hf, hw, rfl⟩⟩

theorem outs_adapter {α β γ : Type} {i : Stage β γ} {a : Stage α β} (gi : Good i) (ga : Good a) {xs : List α}
    {r : Res (List β)} (h : Outs a xs r) :
    (r = .panic → Outs (adapter i a) xs .panic) ∧
    ∀ ys, r = .ok ys → ∀ q, Outs i ys q → Outs (adapter i a) xs q := by
  have hfo := feedOut_adapter (i := i) ga i.init a.init xs
  rcases h with ⟨h1, rfl⟩ | ⟨s, ys, w, h1, h2, rfl⟩
  · rw [h1] at hfo
    exact ⟨fun _ => Or.inl ⟨hfo, rfl⟩, by simp⟩
  · rw [h1] at hfo
    simp only [Res.bind] at hfo
    cases hi : feedOut i i.init ys with
    | panic =>
      rw [hi] at hfo
      have hp : Outs (adapter i a) xs .panic := Or.inl ⟨hfo, rfl⟩
      refine ⟨fun _ => hp, ?_⟩
      intro zs hzs q hq
      cases w with
      | panic => simp [Res.bind] at hzs
      | ok ws =>
        simp only [Res.bind, Res.ok.injEq] at hzs
        subst hzs
        rcases hq with ⟨_, rfl⟩ | ⟨s', zs, w', h3, _⟩
        · exact hp
        · rw [feedOut_append, hi] at h3; simp [Res.bind] at h3
    | ok p =>
      obtain ⟨si, zs⟩ := p
      rw [hi] at hfo
      simp only at hfo
      have hd := drains_adapter gi h2 si
      cases w with
      | panic =>
        refine ⟨fun _ => Or.inr ⟨(si, s), zs, .panic, hfo, hd.1 rfl, rfl⟩, by simp [Res.bind]⟩
      | ok ws =>
        refine ⟨by simp [Res.bind], ?_⟩
        intro ys' hys q hq
        simp only [Res.bind, Res.ok.injEq] at hys
        subst hys
        rcases hq with ⟨h3, rfl⟩ | ⟨s', zs', w', h3, h4, rfl⟩
        · rw [feedOut_append, hi] at h3
          simp only [Res.bind] at h3
          cases hw : feedOut i si ws with
          | panic => exact Or.inr ⟨(si, s), zs, .panic, hfo, (hd.2 ws rfl).1 hw, rfl⟩
          | ok p => rw [hw] at h3; simp at h3
        · rw [feedOut_append, hi] at h3
          simp only [Res.bind] at h3
          cases hw : feedOut i si ws with
          | panic => rw [hw] at h3; simp at h3
          | ok p =>
            rw [hw] at h3
            simp only [Res.ok.injEq, Prod.mk.injEq] at h3
            obtain ⟨rfl, rfl⟩ := h3
            refine Or.inr ⟨(si, s), zs, _, hfo, (hd.2 ws rfl).2 p.1 p.2 hw w' h4, ?_⟩
            cases w' with
            | panic => rfl
            | ok w' => simp [Res.bind]

/-! ## Reducers -/

section
variable {α β ρ : Type} {r : Red β ρ} {a : Stage α β}

theorem feed_append (s : r.σ) (xs ys : List β) :
    feed r s (xs ++ ys) = (feed r s xs).bind fun s' => feed r s' ys := by
  induction xs generalizing s with
  | nil => rfl
  | cons x xs ih =>
    simp only [List.cons_append, feed]
    split
    · rfl
    · exact ih _

theorem feed_reducer (sr : r.σ) (sa : a.σ) (xs : List α) :
    feed (reducer r a) (sr, sa) xs =
      (feedOut a sa xs).bind fun p => (feed r sr p.2).bind fun s => .ok (s, p.1) := by
  induction xs generalizing sr sa with
  | nil => rfl
  | cons x xs ih =>
    have hu : (reducer r a).next (sr, sa) x = match a.adapt sa x with
      | .panic => .panic
      | .ok (sa', .cont (some o)) =>
        match r.next sr o with
        | .panic => .panic
        | .ok sr' => .ok (sr', sa')
      | .ok (sa', .cont none) => .ok (sr, sa')
      | .ok (sa', .brk) => .ok (sr, sa') := rfl
    rw [feed, hu, feedOut]
    cases ha : a.adapt sa x with
    | panic => rfl
    | ok p =>
      obtain ⟨sa', fl⟩ := p
      cases fl with
      | brk => exact ih sr sa'
      | cont o =>
        cases o with
        | none => exact ih sr sa'
        | some o =>
          simp only
          cases hn : r.next sr o with
          | panic =>
            simp only
            cases feedOut a sa' xs with
            | panic => rfl
            | ok q => simp [Res.bind, feed, hn]
          | ok sr' =>
            simp only [ih]
            cases feedOut a sa' xs with
            | panic => rfl
            | ok q => simp [Res.bind, feed, hn]

theorem reducerDrain_eq {sa : a.σ} {w : Res (List β)} (h : Drains a sa w) (sr : r.σ) :
    reducerDrain r a sr sa = some (w.bind fun ws => feed r sr ws) := by
  induction h generalizing sr with
  | brk h1 h2 => rw [reducerDrain, h1]; rfl
  | none h1 h2 ih => rw [reducerDrain, h1]; exact ih sr
  | @some s s' o r' h1 h2 ih =>
    rw [reducerDrain, h1]
    simp only
    cases hn : r.next sr o with
    | panic =>
      cases r' with
      | panic => rfl
      | ok os => simp [Res.bind, feed, hn]
    | ok sr' =>
      simp only [ih]
      cases r' with
      | panic => rfl
      | ok os => simp [Res.bind, feed, hn]
  | panic h1 => rw [reducerDrain, h1]; rfl

omit r in
theorem runRed_eq (r : Red β ρ) (xs : List β) : runRed r xs = (feed r r.init xs).andThen r.fin := by
  unfold runRed Res.andThen
  cases feed r r.init xs <;> rfl

/-- A reducer behind a chain is the reducer on the outputs of the chain. -/
theorem runRed_reducer {xs : List α} {q : Res (List β)} (h : Outs a xs q) :
    runRed (reducer r a) xs = q.andThen (runRed r) := by
  rw [runRed_eq]
  have hf := feed_reducer (r := r) (a := a) r.init a.init xs
  rcases h with ⟨h1, rfl⟩ | ⟨s, ys, w, h1, h2, rfl⟩
  · rw [h1] at hf
    exact congrArg (fun z => Res.andThen z (reducer r a).fin) hf
  · rw [h1] at hf
    simp only [Res.bind] at hf
    refine (congrArg (fun z => Res.andThen z (reducer r a).fin) hf).trans ?_
    cases hy : feed r r.init ys with
    | panic =>
      cases w with
      | panic => rfl
      | ok ws => simp only [Res.bind, Res.andThen, runRed_eq, feed_append, hy]
    | ok sr =>
      have hd := reducerDrain_eq (r := r) h2 sr
      simp only [Res.andThen]
      rw [hd]
      cases w with
      | panic => rfl
      | ok ws =>
        simp only [Res.bind, runRed_eq, feed_append, hy, Res.andThen]
        cases feed r sr ws <;> rfl

end

theorem runRed_collect {α : Type} (xs : List α) : runRed (collectRed α) xs = some (.ok xs) := by
  have h : ∀ (acc : List α), feed (collectRed α) acc xs = .ok (acc ++ xs) := by
    induction xs with
    | nil => intro acc; simp [feed]
    | cons x xs ih =>
      intro acc
      have : feed (collectRed α) acc (x :: xs) = feed (collectRed α) (acc ++ [x]) xs := rfl
      rw [this, ih]; simp
  have := h []
  unfold runRed
  rw [show (collectRed α).init = [] from rfl, this]
  rfl

theorem runRed_collect_outs {α β : Type} {a : Stage α β} {xs : List α} {q : Res (List β)} (h : Outs a xs q) :
    runRed (reducer (collectRed β) a) xs = some q := by
  rw [runRed_reducer h]
  cases q with
  | panic => rfl
  | ok ys => exact runRed_collect ys

theorem outs_unique {α β : Type} {a : Stage α β} {xs : List α} {q q' : Res (List β)} (h : Outs a xs q)
    (h' : Outs a xs q') : q = q' := by
  have := (runRed_collect_outs h).symm.trans (runRed_collect_outs h')
  simpa using this

theorem outs_nil {α : Type} (xs : List α) : Outs (nilStage α) xs (.ok xs) := by
  have h : ∀ xs : List α, feedOut (nilStage α) () xs = .ok ((), xs) := by
    intro xs
    induction xs with
    | nil => rfl
    | cons x xs ih =>
      have : feedOut (nilStage α) () (x :: xs) = (feedOut (nilStage α) () xs).bind fun p => .ok (p.1, x :: p.2) := rfl
      rw [this, ih]; rfl
  refine Or.inr ⟨(), xs, .ok [], h xs, .brk (s' := ()) rfl rfl, by simp [Res.bind]⟩

end Verif
