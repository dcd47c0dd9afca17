import Verif.Lemmas.Split
import Verif.Model.Pull

/-! # Lemmas about pull iterators -/

set_option linter.unusedSimpArgs false
set_option linter.unusedSectionVars false

namespace Verif

open Spec

/-- In every state reached by further calls, `next` returns `None`. -/
def Exhausted {α : Type} (it : Pull α) (s : it.σ) : Prop := ∀ n, it.calls n s = some (.ok (List.replicate n none))

theorem exhausted_next {α : Type} {it : Pull α} {s : it.σ} (h : Exhausted it s) :
    ∃ s', it.next s = some (.ok (s', none)) ∧ Exhausted it s' := by
  have h1 := h 1
  simp only [Pull.calls] at h1
  rcases hn : it.next s with _ | _ | _
  · rw [hn] at h1; simp at h1
  · next p =>
    obtain ⟨s', o⟩ := p
    rw [hn] at h1
    simp only [Option.some.injEq, Res.ok.injEq, List.replicate_succ, List.replicate_zero, List.cons.injEq, and_true] at h1
    subst h1
    refine ⟨s', rfl, ?_⟩
    intro n
    have h2 := h (n + 1)
    simp only [Pull.calls, hn] at h2
    rcases hc : it.calls n s' with _ | _ | _
    · rw [hc] at h2; simp at h2
    · rw [hc] at h2
      simp only [Option.some.injEq, Res.ok.injEq, List.replicate_succ, List.cons.injEq, true_and] at h2
      rw [h2]
    · rw [hc] at h2; simp at h2
  · rw [hn] at h1; simp at h1

/-- An invariant of exhausted states. -/
theorem exhausted_of_inv {α : Type} {it : Pull α} (P : it.σ → Prop)
    (h : ∀ s, P s → ∃ s', it.next s = some (.ok (s', none)) ∧ P s') {s : it.σ} (hs : P s) : Exhausted it s := by
  intro n
  induction n generalizing s with
  | zero => rfl
  | succ n ih =>
    obtain ⟨s', h1, h2⟩ := h s hs
    simp only [Pull.calls, h1, ih h2, List.replicate_succ]

/-- Everything the iterator yields: `.ok xs` yields `xs` and then stays exhausted, `.panic` ends in a panic. -/
inductive Streams {α : Type} (it : Pull α) : it.σ → Res (List α) → Prop where
  | done {s} : Exhausted it s → Streams it s (.ok [])
  | item {s s' x r} : it.next s = some (.ok (s', some x)) → Streams it s' r →
      Streams it s (r.bind fun xs => .ok (x :: xs))
  | panic {s} : it.next s = some .panic → Streams it s .panic

theorem Streams.of_next_eq {α : Type} {it : Pull α} {s t : it.σ} {r : Res (List α)} (h : Streams it t r)
    (he : it.next s = it.next t) : Streams it s r := by
  cases h with
  | done h =>
    refine .done ?_
    intro n
    have := h n
    cases n with
    | zero => rfl
    | succ n => simp only [Pull.calls, he] at this ⊢; exact this
  | item h1 h2 => exact .item (he.trans h1) h2
  | panic h1 => exact .panic (he.trans h1)

theorem streams_ok_calls {α : Type} {it : Pull α} {s : it.σ} {r : Res (List α)} (h : Streams it s r) :
    ∀ xs, r = .ok xs → ∀ n, it.calls n s = some (.ok (streamOf xs n)) := by
  induction h with
  | done h =>
    intro xs hxs n
    simp only [Res.ok.injEq] at hxs
    subst hxs
    rw [h n]
    simp [streamOf]
  | @item s s' x r h1 h2 ih =>
    intro xs hxs n
    cases r with
    | panic => simp [Res.bind] at hxs
    | ok ys =>
      simp only [Res.bind, Res.ok.injEq] at hxs
      subst hxs
      cases n with
      | zero => simp [Pull.calls, streamOf]
      | succ n =>
        simp only [Pull.calls, h1, ih ys rfl n]
        congr 2
        simp only [streamOf, List.map_cons, List.cons_append, List.take_succ_cons, List.cons.injEq, true_and]
        rw [List.take_append, List.take_append]
        congr 1
        rw [List.take_replicate, List.take_replicate]
        congr 1
        omega
  | panic h => simp

theorem streams_of_calls {α : Type} {it : Pull α} {s : it.σ} {xs : List α}
    (h : ∀ n, it.calls n s = some (.ok (streamOf xs n))) : Streams it s (.ok xs) := by
  induction xs generalizing s with
  | nil =>
    refine .done fun n => ?_
    rw [h n]; simp [streamOf]
  | cons x xs ih =>
    have h1 := h 1
    simp only [Pull.calls, streamOf, List.map_cons, List.cons_append, List.take_succ_cons, List.take_zero] at h1
    rcases hn : it.next s with _ | _ | _
    · rw [hn] at h1; simp at h1
    · next p =>
      obtain ⟨s', o⟩ := p
      rw [hn] at h1
      simp only [Option.some.injEq, Res.ok.injEq, List.cons.injEq, and_true] at h1
      subst h1
      have := Streams.item hn (ih (s := s') ?_)
      · exact this
      · intro n
        have h2 := h (n + 1)
        simp only [Pull.calls, hn] at h2
        have hst : streamOf (x :: xs) (n + 1) = some x :: streamOf xs n := by
          simp only [streamOf, List.map_cons, List.cons_append, List.take_succ_cons, List.cons.injEq, true_and]
          rw [List.take_append, List.take_append]
          congr 1
          rw [List.take_replicate, List.take_replicate]
          congr 1
          omega
        rw [hst] at h2
        rcases hc : it.calls n s' with _ | _ | _
        · rw [hc] at h2; simp at h2
        · rw [hc] at h2
          simp only [Option.some.injEq, Res.ok.injEq, List.cons.injEq, true_and] at h2
          rw [h2]
        · rw [hc] at h2; simp at h2
    · rw [hn] at h1; simp at h1

/-! ## The combinators -/

/-- `filter` with a closure that may panic. -/
def filterR {α : Type} (p : α → Res Bool) : List α → Res (List α)
  | [] => .ok []
  | x :: xs =>
    match p x with
    | .panic => .panic
    | .ok true => (filterR p xs).bind fun ys => .ok (x :: ys)
    | .ok false => filterR p xs

/-- `map` with a closure that may panic. -/
def mapR {α β : Type} (f : α → Res β) : List α → Res (List β)
  | [] => .ok []
  | x :: xs =>
    match f x with
    | .panic => .panic
    | .ok b => (mapR f xs).bind fun ys => .ok (b :: ys)

theorem filterR_pure {α : Type} (p : α → Bool) (xs : List α) : filterR (fun x => .ok (p x)) xs = .ok (xs.filter p) := by
  induction xs with
  | nil => rfl
  | cons x xs ih =>
    rw [filterR, ih]
    cases h : p x <;> simp [h, Res.bind]

theorem mapR_pure {α β : Type} (f : α → β) (xs : List α) : mapR (fun x => .ok (f x)) xs = .ok (xs.map f) := by
  induction xs with
  | nil => rfl
  | cons x xs ih => simp [mapR, ih, Res.bind]

theorem filterR_congr {α : Type} {p q : α → Res Bool} {xs : List α} (h : ∀ x ∈ xs, p x = q x) :
    filterR p xs = filterR q xs := by
  induction xs with
  | nil => rfl
  | cons x xs ih =>
    rw [filterR, filterR, h x List.mem_cons_self, ih fun y hy => h y (List.mem_cons_of_mem _ hy)]

theorem mapR_congr {α β : Type} {f g : α → Res β} {xs : List α} (h : ∀ x ∈ xs, f x = g x) :
    mapR f xs = mapR g xs := by
  induction xs with
  | nil => rfl
  | cons x xs ih =>
    rw [mapR, mapR, h x List.mem_cons_self, ih fun y hy => h y (List.mem_cons_of_mem _ hy)]

theorem filterR_panic {α : Type} {p : α → Res Bool} {xs : List α} :
    filterR p xs = .panic ↔ ∃ x ∈ xs, p x = .panic := by
  induction xs with
  | nil => simp [filterR]
  | cons x xs ih =>
    rw [filterR]
    rcases hp : p x with b | _
    · cases b with
      | true =>
        simp only [List.mem_cons, exists_eq_or_imp, hp, reduceCtorEq, false_or, ← ih]
        cases filterR p xs <;> simp [Res.bind]
      | false => simp only [List.mem_cons, exists_eq_or_imp, hp, reduceCtorEq, false_or, ← ih]
    · simp [hp]

theorem mapR_panic {α β : Type} {f : α → Res β} {xs : List α} :
    mapR f xs = .panic ↔ ∃ x ∈ xs, f x = .panic := by
  induction xs with
  | nil => simp [mapR]
  | cons x xs ih =>
    rw [mapR]
    rcases hp : f x with b | _
    · simp only [List.mem_cons, exists_eq_or_imp, hp, reduceCtorEq, false_or, ← ih]
      cases mapR f xs <;> simp [Res.bind]
    · simp [hp]

section
variable {α β ρ : Type} {it : Pull α}

theorem streams_filter (p : α → Res Bool) {s : it.σ} {r : Res (List α)} (h : Streams it s r) :
    Streams (pullFilter p it) s (r.bind (filterR p)) := by
  induction h with
  | done h =>
    refine .done (exhausted_of_inv (it := pullFilter p it) (Exhausted it) ?_ h)
    intro s hs
    obtain ⟨s', h1, h2⟩ := exhausted_next hs
    exact ⟨s', by show pullFilterNext p it s = _; rw [pullFilterNext, h1], h2⟩
  | @item s s' x r h1 h2 ih =>
    cases hp : p x with
    | panic =>
      have : (r.bind fun xs => Res.ok (x :: xs)).bind (filterR p) = .panic := by
        cases r with
        | panic => rfl
        | ok xs => simp [Res.bind, filterR, hp]
      rw [this]
      apply Streams.panic
      show pullFilterNext p it s = _
      rw [pullFilterNext, h1]; simp only [hp]
    | ok b =>
      cases b with
      | true =>
        have : (r.bind fun xs => Res.ok (x :: xs)).bind (filterR p) =
            (r.bind (filterR p)).bind fun xs => .ok (x :: xs) := by
          cases r with
          | panic => rfl
          | ok xs => simp [Res.bind, filterR, hp]
        rw [this]
        refine Streams.item (it := pullFilter p it) (s' := s') ?_ ih
        show pullFilterNext p it s = _
        rw [pullFilterNext, h1]; simp only [hp]
      | false =>
        have : (r.bind fun xs => Res.ok (x :: xs)).bind (filterR p) = r.bind (filterR p) := by
          cases r with
          | panic => rfl
          | ok xs => simp [Res.bind, filterR, hp]
        rw [this]
        refine Streams.of_next_eq (it := pullFilter p it) ih ?_
        show pullFilterNext p it s = pullFilterNext p it s'
        rw [pullFilterNext, h1]; simp only [hp]
  | @panic s h =>
    apply Streams.panic
    show pullFilterNext p it s = _
    rw [pullFilterNext, h]

theorem streams_map (f : α → Res β) {s : it.σ} {r : Res (List α)} (h : Streams it s r) :
    Streams (pullMap f it) s (r.bind (mapR f)) := by
  have hu : ∀ s, (pullMap f it).next s = match it.next s with
    | none => none
    | some .panic => some .panic
    | some (.ok (s', none)) => some (.ok (s', none))
    | some (.ok (s', some x)) =>
      match f x with
      | .panic => some .panic
      | .ok b => some (.ok (s', some b)) := fun _ => rfl
  induction h with
  | done h =>
    refine .done (exhausted_of_inv (it := pullMap f it) (Exhausted it) ?_ h)
    intro s hs
    obtain ⟨s', h1, h2⟩ := exhausted_next hs
    exact ⟨s', by rw [hu, h1], h2⟩
  | @item s s' x r h1 h2 ih =>
    cases hp : f x with
    | panic =>
      have : (r.bind fun xs => Res.ok (x :: xs)).bind (mapR f) = .panic := by
        cases r with
        | panic => rfl
        | ok xs => simp [Res.bind, mapR, hp]
      rw [this]
      apply Streams.panic
      rw [hu, h1]; simp only [hp]
    | ok b =>
      have : (r.bind fun xs => Res.ok (x :: xs)).bind (mapR f) =
          (r.bind (mapR f)).bind fun xs => .ok (b :: xs) := by
        cases r with
        | panic => rfl
        | ok xs => simp [Res.bind, mapR, hp]
      rw [this]
      refine Streams.item (it := pullMap f it) (s' := s') ?_ ih
      rw [hu, h1]; simp only [hp]
  | @panic s h =>
    apply Streams.panic
    rw [hu, h]

theorem fromAdaptFin_exhausted {a : Stage α β} {sa : a.σ} (h : a.fin sa = some (.ok (sa, .brk))) {s : it.σ}
    (hs : Exhausted it s) : Exhausted (fromAdapt a it) (sa, s) := by
  refine exhausted_of_inv (it := fromAdapt a it) (fun q => q.1 = sa ∧ Exhausted it q.2) ?_ ⟨rfl, hs⟩
  rintro ⟨sa', s⟩ ⟨rfl, hs⟩
  obtain ⟨s', h1, h2⟩ := exhausted_next hs
  refine ⟨(sa', s'), ?_, rfl, h2⟩
  show fromAdaptNext a it sa' s = _
  rw [fromAdaptNext, h1]
  simp only
  rw [fromAdaptFin, h]

/-- After the underlying iterator is exhausted, the pull adapter yields what finalisation emits. -/
theorem streams_fromAdapt_fin {a : Stage α β} {sa : a.σ} {w : Res (List β)} (h : Drains a sa w) {s : it.σ}
    (hs : Exhausted it s) : Streams (fromAdapt a it) (sa, s) w := by
  induction h generalizing s with
  | @brk sa sa' h1 h2 =>
    refine .done ?_
    have : Exhausted (fromAdapt a it) (sa, s) := by
      refine exhausted_of_inv (it := fromAdapt a it) (fun q => (q.1 = sa ∨ q.1 = sa') ∧ Exhausted it q.2) ?_
        ⟨Or.inl rfl, hs⟩
      rintro ⟨t, s⟩ ⟨ht, hs⟩
      obtain ⟨s', h3, h4⟩ := exhausted_next hs
      refine ⟨(sa', s'), ?_, Or.inr rfl, h4⟩
      show fromAdaptNext a it t s = _
      rw [fromAdaptNext, h3]
      simp only
      rcases ht with ht | ht
      · simp only at ht; subst ht; rw [fromAdaptFin, h1]
      · simp only at ht; subst ht; rw [fromAdaptFin, h2]
    exact this
  | @none sa sa' r h1 h2 ih =>
    refine Streams.of_next_eq (it := fromAdapt a it) (ih hs) ?_
    show fromAdaptNext a it sa s = fromAdaptNext a it sa' s
    obtain ⟨s', h3, -⟩ := exhausted_next hs
    rw [fromAdaptNext, h3, fromAdaptNext, h3]
    simp only
    rw [fromAdaptFin, h1]
  | @some sa sa' o r h1 h2 ih =>
    obtain ⟨s', h3, h4⟩ := exhausted_next hs
    refine Streams.item (it := fromAdapt a it) (s' := (sa', s')) ?_ (ih h4)
    show fromAdaptNext a it sa s = _
    rw [fromAdaptNext, h3]
    simp only
    rw [fromAdaptFin, h1]
  | @panic sa h1 =>
    obtain ⟨s', h3, h4⟩ := exhausted_next hs
    apply Streams.panic
    show fromAdaptNext a it sa s = _
    rw [fromAdaptNext, h3]
    simp only
    rw [fromAdaptFin, h1]

theorem streams_fromAdapt_from {a : Stage α β} (ga : Good a) {s : it.σ} {r : Res (List α)} (h : Streams it s r) :
    ∀ sa, (r = .panic → Streams (fromAdapt a it) (sa, s) .panic) ∧
    ∀ xs, r = .ok xs → (feedOut a sa xs = .panic → Streams (fromAdapt a it) (sa, s) .panic) ∧
      ∀ sa' ys, feedOut a sa xs = .ok (sa', ys) → ∀ w, Drains a sa' w →
        Streams (fromAdapt a it) (sa, s) (w.bind fun ws => .ok (ys ++ ws)) := by
  induction h with
  | done h =>
    intro sa
    refine ⟨by simp, fun xs hxs => ?_⟩
    simp only [Res.ok.injEq] at hxs
    subst hxs
    refine ⟨by simp [feedOut], ?_⟩
    intro sa' ys hf w hw
    simp only [feedOut, Res.ok.injEq, Prod.mk.injEq] at hf
    obtain ⟨rfl, rfl⟩ := hf
    have := streams_fromAdapt_fin hw h
    cases w <;> exact this
  | @item s s' x r h1 h2 ih =>
    intro sa
    have hu : (fromAdapt a it).next (sa, s) = match a.adapt sa x with
        | .panic => some .panic
        | .ok (sa', .cont (some r)) => some (.ok ((sa', s'), some r))
        | .ok (sa', .cont none) => (fromAdapt a it).next (sa', s')
        | .ok (sa', .brk) =>
          match fromAdaptFin a sa' with
          | none => none
          | some .panic => some .panic
          | some (.ok (sa'', o)) => some (.ok ((sa'', s'), o)) := by
      show fromAdaptNext a it sa s = _
      rw [fromAdaptNext, h1]
      simp only
      rcases a.adapt sa x with ⟨sa', fl⟩ | _
      · rcases fl with _ | _ | _
        · simp only
          rcases fromAdaptFin a sa' with _ | _ | _ <;> rfl
        · rfl
        · rfl
      · rfl
    cases ha : a.adapt sa x with
    | panic =>
      rw [ha] at hu
      have hp : Streams (fromAdapt a it) (sa, s) .panic := .panic hu
      refine ⟨fun _ => hp, fun xs hxs => ⟨fun _ => hp, ?_⟩⟩
      cases r with
      | panic => simp [Res.bind] at hxs
      | ok os =>
        simp only [Res.bind, Res.ok.injEq] at hxs
        subst hxs
        intro sa' ys hf
        simp [feedOut, ha] at hf
    | ok q =>
      obtain ⟨sa1, fl⟩ := q
      rw [ha] at hu
      obtain ⟨ih1, ih2⟩ := ih sa1
      cases fl with
      | brk => exact absurd ha (ga.nobrk _ _ _)
      | cont o =>
        cases o with
        | none =>
          have back : ∀ {w}, Streams (fromAdapt a it) (sa1, s') w → Streams (fromAdapt a it) (sa, s) w :=
            fun hw => hw.of_next_eq hu
          refine ⟨?_, fun xs hxs => ?_⟩
          · intro hr
            cases r with
            | ok os => simp [Res.bind] at hr
            | panic => exact back (ih1 rfl)
          · cases r with
            | panic => simp [Res.bind] at hxs
            | ok os =>
              simp only [Res.bind, Res.ok.injEq] at hxs
              subst hxs
              simp only [feedOut, ha]
              exact ⟨fun h => back ((ih2 os rfl).1 h), fun sa' ys hf w hw => back ((ih2 os rfl).2 sa' ys hf w hw)⟩
        | some z =>
          have fwd : ∀ {w}, Streams (fromAdapt a it) (sa1, s') w →
              Streams (fromAdapt a it) (sa, s) (w.bind fun ws => .ok (z :: ws)) :=
            fun hw => Streams.item (it := fromAdapt a it) hu hw
          refine ⟨?_, fun xs hxs => ?_⟩
          · intro hr
            cases r with
            | ok os => simp [Res.bind] at hr
            | panic => exact fwd (ih1 rfl)
          · cases r with
            | panic => simp [Res.bind] at hxs
            | ok os =>
              simp only [Res.bind, Res.ok.injEq] at hxs
              subst hxs
              simp only [feedOut, ha]
              cases hfo : feedOut a sa1 os with
              | panic => exact ⟨fun _ => fwd ((ih2 os rfl).1 hfo), by simp [Res.bind]⟩
              | ok p =>
                refine ⟨by simp [Res.bind], ?_⟩
                intro sa' ys hf w hw
                simp only [Res.bind, Res.ok.injEq, Prod.mk.injEq] at hf
                obtain ⟨rfl, rfl⟩ := hf
                have := fwd ((ih2 os rfl).2 p.1 p.2 hfo w hw)
                cases w <;> exact this
  | @panic s h =>
    intro sa
    refine ⟨fun _ => .panic ?_, by simp⟩
    show fromAdaptNext a it sa s = _
    rw [fromAdaptNext, h]

/-- The pull adapter yields the outputs of the stage. -/
theorem streams_fromAdapt {a : Stage α β} (ga : Good a) {s : it.σ} {xs : List α} (h : Streams it s (.ok xs))
    {q : Res (List β)} (hq : Outs a xs q) : Streams (fromAdapt a it) (a.init, s) q := by
  obtain ⟨-, h2⟩ := streams_fromAdapt_from ga h a.init
  rcases hq with ⟨h3, rfl⟩ | ⟨s', ys, w, h3, h4, rfl⟩
  · exact (h2 xs rfl).1 h3
  · exact (h2 xs rfl).2 s' ys h3 w h4

theorem streams_fromAdapt_panic {a : Stage α β} (ga : Good a) {s : it.σ} (h : Streams it s .panic) :
    Streams (fromAdapt a it) (a.init, s) .panic :=
  (streams_fromAdapt_from ga h a.init).1 rfl

theorem pullReduceFrom_eq (r : Red α ρ) {s : it.σ} {q : Res (List α)} (h : Streams it s q) (sr : r.σ) :
    pullReduceFrom r it sr s = q.andThen fun xs => (feed r sr xs).andThen r.fin := by
  induction h generalizing sr with
  | done h =>
    obtain ⟨s', h1, -⟩ := exhausted_next h
    rw [pullReduceFrom, h1]
    rfl
  | @item s s' x q h1 h2 ih =>
    rw [pullReduceFrom, h1]
    simp only
    cases hn : r.next sr x with
    | panic =>
      cases q with
      | panic => rfl
      | ok xs => simp [Res.bind, Res.andThen, feed, hn]
    | ok sr' =>
      simp only
      rw [ih]
      cases q with
      | panic => rfl
      | ok xs => simp [Res.bind, Res.andThen, feed, hn]
  | panic h => rw [pullReduceFrom, h]; rfl

/-- A consumer computes the reducer on everything the iterator yields. -/
theorem pullReduce_eq (r : Red α ρ) {s : it.σ} {q : Res (List α)} (h : Streams it s q) :
    pullReduce r it s = q.andThen (runRed r) := by
  rw [pullReduce, pullReduceFrom_eq r h]
  cases q with
  | panic => rfl
  | ok xs => simp only [Res.andThen, runRed_eq]

end

end Verif
