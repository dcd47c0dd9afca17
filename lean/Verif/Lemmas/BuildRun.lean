import Verif.Lemmas.BuildIter
import Verif.Lemmas.Alike
import Verif.Props.Hello

/-! # The statistics functions in any build -/

set_option linter.unusedSimpArgs false
set_option linter.unusedSectionVars false

namespace Verif

open Spec

/-! ## The two builds -/

theorem exact_debug : Exact .debug where
  add a b h := by show uadd a b = _; exact uadd_ok (by unfold usizeMax; omega)
  mul a b h := by show umul a b = _; exact umul_ok (by unfold usizeMax; omega)
  sub a b h := by
    refine ⟨a - b, ?_, UInt32.toNat_sub_of_le _ _ (UInt32.le_iff_toNat_le.2 h)⟩
    show subU32 a b = _
    unfold subU32
    rw [if_pos (UInt32.le_iff_toNat_le.2 h)]

theorem exact_release : Exact .release where
  add a b h := by show Res.ok ((a + b) % 2 ^ 64) = _; rw [Nat.mod_eq_of_lt h]
  mul a b h := by show Res.ok ((a * b) % 2 ^ 64) = _; rw [Nat.mod_eq_of_lt h]
  sub a b h := ⟨a - b, rfl, UInt32.toNat_sub_of_le _ _ (UInt32.le_iff_toNat_le.2 h)⟩

theorem Spec.ExactTo.sub_eq {M : Nat} {A : Arith} (hA : ExactTo M A) {a b : UInt32} (h : b ≤ a) : A.sub32 a b = subU32 a b := by
  have h' := UInt32.le_iff_toNat_le.1 h
  obtain ⟨c, h1, h2⟩ := hA.sub a b h'
  rw [h1]
  unfold subU32
  rw [if_pos h]
  congr 1
  apply UInt32.toNat_inj.1
  rw [h2, UInt32.toNat_sub_of_le _ _ h]

theorem Spec.ExactTo.of_uadd {M : Nat} {A : Arith} (hA : ExactTo M A) {a b c : Nat} (h : uadd a b = .ok c) (hc : c ≤ M) :
    A.add a b = .ok c := by
  obtain ⟨rfl, h2⟩ := uadd_le h
  exact hA.add_le hc

theorem umul_val {a b c : Nat} (h : umul a b = .ok c) : c = a * b := by
  unfold umul at h
  split at h
  · cases h; rfl
  · cases h

theorem Spec.ExactTo.of_umul {M : Nat} {A : Arith} (hA : ExactTo M A) {a b c : Nat} (h : umul a b = .ok c) (hc : c ≤ M) :
    A.mul a b = .ok c := by
  have := umul_val h
  subst this
  exact hA.mul a b hc

/-! ## Iterators that yield the same -/

section
variable {α β : Type}

/-- Two iterators yield the same items, at most `N` and all with a property, or both panic. -/
def PullSame (N : Nat) (C : α → Prop) (it : Pull α) (s : it.σ) (it' : Pull α) (s' : it'.σ) : Prop :=
  ∃ q, Streams it s q ∧ Streams it' s' q ∧ ∀ xs, q = .ok xs → xs.length ≤ N ∧ ∀ x ∈ xs, C x

theorem filterR_facts {p : α → Res Bool} : ∀ {xs ys : List α}, filterR p xs = .ok ys → ys.length ≤ xs.length ∧
    ∀ y ∈ ys, y ∈ xs ∧ p y = .ok true
  | [], ys, h => by cases h; simp
  | x :: xs, ys, h => by
    rw [filterR] at h
    rcases hp : p x with b | _
    · cases b with
      | true =>
        rw [hp] at h
        simp only at h
        cases hr : filterR p xs with
        | panic => rw [hr] at h; cases h
        | ok zs =>
          rw [hr] at h
          cases h
          have ih := filterR_facts hr
          refine ⟨by simp only [List.length_cons]; omega, fun y hy => ?_⟩
          rcases List.mem_cons.1 hy with rfl | hy
          · exact ⟨List.mem_cons_self .., hp⟩
          · exact ⟨List.mem_cons_of_mem _ (ih.2 y hy).1, (ih.2 y hy).2⟩
      | false =>
        rw [hp] at h
        simp only at h
        have ih := filterR_facts h
        refine ⟨by simp only [List.length_cons]; omega, fun y hy => ?_⟩
        exact ⟨List.mem_cons_of_mem _ (ih.2 y hy).1, (ih.2 y hy).2⟩
    · rw [hp] at h; cases h

theorem mapR_facts {f : α → Res β} : ∀ {xs : List α} {ys : List β}, mapR f xs = .ok ys → ys.length = xs.length
  | [], ys, h => by cases h; rfl
  | x :: xs, ys, h => by
    rw [mapR] at h
    rcases hp : f x with b | _
    · rw [hp] at h
      simp only at h
      cases hr : mapR f xs with
      | panic => rw [hr] at h; cases h
      | ok zs => rw [hr] at h; cases h; simp only [List.length_cons, mapR_facts hr]
    · rw [hp] at h; cases h

mutual
theorem aloneV_facts {f : α → α → Res Bool} {P : α → α → Prop} (hf : ∀ a b, f a b = .ok true → P a b)
    (ht : ∀ a b c, P a b → P b c → P a c) (a : α) : ∀ (xs : List α) (ys : List (α × α)), aloneV f a xs = .ok ys →
      ys.length ≤ xs.length + 1 ∧ ∀ p ∈ ys, P p.1 p.2
  | [], ys, h => by
    rw [aloneV] at h
    rcases hp : f a a with b | _
    · rw [hp] at h
      cases h
      cases b with
      | true => simpa using hf a a hp
      | false => simp
    · rw [hp] at h; cases h
  | x :: xs, ys, h => by
    rw [aloneV] at h
    rcases hp : f a x with b | _
    · rw [hp] at h
      simp only [Res.bind] at h
      cases b with
      | true =>
        have := runV_facts hf ht a x (hf a x hp) xs ys h
        exact ⟨by simp only [List.length_cons]; omega, this.2⟩
      | false =>
        simp only [Bool.false_eq_true, if_false] at h
        rcases hs : f a a with b | _
        · rw [hs] at h
          simp only at h
          cases b with
          | true =>
            simp only [if_true] at h
            cases hr : aloneV f x xs with
            | panic => rw [hr] at h; cases h
            | ok zs =>
              rw [hr] at h
              cases h
              have ih := aloneV_facts hf ht x xs zs hr
              refine ⟨by simp only [List.length_cons]; omega, fun p hp' => ?_⟩
              rcases List.mem_cons.1 hp' with rfl | hp'
              · exact hf a a hs
              · exact ih.2 p hp'
          | false =>
            simp only [Bool.false_eq_true, if_false] at h
            have ih := aloneV_facts hf ht a xs ys h
            exact ⟨by simp only [List.length_cons]; omega, ih.2⟩
        · rw [hs] at h; cases h
    · rw [hp] at h; cases h

theorem runV_facts {f : α → α → Res Bool} {P : α → α → Prop} (hf : ∀ a b, f a b = .ok true → P a b)
    (ht : ∀ a b c, P a b → P b c → P a c) (a z : α) (haz : P a z) : ∀ (xs : List α) (ys : List (α × α)),
      runV f a z xs = .ok ys → ys.length ≤ xs.length + 1 ∧ ∀ p ∈ ys, P p.1 p.2
  | [], ys, h => by
    rw [runV] at h
    cases h
    simpa using haz
  | x :: xs, ys, h => by
    rw [runV] at h
    rcases hp : f z x with b | _
    · rw [hp] at h
      simp only [Res.bind] at h
      cases b with
      | true =>
        have := runV_facts hf ht a x (ht a z x haz (hf z x hp)) xs ys h
        exact ⟨by simp only [List.length_cons]; omega, this.2⟩
      | false =>
        simp only [Bool.false_eq_true, if_false] at h
        cases hr : aloneV f x xs with
        | panic => rw [hr] at h; cases h
        | ok zs =>
          rw [hr] at h
          cases h
          have ih := aloneV_facts hf ht x xs zs hr
          refine ⟨by simp only [List.length_cons]; omega, fun p hp' => ?_⟩
          rcases List.mem_cons.1 hp' with rfl | hp'
          · exact haz
          · exact ih.2 p hp'
    · rw [hp] at h; cases h
end

theorem groupV_facts {f : α → α → Res Bool} {P : α → α → Prop} (hf : ∀ a b, f a b = .ok true → P a b)
    (ht : ∀ a b c, P a b → P b c → P a c) {xs : List α} {ys : List (α × α)} (h : groupV f xs = .ok ys) :
    ys.length ≤ xs.length ∧ ∀ p ∈ ys, P p.1 p.2 := by
  cases xs with
  | nil => rw [groupV] at h; cases h; simp
  | cons x xs => rw [groupV] at h; simpa using aloneV_facts hf ht x xs ys h

theorem mergeWithV_facts {κ : Type} {f : α → α → Res (Option α)} {x : α} : ∀ {m : List (κ × α)} {p v : α},
    mergeWithV f x m = .ok (some (p, v)) → f p x = .ok (some v) ∧ ∃ k, (k, p) ∈ m
  | [], _, _, h => by cases h
  | e :: es, p, v, h => by
    rw [mergeWithV] at h
    rcases hp : f e.2 x with o | _
    · rw [hp] at h
      cases o with
      | some w =>
        cases h
        exact ⟨hp, e.1, List.mem_cons_self ..⟩
      | none =>
        obtain ⟨h1, k, h2⟩ := mergeWithV_facts (show mergeWithV f x es = _ from h)
        exact ⟨h1, k, List.mem_cons_of_mem _ h2⟩
    · rw [hp] at h; cases h

theorem mergeV_facts {κ : Type} [Key κ] {f : α → α → Res (Option α)} {key : α → κ} {P : α → Prop}
    (hf : ∀ a b c, P a → P b → f a b = .ok (some c) → P c) : ∀ {xs : List α} {m m' : OrdMap κ α}, mergeV f key m xs = .ok m' →
      (∀ e ∈ m, P e.2) → (∀ x ∈ xs, P x) → m'.length ≤ m.length + xs.length ∧ ∀ e ∈ m', P e.2
  | [], m, m', h, hm, _ => by cases h; exact ⟨by simp, hm⟩
  | x :: xs, m, m', h, hm, hx => by
    rw [mergeV] at h
    rcases hp : mergeWithV f x m with o | _
    · rw [hp] at h
      cases o with
      | some pv =>
        obtain ⟨p, v⟩ := pv
        obtain ⟨h1, k, h2⟩ := mergeWithV_facts hp
        have hv : P v := hf p x v (hm _ h2) (hx _ (List.mem_cons_self ..)) h1
        have ih := mergeV_facts hf (show mergeV f key ((m.remove (key p)).insert (key v) v) xs = .ok m' from h)
          (fun e he => by
            rcases OrdMap.mem_insert_sub he with rfl | he
            · exact hv
            · exact hm e (OrdMap.mem_remove_sub he)) fun y hy => hx y (List.mem_cons_of_mem _ hy)
        have h3 := OrdMap.length_insert_le (m.remove (key p)) (key v) v
        have h4 := OrdMap.length_remove_le m (key p)
        exact ⟨by simp only [List.length_cons]; omega, ih.2⟩
      | none =>
        have ih := mergeV_facts hf (show mergeV f key (m.insert (key x) x) xs = .ok m' from h)
          (fun e he => by
            rcases OrdMap.mem_insert_sub he with rfl | he
            · exact hx _ (List.mem_cons_self ..)
            · exact hm e he) fun y hy => hx y (List.mem_cons_of_mem _ hy)
        have h3 := OrdMap.length_insert_le m (key x) x
        exact ⟨by simp only [List.length_cons]; omega, ih.2⟩
    · rw [hp] at h; cases h

variable {N : Nat} {C : α → Prop} {it : Pull α} {s : it.σ} {it' : Pull α} {s' : it'.σ}

theorem pullFilter_same (h : PullSame N C it s it' s') {p p' : α → Res Bool} (hp : ∀ x, C x → p x = p' x)
    {C' : α → Prop} (hC : ∀ x, C x → p x = .ok true → C' x) :
    PullSame N C' (pullFilter p it) s (pullFilter p' it') s' := by
  obtain ⟨q, h1, h2, h3⟩ := h
  refine ⟨_, streams_filter p h1, ?_, ?_⟩
  · have := streams_filter p' h2
    cases q with
    | panic => exact this
    | ok xs =>
      show Streams _ _ (filterR p xs)
      rw [filterR_congr fun x hx => hp x ((h3 xs rfl).2 x hx)]
      exact this
  · intro ys hy
    cases q with
    | panic => cases hy
    | ok xs =>
      have h4 := h3 xs rfl
      have h5 := filterR_facts (show filterR p xs = .ok ys from hy)
      exact ⟨by omega, fun y hy => hC y (h4.2 y (h5.2 y hy).1) (h5.2 y hy).2⟩

theorem pullMap_same (h : PullSame N C it s it' s') {f f' : α → Res β} (hp : ∀ x, C x → f x = f' x) :
    PullSame N (fun _ => True) (pullMap f it) s (pullMap f' it') s' := by
  obtain ⟨q, h1, h2, h3⟩ := h
  refine ⟨_, streams_map f h1, ?_, ?_⟩
  · have := streams_map f' h2
    cases q with
    | panic => exact this
    | ok xs =>
      show Streams _ _ (mapR f xs)
      rw [mapR_congr fun x hx => hp x ((h3 xs rfl).2 x hx)]
      exact this
  · intro ys hy
    cases q with
    | panic => cases hy
    | ok xs =>
      have h4 := h3 xs rfl
      have h5 := mapR_facts (show mapR f xs = .ok ys from hy)
      exact ⟨by omega, fun _ _ => trivial⟩

theorem pullGroupBy_same (h : PullSame N C it s it' s') {f : α → α → Res Bool} {P : α → α → Prop}
    (hf : ∀ a b, f a b = .ok true → P a b) (ht : ∀ a b c, P a b → P b c → P a c) :
    PullSame N (fun p => P p.1 p.2) (pullGroupBy f it) (.empty, s) (pullGroupBy f it') (.empty, s') := by
  obtain ⟨q, h1, h2, h3⟩ := h
  cases q with
  | panic =>
    exact ⟨_, streams_fromAdapt_panic (good_groupby f) h1, streams_fromAdapt_panic (good_groupby f) h2, by simp⟩
  | ok xs =>
    refine ⟨_, streams_fromAdapt (good_groupby f) h1 (outs_groupV f xs),
      streams_fromAdapt (good_groupby f) h2 (outs_groupV f xs), fun ys hy => ?_⟩
    have h4 := h3 xs rfl
    have h5 := groupV_facts hf ht hy
    exact ⟨by omega, h5.2⟩

/-! ## Reducers that return the same -/

/-- Two reducers return the same on up to `N` inputs. -/
def RedSame {ρ : Type} (N : Nat) (r r' : Red α ρ) : Prop :=
  ∀ xs : List α, xs.length ≤ N → ∃ v, runRed r xs = some v ∧ runRed r' xs = some v

theorem pullReduce_same {ρ : Type} (h : PullSame N C it s it' s') {r r' : Red α ρ} (hr : RedSame N r r') :
    ∃ v, pullReduce r it s = some v ∧ pullReduce r' it' s' = some v := by
  obtain ⟨q, h1, h2, h3⟩ := h
  rw [pullReduce_eq r h1, pullReduce_eq r' h2]
  cases q with
  | panic => exact ⟨_, rfl, rfl⟩
  | ok xs => exact hr xs (h3 xs rfl).1

theorem fork_same {ρ τ : Type} {p p' : Red α ρ} {q q' : Red α τ} (hp : RedSame N p p') (hq : RedSame N q q') :
    RedSame N (forkRed p q) (forkRed p' q') := by
  intro xs h
  obtain ⟨a, h1, h2⟩ := hp xs h
  obtain ⟨b, h3, h4⟩ := hq xs h
  exact ⟨_, fork_total h1 h3, fork_total h2 h4⟩

theorem nil_same {ρ : Type} {r r' : Red α ρ} (h : RedSame N r r') :
    RedSame N (reducer r (nilStage α)) (reducer r' (nilStage α)) := by
  intro xs hx
  rw [runRed_nil_reducer, runRed_nil_reducer]
  exact h xs hx

theorem behind_same {ρ : Type} {c c' : Chain α β} {r r' : Red β ρ} (hc : ∀ xs, chainV c xs = chainV c' xs)
    (hl : ∀ xs ys, chainV c xs = .ok ys → ys.length ≤ xs.length) (hr : RedSame N r r') :
    RedSame N (reducer r c.stage) (reducer r' c'.stage) := by
  intro xs h
  rw [runRed_reducer (r := r) (outs_chainV c xs), runRed_reducer (r := r') (outs_chainV c' xs), ← hc]
  cases hq : chainV c xs with
  | panic => exact ⟨_, rfl, rfl⟩
  | ok ys => exact hr ys (by have := hl xs ys hq; omega)

theorem split_same {κ ρ : Type} [Key κ] [DecidableEq κ] {key : α → Res κ} {sub sub' : κ → Red α ρ}
    (hs : ∀ k, RedSame N (sub k) (sub' k)) : RedSame N (splitRed key sub) (splitRed key sub') := by
  intro xs hl
  by_cases hp : ∃ x ∈ xs, key x = .panic
  · exact ⟨.panic, split_key_panic xs hp, split_key_panic xs hp⟩
  · have hok : ∀ x ∈ xs, key x ≠ .panic := fun x hx h => hp ⟨x, hx, h⟩
    cases xs with
    | nil => exact ⟨_, rfl, rfl⟩
    | cons x0 ys =>
      obtain ⟨d, hd⟩ : ∃ d, key x0 = .ok d := by
        cases h : key x0 with
        | panic => exact absurd h (hok x0 List.mem_cons_self)
        | ok d => exact ⟨d, rfl⟩
      generalize hxs : x0 :: ys = xs at hok hl
      let k : α → κ := fun x => match key x with
        | .ok j => j
        | .panic => d
      have h1 : ∀ x ∈ xs, key x = .ok (k x) := by
        intro x hx
        cases h : key x with
        | panic => exact absurd h (hok x hx)
        | ok j => simp only [k, h]
      have hsub : ∀ j, ∃ v, runRed (sub j) (xs.filter fun y => decide (k y = j)) = some v ∧
          runRed (sub' j) (xs.filter fun y => decide (k y = j)) = some v := fun j =>
        hs j _ (Nat.le_trans (List.length_filter_le _ _) hl)
      have hiff : ∀ m, runRed (splitRed key sub) xs = some (.ok m) ↔ runRed (splitRed key sub') xs = some (.ok m) := by
        intro m
        rw [runRed_split_iff xs h1, runRed_split_iff xs h1]
        refine and_congr Iff.rfl (and_congr Iff.rfl (forall_congr' fun j => forall_congr' fun v => imp_congr Iff.rfl ?_))
        obtain ⟨w, h2, h3⟩ := hsub j
        rw [h2, h3]
      have hn : runRed (splitRed key sub) xs ≠ none := split_terminates k sub xs h1 fun x _ hx => by
        obtain ⟨w, h2, _⟩ := hsub (k x); rw [h2] at hx; cases hx
      have hn' : runRed (splitRed key sub') xs ≠ none := split_terminates k sub' xs h1 fun x _ hx => by
        obtain ⟨w, _, h2⟩ := hsub (k x); rw [h2] at hx; cases hx
      cases e : runRed (splitRed key sub) xs with
      | none => exact absurd e hn
      | some r =>
        cases r with
        | ok m => exact ⟨_, rfl, (hiff m).1 e⟩
        | panic =>
          refine ⟨_, rfl, ?_⟩
          cases e' : runRed (splitRed key sub') xs with
          | none => exact absurd e' hn'
          | some r' =>
            cases r' with
            | panic => rfl
            | ok m => have := (hiff m).2 e'; rw [e] at this; cases this

end

section
variable {M : Nat} {A : Arith} (hA : ExactTo M A)
include hA

theorem runRed_countA {α : Type} (xs : List α) (h : xs.length ≤ M) :
    runRed (countRedA A α) xs = some (.ok xs.length) := by
  have key : ∀ (n : Nat), n + xs.length ≤ M → feed (countRedA A α) n xs = .ok (n + xs.length) := by
    clear h
    induction xs with
    | nil => intro n _; rfl
    | cons x xs ih =>
      intro n hn
      rw [feed_cons]
      show (A.add n 1).bind _ = _
      rw [List.length_cons] at hn ⊢
      rw [hA.add_le (a := n) (b := 1) (by omega)]
      show feed (countRedA A α) (n + 1) xs = _
      rw [ih (n + 1) (by omega)]
      exact congrArg Res.ok (show n + 1 + xs.length = n + (xs.length + 1) by omega)
  rw [runRed_eq]
  have := key 0 (by omega)
  rw [Nat.zero_add] at this
  show (feed (countRedA A α) (0 : Nat) xs).andThen _ = _
  rw [this]
  rfl

theorem count_same_build {α : Type} {N : Nat} (hM : M ≤ usizeMax) (hN : N ≤ M) : RedSame N (countRed α) (countRedA A α) := by
  intro xs h
  refine ⟨_, ?_, runRed_countA hA xs (by omega)⟩
  rw [runRed_count, if_pos (by omega)]

theorem genCount_same {α : Type} {N : Nat} (hM : M ≤ usizeMax) (hN : N ≤ M) : RedSame N (genCount α) (genCountA A α) :=
  nil_same (count_same_build hA hM hN)

theorem pullCount_same {α : Type} {N : Nat} {C : α → Prop} {it it' : Pull α} {s : it.σ} {s' : it'.σ} (hM : M ≤ usizeMax) (hN : N ≤ M)
    (h : PullSame N C it s it' s') :
    ∃ v, pullCount it s = some v ∧ pullCountA A it' s' = some v ∧ ∀ n, v = .ok n → n ≤ N := by
  obtain ⟨q, h1, h2, h3⟩ := h
  unfold pullCount pullCountA
  rw [pullReduce_eq _ h1, pullReduce_eq _ h2]
  cases q with
  | panic => exact ⟨_, rfl, rfl, by simp⟩
  | ok xs =>
    have h4 := (h3 xs rfl).1
    refine ⟨.ok xs.length, ?_, runRed_countA hA xs (by omega), by rintro n hn; cases hn; omega⟩
    show runRed (countRed α) xs = _
    rw [runRed_count, if_pos (by omega)]

/-! ## The iterators of `ripdlt` -/

theorem dltPullA_next {bytes : Bytes} (hR : Room M bytes) {off : Nat} (hoff : off + 4 ≤ M) :
    (dltPullA A bytes).next off = (dltPull bytes).next off := by
  rw [dltPull_next]
  show (match readFallbackNextA A dltStorage bytes off with
    | none => none
    | some Res.panic => some Res.panic
    | some (.ok (none, off')) => some (Res.ok (off', none))
    | some (.ok (some (_, v), off')) => some (Res.ok (off', some v))) = _
  rw [readFallbackNextA_eq hA dlt_lawful.toReads hR off hoff]
  unfold dltitNext noOffsetNext dltitOffsetNext
  cases readFallbackNext dltStorage bytes off with
  | panic => rfl
  | ok p =>
    obtain ⟨o, off'⟩ := p
    cases o with
    | none => rfl
    | some x => rfl

omit hA in
/-- At the end the position is not behind the end of the file. -/
theorem readFallbackNext_stays {T : Type} {S : SearchableMarker T} {bytes : Bytes} (hF : Fits bytes) {off off' : Nat}
    (hm : S.marker.length < 2 ^ 62) (hoff : off ≤ bytes.length) (h : readFallbackNext S bytes off = .ok (none, off')) :
    off' ≤ bytes.length := by
  have hF' := fits_le hF
  generalize hk : bytes.length - off = k
  induction k using Nat.strongRecOn generalizing off with
  | ind k ih =>
    rw [readFallbackNext_unfold (by unfold usizeMax; omega)] at h
    by_cases hge : off + S.marker.length ≥ bytes.length
    · rw [if_pos hge] at h; cases h; exact hoff
    · rw [if_neg hge] at h
      by_cases hmk : (bytes.drop off).take S.marker.length = S.marker
      · rw [if_pos hmk] at h
        split at h
        · cases h
        · split at h <;> cases h
        · cases h; exact hoff
      · rw [if_neg hmk] at h
        cases hf : find S.marker (bytes.drop off) with
        | none => rw [hf] at h; cases h; exact hoff
        | some p =>
          rw [hf] at h
          dsimp only at h
          by_cases hp : p = 0
          · rw [if_pos hp] at h; cases h; exact hoff
          · rw [if_neg hp] at h
            obtain ⟨h1, h2, -⟩ := find_some hf
            have h3 := h2.length_le
            rw [List.length_drop, List.length_drop] at h3
            have := S.marker_pos
            rw [uadd_ok (by unfold usizeMax; omega)] at h
            exact ih (bytes.length - (off + p)) (by omega) (by omega) h rfl

theorem streams_dltA_from {bytes : Bytes} (hR : Room M bytes) (off : Nat) (hoff : off ≤ bytes.length) :
    ∃ items, Streams (dltPullA A bytes) off (.ok (items.map (·.2))) ∧ Scan dltStorage bytes off items := by
  have hF := hR.fits
  have hR1 := hR.len
  have hR2 := hR.max
  have hR3 := hR.min
  have hF' := fits_le hF
  generalize hk : bytes.length - off = k
  induction k using Nat.strongRecOn generalizing off with
  | ind k ih =>
    have ho : off + 4 ≤ M := by omega
    have hm : dltStorage.marker.length = 4 := rfl
    rcases readFallbackNext_spec dlt_lawful.toReads hF off (by rw [hm]; exact Nat.le_trans ho hR2) with
      ⟨off', h1, h2, h3⟩ | ⟨i, v, h1, h2, h3⟩
    · have ho' : off' + 4 ≤ M := by
        have := readFallbackNext_stays hF (by rw [hm]; omega) hoff h1
        omega
      refine ⟨[], .done ?_, ?_⟩
      · refine exhausted_of_inv (it := dltPullA A bytes) (fun s => s = off ∨ s = off') ?_ (Or.inl rfl)
        rintro s (rfl | rfl)
        · exact ⟨off', by rw [dltPullA_next hA hR ho, dltPull_next, dltitNext_of bytes h1]; rfl, Or.inr rfl⟩
        · exact ⟨s, by rw [dltPullA_next hA hR ho', dltPull_next, dltitNext_of bytes h2]; rfl, Or.inr rfl⟩
      · rcases h3 with h3 | ⟨i, h3, h4⟩
        · exact Scan.done _ h3
        · exact Scan.bad _ i h3 h4
    · have hb := h3.bounds dlt_lawful
      have := h2.1
      obtain ⟨items, hc, hs⟩ := ih (bytes.length - (i + dltStorage.len v)) (by omega) (i + dltStorage.len v) (by omega) rfl
      refine ⟨(i, v) :: items, ?_, Scan.msg _ i v items h2 h3 hs⟩
      have := Streams.item (it := dltPullA A bytes) (s := off) (s' := i + dltStorage.len v) (x := v)
        (by rw [dltPullA_next hA hR ho, dltPull_next, dltitNext_of bytes h1]; rfl) hc
      exact this

theorem dlt_same {bytes : Bytes} (hR : Room M bytes) :
    PullSame bytes.length (fun _ => True) (dltPull bytes) 0 (dltPullA A bytes) 0 := by
  obtain ⟨items, h1, h2⟩ := streams_dltA_from hA hR 0 (Nat.zero_le _)
  have hm : Messages bytes (items.map (·.2)) := ⟨items, h2, rfl⟩
  refine ⟨_, streams_dlt hR.fits hm, h1, fun xs hx => ⟨?_, fun _ _ => trivial⟩⟩
  cases hx
  exact (messages_length hR.fits hm).1

theorem grepPullA_eq {bytes : Bytes} (hR : Room M bytes) (re : Regex) : grepPullA A re bytes = grepPull re bytes := by
  unfold grepPullA grepPull
  congr 1
  funext off
  rw [grepNextA_eq hA dlt_lawful hR re off]
  rfl

theorem streams_grepA {bytes : Bytes} (hR : Room M bytes) (re : Regex) {off : Nat} {q : Res (List (Nat × StorageEntry))}
    (h : Streams (grepPull re bytes) off q) : Streams (grepPullA A re bytes) off q := by
  have h1 : ∀ (it it' : Pull (Nat × StorageEntry)) (e : it' = it) (s : it.σ) (s' : it'.σ) (_ : s ≍ s'), Streams it s q →
      Streams it' s' q := by
    rintro it it' rfl s s' hs h
    cases hs
    exact h
  exact h1 _ _ (grepPullA_eq hA hR re) off off HEq.rfl h

theorem hello_same_build {bytes : Bytes} (hR : Room M bytes) :
    PullSame bytes.length (fun _ => True) (grepPull helloRegex bytes) 0 (grepPullA A helloRegex bytes) 0 := by
  obtain ⟨items, fuel, hc⟩ := C25_grep_terminates_partial helloRegex bytes hR.fits (hello_nonEmpty bytes) 0
  have hinc := (grep_increasing helloRegex bytes hR.fits (hello_nonEmpty bytes) fuel 0 items hc).2
  have hit := grep_items hR.fits hc
  refine ⟨_, streams_grep hR.fits hc, streams_grepA hA hR _ (streams_grep hR.fits hc), fun xs hx => ⟨?_, fun _ _ => trivial⟩⟩
  cases hx
  have : (items.map (·.1)).length ≤ bytes.length := by
    refine pairwise_lt_length (by rw [List.pairwise_map]; exact hinc) fun i hi => ?_
    rw [List.mem_map] at hi
    obtain ⟨x, hx, rfl⟩ := hi
    have := (readableAt_iff_msgAt.2 (hit x hx).1).bounds dlt_lawful
    omega
  rwa [List.length_map] at this

/-! ## Differences of times -/

theorem timeDeltaA_eq {r : StorageEntry × StorageEntry} (h : optGe (stamp r.2) (stamp r.1) = true) :
    timeDelta r = timeDeltaA A r := by
  unfold timeDelta timeDeltaA
  rw [timestamp_stamp, timestamp_stamp]
  cases h2 : stamp r.2 with
  | none => rfl
  | some t1 =>
    cases h1 : stamp r.1 with
    | none => rfl
    | some t0 =>
      rw [h1, h2] at h
      show subU32 t1 t0 = A.sub32 t1 t0
      exact (hA.sub_eq (by simpa [optGe] using h)).symm

theorem longEnoughA_eq {r : StorageEntry × StorageEntry} (h : optGe (stamp r.2) (stamp r.1) = true) :
    longEnough r = longEnoughA A r := by
  unfold longEnough longEnoughA
  rw [timeDeltaA_eq hA h]

omit hA in
theorem timePredicate_true {a b : StorageEntry} (h : timePredicate a b = .ok true) : optGe (stamp b) (stamp a) = true := by
  rw [timePredicate_eq] at h; exact Res.ok.inj h

omit hA in
theorem lifecyclePredicate_true {a b : StorageEntry} (h : lifecyclePredicate a b = .ok true) :
    optGe (stamp b) (stamp a) = true := by
  unfold lifecyclePredicate at h
  rcases he : a.dlt.ecuId with x | _
  · rw [he] at h
    rcases hf : b.dlt.ecuId with y | _
    · rw [hf] at h
      have h' : (if x = y then timePredicate a b else Res.ok false) = .ok true := h
      split at h'
      · exact timePredicate_true h'
      · cases h'
    · rw [hf] at h; cases h
  · rw [he] at h; cases h

omit hA in
theorem secsPredicate_true {a b : StorageEntry} (h : secsPredicate a b = .ok true) : a.secs ≤ b.secs := by
  unfold secsPredicate at h
  simpa using h

/-! ## The statistics functions -/

variable {bytes : Bytes} (hR : Room M bytes)
include hR

omit hA in
theorem Room.le : bytes.length ≤ M := by
  have := hR.len
  omega

theorem timed_same : PullSame bytes.length (fun _ => True)
    (pullFilter (fun e => .ok e.dlt.header.headerType.isWithTimestamp) (dltPull bytes)) 0
    (pullFilter (fun e => .ok e.dlt.header.headerType.isWithTimestamp) (dltPullA A bytes)) 0 :=
  pullFilter_same (dlt_same hA hR) (fun _ _ => rfl) fun _ _ _ => trivial

theorem timeRuns_same : PullSame bytes.length (fun p : StorageEntry × StorageEntry => optGe (stamp p.2) (stamp p.1) = true)
    (pullGroupBy timePredicate (pullFilter (fun e => .ok e.dlt.header.headerType.isWithTimestamp) (dltPull bytes))) (.empty, 0)
    (pullGroupBy timePredicate (pullFilter (fun e => .ok e.dlt.header.headerType.isWithTimestamp) (dltPullA A bytes)))
      (.empty, 0) :=
  pullGroupBy_same (P := fun a b => optGe (stamp b) (stamp a) = true) (timed_same hA hR) (fun _ _ h => timePredicate_true h)
    fun _ _ _ h1 h2 => optGe_trans h1 h2

theorem ripCountA_eq : ∃ v, ripCount bytes = some v ∧ ripCountA A bytes = some v ∧ ∀ n, v = .ok n → n ≤ bytes.length :=
  pullCount_same hA hR.max hR.le (dlt_same hA hR)

theorem countHelloWorldA_eq : ∃ v, countHelloWorld bytes = some v ∧ countHelloWorldA A bytes = some v ∧
    ∀ n, v = .ok n → n ≤ bytes.length :=
  pullCount_same hA hR.max hR.le (pullFilter_same (C' := fun _ => True) (dlt_same hA hR) (fun _ _ => rfl) fun _ _ _ => trivial)

theorem countHelloWorldGrepitA_eq : ∃ v, countHelloWorldGrepit helloRegex bytes = some v ∧
    countHelloWorldGrepitA A helloRegex bytes = some v ∧ ∀ n, v = .ok n → n ≤ bytes.length :=
  pullCount_same hA hR.max hR.le (hello_same_build hA hR)

theorem countHelloWorldRawA_eq : ∃ v, countHelloWorldRaw bytes = some v ∧
    countHelloWorldRawA A bytes = some v ∧ ∀ n, v = .ok n → n ≤ bytes.length := by
  have hl : (findIter helloWorld bytes).length ≤ bytes.length := by
    obtain ⟨-, h1, h2⟩ := C49_raw bytes hR.fits
    refine pairwise_lt_length h1 fun i hi => ?_
    have h3 := ((h2 i).1 hi).length_le
    have h4 : helloWorld.length = 11 := rfl
    rw [List.length_drop] at h3
    omega
  unfold countHelloWorldRaw countHelloWorldRawA
  have := hR.le
  have := hR.max
  rw [runRed_countA hA _ (by omega), runRed_count, if_pos (by omega)]
  exact ⟨_, rfl, rfl, by rintro n hn; cases hn; exact hl⟩

theorem lifecycleIterA_eq : ∃ v, lifecycleIter bytes = some v ∧ lifecycleIterA A bytes = some v ∧
    ∀ n, v = .ok n → n ≤ bytes.length :=
  pullCount_same hA hR.max hR.le (pullFilter_same (C' := fun _ => True) (timeRuns_same hA hR)
    (fun _ h => longEnoughA_eq hA h) fun _ _ _ => trivial)

theorem lifecycleItertoolsA_eq : ∃ v, lifecycleItertools bytes = some v ∧ lifecycleItertoolsA A bytes = some v := by
  have hw : PullSame bytes.length (fun _ => True)
      (tupleWindows (pullFilter (fun e => .ok e.dlt.header.headerType.isWithTimestamp) (dltPull bytes))) (none, 0)
      (tupleWindows (pullFilter (fun e => .ok e.dlt.header.headerType.isWithTimestamp) (dltPullA A bytes))) (none, 0) := by
    obtain ⟨q, h1, h2, h3⟩ := timed_same hA hR
    obtain ⟨msgs, hm⟩ := messages_exists hR.fits
    have h4 := streams_timed hR.fits hm
    have hq : ∃ xs, q = .ok xs := by
      cases q with
      | ok xs => exact ⟨xs, rfl⟩
      | panic =>
        have h5 := pullReduce_eq (collectRed StorageEntry) h1
        rw [pullReduce_eq (collectRed StorageEntry) h4] at h5
        simp [Res.andThen, runRed_collect] at h5
    obtain ⟨xs, rfl⟩ := hq
    refine ⟨_, streams_tupleWindows h1, streams_tupleWindows h2, fun ys hy => ⟨?_, fun _ _ => trivial⟩⟩
    cases hy
    have := (h3 xs rfl).1
    rw [List.length_zip]
    omega
  have h := pullFilter_same (p := fun r : StorageEntry × StorageEntry => timePredicate r.1 r.2) hw (fun _ _ => rfl)
    (C' := fun p => optGe (stamp p.2) (stamp p.1) = true) fun _ _ h => timePredicate_true h
  obtain ⟨v, h1, h2, -⟩ := pullCount_same hA hR.max hR.le (pullFilter_same (C' := fun _ => True) h
    (fun _ h => longEnoughA_eq hA h) fun _ _ _ => trivial)
  exact ⟨v, h1, h2⟩

theorem timestampHistogramA_eq : ∃ v, timestampHistogram bytes = some v ∧ timestampHistogramA A bytes = some v :=
  pullReduce_same (pullMap_same (pullGroupBy_same (P := fun a b => a.secs ≤ b.secs) (dlt_same hA hR)
    (fun _ _ h => secsPredicate_true h) fun _ _ _ h1 h2 => UInt32.le_trans h1 h2) fun _ h => (hA.sub_eq h).symm)
    (split_same fun _ => genCount_same hA hR.max hR.le)

theorem mstpInfoHistogramA_eq : ∃ v, mstpInfoHistogram bytes = some v ∧ mstpInfoHistogramA A bytes = some v :=
  pullReduce_same (pullFilter_same (C' := fun _ => True) (dlt_same hA hR) (fun _ _ => rfl) fun _ _ _ => trivial)
    (split_same fun _ => genCount_same hA hR.max hR.le)

theorem lifecycleHistogramA_eq : ∃ v, lifecycleHistogram bytes = some v ∧ lifecycleHistogramA A bytes = some v :=
  pullReduce_same (pullMap_same (pullGroupBy_same (P := fun a b => optGe (stamp b) (stamp a) = true) (timed_same hA hR)
    (fun _ _ h => lifecyclePredicate_true h) fun _ _ _ h1 h2 => optGe_trans h1 h2) fun _ h => timeDeltaA_eq hA h)
    (split_same fun _ => genCount_same hA hR.max hR.le)

theorem histogramPayloadA_eq : ∃ v, histogramPayload bytes = some v ∧ histogramPayloadA A bytes = some v :=
  pullReduce_same (pullMap_same (dlt_same hA hR) fun _ _ => rfl) (split_same fun _ => genCount_same hA hR.max hR.le)

theorem histogramMessageA_eq : ∃ v, histogramMessage bytes = some v ∧ histogramMessageA A bytes = some v :=
  pullReduce_same (pullMap_same (dlt_same hA hR) fun _ _ => rfl) (split_same fun _ => genCount_same hA hR.max hR.le)

theorem histogramHelloWorldA_eq : ∃ v, histogramHelloWorld helloRegex bytes = some v ∧
    histogramHelloWorldA A helloRegex bytes = some v :=
  pullReduce_same (pullMap_same (hello_same_build hA hR) fun _ _ => rfl) (split_same fun _ => genCount_same hA hR.max hR.le)

/-! ## The commands with a table of ECUs -/

/-- The chain of `lifecycle_splitit` in any build. -/
def lifeChainA (A : Arith) : Chain StorageEntry UInt32 :=
  .map (.groupby .nil timePredicate) fun r => (timeDeltaA A r).bind fun d => .ok (d / 10000)

omit hR in
theorem lifeChainA_eq (xs : List StorageEntry) : chainV lifeChain xs = chainV (lifeChainA A) xs := by
  show (groupV timePredicate xs).bind _ = (groupV timePredicate xs).bind _
  cases h : groupV timePredicate xs with
  | panic => rfl
  | ok ys =>
    have h1 := groupV_facts (P := fun a b => optGe (stamp b) (stamp a) = true) (fun _ _ h => timePredicate_true h)
      (fun _ _ _ h1 h2 => optGe_trans h1 h2) h
    show mapV _ ys = mapV _ ys
    rw [mapV_eq, mapV_eq]
    exact mapR_congr fun r hr => by rw [timeDeltaA_eq hA (h1.2 r hr)]

omit hA hR in
theorem lifeChain_length (xs : List StorageEntry) (ys : List UInt32) (h : chainV lifeChain xs = .ok ys) :
    ys.length ≤ xs.length := by
  have h' : (groupV timePredicate xs).bind (mapV fun r => (timeDelta r).bind fun d => .ok (d / 10000)) = .ok ys := h
  cases hg : groupV timePredicate xs with
  | panic => rw [hg] at h'; cases h'
  | ok zs =>
    rw [hg] at h'
    have h1 := groupV_facts (P := fun _ _ => True) (fun _ _ _ => trivial) (fun _ _ _ _ _ => trivial) hg
    have h2 := mapR_facts ((mapV_eq _ zs).symm.trans h')
    omega

theorem lifecycleSplitA_eq : ∃ v, lifecycleSplit bytes = some v ∧ lifecycleSplitA A bytes = some v :=
  pullReduce_same (timed_same hA hR) (split_same fun _ => nil_same (fork_same
    (behind_same (c := lifeChain) (c' := lifeChainA A) (lifeChainA_eq hA) lifeChain_length
      (split_same fun _ => genCount_same hA hR.max hR.le))
    (genCount_same hA hR.max hR.le)))

/-- The chain of `timestamp_splitit` (ripdlt/src/main.rs:211-217). -/
def spanChainOf (sub : UInt32 → UInt32 → Res UInt32) : Chain StorageEntry UInt32 :=
  .map (.merge inferInstance (.groupby .nil secsPredicate) (fun a b => .ok (mergeOverlapping a b)) spanKey)
    fun r : StorageEntry × StorageEntry => sub r.2.secs r.1.secs

omit hA hR in
theorem mergeOverlapping_order (a b c : StorageEntry × StorageEntry) (ha : a.1.secs ≤ a.2.secs) (hb : b.1.secs ≤ b.2.secs)
    (h : (Res.ok (mergeOverlapping a b) : Res _) = .ok (some c)) : c.1.secs ≤ c.2.secs := by
  have h := Res.ok.inj h
  unfold mergeOverlapping at h
  simp only at h
  rw [UInt32.le_iff_toNat_le] at ha hb
  have key : ∀ x : StorageEntry, x.secs.toNat ≤ a.2.secs.toNat ∨ x.secs.toNat ≤ b.2.secs.toNat →
      x.secs ≤ (if a.2.secs ≥ b.2.secs then a.2 else b.2).secs := by
    intro x hx
    rw [UInt32.le_iff_toNat_le]
    by_cases hge : a.2.secs ≥ b.2.secs
    · rw [if_pos hge]
      have := UInt32.le_iff_toNat_le.1 hge
      omega
    · rw [if_neg hge]
      have : ¬ b.2.secs.toNat ≤ a.2.secs.toNat := fun h => hge (UInt32.le_iff_toNat_le.2 h)
      omega
  split at h
  · cases h
    exact key _ (Or.inl ha)
  · split at h
    · cases h
      exact key _ (Or.inr hb)
    · cases h

omit hA hR in
theorem spanChain_facts (xs : List StorageEntry) (zs : List (StorageEntry × StorageEntry))
    (h : chainV (.merge inferInstance (.groupby .nil secsPredicate) (fun a b => .ok (mergeOverlapping a b)) spanKey) xs = .ok zs) :
    zs.length ≤ xs.length ∧ ∀ r ∈ zs, r.1.secs ≤ r.2.secs := by
  have h' : (groupV secsPredicate xs).bind (fun ys => (mergeV (fun a b => .ok (mergeOverlapping a b)) spanKey [] ys).bind
      fun m => .ok (m.map (·.2))) = .ok zs := h
  cases hg : groupV secsPredicate xs with
  | panic => rw [hg] at h'; cases h'
  | ok ys =>
    rw [hg] at h'
    simp only [Res.bind] at h'
    have h1 := groupV_facts (P := fun a b => a.secs ≤ b.secs) (fun _ _ h => secsPredicate_true h)
      (fun _ _ _ h1 h2 => UInt32.le_trans h1 h2) hg
    cases hm : mergeV (fun a b => .ok (mergeOverlapping a b)) spanKey [] ys with
    | panic => rw [hm] at h'; cases h'
    | ok m =>
      rw [hm] at h'
      cases h'
      have h2 := mergeV_facts (P := fun r : StorageEntry × StorageEntry => r.1.secs ≤ r.2.secs) mergeOverlapping_order hm
        (by simp) h1.2
      rw [List.length_map]
      refine ⟨by have := h2.1; simp only [List.length_nil] at this; omega, fun r hr => ?_⟩
      obtain ⟨e, he, rfl⟩ := List.mem_map.1 hr
      exact h2.2 e he

omit hR in
theorem spanChainA_eq (xs : List StorageEntry) : chainV (spanChainOf subU32) xs = chainV (spanChainOf A.sub32) xs := by
  show (chainV (.merge inferInstance (.groupby .nil secsPredicate) (fun a b => .ok (mergeOverlapping a b)) spanKey) xs).bind _ =
    (chainV (.merge inferInstance (.groupby .nil secsPredicate) (fun a b => .ok (mergeOverlapping a b)) spanKey) xs).bind _
  cases h : chainV (.merge inferInstance (.groupby .nil secsPredicate) (fun a b => .ok (mergeOverlapping a b)) spanKey) xs with
  | panic => rfl
  | ok zs =>
    show mapV _ zs = mapV _ zs
    rw [mapV_eq, mapV_eq]
    exact mapR_congr fun r hr => (hA.sub_eq ((spanChain_facts xs zs h).2 r hr)).symm

omit hA hR in
theorem spanChain_length (xs : List StorageEntry) (ys : List UInt32) (h : chainV (spanChainOf subU32) xs = .ok ys) :
    ys.length ≤ xs.length := by
  have h' : (chainV (.merge inferInstance (.groupby .nil secsPredicate) (fun a b => .ok (mergeOverlapping a b)) spanKey) xs).bind
    (mapV fun r : StorageEntry × StorageEntry => subU32 r.2.secs r.1.secs) = .ok ys := h
  cases hg : chainV (.merge inferInstance (.groupby .nil secsPredicate) (fun a b => .ok (mergeOverlapping a b)) spanKey) xs with
  | panic => rw [hg] at h'; cases h'
  | ok zs =>
    rw [hg] at h'
    have h1 := spanChain_facts xs zs hg
    have h2 := mapR_facts ((mapV_eq _ zs).symm.trans h')
    omega

theorem timestampSplitA_eq : ∃ v, timestampSplit bytes = some v ∧ timestampSplitA A bytes = some v :=
  pullReduce_same (dlt_same hA hR) (split_same fun _ => nil_same (fork_same
    (behind_same (c := spanChainOf subU32) (c' := spanChainOf A.sub32) (spanChainA_eq hA) spanChain_length
      (split_same fun _ => genCount_same hA hR.max hR.le))
    (genCount_same hA hR.max hR.le)))

/-! ## The thread pool -/

omit hA hR in
theorem mergeCounts_grows {κ : Type} [Key κ] [DecidableEq κ] : ∀ {l : List (κ × Nat)} {acc m : OrdMap κ Nat}, mergeCounts acc l = .ok m →
    acc.Sorted → m.Sorted ∧ ∀ k, cnt acc k ≤ cnt m k
  | [], acc, m, h, hs => by cases h; exact ⟨hs, fun _ => Nat.le_refl _⟩
  | (k, v) :: l, acc, m, h, hs => by
    rw [mergeCounts, bump] at h
    cases hu : uadd ((acc.get k).getD 0) v with
    | panic => rw [hu] at h; cases h
    | ok n =>
      rw [hu] at h
      have hn := (uadd_le hu).1
      obtain ⟨h1, h2⟩ := mergeCounts_grows (show mergeCounts (acc.insert k n) l = .ok m from h) (OrdMap.sorted_insert hs k n)
      refine ⟨h1, fun j => Nat.le_trans ?_ (h2 j)⟩
      unfold cnt
      rw [OrdMap.get_insert hs]
      by_cases hj : j = k
      · subst hj
        rw [if_pos rfl, Option.getD_some]
        omega
      · rw [if_neg hj]
        exact Nat.le_refl _

omit hR in
theorem mergeCountsA_of {κ : Type} [Key κ] [DecidableEq κ] : ∀ {l : List (κ × Nat)} {acc m : OrdMap κ Nat}, mergeCounts acc l = .ok m →
    acc.Sorted → (∀ k, cnt m k ≤ M) → mergeCountsA A acc l = .ok m
  | [], acc, m, h, _, _ => h
  | (k, v) :: l, acc, m, h, hs, hM => by
    rw [mergeCounts, bump] at h
    rw [mergeCountsA, bumpA]
    cases hu : uadd ((acc.get k).getD 0) v with
    | panic => rw [hu] at h; cases h
    | ok n =>
      rw [hu] at h
      have h' : mergeCounts (acc.insert k n) l = .ok m := h
      have hs' := OrdMap.sorted_insert hs k n
      have h1 := (mergeCounts_grows h' hs').2 k
      have h2 : cnt (acc.insert k n) k = n := by
        unfold cnt
        rw [OrdMap.get_insert hs, if_pos rfl, Option.getD_some]
      rw [hA.of_uadd hu (by have := hM k; omega)]
      exact mergeCountsA_of h' hs' hM

/-- The tables and their rows are in order. -/
def RowsSorted (m : OrdMap B4 (OrdMap UInt32 Nat × Nat)) : Prop := m.Sorted ∧ ∀ k, ((m.get k).getD ([], 0)).1.Sorted

omit hA hR in
theorem RowsSorted.insert {m : OrdMap B4 (OrdMap UInt32 Nat × Nat)} (h : RowsSorted m) (k : B4) {c : OrdMap UInt32 Nat}
    (hc : c.Sorted) (n : Nat) : RowsSorted (m.insert k (c, n)) := by
  refine ⟨OrdMap.sorted_insert h.1 _ _, fun j => ?_⟩
  rw [OrdMap.get_insert h.1]
  by_cases hj : j = k
  · rw [if_pos hj]; exact hc
  · rw [if_neg hj]; exact h.2 j

omit hA hR in
theorem mergeNested_grows : ∀ {l : List (B4 × (OrdMap UInt32 Nat × Nat))} {acc m : OrdMap B4 (OrdMap UInt32 Nat × Nat)},
    mergeNested acc l = .ok m → RowsSorted acc → ∀ k, ((acc.get k).getD ([], 0)).2 ≤ ((m.get k).getD ([], 0)).2 ∧
      ∀ j, cnt ((acc.get k).getD ([], 0)).1 j ≤ cnt ((m.get k).getD ([], 0)).1 j
  | [], acc, m, h, _ => by cases h; exact fun _ => ⟨Nat.le_refl _, fun _ => Nat.le_refl _⟩
  | (k, v) :: l, acc, m, h, hs => by
    rw [mergeNested] at h
    cases hc : mergeCounts ((acc.get k).getD ([], 0)).1 v.1 with
    | panic => rw [hc] at h; cases h
    | ok c =>
      rw [hc] at h
      simp only [Res.bind] at h
      cases hu : uadd ((acc.get k).getD ([], 0)).2 v.2 with
      | panic => rw [hu] at h; cases h
      | ok n =>
        rw [hu] at h
        have hg := mergeCounts_grows hc (hs.2 k)
        have hn := (uadd_le hu).1
        have ih := mergeNested_grows (show mergeNested (acc.insert k (c, n)) l = .ok m from h) (hs.insert k hg.1 n)
        intro i
        have ihi := ih i
        rw [OrdMap.get_insert hs.1] at ihi
        by_cases hi : i = k
        · subst hi
          rw [if_pos rfl, Option.getD_some] at ihi
          exact ⟨by have := ihi.1; dsimp only at this; omega, fun j => Nat.le_trans (hg.2 j) (ihi.2 j)⟩
        · rw [if_neg hi] at ihi
          exact ihi

omit hR in
theorem mergeNestedA_of : ∀ {l : List (B4 × (OrdMap UInt32 Nat × Nat))} {acc m : OrdMap B4 (OrdMap UInt32 Nat × Nat)},
    mergeNested acc l = .ok m → RowsSorted acc →
      (∀ k, ((m.get k).getD ([], 0)).2 ≤ M ∧ ∀ j, cnt ((m.get k).getD ([], 0)).1 j ≤ M) → mergeNestedA A acc l = .ok m
  | [], acc, m, h, _, _ => h
  | (k, v) :: l, acc, m, h, hs, hM => by
    rw [mergeNested] at h
    rw [mergeNestedA]
    cases hc : mergeCounts ((acc.get k).getD ([], 0)).1 v.1 with
    | panic => rw [hc] at h; cases h
    | ok c =>
      rw [hc] at h
      simp only [Res.bind] at h
      cases hu : uadd ((acc.get k).getD ([], 0)).2 v.2 with
      | panic => rw [hu] at h; cases h
      | ok n =>
        rw [hu] at h
        have hg := mergeCounts_grows hc (hs.2 k)
        have hs' := hs.insert k hg.1 n
        have h' : mergeNested (acc.insert k (c, n)) l = .ok m := h
        have h1 := mergeNested_grows h' hs' k
        rw [OrdMap.get_insert hs.1, if_pos rfl, Option.getD_some] at h1
        dsimp only at h1
        have h2 := hM k
        rw [mergeCountsA_of hA hc (hs.2 k) fun j => Nat.le_trans (h1.2 j) (h2.2 j)]
        simp only [Res.bind]
        rw [hA.of_uadd hu (Nat.le_trans h1.1 h2.1)]
        exact mergeNestedA_of h' hs' hM

omit hA hR in
theorem rowsSorted_table {items : List (B4 × Option UInt32)} {m : OrdMap B4 (OrdMap UInt32 Nat × Nat)} (h : IsEcuTable items m) :
    RowsSorted m ∧ ∀ k, ((m.get k).getD ([], 0)).2 ≤ items.length ∧ ∀ j, cnt ((m.get k).getD ([], 0)).1 j ≤ items.length := by
  have hs : m.Sorted := h.sorted
  have key : ∀ k, ((m.get k).getD ([], 0)).1.Sorted ∧ ((m.get k).getD ([], 0)).2 ≤ items.length ∧
      ∀ j, cnt ((m.get k).getD ([], 0)).1 j ≤ items.length := by
    intro k
    cases hg : m.get k with
    | none => exact ⟨List.Pairwise.nil, Nat.zero_le _, fun _ => Nat.zero_le _⟩
    | some v =>
      obtain ⟨hist, n⟩ := v
      have hm := (OrdMap.get_eq_some hs).1 hg
      obtain ⟨h1, h2, h3⟩ := isHistogram_iff.1 (h.hist k hist n hm)
      rw [Option.getD_some]
      refine ⟨h1, ?_, fun j => ?_⟩
      · dsimp only
        rw [h.count k hist n hm]
        exact List.count_le_length
      · dsimp only
        rw [h3]
        exact Nat.le_trans List.count_le_length (List.length_filterMap_le _ _)
  exact ⟨⟨hs, fun k => (key k).1⟩, fun k => (key k).2⟩

omit hA in
theorem partition_room {num : Nat} {slices : List Bytes} (h : partitionFrom dltStorage bytes num = .ok slices) :
    slices.flatten.length ≤ bytes.length ∧ ∀ s ∈ slices, Room M s := by
  have h1 := (partition_fits hR.fits h).1
  exact ⟨h1, fun s hs => hR.mono (Nat.le_trans (length_le_flatten hs) h1)⟩

/-- Counting commands on several threads. -/
theorem multithreadedA_iff {f fA : Bytes → Option (Res Nat)} (num : Nat)
    (h : ∀ {s : Bytes}, Room M s → ∃ v, f s = some v ∧ fA s = some v ∧ ∀ n, v = .ok n → n ≤ s.length) (r : Res Nat) :
    MultithreadedA A fA bytes num r ↔ Multithreaded f bytes num r := by
  unfold MultithreadedA Multithreaded
  rw [partitionFromA_eq hA dlt_lawful hR num]
  cases hp : partitionFrom dltStorage bytes num with
  | panic => rfl
  | ok slices =>
    obtain ⟨hlen, hfit⟩ := partition_room hR hp
    have hl := hR.le
    have hM := hR.max
    dsimp only
    by_cases hpan : ∃ s ∈ slices, f s = some .panic
    · obtain ⟨s, hs, hs'⟩ := hpan
      have hsA : fA s = some .panic := by
        obtain ⟨v, h1, h2, -⟩ := h (hfit s hs)
        rw [h2, ← h1, hs']
      have hf : ∀ x ∈ slices, f x ≠ none := fun x hx => by obtain ⟨v, h1, -, -⟩ := h (hfit x hx); rw [h1]; simp
      have hfA : ∀ x ∈ slices, fA x ≠ none := fun x hx => by obtain ⟨v, -, h1, -⟩ := h (hfit x hx); rw [h1]; simp
      constructor
      · intro hr
        rw [parReduce_panic hr hs hsA]
        obtain ⟨r', hr'⟩ := parReduce_exists (op := uadd) (e := 0) slices hf
        rw [parReduce_panic hr' hs hs'] at hr'
        exact hr'
      · intro hr
        rw [parReduce_panic hr hs hs']
        obtain ⟨r', hr'⟩ := parReduce_exists (op := A.add) (e := 0) slices hfA
        rw [parReduce_panic hr' hs hsA] at hr'
        exact hr'
    · let F : Bytes → Nat := fun s => match f s with
        | some (.ok n) => n
        | _ => 0
      have hF1 : ∀ s ∈ slices, f s = some (.ok (F s)) ∧ fA s = some (.ok (F s)) ∧ F s ≤ s.length := by
        intro s hs
        obtain ⟨v, h1, h2, h3⟩ := h (hfit s hs)
        cases v with
        | panic => exact absurd ⟨s, hs, h1⟩ hpan
        | ok n =>
          have : F s = n := by simp only [F, h1]
          rw [this]
          exact ⟨h1, h2, h3 n rfl⟩
      let g : Bytes → List Unit := fun s => List.replicate (F s) ()
      have hN : (slices.map g).flatten.length ≤ M := by
        have := flatten_length_le (g := g) fun s hs => by simp only [g, List.length_replicate]; exact (hF1 s hs).2.2
        omega
      have h1 : ∀ r, ParReduce f uadd 0 slices r → r = .ok (slices.map g).flatten.length := fun r hr => by
        obtain ⟨v, rfl, hv⟩ := parReduce_rep (I := fun (u : List Unit) (m : Nat) => m = u.length) g (N := M) rfl
          (by
            rintro a b u v rfl rfl hl
            rw [List.length_append] at hl
            exact ⟨_, uadd_ok (Nat.le_trans hl hM), by rw [List.length_append]⟩)
          hr (fun s hs => ⟨_, (hF1 s hs).1, by simp [g]⟩) hN
        rw [hv]
      have h2 : ∀ r, ParReduce fA A.add 0 slices r → r = .ok (slices.map g).flatten.length := fun r hr => by
        obtain ⟨v, rfl, hv⟩ := parReduce_rep (I := fun (u : List Unit) (m : Nat) => m = u.length) g (N := M) rfl
          (by
            rintro a b u v rfl rfl hl
            rw [List.length_append] at hl
            exact ⟨_, hA.add_le hl, by rw [List.length_append]⟩)
          hr (fun s hs => ⟨_, (hF1 s hs).2.1, by simp [g]⟩) hN
        rw [hv]
      obtain ⟨r1, hr1⟩ := parReduce_exists (f := f) (op := uadd) (e := 0) slices fun s hs => by rw [(hF1 s hs).1]; simp
      obtain ⟨r2, hr2⟩ := parReduce_exists (f := fA) (op := A.add) (e := 0) slices fun s hs => by rw [(hF1 s hs).2.1]; simp
      rw [h1 r1 hr1] at hr1
      rw [h2 r2 hr2] at hr2
      exact ⟨fun hr => by rw [h2 r hr]; exact hr1, fun hr => by rw [h1 r hr]; exact hr2⟩

theorem parTimestampHistogramA_iff (num : Nat) (r : Res (OrdMap Nat Nat)) :
    ParTimestampHistogramA A bytes num r ↔ ParTimestampHistogram bytes num r := by
  unfold ParTimestampHistogramA ParTimestampHistogram
  rw [partitionFromA_eq hA dlt_lawful hR num]
  cases hp : partitionFrom dltStorage bytes num with
  | panic => rfl
  | ok slices =>
    obtain ⟨hlen, hfit⟩ := partition_room hR hp
    have hl := hR.le
    have hM := hR.max
    have hlen2 : (slices.map runsOfFile).flatten.length ≤ M := by
      have := flatten_length_le (g := runsOfFile) fun s hs => runsOfFile_length (hfit s hs).fits
      omega
    have hA1 : ∀ s ∈ slices, timestampHistogramA A s = timestampHistogram s := fun s hs => by
      obtain ⟨v, h1, h2⟩ := timestampHistogramA_eq hA (hfit s hs)
      rw [h1, h2]
    have hop : ∀ (a b : OrdMap Nat Nat) (u v : List (List StorageEntry)), IsHistogram (u.map secSpanOf) a →
        IsHistogram (v.map secSpanOf) b → (u ++ v).length ≤ M →
        ∃ c, mergeCounts a b = .ok c ∧ IsHistogram ((u ++ v).map secSpanOf) c := by
      intro a b u v ha hb hl
      rw [List.length_append] at hl
      obtain ⟨m, h1, h2⟩ := mergeCounts_hist ha hb (by rw [List.length_map, List.length_map]; omega)
      exact ⟨m, h1, by rw [List.map_append]; exact h2⟩
    have h1 : ∀ r, ParReduce timestampHistogram mergeCounts [] slices r →
        ∃ v, r = .ok v ∧ IsHistogram ((slices.map runsOfFile).flatten.map secSpanOf) v := fun r hr =>
      parReduce_rep (I := fun u m => IsHistogram (u.map secSpanOf) m) runsOfFile (N := M) isHistogram_nil hop
        hr (fun s hs => timestampHistogram_runs (hfit s hs).fits) hlen2
    have h2 : ∀ r, ParReduce (timestampHistogramA A) (mergeCountsA A) [] slices r →
        ∃ v, r = .ok v ∧ IsHistogram ((slices.map runsOfFile).flatten.map secSpanOf) v := fun r hr =>
      parReduce_rep (I := fun u m => IsHistogram (u.map secSpanOf) m) runsOfFile (N := M) isHistogram_nil
        (fun a b u v ha hb hl => by
          obtain ⟨c, h3, h4⟩ := hop a b u v ha hb hl
          exact ⟨c, mergeCountsA_of hA h3 (isHistogram_iff.1 ha).1 fun k => by
            rw [(isHistogram_iff.1 h4).2.2 k]
            exact Nat.le_trans List.count_le_length (by rw [List.length_map]; exact hl), h4⟩)
        hr (fun s hs => by rw [hA1 s hs]; exact timestampHistogram_runs (hfit s hs).fits) hlen2
    obtain ⟨r1, hr1⟩ := parReduce_exists (f := timestampHistogram) (op := mergeCounts) (e := []) slices fun s hs => by
      obtain ⟨m, h1, -⟩ := timestampHistogram_runs (hfit s hs).fits
      rw [h1]; simp
    obtain ⟨r2, hr2⟩ := parReduce_exists (f := timestampHistogramA A) (op := mergeCountsA A) (e := []) slices fun s hs => by
      obtain ⟨m, h1, -⟩ := timestampHistogram_runs (hfit s hs).fits
      rw [hA1 s hs, h1]; simp
    obtain ⟨m1, rfl, hm1⟩ := h1 r1 hr1
    obtain ⟨m2, rfl, hm2⟩ := h2 r2 hr2
    constructor
    · intro hr
      obtain ⟨m, rfl, hm⟩ := h2 r hr
      rw [isHistogram_unique hm hm1]; exact hr1
    · intro hr
      obtain ⟨m, rfl, hm⟩ := h1 r hr
      rw [isHistogram_unique hm hm2]; exact hr2

theorem parTimestampSplitA_iff (num : Nat) (r : Res (OrdMap B4 (OrdMap UInt32 Nat × Nat))) :
    ParTimestampSplitA A bytes num r ↔ ParTimestampSplit bytes num r := by
  unfold ParTimestampSplitA ParTimestampSplit
  rw [partitionFromA_eq hA dlt_lawful hR num]
  cases hp : partitionFrom dltStorage bytes num with
  | panic => rfl
  | ok slices =>
    obtain ⟨hlen, hfit⟩ := partition_room hR hp
    have hl := hR.le
    have hM := hR.max
    let g : Bytes → List (B4 × Option UInt32) := fun s => itemsOf (tableOfFile s)
    have hlen2 : (slices.map g).flatten.length ≤ M := by
      have := flatten_length_le (g := g) fun s hs => (timestampSplit_table (hfit s hs).fits).2.2
      omega
    have hA1 : ∀ s ∈ slices, timestampSplitA A s = timestampSplit s := fun s hs => by
      obtain ⟨v, h1, h2⟩ := timestampSplitA_eq hA (hfit s hs)
      rw [h1, h2]
    have hop : ∀ a b u v, IsEcuTable u a → IsEcuTable v b → (u ++ v).length ≤ M →
        ∃ c, mergeNested a b = .ok c ∧ IsEcuTable (u ++ v) c := fun a b u v ha hb hl =>
      mergeNested_table ha hb (by rw [← List.length_append]; omega)
    have h1 : ∀ r, ParReduce timestampSplit mergeNested [] slices r →
        ∃ v, r = .ok v ∧ IsEcuTable (slices.map g).flatten v := fun r hr =>
      parReduce_rep (I := fun u m => IsEcuTable u m) g (N := M) isEcuTable_nil hop
        hr (fun s hs => ⟨_, (timestampSplit_table (hfit s hs).fits).1, (timestampSplit_table (hfit s hs).fits).2.1⟩) hlen2
    have h2 : ∀ r, ParReduce (timestampSplitA A) (mergeNestedA A) [] slices r →
        ∃ v, r = .ok v ∧ IsEcuTable (slices.map g).flatten v := fun r hr =>
      parReduce_rep (I := fun u m => IsEcuTable u m) g (N := M) isEcuTable_nil
        (fun a b u v ha hb hl => by
          obtain ⟨c, h3, h4⟩ := hop a b u v ha hb hl
          exact ⟨c, mergeNestedA_of hA h3 (rowsSorted_table ha).1 fun k =>
            ⟨Nat.le_trans ((rowsSorted_table h4).2 k).1 hl, fun j => Nat.le_trans (((rowsSorted_table h4).2 k).2 j) hl⟩, h4⟩)
        hr (fun s hs => ⟨_, by rw [hA1 s hs]; exact (timestampSplit_table (hfit s hs).fits).1,
          (timestampSplit_table (hfit s hs).fits).2.1⟩) hlen2
    obtain ⟨r1, hr1⟩ := parReduce_exists (f := timestampSplit) (op := mergeNested) (e := []) slices fun s hs => by
      rw [(timestampSplit_table (hfit s hs).fits).1]; simp
    obtain ⟨r2, hr2⟩ := parReduce_exists (f := timestampSplitA A) (op := mergeNestedA A) (e := []) slices fun s hs => by
      rw [hA1 s hs, (timestampSplit_table (hfit s hs).fits).1]; simp
    obtain ⟨m1, rfl, hm1⟩ := h1 r1 hr1
    obtain ⟨m2, rfl, hm2⟩ := h2 r2 hr2
    constructor
    · intro hr
      obtain ⟨m, rfl, hm⟩ := h2 r hr
      rw [isEcuTable_unique hm hm1]; exact hr1
    · intro hr
      obtain ⟨m, rfl, hm⟩ := h1 r hr
      rw [isEcuTable_unique hm hm2]; exact hr2

end

end Verif
