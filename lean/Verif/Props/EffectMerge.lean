import Verif.Props.Effect
import Verif.Lemmas.Merge

/-! # C101: how often merge calls its closure; logging closures do not change results -/

set_option linter.unusedSimpArgs false

namespace Verif

open Spec

section
variable {α κ : Type} [Key κ]

/-- A closure of two arguments that counts its calls. -/
def counted {β : Type} (f : α → α → β) (a b : α) : Eff Nat β := fun n => (n + 1, .ok (f a b))

/-- The number of entries asked: up to and including the first that can be merged. -/
def asked (f : α → α → Option α) (next : α) : List (κ × α) → Nat
  | [] => 0
  | (_, p) :: rest => 1 + if (f p next).isSome then 0 else asked f next rest

omit [Key κ] in
theorem asked_le (f : α → α → Option α) (next : α) (l : List (κ × α)) : asked f next l ≤ l.length := by
  induction l with
  | nil => exact Nat.le_refl _
  | cons x l ih =>
    obtain ⟨k, p⟩ := x
    rw [asked, List.length_cons]
    split <;> omega

omit [Key κ] in
theorem asked_none (f : α → α → Option α) (next : α) (l : List (κ × α)) (h : ∀ x ∈ l, f x.2 next = none) :
    asked f next l = l.length := by
  induction l with
  | nil => rfl
  | cons x l ih =>
    obtain ⟨k, p⟩ := x
    have := h (k, p) List.mem_cons_self
    simp only at this
    rw [asked, List.length_cons, this, ih (fun y hy => h y (List.mem_cons_of_mem _ hy))]
    simp; omega

omit [Key κ] in
theorem mergeFindE_counted (f : α → α → Option α) (next : α) (l : List (κ × α)) (n : Nat) :
    mergeFindE (counted f) next l n = (n + asked f next l, .ok (mergePick f next l)) := by
  induction l generalizing n with
  | nil => rfl
  | cons x l ih =>
    obtain ⟨k, p⟩ := x
    rw [mergeFindE, bind_ok (w' := n + 1) (a := f p next) rfl, asked, mergePick]
    cases f p next with
    | some v => rfl
    | none =>
      simp only [ih, Option.isSome_none, Bool.false_eq_true, if_false]
      rw [Nat.add_assoc]

/-- Merge with a closure that counts its calls; the values are collected. -/
@[reducible] def countedMerge (f : α → α → Option α) (key : α → κ) : RedE Nat α (List α) :=
  reducerE (foldRedE [] collectE) (adapterE (mergeStageE (counted f) fun x => .ok (key x)) (nilStageE _ _))

/-- The number of calls, input by input. -/
def mergeCalls (f : α → α → Option α) (key : α → κ) : OrdMap κ α → List α → Nat
  | _, [] => 0
  | m, x :: xs => asked f x m + mergeCalls f key (mergeStep f key m x) xs

theorem countedMerge_feed (f : α → α → Option α) (key : α → κ) (xs : List α) (m : OrdMap κ α) (l : List α) (n : Nat) :
    feedE (countedMerge f key) (l, ((m, none), ())) xs n =
      (n + mergeCalls f key m xs, .ok (l, ((xs.foldl (mergeStep f key) m, none), ()))) := by
  induction xs generalizing m n with
  | nil => rfl
  | cons x xs ih =>
    rw [feedE, bind_ok (w' := n + asked f x m) (a := (l, ((mergeStep f key m x, none), ())))]
    · rw [ih, mergeCalls, List.foldl_cons, Nat.add_assoc]
    · simp only [ok_bind, bind_apply, mergeAdaptE, mergeFindE_counted, Eff.ok, mergeStep]
      rcases mergePick f x m with _ | ⟨p, v⟩ <;> rfl

theorem countedMerge_fin (f : α → α → Option α) (key : α → κ) (m : OrdMap κ α) (it : OrdMap κ α) (l : List α) (n : Nat) :
    (countedMerge f key).fin (l, ((m, some it), ())) n = some (n, .ok (l ++ it.map (·.2))) := by
  induction it generalizing l with
  | nil =>
    simp only [countedMerge]
    rw [reducerDrainE]
    simp only
    rw [adapterFinE]
    simp [mergeFin]
  | cons x it ih =>
    obtain ⟨k, v⟩ := x
    have h := ih (l ++ [v])
    simp only [countedMerge] at h ⊢
    rw [reducerDrainE]
    simp only
    rw [adapterFinE]
    simp [mergeFin, collectE, Eff.ok, h]

theorem countedMerge_run (f : α → α → Option α) (key : α → κ) (xs : List α) (n : Nat) :
    runRedE (countedMerge f key) xs n =
      some (n + mergeCalls f key [] xs, .ok ((xs.foldl (mergeStep f key) []).map (·.2))) := by
  unfold runRedE
  have h := countedMerge_feed f key xs [] [] n
  rw [show (countedMerge f key).init = ([], (([], none), ())) from rfl, h]
  generalize xs.foldl (mergeStep f key) [] = m
  generalize n + mergeCalls f key [] xs = n'
  change (countedMerge f key).fin ([], ((m, none), ())) n' = _
  cases m with
  | nil =>
    simp only [countedMerge]
    rw [reducerDrainE]
    simp only
    rw [adapterFinE]
    simp [mergeFin]
  | cons x m =>
    obtain ⟨k, v⟩ := x
    have h := countedMerge_fin f key ((k, v) :: m) m [v] n'
    simp only [countedMerge] at h ⊢
    rw [reducerDrainE]
    simp only
    rw [adapterFinE]
    simp [mergeFin, collectE, Eff.ok, h]

theorem mergeCalls_le (f : α → α → Option α) (key : α → κ) (xs : List α) (m : OrdMap κ α) :
    2 * mergeCalls f key m xs ≤ xs.length * (2 * m.length + xs.length - 1) := by
  induction xs generalizing m with
  | nil => simp [mergeCalls]
  | cons x xs ih =>
    rw [mergeCalls, List.length_cons]
    have h1 := asked_le f x m
    have h2 := ih (mergeStep f key m x)
    have h3 := length_mergeStep_le f key m x
    generalize mergeCalls f key (mergeStep f key m x) xs = c at *
    generalize (mergeStep f key m x).length = q at *
    generalize hn : xs.length = k at *
    have h4 : k * (2 * q + k - 1) ≤ k * (2 * (m.length + 1) + k - 1) := Nat.mul_le_mul_left _ (by omega)
    have h5 : 2 * (m.length + 1) + k - 1 = 2 * m.length + k + 1 := by omega
    have h6 : 2 * m.length + (k + 1) - 1 = 2 * m.length + k := by omega
    rw [h6, Nat.add_mul, Nat.one_mul]
    rw [h5, Nat.mul_succ] at h4
    omega

theorem length_insert_new (m : OrdMap κ α) (k : κ) (v : α) (h : ∀ x ∈ m, x.1 ≠ k) : (m.insert k v).length = m.length + 1 := by
  induction m with
  | nil => rfl
  | cons x m ih =>
    obtain ⟨k', v'⟩ := x
    rw [OrdMap.insert]
    by_cases h1 : Key.lt k k'
    · rw [if_pos h1]; rfl
    · rw [if_neg h1]
      by_cases h2 : Key.lt k' k
      · rw [if_pos h2, List.length_cons, ih (fun y hy => h y (List.mem_cons_of_mem _ hy))]; rfl
      · exact absurd (Key.tri h2 h1) (h (k', v') List.mem_cons_self)

theorem mergeCalls_apart (f : α → α → Option α) (key : α → κ) (xs : List α) (m : OrdMap κ α)
    (hp : xs.Pairwise fun a b => f a b = none ∧ key a ≠ key b)
    (hm : ∀ x ∈ m, ∀ y ∈ xs, f x.2 y = none ∧ x.1 ≠ key y) :
    2 * mergeCalls f key m xs = xs.length * (2 * m.length + xs.length - 1) := by
  induction xs generalizing m with
  | nil => simp [mergeCalls]
  | cons x xs ih =>
    have hn : ∀ y ∈ m, f y.2 x = none := fun y hy => (hm y hy x List.mem_cons_self).1
    have hpick : mergePick f x m = none := by
      cases hq : mergePick f x m with
      | none => rfl
      | some q =>
        obtain ⟨h1, k, h2⟩ := mergePick_some f (p := q.1) (v := q.2) hq
        have := hn _ h2
        rw [h1] at this
        cases this
    have hstep : mergeStep f key m x = m.insert (key x) x := by unfold mergeStep; rw [hpick]
    rw [List.pairwise_cons] at hp
    have h2 := ih (m.insert (key x) x) hp.2 (by
      intro y hy z hz
      rcases OrdMap.mem_insert_sub hy with rfl | hy
      · exact hp.1 z hz
      · exact hm y hy z (List.mem_cons_of_mem _ hz))
    rw [mergeCalls, asked_none f x m hn, hstep, List.length_cons]
    rw [length_insert_new m _ _ (fun y hy => (hm y hy x List.mem_cons_self).2)] at h2
    generalize mergeCalls f key (m.insert (key x) x) xs = c at *
    generalize xs.length = k at *
    have h5 : 2 * (m.length + 1) + k - 1 = 2 * m.length + k + 1 := by omega
    have h6 : 2 * m.length + (k + 1) - 1 = 2 * m.length + k := by omega
    rw [h6, Nat.add_mul, Nat.one_mul]
    rw [h5, Nat.mul_succ] at h2
    omega

end

/-- **C101**: merging `n` values calls the closure at most `n(n-1)/2` times, and the result is the one of the closure
that does not count. -/
theorem C101_merge_calls_bound {α κ : Type} (K : Key κ) (f : α → α → Option α) (key : α → κ) (xs : List α) (n : Nat) :
    ∃ calls ys, runRedE (reducerE (foldRedE [] collectE)
        (ChainE.merge K .nil (counted f) fun x => .ok (key x)).stage) xs n = some (n + calls, .ok ys) ∧
      2 * calls ≤ xs.length * (xs.length - 1) ∧
      runRed (reducer (foldRed [] fun l y => .ok (l ++ [y])) (Chain.merge K .nil (pure2 f) key).stage) xs = some (.ok ys) := by
  have hrun := countedMerge_run f key xs n
  refine ⟨_, _, hrun, ?_, ?_⟩
  · have := mergeCalls_le f key xs []
    simpa using this
  · have hs : SameRed Nat (reducerE (foldRedE [] collectE) (ChainE.merge K .nil (counted f) fun x => .ok (key x)).stage)
        (reducer (foldRed [] fun l y => .ok (l ++ [y])) (Chain.merge K .nil (pure2 f) key).stage) :=
      .chain (.merge .nil (fun _ _ _ => rfl) (fun _ _ => rfl)) (.fold [] fun _ _ _ => rfl)
    have h := C98_effects_do_not_matter hs xs n
    rw [← h]
    change Option.map _ (runRedE (countedMerge f key) xs n) = _
    rw [hrun]
    rfl

/-- **C101**: the bound is reached by values that are apart: none can be merged with a later one, and all have different keys. -/
theorem C101_merge_quadratic {α κ : Type} (K : Key κ) (f : α → α → Option α) (key : α → κ) (xs : List α)
    (hp : xs.Pairwise fun a b => f a b = none ∧ key a ≠ key b) (n : Nat) :
    ∃ calls ys, runRedE (reducerE (foldRedE [] collectE)
        (ChainE.merge K .nil (counted f) fun x => .ok (key x)).stage) xs n = some (n + calls, .ok ys) ∧
      2 * calls = xs.length * (xs.length - 1) := by
  refine ⟨_, _, countedMerge_run f key xs n, ?_⟩
  have := mergeCalls_apart f key xs [] hp (by simp)
  simpa using this

theorem mergeCalls_all {α κ : Type} [Key κ] (f : α → α → Option α) (key : α → κ) (hf : ∀ a b, (f a b).isSome) (xs : List α)
    (v : α) : mergeCalls f key [(key v, v)] xs = xs.length := by
  induction xs generalizing v with
  | nil => rfl
  | cons x xs ih =>
    obtain ⟨u, hu⟩ := Option.isSome_iff_exists.1 (hf v x)
    have hirr := Key.irrefl (key v)
    have hs : mergeStep f key [(key v, v)] x = [(key u, u)] := by
      simp [mergeStep, mergePick, hu, OrdMap.remove, OrdMap.insert, hirr]
    rw [mergeCalls, hs, ih]
    simp [asked, hu]
    omega

/-- **C101**: the comparisons for an input stop at the first value that can be merged: if any two values can be merged, there
is one comparison for every input but the first. -/
theorem C101_merge_linear {α κ : Type} (K : Key κ) (f : α → α → Option α) (key : α → κ) (xs : List α)
    (hf : ∀ a b, (f a b).isSome) (n : Nat) :
    ∃ ys, runRedE (reducerE (foldRedE [] collectE)
        (ChainE.merge K .nil (counted f) fun x => .ok (key x)).stage) xs n = some (n + (xs.length - 1), .ok ys) := by
  have h := countedMerge_run f key xs n
  have hc : mergeCalls f key [] xs = xs.length - 1 := by
    cases xs with
    | nil => rfl
    | cons x xs =>
      rw [mergeCalls, show mergeStep f key [] x = [(key x, x)] from rfl, mergeCalls_all f key hf]
      simp [asked]
  rw [hc] at h
  exact ⟨_, h⟩

/-- The case: a million disjoint intervals are compared half a million million times. -/
example : ∃ calls ys, runRedE (reducerE (foldRedE [] collectE) (ChainE.merge (inferInstanceAs (Key Nat)) .nil
      (counted fun a b : Nat × Nat => if a.2 < b.1 ∨ b.2 < a.1 then none else some (min a.1 b.1, max a.2 b.2))
      fun x => .ok x.1).stage) ((List.range 1000000).map fun i => (2 * i, 2 * i)) 0 = some (0 + calls, .ok ys) ∧
    2 * calls = 1000000 * (1000000 - 1) := by
  have h := C101_merge_quadratic (inferInstanceAs (Key Nat))
    (fun a b : Nat × Nat => if a.2 < b.1 ∨ b.2 < a.1 then none else some (min a.1 b.1, max a.2 b.2)) (·.1)
    ((List.range 1000000).map fun i => (2 * i, 2 * i)) (by
      rw [List.pairwise_map]
      refine List.Pairwise.imp ?_ List.pairwise_lt_range
      intro a b hab
      refine ⟨if_pos (Or.inl (by simp only; omega)), by simp only; omega⟩) 0
  simpa using h

end Verif
