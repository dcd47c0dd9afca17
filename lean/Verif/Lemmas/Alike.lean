import Verif.Spec.Alike
import Verif.Props.Program
import Verif.Lemmas.Stats

/-! # Lists that cannot be told apart -/

set_option linter.unusedSimpArgs false

namespace Verif

open Spec

section
variable {α α' β β' : Type} {R : α → α' → Prop} {Q : β → β' → Prop}

theorem Spec.ResRel.elim {a : Res α} {b : Res α'} (h : ResRel R a b) :
    (a = .panic ∧ b = .panic) ∨ ∃ x y, a = .ok x ∧ b = .ok y ∧ R x y := by
  cases a with
  | panic => cases b with
    | panic => exact Or.inl ⟨rfl, rfl⟩
    | ok y => exact absurd h id
  | ok x => cases b with
    | panic => exact absurd h id
    | ok y => exact Or.inr ⟨x, y, rfl, rfl, h⟩

theorem Spec.ResRel.bind {a : Res α} {b : Res α'} {f : α → Res β} {g : α' → Res β'} (h : ResRel R a b)
    (hf : ∀ x y, R x y → ResRel Q (f x) (g y)) : ResRel Q (a.bind f) (b.bind g) := by
  rcases Spec.ResRel.elim h with ⟨rfl, rfl⟩ | ⟨x, y, rfl, rfl, h⟩
  · trivial
  · exact hf x y h

theorem Spec.Pointwise.append {xs ys : List α} {xs' ys' : List α'} (h : Pointwise R xs xs') (h' : Pointwise R ys ys') :
    Pointwise R (xs ++ ys) (xs' ++ ys') := by
  induction h with
  | nil => exact h'
  | cons h1 _ ih => exact .cons h1 ih

theorem Spec.Pointwise.length_eq {xs : List α} {xs' : List α'} (h : Pointwise R xs xs') : xs.length = xs'.length := by
  induction h with
  | nil => rfl
  | cons _ _ ih => rw [List.length_cons, List.length_cons, ih]

theorem Spec.Pointwise.imp {R' : α → α' → Prop} {xs : List α} {xs' : List α'} (h : Pointwise R xs xs')
    (hi : ∀ x x', R x x' → R' x x') : Pointwise R' xs xs' := by
  induction h with
  | nil => exact .nil
  | cons h1 _ ih => exact .cons (hi _ _ h1) ih

theorem Spec.Pointwise.mem_left {xs : List α} {xs' : List α'} (h : Pointwise R xs xs') :
    ∀ x ∈ xs, ∃ x' ∈ xs', R x x' := by
  induction h with
  | nil => intro x hx; cases hx
  | cons h1 _ ih =>
    intro x hx
    rcases List.mem_cons.1 hx with rfl | hx
    · exact ⟨_, List.mem_cons_self, h1⟩
    · obtain ⟨x', h2, h3⟩ := ih x hx; exact ⟨x', List.mem_cons_of_mem _ h2, h3⟩

theorem Spec.Pointwise.mem_right {xs : List α} {xs' : List α'} (h : Pointwise R xs xs') :
    ∀ x' ∈ xs', ∃ x ∈ xs, R x x' := by
  induction h with
  | nil => intro x hx; cases hx
  | cons h1 _ ih =>
    intro x hx
    rcases List.mem_cons.1 hx with rfl | hx
    · exact ⟨_, List.mem_cons_self, h1⟩
    · obtain ⟨x', h2, h3⟩ := ih x hx; exact ⟨x', List.mem_cons_of_mem _ h2, h3⟩

theorem Spec.Pointwise.filter {xs : List α} {xs' : List α'} (h : Pointwise R xs xs') {p : α → Bool} {p' : α' → Bool}
    (hp : ∀ x x', R x x' → p x = p' x') : Pointwise R (xs.filter p) (xs'.filter p') := by
  induction h with
  | nil => exact .nil
  | @cons x y xs ys h1 _ ih =>
    have := hp _ _ h1
    cases hx : p x with
    | true =>
      rw [List.filter_cons_of_pos hx, List.filter_cons_of_pos (this ▸ hx)]
      exact .cons h1 ih
    | false =>
      rw [List.filter_cons_of_neg (by rw [hx]; simp), List.filter_cons_of_neg (by rw [← this, hx]; simp)]
      exact ih

theorem Spec.Pointwise.map {xs : List α} {xs' : List α'} (h : Pointwise R xs xs') {f : α → β} {f' : α' → β'}
    (hf : ∀ x x', R x x' → Q (f x) (f' x')) : Pointwise Q (xs.map f) (xs'.map f') := by
  induction h with
  | nil => exact .nil
  | cons h1 _ ih => exact .cons (hf _ _ h1) ih

theorem Spec.Pointwise.map_eq {γ : Type} {xs : List α} {xs' : List α'} (h : Pointwise R xs xs') {f : α → γ} {f' : α' → γ}
    (hf : ∀ x x', R x x' → f x = f' x') : xs.map f = xs'.map f' := by
  induction h with
  | nil => rfl
  | cons h1 _ ih => rw [List.map_cons, List.map_cons, hf _ _ h1, ih]

theorem pointwise_of_map_eq {γ : Type} {f : α → γ} {f' : α' → γ} {xs : List α} {xs' : List α'}
    (h : xs.map f = xs'.map f') : Pointwise (fun x x' => f x = f' x') xs xs' := by
  induction xs generalizing xs' with
  | nil => cases xs' with
    | nil => exact .nil
    | cons => cases h
  | cons x xs ih => cases xs' with
    | nil => cases h
    | cons x' xs' =>
      rw [List.map_cons, List.map_cons] at h
      injection h with h1 h2
      exact .cons h1 (ih h2)

theorem Spec.Pointwise.pairs {xs : List α} {xs' : List α'} (h : Pointwise R xs xs') :
    Pointwise (PairRel R) (xs.zip xs.tail) (xs'.zip xs'.tail) := by
  induction h with
  | nil => exact .nil
  | cons h1 h2 ih =>
    cases h2 with
    | nil => exact .nil
    | cons h3 h4 => exact .cons ⟨h1, h3⟩ ih

theorem filterV_alike {p : α → Res Bool} {p' : α' → Res Bool} (hp : ∀ x x', R x x' → p x = p' x') {xs : List α}
    {xs' : List α'} (h : Pointwise R xs xs') : ResRel (Pointwise R) (filterV p xs) (filterV p' xs') := by
  induction h with
  | nil => exact Pointwise.nil
  | @cons x x' xs xs' h1 _ ih =>
    rw [filterV, filterV, ← hp _ _ h1]
    cases p x with
    | panic => trivial
    | ok b =>
      cases b with
      | false => exact ih
      | true => exact ih.bind fun _ _ h => .cons h1 h

theorem mapV_alike {f : α → Res β} {f' : α' → Res β'} (hf : ∀ x x', R x x' → ResRel Q (f x) (f' x')) {xs : List α}
    {xs' : List α'} (h : Pointwise R xs xs') : ResRel (Pointwise Q) (mapV f xs) (mapV f' xs') := by
  induction h with
  | nil => exact Pointwise.nil
  | cons h1 _ ih =>
    rw [mapV, mapV]
    exact (hf _ _ h1).bind fun _ _ h2 => ih.bind fun _ _ h3 => Pointwise.cons h2 h3

theorem groupV_alike_from {f : α → α → Res Bool} {f' : α' → α' → Res Bool}
    (hf : ∀ x x' y y', R x x' → R y y' → f x y = f' x' y') {xs : List α} {xs' : List α'} (h : Pointwise R xs xs') :
    (∀ a a', R a a' → ResRel (Pointwise (PairRel R)) (aloneV f a xs) (aloneV f' a' xs')) ∧
    (∀ a a' z z', R a a' → R z z' → ResRel (Pointwise (PairRel R)) (runV f a z xs) (runV f' a' z' xs')) := by
  induction h with
  | nil =>
    refine ⟨fun a a' ha => ?_, fun a a' z z' ha hz => ?_⟩
    · rw [aloneV, aloneV, ← hf _ _ _ _ ha ha]
      cases f a a with
      | panic => trivial
      | ok b =>
        cases b with
        | false => exact Pointwise.nil
        | true => exact Pointwise.cons ⟨ha, ha⟩ .nil
    · exact Pointwise.cons ⟨ha, hz⟩ .nil
  | @cons x x' xs xs' hx _ ih =>
    refine ⟨fun a a' ha => ?_, fun a a' z z' ha hz => ?_⟩
    · rw [aloneV, aloneV, ← hf _ _ _ _ ha hx, ← hf _ _ _ _ ha ha]
      cases f a x with
      | panic => trivial
      | ok b =>
        cases b with
        | true => exact ih.2 _ _ _ _ ha hx
        | false =>
          show ResRel _ ((f a a).bind _) ((f a a).bind _)
          cases f a a with
          | panic => trivial
          | ok b =>
            cases b with
            | true => exact (ih.1 _ _ hx).bind fun _ _ h => Pointwise.cons ⟨ha, ha⟩ h
            | false => exact ih.1 _ _ ha
    · rw [runV, runV, ← hf _ _ _ _ hz hx]
      cases f z x with
      | panic => trivial
      | ok b =>
        cases b with
        | true => exact ih.2 _ _ _ _ ha hx
        | false => exact (ih.1 _ _ hx).bind fun _ _ h => Pointwise.cons ⟨ha, hz⟩ h

theorem groupV_alike {f : α → α → Res Bool} {f' : α' → α' → Res Bool}
    (hf : ∀ x x' y y', R x x' → R y y' → f x y = f' x' y') {xs : List α} {xs' : List α'} (h : Pointwise R xs xs') :
    ResRel (Pointwise (PairRel R)) (groupV f xs) (groupV f' xs') := by
  cases h with
  | nil => exact Pointwise.nil
  | cons h1 h2 => exact (groupV_alike_from hf h2).1 _ _ h1

/-- Maps with the same keys and related values. -/
def MapRel {κ : Type} (R : α → α' → Prop) (m : OrdMap κ α) (m' : OrdMap κ α') : Prop :=
  Pointwise (fun e e' => e.1 = e'.1 ∧ R e.2 e'.2) m m'

theorem insert_alike {κ : Type} [Key κ] {m : OrdMap κ α} {m' : OrdMap κ α'} (h : MapRel R m m') (k : κ) {v : α} {v' : α'}
    (hv : R v v') : MapRel R (m.insert k v) (m'.insert k v') := by
  unfold MapRel at h ⊢
  induction h with
  | nil => exact .cons ⟨rfl, hv⟩ .nil
  | @cons x y xs ys h1 h2 ih =>
    obtain ⟨k1, v1⟩ := x
    obtain ⟨k2, v2⟩ := y
    obtain ⟨h3, h4⟩ := h1
    simp only at h3 h4
    subst h3
    rw [OrdMap.insert, OrdMap.insert]
    split
    · exact .cons ⟨rfl, hv⟩ (.cons ⟨rfl, h4⟩ h2)
    · split
      · exact .cons ⟨rfl, h4⟩ ih
      · exact .cons ⟨rfl, hv⟩ h2

theorem remove_alike {κ : Type} [Key κ] {m : OrdMap κ α} {m' : OrdMap κ α'} (h : MapRel R m m') (k : κ) :
    MapRel R (m.remove k) (m'.remove k) := by
  unfold MapRel at h ⊢
  induction h with
  | nil => exact .nil
  | @cons x y xs ys h1 h2 ih =>
    obtain ⟨k1, v1⟩ := x
    obtain ⟨k2, v2⟩ := y
    obtain ⟨h3, h4⟩ := h1
    simp only at h3 h4
    subst h3
    rw [OrdMap.remove, OrdMap.remove]
    split
    · exact .cons ⟨rfl, h4⟩ h2
    · split
      · exact .cons ⟨rfl, h4⟩ ih
      · exact h2

theorem mergeWithV_alike {κ : Type} {f : α → α → Res (Option α)} {f' : α' → α' → Res (Option α')}
    (hf : ∀ x x' y y', R x x' → R y y' → ResRel (OptRel R) (f x y) (f' x' y')) {x : α} {x' : α'} (hx : R x x')
    {m : OrdMap κ α} {m' : OrdMap κ α'} (h : MapRel R m m') :
    ResRel (OptRel (PairRel R)) (mergeWithV f x m) (mergeWithV f' x' m') := by
  unfold MapRel at h
  induction h with
  | nil => trivial
  | @cons e e' xs ys h1 h2 ih =>
    rw [mergeWithV, mergeWithV]
    refine (hf _ _ _ _ h1.2 hx).bind fun o o' ho => ?_
    cases o with
    | none => cases o' with
      | none => exact ih
      | some _ => exact absurd ho id
    | some _ => cases o' with
      | none => exact absurd ho id
      | some _ => exact ⟨h1.2, ho⟩

theorem mergeV_alike {κ : Type} [Key κ] {f : α → α → Res (Option α)} {f' : α' → α' → Res (Option α')} {key : α → κ}
    {key' : α' → κ} (hf : ∀ x x' y y', R x x' → R y y' → ResRel (OptRel R) (f x y) (f' x' y'))
    (hk : ∀ x x', R x x' → key x = key' x') {xs : List α} {xs' : List α'} (h : Pointwise R xs xs') {m : OrdMap κ α}
    {m' : OrdMap κ α'} (hm : MapRel R m m') : ResRel (MapRel R) (mergeV f key m xs) (mergeV f' key' m' xs') := by
  induction h generalizing m m' with
  | nil => exact hm
  | @cons x x' xs xs' h1 _ ih =>
    rw [mergeV, mergeV]
    refine (mergeWithV_alike hf h1 hm).bind fun o o' ho => ?_
    cases o with
    | none => cases o' with
      | none =>
        refine ih ?_
        rw [← hk _ _ h1]
        exact insert_alike hm _ h1
      | some _ => exact absurd ho id
    | some p => cases o' with
      | none => exact absurd ho id
      | some p' =>
        obtain ⟨p, v⟩ := p
        obtain ⟨p', v'⟩ := p'
        obtain ⟨h2, h3⟩ := ho
        simp only at h2 h3
        refine ih ?_
        rw [← hk _ _ h2, ← hk _ _ h3]
        exact insert_alike (remove_alike hm _) _ h3

end

theorem chainV_alike {α α' β β' : Type} {R : α → α' → Prop} {Q : β → β' → Prop} {c : Chain α β} {c' : Chain α' β'}
    (hc : ChainAlike R Q c c') {xs : List α} {xs' : List α'} (h : Pointwise R xs xs') :
    ResRel (Pointwise Q) (chainV c xs) (chainV c' xs') := by
  induction hc with
  | nil => exact h
  | filter _ hp ih => exact ih.bind fun _ _ => filterV_alike hp
  | map _ hf ih => exact ih.bind fun _ _ => mapV_alike hf
  | groupby _ hf ih => exact ih.bind fun _ _ => groupV_alike hf
  | merge _ hf hk ih =>
    refine ih.bind fun ys ys' hy => (mergeV_alike hf hk hy (m := []) (m' := []) .nil).bind fun m m' hm => ?_
    exact Pointwise.map hm fun _ _ h => h.2

/-! ## Reducers -/

/-- Two reducers return, and return the same, on inputs that are related. -/
def RedAlike {α α' ρ : Type} (R : α → α' → Prop) (r : Red α ρ) (r' : Red α' ρ) : Prop :=
  ∀ xs xs', Pointwise R xs xs' → ∃ v, runRed r xs = some v ∧ runRed r' xs' = some v

section
variable {α α' : Type} {R : α → α' → Prop}

theorem fork_alike {ρ τ : Type} {p : Red α ρ} {p' : Red α' ρ} {q : Red α τ} {q' : Red α' τ} (hp : RedAlike R p p')
    (hq : RedAlike R q q') : RedAlike R (forkRed p q) (forkRed p' q') := by
  intro xs xs' h
  obtain ⟨a, h1, h2⟩ := hp xs xs' h
  obtain ⟨b, h3, h4⟩ := hq xs xs' h
  exact ⟨_, fork_total h1 h3, fork_total h2 h4⟩

theorem behind_alike {β β' ρ : Type} {Q : β → β' → Prop} {c : Chain α β} {c' : Chain α' β'} {r : Red β ρ} {r' : Red β' ρ}
    (hc : ChainAlike R Q c c') (hr : RedAlike Q r r') : RedAlike R (reducer r c.stage) (reducer r' c'.stage) := by
  intro xs xs' h
  have h1 := runRed_reducer (r := r) (outs_chainV c xs)
  have h2 := runRed_reducer (r := r') (outs_chainV c' xs')
  rw [h1, h2]
  rcases (chainV_alike hc h).elim with ⟨h3, h4⟩ | ⟨ys, ys', h3, h4, h5⟩
  · rw [h3, h4]; exact ⟨_, rfl, rfl⟩
  · rw [h3, h4]; exact hr ys ys' h5

theorem count_alike : RedAlike R (countRed α) (countRed α') := by
  intro xs xs' h
  have key : ∀ n : Nat, feed (countRed α) n xs = feed (countRed α') n xs' := by
    induction h with
    | nil => exact fun _ => rfl
    | cons _ _ ih =>
      intro n
      rw [feed_cons, feed_cons]
      show (uadd n 1).bind _ = (uadd n 1).bind _
      cases uadd n 1 with
      | panic => rfl
      | ok k => exact ih k
  refine ⟨match feed (countRed α) (0 : Nat) xs with | .ok n => .ok n | .panic => .panic, ?_, ?_⟩
  · rw [runRed_eq]
    show (feed (countRed α) (0 : Nat) xs).andThen _ = _
    cases feed (countRed α) (0 : Nat) xs <;> rfl
  · rw [runRed_eq]
    show (feed (countRed α') (0 : Nat) xs').andThen _ = _
    rw [← key]
    cases feed (countRed α) (0 : Nat) xs <;> rfl

theorem genCount_alike : RedAlike R (genCount α) (genCount α') :=
  behind_alike (c := .nil) (c' := .nil) (ChainAlike.nil (R := R)) count_alike

theorem foldMut_alike {ι γ : Type} {init : ι} {c0 : γ} {f : γ → ι → α → Res (γ × ι)} {f' : γ → ι → α' → Res (γ × ι)}
    (hf : ∀ c i x x', R x x' → f c i x = f' c i x') : RedAlike R (foldMutRed init c0 f) (foldMutRed init c0 f') := by
  intro xs xs' h
  refine ⟨_, fold_run init c0 f xs, ?_⟩
  rw [fold_run]
  have key : ∀ c i, foldV f' c i xs' = foldV f c i xs := by
    induction h with
    | nil => exact fun _ _ => rfl
    | cons h1 _ ih =>
      intro c i
      rw [foldV, foldV, hf _ _ _ _ h1]
      congr 1
      funext s
      exact ih _ _
  rw [key]

theorem split_alike {κ ρ : Type} [Key κ] [DecidableEq κ] {key : α → Res κ} {key' : α' → Res κ} {sub : κ → Red α ρ}
    {sub' : κ → Red α' ρ} (hk : ∀ x x', R x x' → key x = key' x') (hs : ∀ k, RedAlike R (sub k) (sub' k)) :
    RedAlike R (splitRed key sub) (splitRed key' sub') := by
  intro xs xs' h
  by_cases hp : ∃ x ∈ xs, key x = .panic
  · refine ⟨.panic, split_key_panic xs hp, split_key_panic xs' ?_⟩
    obtain ⟨x, hx, hx'⟩ := hp
    obtain ⟨x', h1, h2⟩ := h.mem_left x hx
    exact ⟨x', h1, by rw [← hk _ _ h2, hx']⟩
  · have hok : ∀ x ∈ xs, key x ≠ .panic := fun x hx h => hp ⟨x, hx, h⟩
    cases h with
    | nil => exact ⟨_, rfl, rfl⟩
    | @cons x0 x0' ys ys' h0 htl =>
      have h := Pointwise.cons h0 htl
      obtain ⟨d, hd⟩ : ∃ d, key x0 = .ok d := by
        cases h : key x0 with
        | panic => exact absurd h (hok x0 List.mem_cons_self)
        | ok d => exact ⟨d, rfl⟩
      generalize hxs : x0 :: ys = xs at h hok
      generalize hxs' : x0' :: ys' = xs' at h
      let k : α → κ := fun x => match key x with
        | .ok j => j
        | .panic => d
      let k' : α' → κ := fun x => match key' x with
        | .ok j => j
        | .panic => d
      have hkk : ∀ x x', R x x' → k x = k' x' := by
        intro x x' hx
        simp only [k, k', hk _ _ hx]
      have h1 : ∀ x ∈ xs, key x = .ok (k x) := by
        intro x hx
        cases h : key x with
        | panic => exact absurd h (hok x hx)
        | ok j => simp only [k, h]
      have h1' : ∀ x ∈ xs', key' x = .ok (k' x) := by
        intro x' hx'
        obtain ⟨x, h2, h3⟩ := h.mem_right x' hx'
        rw [← hk _ _ h3, ← hkk _ _ h3]
        exact h1 x h2
      have hsub : ∀ j, ∃ v, runRed (sub j) (xs.filter fun y => decide (k y = j)) = some v ∧
          runRed (sub' j) (xs'.filter fun y => decide (k' y = j)) = some v := fun j =>
        hs j _ _ (h.filter fun x x' hx => by rw [hkk _ _ hx])
      have hiff : ∀ m, runRed (splitRed key sub) xs = some (.ok m) ↔ runRed (splitRed key' sub') xs' = some (.ok m) := by
        intro m
        rw [runRed_split_iff xs h1, runRed_split_iff xs' h1']
        have hm : xs.map k = xs'.map k' := h.map_eq hkk
        rw [hm]
        refine and_congr Iff.rfl (and_congr Iff.rfl (forall_congr' fun j => forall_congr' fun v => imp_congr Iff.rfl ?_))
        obtain ⟨w, h2, h3⟩ := hsub j
        rw [h2, h3]
      have hn : runRed (splitRed key sub) xs ≠ none := split_terminates k sub xs h1 fun x _ hx => by
        obtain ⟨w, h2, _⟩ := hsub (k x); rw [h2] at hx; cases hx
      have hn' : runRed (splitRed key' sub') xs' ≠ none := split_terminates k' sub' xs' h1' fun x _ hx => by
        obtain ⟨w, _, h2⟩ := hsub (k' x); rw [h2] at hx; cases hx
      cases e : runRed (splitRed key sub) xs with
      | none => exact absurd e hn
      | some r =>
        cases r with
        | ok m => exact ⟨_, rfl, (hiff m).1 e⟩
        | panic =>
          refine ⟨_, rfl, ?_⟩
          cases e' : runRed (splitRed key' sub') xs' with
          | none => exact absurd e' hn'
          | some r' =>
            cases r' with
            | panic => rfl
            | ok m => have := (hiff m).2 e'; rw [e] at this; cases this

end

theorem prog_alike {α α' ρ : Type} {R : α → α' → Prop} {p : Prog α ρ} {p' : Prog α' ρ} (h : ProgAlike R p p') :
    RedAlike R p.red p'.red := by
  induction h with
  | fold hf => exact foldMut_alike hf
  | fork _ _ ih1 ih2 => exact fork_alike ih1 ih2
  | split hk _ ih => exact split_alike hk ih
  | behind hc _ ih => exact behind_alike hc ih

/-! ## Iterators -/

/-- Two iterators yield lists that are related, or both panic. -/
def PullAlike {α α' : Type} (R : α → α' → Prop) (it : Pull α) (s : it.σ) (it' : Pull α') (s' : it'.σ) : Prop :=
  ∃ q q', Streams it s q ∧ Streams it' s' q' ∧ ResRel (Pointwise R) q q'

section
variable {α α' : Type} {R : α → α' → Prop} {it : Pull α} {s : it.σ} {it' : Pull α'} {s' : it'.σ}

theorem pullFilter_alike (h : PullAlike R it s it' s') {p : α → Res Bool} {p' : α' → Res Bool}
    (hp : ∀ x x', R x x' → p x = p' x') : PullAlike R (pullFilter p it) s (pullFilter p' it') s' := by
  obtain ⟨q, q', h1, h2, h3⟩ := h
  refine ⟨_, _, streams_filter p h1, streams_filter p' h2, h3.bind fun ys ys' hy => ?_⟩
  rw [← filterV_eq, ← filterV_eq]
  exact filterV_alike hp hy

theorem pullMap_alike {β β' : Type} {Q : β → β' → Prop} (h : PullAlike R it s it' s') {f : α → Res β} {f' : α' → Res β'}
    (hf : ∀ x x', R x x' → ResRel Q (f x) (f' x')) : PullAlike Q (pullMap f it) s (pullMap f' it') s' := by
  obtain ⟨q, q', h1, h2, h3⟩ := h
  refine ⟨_, _, streams_map f h1, streams_map f' h2, h3.bind fun ys ys' hy => ?_⟩
  rw [← mapV_eq, ← mapV_eq]
  exact mapV_alike hf hy

theorem pullGroupBy_alike (h : PullAlike R it s it' s') {f : α → α → Res Bool} {f' : α' → α' → Res Bool}
    (hf : ∀ x x' y y', R x x' → R y y' → f x y = f' x' y') :
    PullAlike (PairRel R) (pullGroupBy f it) (.empty, s) (pullGroupBy f' it') (.empty, s') := by
  obtain ⟨q, q', h1, h2, h3⟩ := h
  rcases h3.elim with ⟨rfl, rfl⟩ | ⟨ys, ys', rfl, rfl, h4⟩
  · exact ⟨_, _, streams_fromAdapt_panic (good_groupby f) h1, streams_fromAdapt_panic (good_groupby f') h2, trivial⟩
  · exact ⟨_, _, streams_fromAdapt (good_groupby f) h1 (outs_groupV f ys),
      streams_fromAdapt (good_groupby f') h2 (outs_groupV f' ys'), groupV_alike hf h4⟩

theorem pullReduce_alike {ρ : Type} (h : PullAlike R it s it' s') {r : Red α ρ} {r' : Red α' ρ} (hr : RedAlike R r r') :
    pullReduce r it s = pullReduce r' it' s' := by
  obtain ⟨q, q', h1, h2, h3⟩ := h
  rw [pullReduce_eq r h1, pullReduce_eq r' h2]
  rcases h3.elim with ⟨rfl, rfl⟩ | ⟨ys, ys', rfl, rfl, h4⟩
  · rfl
  · obtain ⟨v, h5, h6⟩ := hr ys ys' h4
    show runRed r ys = runRed r' ys'
    rw [h5, h6]

end

end Verif
