import Verif.Spec.Laws
import Verif.Props.Program

/-!
# C130: laws for rewriting pipelines

Consequences of the list semantics (C83) that a user relies on when restructuring a pipeline.
-/

set_option linter.unusedSimpArgs false

namespace Verif

open Spec

theorem sameOutput_iff {α β : Type} {c d : Chain α β} : SameOutput c d ↔ ∀ xs, chainV c xs = chainV d xs := by
  show (∀ xs, collected c xs = collected d xs) ↔ _
  simp only [C83_chain_exact, Option.some.injEq]

theorem sameRuns_iff {α ρ : Type} {p q : Prog α ρ} : SameRuns p q ↔ ∀ xs r, Means p xs r ↔ Means q xs r := by
  constructor
  · intro h xs r
    obtain ⟨a, ha, ha'⟩ := C83_program_exact p xs
    obtain ⟨b, hb, hb'⟩ := C83_program_exact q xs
    have := h xs
    rw [ha, hb] at this
    cases this
    rw [ha', hb']
  · intro h xs
    obtain ⟨a, ha, ha'⟩ := C83_program_exact p xs
    obtain ⟨b, hb, hb'⟩ := C83_program_exact q xs
    rw [ha, hb, (hb' a).1 ((h xs a).1 ((ha' a).2 rfl))]

/-! ## Closures -/

theorem mapV_mapV {α β γ : Type} (f : α → Res β) (g : β → Res γ) (xs : List α) :
    (mapV f xs).bind (mapV g) = mapV (andThen f g) xs := by
  induction xs with
  | nil => rfl
  | cons x xs ih =>
    simp only [mapV, andThen, ← ih]
    cases f x with
    | panic => rfl
    | ok y =>
      cases mapV f xs with
      | panic => simp [Res.bind]; cases g y <;> rfl
      | ok ys => rfl

theorem filterV_filterV {α : Type} (p q : α → Res Bool) (xs : List α) :
    (filterV p xs).bind (filterV q) = filterV (bothOf p q) xs := by
  induction xs with
  | nil => rfl
  | cons x xs ih =>
    simp only [filterV, bothOf, ← ih]
    cases p x with
    | panic => rfl
    | ok b =>
      cases b with
      | false => rfl
      | true =>
        simp only [Res.bind, if_true]
        cases filterV p xs with
        | panic => cases q x with
          | panic => rfl
          | ok b => cases b <;> rfl
        | ok ys => simp only [filterV, Res.bind]

theorem mapV_filterV {α β : Type} (f : α → Res β) (q : β → Res Bool) (xs : List α) :
    (mapV f xs).bind (filterV q) = (filterV (andThen f q) xs).bind (mapV f) := by
  induction xs with
  | nil => rfl
  | cons x xs ih =>
    simp only [mapV, filterV, andThen]
    cases hf : f x with
    | panic => rfl
    | ok y =>
      simp only [Res.bind] at ih ⊢
      cases hm : mapV f xs with
      | panic =>
        rw [hm] at ih
        cases hq : q y with
        | panic => rfl
        | ok b => cases b with
          | true =>
            simp only
            cases hv : filterV (andThen f q) xs with
            | panic => rfl
            | ok ys =>
              rw [hv] at ih
              simp only [mapV, hf, Res.bind, ← ih]
          | false => exact ih
      | ok ys =>
        rw [hm] at ih
        simp only [filterV]
        cases hq : q y with
        | panic => rfl
        | ok b => cases b with
          | true =>
            simp only [Res.bind]
            cases hv : filterV (andThen f q) xs with
            | panic => rw [hv] at ih; simp only at ih; rw [ih]
            | ok zs =>
              rw [hv] at ih
              simp only at ih
              simp only [mapV, hf, Res.bind, ih]
          | false => exact ih

/-- **C130** two maps in a row are one. -/
theorem C130_map_map {α β γ δ : Type} (c : Chain α β) (f : β → Res γ) (g : γ → Res δ) :
    SameOutput ((c.map f).map g) (c.map (andThen f g)) := sameOutput_iff.2 fun xs => by
  simp only [chainV]
  cases chainV c xs with
  | panic => rfl
  | ok ys => exact mapV_mapV f g ys

/-- **C130** two filters in a row are one. -/
theorem C130_filter_filter {α β : Type} (c : Chain α β) (p q : β → Res Bool) :
    SameOutput ((c.filter p).filter q) (c.filter (bothOf p q)) := sameOutput_iff.2 fun xs => by
  simp only [chainV]
  cases chainV c xs with
  | panic => rfl
  | ok ys => exact filterV_filterV p q ys

/-- **C130** a filter behind a map may be moved in front of it. -/
theorem C130_map_filter {α β γ : Type} (c : Chain α β) (f : β → Res γ) (q : γ → Res Bool) :
    SameOutput ((c.map f).filter q) ((c.filter (andThen f q)).map f) := sameOutput_iff.2 fun xs => by
  simp only [chainV]
  cases chainV c xs with
  | panic => rfl
  | ok ys => exact mapV_filterV f q ys

/-! ## Structure -/

theorem chainV_andThen {α β : Type} (c : Chain α β) {γ : Type} (d : Chain β γ) (xs : List α) :
    chainV (c.andThen d) xs = (chainV c xs).bind (chainV d) := by
  induction d with
  | nil => simp only [Chain.andThen]; cases chainV c xs <;> rfl
  | filter d p ih => simp only [Chain.andThen, chainV, ih]; cases chainV c xs <;> rfl
  | map d f ih => simp only [Chain.andThen, chainV, ih]; cases chainV c xs <;> rfl
  | groupby d f ih => simp only [Chain.andThen, chainV, ih]; cases chainV c xs <;> rfl
  | merge K d f key ih => simp only [Chain.andThen, chainV, ih]; cases chainV c xs <;> rfl

/-- **C130** a reducer behind a chain behind a chain is the reducer behind both. -/
theorem C130_nested_chains {α β γ ρ : Type} (c : Chain α β) (d : Chain β γ) (p : Prog γ ρ) :
    SameRuns (.behind c (.behind d p)) (.behind (c.andThen d) p) := sameRuns_iff.2 fun xs r => by
  simp only [Means, chainV_andThen]
  cases chainV c xs with
  | panic => simp [Res.bind]
  | ok ys =>
    simp only [Res.bind, reduceCtorEq, false_and, false_or, Res.ok.injEq, exists_eq_left', Res.bind]

/-- **C130** a reducer behind no adapters is the reducer. -/
theorem C130_no_adapters {α ρ : Type} (p : Prog α ρ) : SameRuns (.behind .nil p) p := sameRuns_iff.2 fun xs r => by
  simp [Means, chainV]

/-- **C130** adapters in front of a fork may be put into its branches. -/
theorem C130_fork_behind {α β ρ τ : Type} (c : Chain α β) (p : Prog β ρ) (q : Prog β τ) :
    SameRuns (.behind c (.fork p q)) (.fork (.behind c p) (.behind c q)) := sameRuns_iff.2 fun xs r => by
  simp only [Means]
  cases chainV c xs with
  | panic => simp
  | ok ys => simp

/-- **C130** chains that let the same through may replace each other. -/
theorem C130_behind_congr {α β ρ : Type} {c d : Chain α β} {p q : Prog β ρ} (hc : SameOutput c d) (hp : SameRuns p q) :
    SameRuns (.behind c p) (.behind d q) := sameRuns_iff.2 fun xs r => by
  have h1 := sameOutput_iff.1 hc xs
  have h2 := sameRuns_iff.1 hp
  simp only [Means, h1, h2]

/-- **C130** reducers that give the same may replace each other in a fork. -/
theorem C130_fork_congr {α ρ τ : Type} {p p' : Prog α ρ} {q q' : Prog α τ} (hp : SameRuns p p') (hq : SameRuns q q') :
    SameRuns (.fork p q) (.fork p' q') := sameRuns_iff.2 fun xs r => by
  have h1 := sameRuns_iff.1 hp
  have h2 := sameRuns_iff.1 hq
  simp only [Means, h1, h2]

/-- **C130** reducers that give the same may replace each other in a split. -/
theorem C130_split_congr {α κ ρ : Type} (K : Key κ) (D : DecidableEq κ) (key : α → Res κ) {sub sub' : κ → Prog α ρ}
    (h : ∀ k, SameRuns (sub k) (sub' k)) : SameRuns (.split K D key sub) (.split K D key sub') := sameRuns_iff.2 fun xs r => by
  have h1 := fun k => sameRuns_iff.1 (h k)
  simp only [Means, h1]

/-! ## Split -/

/-- When a split returns a map. -/
theorem means_split_ok {α κ ρ : Type} {K : Key κ} {D : DecidableEq κ} {key : α → Res κ} {sub : κ → Prog α ρ} {xs : List α}
    {m : OrdMap κ ρ} : Means (.split K D key sub) xs (.ok m) ↔ (∀ x ∈ xs, key x ≠ .panic) ∧
      (m.Pairwise fun a b => Key.lt a.1 b.1) ∧ (∀ j, j ∈ m.map (·.1) ↔ ∃ x ∈ xs, key x = .ok j) ∧
      ∀ j v, (j, v) ∈ m → Means (sub j) (withKey key j xs) (.ok v) := by
  rw [Means]
  constructor
  · rintro (⟨-, h⟩ | ⟨h1, ⟨-, h⟩ | ⟨m', h2, h3⟩⟩)
    · cases h
    · cases h
    · cases h2; exact ⟨h1, h3⟩
  · rintro ⟨h1, h2⟩; exact Or.inr ⟨h1, Or.inr ⟨m, rfl, h2⟩⟩

theorem runs_iff {α ρ : Type} (p : Prog α ρ) (xs : List α) (r : Res ρ) : runRed p.red xs = some r ↔ Means p xs r := by
  obtain ⟨a, h1, h2⟩ := C83_program_exact p xs
  rw [h1, h2, Option.some.injEq, eq_comm]

theorem filterV_key {α κ : Type} {key : α → Res κ} (P : κ → Bool) : ∀ {xs : List α}, (∀ x ∈ xs, key x ≠ .panic) →
    filterV (fun x => (key x).bind fun k => .ok (P k)) xs = .ok (xs.filter fun x => match key x with
      | .ok k => P k
      | .panic => false)
  | [], _ => rfl
  | x :: xs, h => by
    have ih := filterV_key P fun y hy => h y (List.mem_cons_of_mem _ hy)
    unfold filterV
    cases hk : key x with
    | panic => exact absurd hk (h x (by simp))
    | ok k =>
      cases hp : P k with
      | true =>
        have hx : ((Res.ok k).bind fun k => Res.ok (P k)) = .ok true := congrArg Res.ok hp
        rw [List.filter_cons_of_pos (by simp [hk, hp]), ih, hx]
        rfl
      | false =>
        have hx : ((Res.ok k).bind fun k => Res.ok (P k)) = .ok false := congrArg Res.ok hp
        rw [List.filter_cons_of_neg (by simp [hk, hp]), ih, hx]

/-- **C130** a filter in front of a split that looks at the key only keeps the lines of some keys and does not change them. -/
theorem C130_split_filter {α κ ρ : Type} (K : Key κ) (D : DecidableEq κ) (key : α → Res κ) (sub : κ → Prog α ρ) (P : κ → Bool)
    (xs : List α) (m : OrdMap κ ρ) (h : runRed (Prog.split K D key sub).red xs = some (.ok m)) :
    runRed (Prog.behind (.filter .nil fun x => (key x).bind fun k => .ok (P k)) (.split K D key sub)).red xs =
      some (.ok (m.filter fun e => P e.1)) := by
  rw [runs_iff] at h ⊢
  obtain ⟨h1, h2, h3, h4⟩ := means_split_ok.1 h
  rw [Means]
  refine Or.inr ⟨_, by rw [chainV, chainV]; exact filterV_key P h1, means_split_ok.2 ⟨?_, ?_, ?_, ?_⟩⟩
  · intro x hx; exact h1 x (List.mem_filter.1 hx).1
  · exact h2.filter _
  · intro j
    have hj := h3 j
    simp only [List.mem_map, List.mem_filter] at hj ⊢
    constructor
    · rintro ⟨e, ⟨he, hp⟩, rfl⟩
      obtain ⟨x, hx, hk⟩ := hj.1 ⟨e, he, rfl⟩
      exact ⟨x, ⟨hx, by simp only [hk, hp]⟩, hk⟩
    · rintro ⟨x, ⟨hx, hp⟩, hk⟩
      obtain ⟨e, he, rfl⟩ := hj.2 ⟨x, hx, hk⟩
      simp only [hk] at hp
      exact ⟨e, ⟨he, hp⟩, rfl⟩
  · intro j v hjv
    obtain ⟨hm, hp⟩ := List.mem_filter.1 hjv
    have := h4 j v hm
    suffices hw : withKey key j (xs.filter fun x => match key x with
      | .ok k => P k
      | .panic => false) = withKey key j xs by rw [hw]; exact this
    unfold withKey
    rw [List.filter_filter]
    refine List.filter_congr fun x hx => ?_
    cases hk : key x with
    | panic => rfl
    | ok k =>
      by_cases hkj : k = j
      · subst hkj; simp only [decide_true, Bool.true_and]; exact hp
      · simp [hkj]

theorem withKey_comm {α κ κ' : Type} [DecidableEq κ] [DecidableEq κ'] (key : α → Res κ) (key' : α → Res κ') (j : κ) (j' : κ')
    (xs : List α) : withKey key j (withKey key' j' xs) = withKey key' j' (withKey key j xs) := by
  unfold withKey
  rw [List.filter_filter, List.filter_filter]
  refine List.filter_congr fun x _ => Bool.and_comm _ _

theorem mem_withKey {α κ : Type} [DecidableEq κ] {key : α → Res κ} {j : κ} {xs : List α} {x : α} :
    x ∈ withKey key j xs ↔ x ∈ xs ∧ key x = .ok j := by
  unfold withKey
  rw [List.mem_filter]
  cases key x with
  | panic => simp
  | ok k => simp

theorem split_split_entries {α κ κ' ρ : Type} (K : Key κ) (D : DecidableEq κ) (K' : Key κ') (D' : DecidableEq κ') (key : α → Res κ)
    (key' : α → Res κ') (sub : κ → κ' → Prog α ρ) (xs : List α) (m : OrdMap κ (OrdMap κ' ρ)) (m' : OrdMap κ' (OrdMap κ ρ))
    (h : runRed (Prog.split K D key fun j => .split K' D' key' fun j' => sub j j').red xs = some (.ok m))
    (h' : runRed (Prog.split K' D' key' fun j' => .split K D key fun j => sub j j').red xs = some (.ok m'))
    (j : κ) (j' : κ') (v : ρ) :
    (∃ n, (j, n) ∈ m ∧ (j', v) ∈ n) ↔ ∃ n, (j', n) ∈ m' ∧ (j, v) ∈ n := by
  rw [runs_iff] at h h'
  have key1 : ∀ {κ κ' : Type} {K : Key κ} {D : DecidableEq κ} {K' : Key κ'} {D' : DecidableEq κ'} {key : α → Res κ}
      {key' : α → Res κ'} {sub : κ → κ' → Prog α ρ} {m : OrdMap κ (OrdMap κ' ρ)} {m' : OrdMap κ' (OrdMap κ ρ)}
      (_ : Means (Prog.split K D key fun j => .split K' D' key' fun j' => sub j j') xs (.ok m))
      (_ : Means (Prog.split K' D' key' fun j' => .split K D key fun j => sub j j') xs (.ok m'))
      {j : κ} {j' : κ'} {v : ρ}, (∃ n, (j, n) ∈ m ∧ (j', v) ∈ n) → ∃ n, (j', n) ∈ m' ∧ (j, v) ∈ n := by
    intro κ κ' K D K' D' key key' sub m m' h h' j j' v
    rintro ⟨n, hn, hv⟩
    obtain ⟨-, -, a3, a4⟩ := means_split_ok.1 h
    obtain ⟨-, -, b3, b4⟩ := means_split_ok.1 h'
    obtain ⟨-, -, c3, c4⟩ := means_split_ok.1 (a4 j n hn)
    obtain ⟨x, hx, hk'⟩ := (c3 j').1 (List.mem_map.2 ⟨_, hv, rfl⟩)
    obtain ⟨hx, hk⟩ := mem_withKey.1 hx
    obtain ⟨⟨i', n'⟩, hn', rfl⟩ := List.mem_map.1 ((b3 j').2 ⟨x, hx, hk'⟩)
    obtain ⟨-, -, d3, d4⟩ := means_split_ok.1 (b4 _ n' hn')
    obtain ⟨⟨i, w⟩, hw, rfl⟩ := List.mem_map.1 ((d3 j).2 ⟨x, mem_withKey.2 ⟨hx, hk'⟩, hk⟩)
    have e1 := c4 _ v hv
    have e2 := d4 _ w hw
    rw [withKey_comm] at e2
    obtain ⟨r, -, hr⟩ := C83_program_exact (sub i i') (withKey key' i' (withKey key i xs))
    have : w = v := by
      have := ((hr _).1 e1).trans ((hr _).1 e2).symm
      cases this; rfl
    subst this
    exact ⟨n', hn', hw⟩
  exact ⟨key1 h h', key1 (sub := fun j' j => sub j j') h' h⟩

/-- **C130** splitting by one key and then another gives the same entries as the other way round; if one returns, so does the other. -/
theorem C130_split_split {α κ κ' ρ : Type} (K : Key κ) (D : DecidableEq κ) (K' : Key κ') (D' : DecidableEq κ') (key : α → Res κ)
    (key' : α → Res κ') (sub : κ → κ' → Prog α ρ) (xs : List α) (m : OrdMap κ (OrdMap κ' ρ))
    (h : runRed (Prog.split K D key fun j => .split K' D' key' fun j' => sub j j').red xs = some (.ok m)) :
    ∃ m' : OrdMap κ' (OrdMap κ ρ),
      runRed (Prog.split K' D' key' fun j' => .split K D key fun j => sub j j').red xs = some (.ok m') ∧
      ∀ (j : κ) (j' : κ') (v : ρ), (∃ n, (j, n) ∈ m ∧ (j', v) ∈ n) ↔ ∃ n, (j', n) ∈ m' ∧ (j, v) ∈ n := by
  obtain ⟨r, h1, h2⟩ := C83_program_exact (Prog.split K' D' key' fun j' => .split K D key fun j => sub j j') xs
  cases r with
  | ok m' => exact ⟨m', h1, split_split_entries K D K' D' key key' sub xs m m' h h1⟩
  | panic =>
    exfalso
    have hm := (h2 _).2 rfl
    rw [runs_iff] at h
    obtain ⟨a1, -, a3, a4⟩ := means_split_ok.1 h
    have b1 : ∀ x ∈ xs, key' x ≠ .panic := fun x hx => by
      cases hk : key x with
      | panic => exact absurd hk (a1 x hx)
      | ok j =>
        obtain ⟨⟨i, n⟩, hn, rfl⟩ := List.mem_map.1 ((a3 j).2 ⟨x, hx, hk⟩)
        exact (means_split_ok.1 (a4 _ n hn)).1 x (mem_withKey.2 ⟨hx, hk⟩)
    rw [Means] at hm
    rcases hm with ⟨⟨x, hx, e⟩, -⟩ | ⟨-, ⟨⟨x, hx, j', hj', e⟩, -⟩ | ⟨m', e, -⟩⟩
    · exact b1 x hx e
    · rw [Means] at e
      rcases e with ⟨⟨y, hy, e⟩, -⟩ | ⟨-, ⟨⟨y, hy, j, hj, e⟩, -⟩ | ⟨m', e, -⟩⟩
      · exact a1 y (mem_withKey.1 hy).1 e
      · obtain ⟨hy, hyk⟩ := mem_withKey.1 hy
        obtain ⟨⟨i, n⟩, hn, rfl⟩ := List.mem_map.1 ((a3 j).2 ⟨y, hy, hj⟩)
        obtain ⟨-, -, c3, c4⟩ := means_split_ok.1 (a4 _ n hn)
        obtain ⟨⟨i', v⟩, hv, rfl⟩ := List.mem_map.1 ((c3 j').2 ⟨y, mem_withKey.2 ⟨hy, hj⟩, hyk⟩)
        have := c4 _ v hv
        rw [withKey_comm] at this
        obtain ⟨r, -, hr⟩ := C83_program_exact (sub i i') (withKey key i (withKey key' i' xs))
        have := ((hr _).1 this).trans ((hr _).1 e).symm
        cases this
      · cases e
    · cases e

/-- `collect` as a reducer. -/
def collectP (α : Type) : Prog α (List α) := .fold [] () fun c acc x => .ok (c, acc ++ [x])

theorem collectP_means {α : Type} (xs : List α) (r : Res (List α)) : Means (collectP α) xs r ↔ r = .ok xs := by
  show r = foldV _ () [] xs ↔ _
  suffices h : ∀ (ys acc : List α), foldV (fun (c : Unit) (acc : List α) x => .ok (c, acc ++ [x])) () acc ys = .ok (acc ++ ys) by
    rw [h]; rfl
  intro ys
  induction ys with
  | nil => intro acc; simp [foldV]
  | cons y ys ih => intro acc; simp [foldV, Res.bind, ih]

theorem flatMap_cons_once {κ α : Type} [DecidableEq κ] (x : α) (j0 : κ) (f : κ → List α) : ∀ (ks : List κ), ks.Nodup → j0 ∈ ks →
    (ks.flatMap fun j => if j = j0 then x :: f j else f j).Perm (x :: ks.flatMap f)
  | [], _, h => by cases h
  | k :: ks, hn, h => by
    have hn' := List.nodup_cons.1 hn
    rw [List.flatMap_cons, List.flatMap_cons]
    by_cases hk : k = j0
    · subst hk
      rw [if_pos rfl]
      have hs : (ks.flatMap fun j => if j = k then x :: f j else f j) = ks.flatMap f := by
        rw [List.flatMap_def, List.flatMap_def]
        congr 1
        refine List.map_congr_left fun j hj => if_neg ?_
        rintro rfl
        exact hn'.1 hj
      rw [hs]
      exact List.Perm.refl _
    · rw [if_neg hk]
      have ih := flatMap_cons_once x j0 f ks hn'.2 (by
        rcases List.mem_cons.1 h with h | h
        · exact absurd h.symm hk
        · exact h)
      exact (ih.append_left _).trans List.perm_middle

theorem perm_by_key {α κ : Type} [DecidableEq κ] (key : α → Res κ) (ks : List κ) (hn : ks.Nodup) : ∀ (xs : List α),
    (∀ x ∈ xs, ∃ j ∈ ks, key x = .ok j) → (ks.flatMap fun j => withKey key j xs).Perm xs
  | [], _ => by simp [withKey]
  | x :: xs, h => by
    obtain ⟨j0, hj0, hk⟩ := h x (by simp)
    have ih := perm_by_key key ks hn xs fun y hy => h y (List.mem_cons_of_mem _ hy)
    have he : (ks.flatMap fun j => withKey key j (x :: xs)) =
        ks.flatMap fun j => if j = j0 then x :: withKey key j xs else withKey key j xs := by
      congr 1
      funext j
      unfold withKey
      by_cases hj : j = j0
      · subst hj
        rw [if_pos rfl, List.filter_cons_of_pos (by simp [hk])]
      · rw [if_neg hj, List.filter_cons_of_neg (by simp only [hk]; simpa using fun h => hj h.symm)]
    rw [he]
    exact (flatMap_cons_once x j0 _ ks hn hj0).trans (ih.cons x)

/-- **C130** what a split collects under its keys is the input: nothing is lost, nothing is there twice, and within a key the
order is that of the input. -/
theorem C130_split_collect {α κ : Type} (K : Key κ) (D : DecidableEq κ) (key : α → Res κ) (xs : List α)
    (hk : ∀ x ∈ xs, key x ≠ .panic) : ∃ m : OrdMap κ (List α),
      runRed (Prog.split K D key fun _ => collectP α).red xs = some (.ok m) ∧
      (m.flatMap (·.2)).Perm xs ∧ ∀ j l, (j, l) ∈ m → l ≠ [] ∧ l.Sublist xs ∧ ∀ x, x ∈ l ↔ x ∈ xs ∧ key x = .ok j := by
  obtain ⟨r, h1, h2⟩ := C83_program_exact (Prog.split K D key fun _ => collectP α) xs
  have hr := (h2 r).2 rfl
  cases r with
  | panic =>
    rw [Means] at hr
    rcases hr with ⟨⟨x, hx, h⟩, -⟩ | ⟨-, ⟨⟨x, -, j, -, h⟩, -⟩ | ⟨m, h, -⟩⟩
    · exact absurd h (hk x hx)
    · rw [collectP_means] at h; cases h
    · cases h
  | ok m =>
    obtain ⟨-, b2, b3, b4⟩ := means_split_ok.1 hr
    have hval : ∀ j l, (j, l) ∈ m → l = withKey key j xs := fun j l hl => by
      have := (collectP_means _ _).1 (b4 j l hl)
      cases this; rfl
    have hnd : (m.map (·.1)).Nodup := by
      rw [List.Nodup, List.pairwise_map]
      exact List.Pairwise.imp (fun {a b} h (he : a.1 = b.1) => by rw [he] at h; exact absurd h (K.irrefl _)) b2
    refine ⟨m, h1, ?_, fun j l hl => ?_⟩
    · have : m.flatMap (·.2) = (m.map (·.1)).flatMap fun j => withKey key j xs := by
        rw [List.flatMap_def, List.flatMap_def, List.map_map]
        congr 1
        exact List.map_congr_left fun e he => hval e.1 e.2 he
      rw [this]
      refine perm_by_key key _ hnd xs fun x hx => ?_
      cases hx' : key x with
      | panic => exact absurd hx' (hk x hx)
      | ok j => exact ⟨j, (b3 j).2 ⟨x, hx, hx'⟩, rfl⟩
    · rw [hval j l hl]
      refine ⟨?_, List.filter_sublist, fun x => mem_withKey⟩
      obtain ⟨x, hx, h⟩ := (b3 j).1 (List.mem_map.2 ⟨_, hl, rfl⟩)
      exact List.ne_nil_of_mem (mem_withKey.2 ⟨hx, h⟩)

/-- Meeting the hypotheses of the split laws: seven numbers split by their remainder, with a filter keeping one remainder. -/
example : runRed (Prog.split inferInstance inferInstance (fun n : Nat => Res.ok (n % 3)) fun _ => collectP Nat).red [1, 2, 3, 4, 5, 6, 7] =
      some (.ok [(0, [3, 6]), (1, [1, 4, 7]), (2, [2, 5])]) ∧
    runRed (Prog.behind (.filter .nil fun x => (Res.ok (x % 3)).bind fun k => .ok (k == 1))
      (.split inferInstance inferInstance (fun n : Nat => Res.ok (n % 3)) fun _ => collectP Nat)).red [1, 2, 3, 4, 5, 6, 7] =
      some (.ok [(1, [1, 4, 7])]) := by
  have h : runRed (Prog.split inferInstance inferInstance (fun n : Nat => Res.ok (n % 3)) fun _ => collectP Nat).red
      [1, 2, 3, 4, 5, 6, 7] = some (.ok [(0, [3, 6]), (1, [1, 4, 7]), (2, [2, 5])]) := by decide +kernel
  exact ⟨h, C130_split_filter _ _ _ _ (fun k => k == 1) _ _ h⟩

end Verif
