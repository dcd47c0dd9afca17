import Verif.Model.Held
import Verif.Spec.Held
import Verif.Props.Program

/-! # C148: what a pipeline keeps in memory -/

set_option linter.unusedSimpArgs false

namespace Verif

open Spec

/-! ## The chains -/

/-- Feeding from a state: what comes out, and what is kept. -/
def Feeds {α β : Type} (a : Stage α β) (h : a.σ → Nat) (s : a.σ) (xs : List α) (q : Res (List β × Nat)) : Prop :=
  (feedOut a s xs = .panic ∧ q = .panic) ∨ ∃ s' ys, feedOut a s xs = .ok (s', ys) ∧ q = .ok (ys, h s')

theorem feeds_some {α β : Type} {a : Stage α β} {h : a.σ → Nat} {s s' : a.σ} {x : α} {o : β} {xs : List α}
    {q : Res (List β × Nat)} (hs : a.adapt s x = .ok (s', .cont (some o))) (hq : Feeds a h s' xs q) :
    Feeds a h s (x :: xs) (q.bind fun r => .ok (o :: r.1, r.2)) := by
  rcases hq with ⟨h1, rfl⟩ | ⟨t, ys, h1, rfl⟩
  · left; rw [feedOut, hs]; simp only; rw [h1]; exact ⟨rfl, rfl⟩
  · right; refine ⟨t, o :: ys, ?_, rfl⟩
    rw [feedOut, hs]; simp only; rw [h1]; rfl

theorem feeds_none {α β : Type} {a : Stage α β} {h : a.σ → Nat} {s s' : a.σ} {x : α} {xs : List α}
    {q : Res (List β × Nat)} (hs : a.adapt s x = .ok (s', .cont none)) (hq : Feeds a h s' xs q) :
    Feeds a h s (x :: xs) q := by
  rcases hq with ⟨h1, rfl⟩ | ⟨t, ys, h1, rfl⟩
  · left; exact ⟨by rw [feedOut, hs]; exact h1, rfl⟩
  · right; refine ⟨t, ys, ?_, rfl⟩
    rw [feedOut, hs]; exact h1

theorem feeds_panic {α β : Type} {a : Stage α β} {h : a.σ → Nat} {s : a.σ} {x : α} {xs : List α}
    (hs : a.adapt s x = .panic) : Feeds a h s (x :: xs) .panic := by
  left; rw [feedOut, hs]; exact ⟨rfl, rfl⟩

theorem group_feeds {α : Type} (f : α → α → Res Bool) (xs : List α) :
    (∀ a, Feeds (groupByStage f) GroupByState.held (.consumed a) xs (aloneOpen f a xs)) ∧
    (∀ a z, Feeds (groupByStage f) GroupByState.held (.lazy a z) xs (runOpen f a z xs)) := by
  induction xs with
  | nil => exact ⟨fun a => Or.inr ⟨_, [], rfl, rfl⟩, fun a z => Or.inr ⟨_, [], rfl, rfl⟩⟩
  | cons x xs ih =>
    constructor
    · intro a
      rw [aloneOpen]
      cases h : f a x with
      | panic => exact feeds_panic (a := groupByStage f) (by simp only [groupByAdapt, h])
      | ok b =>
        cases b with
        | true => exact feeds_none (a := groupByStage f) (by simp only [groupByAdapt, h]) (ih.2 a x)
        | false =>
          cases h2 : f a a with
          | panic => exact feeds_panic (a := groupByStage f) (by simp only [groupByAdapt, h, h2])
          | ok b =>
            cases b with
            | true => exact feeds_some (a := groupByStage f) (by simp only [groupByAdapt, h, h2]) (ih.1 x)
            | false => exact feeds_none (a := groupByStage f) (by simp only [groupByAdapt, h, h2]) (ih.1 a)
    · intro a z
      rw [runOpen]
      cases h : f z x with
      | panic => exact feeds_panic (a := groupByStage f) (by simp only [groupByAdapt, h])
      | ok b =>
        cases b with
        | true => exact feeds_none (a := groupByStage f) (by simp only [groupByAdapt, h]) (ih.2 a x)
        | false => exact feeds_some (a := groupByStage f) (by simp only [groupByAdapt, h]) (ih.1 x)

theorem feeds_groupOpen {α : Type} (f : α → α → Res Bool) (xs : List α) :
    Feeds (groupByStage f) GroupByState.held .empty xs (groupOpen f xs) := by
  cases xs with
  | nil => exact Or.inr ⟨_, [], rfl, rfl⟩
  | cons x xs => exact feeds_none (a := groupByStage f) rfl ((group_feeds f xs).1 x)

theorem feeds_filter {α : Type} (p : α → Res Bool) (xs : List α) :
    Feeds (filterStage p) (fun _ => 0) () xs ((filterV p xs).bind fun ys => .ok (ys, 0)) := by
  induction xs with
  | nil => exact Or.inr ⟨_, [], rfl, rfl⟩
  | cons x xs ih =>
    rw [filterV]
    cases h : p x with
    | panic => exact feeds_panic (a := filterStage p) (by simp only [h])
    | ok b =>
      cases b with
      | false => exact feeds_none (a := filterStage p) (by simp only [h]) ih
      | true =>
        have := feeds_some (a := filterStage p) (s := ()) (s' := ()) (x := x) (o := x) (by simp only [h]) ih
        cases hx : filterV p xs <;> rw [hx] at this <;> exact this

theorem feeds_map {α β : Type} (f : α → Res β) (xs : List α) :
    Feeds (mapStage f) (fun _ => 0) () xs ((mapV f xs).bind fun ys => .ok (ys, 0)) := by
  induction xs with
  | nil => exact Or.inr ⟨_, [], rfl, rfl⟩
  | cons x xs ih =>
    rw [mapV]
    cases h : f x with
    | panic => exact feeds_panic (a := mapStage f) (by simp only [h])
    | ok b =>
      have := feeds_some (a := mapStage f) (s := ()) (s' := ()) (x := x) (o := b) (by simp only [h]) ih
      cases hx : mapV f xs <;> rw [hx] at this <;> simp only [Res.bind, hx] <;> exact this

theorem feeds_merge {α κ : Type} [Key κ] (f : α → α → Res (Option α)) (key : α → κ) (xs : List α) (m : OrdMap κ α) :
    Feeds (mergeStage f key) mergeHeld (m, none) xs ((mergeV f key m xs).bind fun m => .ok ([], m.length)) := by
  induction xs generalizing m with
  | nil => exact Or.inr ⟨_, [], rfl, rfl⟩
  | cons x xs ih =>
    rw [mergeV, mergeWithV_eq]
    cases h : mergeFind f x m with
    | panic => exact feeds_panic (a := mergeStage f key) (by simp only [mergeAdapt, h])
    | ok o =>
      cases o with
      | none => exact feeds_none (a := mergeStage f key) (by simp only [mergeAdapt, h]) (ih _)
      | some pv => exact feeds_none (a := mergeStage f key) (by simp only [mergeAdapt, h]) (ih _)

/-- A stage behind a chain. -/
theorem feeds_behind {α β γ : Type} {a : Stage α β} {i : Stage β γ} (ga : Good a) {ha : a.σ → Nat} {hi : i.σ → Nat}
    {xs : List α} {q : Res (List β × Nat)} {w : List β → Res (List γ × Nat)} (h1 : Feeds a ha a.init xs q)
    (h2 : ∀ ys, Feeds i hi i.init ys (w ys)) :
    Feeds (adapter i a) (fun s => hi s.1 + ha s.2) (i.init, a.init) xs
      (q.bind fun r => (w r.1).bind fun g => .ok (g.1, r.2 + g.2)) := by
  unfold Feeds
  rw [feedOut_adapter ga]
  rcases h1 with ⟨h, rfl⟩ | ⟨s, ys, h, rfl⟩
  · left; rw [h]; exact ⟨rfl, rfl⟩
  · rw [h]
    simp only [Res.bind]
    rcases h2 ys with ⟨g, e⟩ | ⟨t, zs, g, e⟩
    · left; rw [g, e]; exact ⟨rfl, rfl⟩
    · right; rw [g, e]; exact ⟨(t, s), zs, rfl, by simp only; rw [Nat.add_comm]⟩

theorem bind_bind {α β γ : Type} (x : Res α) (f : α → Res β) (g : β → Res γ) :
    (x.bind f).bind g = x.bind fun a => (f a).bind g := by cases x <;> rfl

/-- **C148** a chain of adapters after any inputs: what has come out of it so far, and how many values it keeps, are those
the list semantics gives; it panics exactly if the list semantics does. -/
theorem C148_chain_open {α β : Type} (c : Chain α β) (xs : List α) :
    (feedOut c.stage c.stage.init xs = .panic ∧ chainOpen c xs = .panic) ∨
    ∃ s ys, feedOut c.stage c.stage.init xs = .ok (s, ys) ∧ chainOpen c xs = .ok (ys, c.held s) := by
  show Feeds c.stage c.held c.stage.init xs (chainOpen c xs)
  induction c with
  | nil =>
    right
    refine ⟨(), xs, ?_, rfl⟩
    show feedOut (nilStage α) () xs = _
    induction xs with
    | nil => rfl
    | cons x xs ih =>
      have : feedOut (nilStage α) () (x :: xs) = (feedOut (nilStage α) () xs).bind fun p => .ok (p.1, x :: p.2) := rfl
      rw [this, ih]; rfl
  | filter c p ih =>
    have h := feeds_behind (good_chain c) ih (feeds_filter p)
    simp only [bind_bind, Nat.zero_add] at h
    exact h
  | map c f ih =>
    have h := feeds_behind (good_chain c) ih (feeds_map f)
    simp only [bind_bind, Nat.zero_add] at h
    exact h
  | groupby c f ih => exact feeds_behind (good_chain c) ih (feeds_groupOpen f)
  | merge K c f key ih =>
    have h := feeds_behind (good_chain c) ih (fun ys => feeds_merge f key ys [])
    simp only [bind_bind] at h
    exact h

/-! ## The reducers -/

/-- Lists in key order with the same elements are the same. -/
theorem sorted_keys_ext {κ : Type} [Key κ] {a b : List κ} (ha : a.Pairwise Key.lt) (hb : b.Pairwise Key.lt)
    (h : ∀ j, j ∈ a ↔ j ∈ b) : a = b := by
  induction a generalizing b with
  | nil =>
    cases b with
    | nil => rfl
    | cons y b => exact absurd ((h y).2 List.mem_cons_self) (by simp)
  | cons x a ih =>
    cases b with
    | nil => exact absurd ((h x).1 List.mem_cons_self) (by simp)
    | cons y b =>
      rw [List.pairwise_cons] at ha hb
      have hxy : x = y := by
        rcases List.mem_cons.1 ((h x).1 List.mem_cons_self) with e | e
        · exact e
        · rcases List.mem_cons.1 ((h y).2 List.mem_cons_self) with e' | e'
          · exact e'.symm
          · exact absurd (ha.1 y e') (Key.asymm (hb.1 x e))
      subst hxy
      congr 1
      refine ih ha.2 hb.2 fun j => ?_
      constructor
      · intro hj
        rcases List.mem_cons.1 ((h j).1 (List.mem_cons_of_mem _ hj)) with e | e
        · subst e; exact absurd (ha.1 j hj) (Key.irrefl j)
        · exact e
      · intro hj
        rcases List.mem_cons.1 ((h j).2 (List.mem_cons_of_mem _ hj)) with e | e
        · subst e; exact absurd (hb.1 j hj) (Key.irrefl j)
        · exact e

/-- What a split holds, when its reducers are those of their keys. -/
theorem held_split_sum {κ : Type} {σ : κ → Type} (h : (k : κ) → σ k → Nat) (m : κ → Nat)
    (l : List (κ × ((k : κ) × σ k))) (hl : ∀ e ∈ l, h e.2.1 e.2.2 = m e.1) :
    (l.map fun e => h e.2.1 e.2.2).sum = ((l.map (·.1)).map m).sum := by
  induction l with
  | nil => rfl
  | cons e l ih =>
    simp only [List.map_cons, List.sum_cons]
    rw [hl e List.mem_cons_self, ih fun e' he => hl e' (List.mem_cons_of_mem _ he)]

theorem feed_key_panic {α κ ρ : Type} [Key κ] {keyfn : α → Res κ} {redfn : κ → Red α ρ} (xs : List α)
    (hx : ∃ x ∈ xs, keyfn x = .panic) (m : OrdMap κ ((k : κ) × (redfn k).σ)) :
    feed (splitRed keyfn redfn) m xs = .panic := by
  induction xs generalizing m with
  | nil => obtain ⟨x, hx, _⟩ := hx; simp at hx
  | cons x xs ih =>
    rw [feed_cons]
    by_cases hp : keyfn x = .panic
    · have : splitNext keyfn redfn m x = .panic := by unfold splitNext; rw [hp]
      show (splitNext keyfn redfn m x).bind _ = _
      rw [this]; rfl
    · obtain ⟨y, hy, hyp⟩ := hx
      rcases List.mem_cons.1 hy with rfl | hy
      · exact absurd hyp hp
      · cases (splitRed keyfn redfn).next m x with
        | panic => rfl
        | ok m' => exact ih ⟨y, hy, hyp⟩ m'

theorem held_fork {α ρ τ : Type} (p : Prog α ρ) (q : Prog α τ) (s : p.red.σ × q.red.σ) :
    Prog.held (.fork p q) s = p.held s.1 + q.held s.2 := rfl

theorem held_behind {α β ρ : Type} (c : Chain α β) (p : Prog β ρ) (s : p.red.σ × c.stage.σ) :
    Prog.held (.behind c p) s = p.held s.1 + c.held s.2 := rfl

theorem held_split {α κ ρ : Type} (K : Key κ) (D : DecidableEq κ) (key : α → Res κ) (sub : κ → Prog α ρ)
    (m : List (κ × ((k : κ) × (sub k).red.σ))) :
    Prog.held (.split K D key sub) m = (m.map fun e => (sub e.2.1).held e.2.2).sum := rfl

/-- **C148** what any pipeline keeps in memory after any inputs, however its folds, forks, splits and adapters are nested:
one value for each fold, the ends of the open group for each `groupby`, the merged values for each `merge`, and for a
`split` what the pipelines of the keys that have occurred keep of the inputs with their key. -/
theorem C148_kept_exact {α ρ : Type} (p : Prog α ρ) : ∀ (xs : List α) (s : p.red.σ),
    feed p.red p.red.init xs = .ok s → ∀ n, Keeps p xs n ↔ n = p.held s := by
  induction p with
  | fold init c0 f => intro xs s h n; exact Iff.rfl
  | fork p q ihp ihq =>
    intro xs s h n
    have hf := feed_fork (r1 := p.red) (r2 := q.red) p.red.init q.red.init xs
    have h' : feed (forkRed p.red q.red) (p.red.init, q.red.init) xs = .ok s := h
    cases e1 : feed p.red p.red.init xs with
    | panic => rw [e1] at hf; rw [hf] at h'; cases h'
    | ok s1 =>
      rw [e1] at hf
      cases e2 : feed q.red q.red.init xs with
      | panic => rw [e2] at hf; rw [hf] at h'; cases h'
      | ok s2 =>
        rw [e2] at hf
        rw [hf] at h'
        cases h'
        have a1 := ihp xs s1 e1
        have a2 := ihq xs s2 e2
        rw [Keeps, held_fork]
        constructor
        · rintro ⟨a, b, ha, hb, rfl⟩; rw [(a1 a).1 ha, (a2 b).1 hb]
        · rintro rfl; exact ⟨_, _, (a1 _).2 rfl, (a2 _).2 rfl, rfl⟩
  | behind c p ih =>
    intro xs s h n
    have h' : feed (reducer p.red c.stage) (p.red.init, c.stage.init) xs = .ok s := h
    rw [feed_reducer] at h'
    rcases C148_chain_open c xs with ⟨h1, h2⟩ | ⟨t, ys, h1, h2⟩
    · rw [h1] at h'; cases h'
    · rw [h1] at h'
      simp only [Res.bind] at h'
      cases e : feed p.red p.red.init ys with
      | panic => rw [e] at h'; cases h'
      | ok u =>
        rw [e] at h'
        cases h'
        have a1 := ih ys u e
        rw [Keeps, held_behind, h2]
        constructor
        · rintro ⟨ys', a, b, he, hb, rfl⟩
          cases he
          rw [(a1 b).1 hb, Nat.add_comm]
        · rintro rfl; exact ⟨_, _, _, rfl, (a1 _).2 rfl, by rw [Nat.add_comm]⟩
  | @split α κ ρ K D key sub ih =>
    intro xs (s : List (κ × ((k : κ) × (sub k).red.σ))) h n
    have h0 : feed (splitRed key fun k => (sub k).red) [] xs = .ok s := h
    by_cases hk : ∃ x ∈ xs, key x = .panic
    · rw [feed_key_panic xs hk] at h0; cases h0
    · have hok : ∀ x ∈ xs, key x ≠ .panic := fun x hx h => hk ⟨x, hx, h⟩
      cases hxs : xs with
      | nil =>
        subst hxs
        cases h0
        rw [Keeps, held_split]
        constructor
        · rintro ⟨ks, m, -, hm, -, rfl⟩
          cases ks with
          | nil => rfl
          | cons k ks => obtain ⟨x, hx, -⟩ := (hm k).1 List.mem_cons_self; simp at hx
        · rintro rfl
          exact ⟨[], fun _ => 0, List.Pairwise.nil, by simp, by simp, rfl⟩
      | cons x0 xs0 =>
        rw [← hxs]
        obtain ⟨d, hd⟩ : ∃ d, key x0 = .ok d := by
          cases h : key x0 with
          | panic => exact absurd h (hok x0 (by rw [hxs]; simp))
          | ok d => exact ⟨d, rfl⟩
        let k : α → κ := fun x => match key x with
          | .ok j => j
          | .panic => d
        have hkk : ∀ x ∈ xs, key x = .ok (k x) := by
          intro x hx
          cases h : key x with
          | panic => exact absurd h (hok x hx)
          | ok j => simp only [k, h]
        have hw : ∀ j, withKey key j xs = xs.filter fun y => decide (k y = j) := by
          intro j
          unfold withKey
          apply List.filter_congr
          intro y hy
          rw [hkk y hy]
        have hkeys : ∀ j, (∃ x ∈ xs, key x = .ok j) ↔ ∃ x ∈ xs, k x = j := by
          intro j
          constructor
          · rintro ⟨x, hx, h⟩; exact ⟨x, hx, by have := hkk x hx; rw [h] at this; injection this with this; exact this.symm⟩
          · rintro ⟨x, hx, rfl⟩; exact ⟨x, hx, hkk x hx⟩
        rcases split_feed (keyfn := key) (splitInv_nil (key := k) (redfn := fun j => (sub j).red)) xs hkk with
          ⟨h1, -⟩ | ⟨st, h1, h2⟩
        · rw [h1] at h0; cases h0
        · rw [h1] at h0
          cases h0
          rw [List.nil_append] at h2
          have hsome : ∀ e ∈ s, (∃ x ∈ xs, k x = e.1) ∧ ∃ t, e.2 = ⟨e.1, t⟩ ∧
              feed (sub e.1).red (sub e.1).red.init (withKey key e.1 xs) = .ok t := by
            rintro ⟨j, c⟩ he
            have hg := (OrdMap.get_eq_some h2.sorted).2 he
            by_cases hj : ∃ y ∈ xs, k y = j
            · obtain ⟨t, h3, h4⟩ := h2.present j hj
              rw [hg] at h3
              injection h3 with h3
              exact ⟨hj, t, h3, by rw [hw]; exact h4⟩
            · rw [h2.absent j fun y hy h' => hj ⟨y, hy, h'⟩] at hg; cases hg
          have hmem : ∀ j, j ∈ s.map (·.1) ↔ ∃ x ∈ xs, key x = .ok j := by
            intro j
            rw [hkeys]
            constructor
            · intro hj
              obtain ⟨e, he, rfl⟩ := List.mem_map.1 hj
              exact (hsome e he).1
            · intro hj
              obtain ⟨t, h3, -⟩ := h2.present j hj
              exact List.mem_map.2 ⟨_, (OrdMap.get_eq_some h2.sorted).1 h3, rfl⟩
          have hsorted : (s.map (·.1)).Pairwise Key.lt := by
            rw [List.pairwise_map]; exact h2.sorted
          have hval : ∀ (m : κ → Nat), (∀ j ∈ s.map (·.1), Keeps (sub j) (withKey key j xs) (m j)) →
              Prog.held (.split K D key sub) s = ((s.map (·.1)).map m).sum := by
            intro m hm
            rw [held_split]
            refine held_split_sum (fun j => (sub j).held) m s ?_
            rintro ⟨j, c⟩ he
            obtain ⟨-, t, h3, h4⟩ := hsome _ he
            simp only at h3 h4 ⊢
            rw [h3]
            exact ((ih j _ t h4 _).1 (hm j (List.mem_map.2 ⟨_, he, rfl⟩))).symm
          rw [Keeps]
          constructor
          · intro hK
            refine Exists.elim hK fun ks hK => Exists.elim hK fun m hK => ?_
            have g1 := hK.1
            have g2 := hK.2.1
            have g3 := hK.2.2.1
            have hn := hK.2.2.2
            have hks : ks = s.map (·.1) := sorted_keys_ext g1 hsorted fun j => by rw [g2, hmem]
            rw [hks] at g3 hn
            exact hn.trans (hval m g3).symm
          · intro hn
            have hex : ∀ j, ∃ v, j ∈ s.map (·.1) → Keeps (sub j) (withKey key j xs) v := by
              intro j
              by_cases hj : j ∈ s.map (·.1)
              · obtain ⟨e, he, rfl⟩ := List.mem_map.1 hj
                obtain ⟨-, t, -, h4⟩ := hsome e he
                exact ⟨_, fun _ => (ih e.1 _ t h4 _).2 rfl⟩
              · exact ⟨0, fun h => absurd h hj⟩
            let m : κ → Nat := fun j => Classical.choose (hex j)
            have hm : ∀ j ∈ s.map (·.1), Keeps (sub j) (withKey key j xs) (m j) := fun j => Classical.choose_spec (hex j)
            exact ⟨s.map (·.1), m, hsorted, hmem, hm, hn.trans (hval m hm)⟩

/-! ## Without `merge` and `split` -/

theorem res_bind_ok {α β : Type} {x : Res α} {f : α → Res β} {b : β} (h : x.bind f = .ok b) :
    ∃ a, x = .ok a ∧ f a = .ok b := by
  cases x with
  | panic => cases h
  | ok a => exact ⟨a, rfl, h⟩

theorem open_le_two {α : Type} (f : α → α → Res Bool) (xs : List α) :
    (∀ a r, aloneOpen f a xs = .ok r → r.2 ≤ 2) ∧ (∀ a z r, runOpen f a z xs = .ok r → r.2 ≤ 2) := by
  induction xs with
  | nil => exact ⟨fun a r h => by cases h; simp, fun a z r h => by cases h; simp⟩
  | cons x xs ih =>
    constructor
    · intro a r h
      rw [aloneOpen] at h
      obtain ⟨b, -, h⟩ := res_bind_ok h
      split at h
      · exact ih.2 _ _ _ h
      · obtain ⟨c, -, h⟩ := res_bind_ok h
        split at h
        · obtain ⟨q, hq, h⟩ := res_bind_ok h
          cases h; exact ih.1 x q hq
        · exact ih.1 _ _ h
    · intro a z r h
      rw [runOpen] at h
      obtain ⟨b, -, h⟩ := res_bind_ok h
      split at h
      · exact ih.2 _ _ _ h
      · obtain ⟨q, hq, h⟩ := res_bind_ok h
        cases h; exact ih.1 x q hq

theorem groupOpen_le_two {α : Type} (f : α → α → Res Bool) (xs : List α) {r : List (α × α) × Nat}
    (h : groupOpen f xs = .ok r) : r.2 ≤ 2 := by
  cases xs with
  | nil => cases h; simp
  | cons x xs => exact (open_le_two f xs).1 x r h

theorem chainOpen_le {α β : Type} (c : Chain α β) (xs : List α) : ∀ {g : Nat} {r : List β × Nat}, groupBys c = some g →
    chainOpen c xs = .ok r → r.2 ≤ 2 * g := by
  induction c with
  | nil => intro g r hg h; cases h; exact Nat.zero_le _
  | filter c p ih =>
    intro g r hg h
    obtain ⟨q, hq, h⟩ := res_bind_ok h
    obtain ⟨ys, -, h⟩ := res_bind_ok h
    cases h; exact ih (r := q) hg hq
  | map c f ih =>
    intro g r hg h
    obtain ⟨q, hq, h⟩ := res_bind_ok h
    obtain ⟨ys, -, h⟩ := res_bind_ok h
    cases h; exact ih (r := q) hg hq
  | groupby c f ih =>
    intro g r hg h
    obtain ⟨q, hq, h⟩ := res_bind_ok h
    obtain ⟨ys, hy, h⟩ := res_bind_ok h
    cases h
    rw [groupBys] at hg
    obtain ⟨g', hg', rfl⟩ := Option.map_eq_some_iff.1 hg
    have h1 := ih hg' hq
    have h2 := groupOpen_le_two f _ hy
    simp only at h1 h2 ⊢
    omega
  | merge K c f key ih => intro g r hg; rw [groupBys] at hg; cases hg

theorem keeps_le {α ρ : Type} (p : Prog α ρ) : ∀ (n : Nat), Slots p n → ∀ xs m, Keeps p xs m → 1 ≤ m ∧ m ≤ n := by
  induction p with
  | fold init c0 f => intro n hn xs m hm; rw [Slots] at hn; rw [Keeps] at hm; omega
  | fork p q ihp ihq =>
    rintro n ⟨a, b, ha, hb, rfl⟩ xs m ⟨a', b', ha', hb', rfl⟩
    have h1 := ihp a ha xs a' ha'
    have h2 := ihq b hb xs b' hb'
    omega
  | behind c p ih =>
    rintro n ⟨g, b, hg, hb, rfl⟩ xs m ⟨ys, a', b', hc, hb', rfl⟩
    have h1 := chainOpen_le c xs hg hc
    have h2 := ih b hb ys b' hb'
    simp only at h1
    omega
  | split K D key sub ih => intro n hn; exact absurd hn (by rw [Slots]; exact id)

/-- **C148** a pipeline without `merge` and `split` runs in constant memory: whatever is fed, and however much, it keeps at
most one value for each fold and two for each `groupby`. -/
theorem C148_constant {α ρ : Type} (p : Prog α ρ) (n : Nat) (hp : Slots p n) (xs : List α) (s : p.red.σ)
    (h : feed p.red p.red.init xs = .ok s) : p.held s ≤ n :=
  (keeps_le p n hp xs _ ((C148_kept_exact p xs s h _).2 rfl)).2

/-! ## `split` -/

theorem nodup_length_le {α : Type} [DecidableEq α] : ∀ (a b : List α), a.Nodup → (∀ x ∈ a, x ∈ b) → a.length ≤ b.length
  | [], b, _, _ => Nat.zero_le _
  | x :: a, b, hn, hs => by
    rw [List.nodup_cons] at hn
    have h1 := nodup_length_le a (b.erase x) hn.2 fun y hy =>
      (List.mem_erase_of_ne fun (e : y = x) => hn.1 (by rw [← e]; exact hy)).2 (hs y (List.mem_cons_of_mem _ hy))
    have h2 := List.length_erase_of_mem (hs x List.mem_cons_self)
    have h3 := List.length_pos_of_mem (hs x List.mem_cons_self)
    rw [List.length_cons]
    omega

theorem sum_between {κ : Type} (m : κ → Nat) (lo hi : Nat) : ∀ ks : List κ, (∀ k ∈ ks, lo ≤ m k ∧ m k ≤ hi) →
    lo * ks.length ≤ (ks.map m).sum ∧ (ks.map m).sum ≤ hi * ks.length
  | [], _ => ⟨by simp, by simp⟩
  | k :: ks, h => by
    obtain ⟨h1, h2⟩ := sum_between m lo hi ks fun j hj => h j (List.mem_cons_of_mem _ hj)
    obtain ⟨h3, h4⟩ := h k List.mem_cons_self
    simp only [List.map_cons, List.sum_cons, List.length_cons, Nat.mul_succ]
    omega

/-- **C148** a `split` whose pipelines run in constant memory needs memory for the keys, not for the inputs: between one value
and `n` values for each key that has occurred. -/
theorem C148_split_keys {α κ ρ : Type} (K : Key κ) (D : DecidableEq κ) (key : α → Res κ) (sub : κ → Prog α ρ) (n : Nat)
    (hp : ∀ k, ∃ i, Slots (sub k) i ∧ i ≤ n) (xs : List α) (s : (Prog.split K D key sub).red.σ)
    (h : feed (Prog.split K D key sub).red (Prog.split K D key sub).red.init xs = .ok s) :
    (∀ l : List κ, (∀ x ∈ xs, ∀ j, key x = .ok j → j ∈ l) → (Prog.split K D key sub).held s ≤ n * l.length) ∧
    ∀ l : List κ, l.Nodup → (∀ j ∈ l, ∃ x ∈ xs, key x = .ok j) → l.length ≤ (Prog.split K D key sub).held s := by
  obtain ⟨ks, m, h1, h2, h3, h4⟩ := (C148_kept_exact (.split K D key sub) xs s h _).2 rfl
  rw [h4]
  obtain ⟨b1, b2⟩ := sum_between m 1 n ks fun k hk => by
    obtain ⟨i, hi, hin⟩ := hp k
    have := keeps_le (sub k) i hi _ _ (h3 k hk)
    exact ⟨this.1, Nat.le_trans this.2 hin⟩
  constructor
  · intro l hl
    have hnd : ks.Nodup := h1.imp Key.ne_of_lt
    have := nodup_length_le ks l hnd fun j hj => by
      obtain ⟨x, hx, hk⟩ := (h2 j).1 hj
      exact hl x hx j hk
    exact Nat.le_trans b2 (Nat.mul_le_mul_left _ this)
  · intro l hn hl
    have := nodup_length_le l ks hn fun j hj => (h2 j).2 (hl j hj)
    omega

/-! ## `merge` -/

/-- **C148** a `merge` lets nothing out before `finalize` and keeps all it has merged. -/
theorem C148_merge_keeps {α β κ : Type} (K : Key κ) (c : Chain α β) (f : β → β → Res (Option β)) (key : β → κ) (xs : List α)
    (s : (Chain.merge K c f key).stage.σ) (zs : List β)
    (h : feedOut (Chain.merge K c f key).stage (Chain.merge K c f key).stage.init xs = .ok (s, zs)) :
    zs = [] ∧ ∃ ys a m, chainOpen c xs = .ok (ys, a) ∧ mergeV f key [] ys = .ok m ∧
      (Chain.merge K c f key).held s = a + m.length := by
  rcases C148_chain_open (.merge K c f key) xs with ⟨h1, -⟩ | ⟨s', ys', h1, h2⟩
  · rw [h1] at h; cases h
  · rw [h1] at h
    cases h
    rw [chainOpen] at h2
    obtain ⟨⟨ys, a⟩, h3, h2⟩ := res_bind_ok h2
    obtain ⟨m, h4, h2⟩ := res_bind_ok h2
    injection h2 with h2
    injection h2 with h5 h6
    exact ⟨h5.symm, ys, a, m, h3, h4, h6.symm⟩

/-- **C148** the first `finalize` of a `merge` copies what it has; each call hands out one value of the copy, and the map stays:
after `i + 1` calls, if there are that many values, the merge holds the map and the rest of the copy. -/
theorem C148_merge_copy {α κ : Type} [Key κ] (m : OrdMap κ α) (i : Nat) (hi : i < m.length) :
    mergeHeld (Nat.repeat (fun s => (mergeFin s).1) (i + 1) (m, none)) = m.length + (m.length - (i + 1)) := by
  have key : ∀ i, i < m.length → Nat.repeat (fun s : OrdMap κ α × Option (List (κ × α)) => (mergeFin s).1) (i + 1) (m, none) =
      (m, some (m.drop (i + 1))) := by
    intro i
    induction i with
    | zero =>
      intro hi
      cases m with
      | nil => simp at hi
      | cons e m => rfl
    | succ i ih =>
      intro hi
      rw [Nat.repeat, ih (by omega)]
      have : m.drop (i + 1) = m[i + 1] :: m.drop (i + 1 + 1) := List.drop_eq_getElem_cons hi
      rw [this]
      rfl
  rw [key i hi]
  simp [mergeHeld]

/-- A merge that never merges, of inputs that are their own keys. -/
def neverMerged : Prog Nat Nat := .behind (.merge inferInstance .nil (fun _ _ => .ok none) id) (.fold 0 () fun c n _ => .ok (c, n + 1))

theorem mergeV_never (k : Nat) : ∀ (n : Nat) (m : OrdMap Nat Nat), (∀ e ∈ m, e.1 < k) → m.Sorted →
    ∃ r, mergeV (fun _ _ => .ok none) id m (List.range' k n) = .ok r ∧ r.length = m.length + n := by
  intro n
  induction n generalizing k with
  | zero => intro m _ _; exact ⟨m, rfl, rfl⟩
  | succ n ih =>
    intro m hm hs
    have hw : ∀ (x : Nat) (l : List (Nat × Nat)), mergeWithV (fun _ _ => .ok none) x l = .ok none := by
      intro x l
      induction l with
      | nil => rfl
      | cons e l ihl => exact ihl
    have hins : ∀ m : OrdMap Nat Nat, (∀ e ∈ m, e.1 < k) → m.insert k k = m ++ [(k, k)] := by
      intro m
      induction m with
      | nil => intro _; rfl
      | cons e m ihm =>
        intro h
        have h1 := h e List.mem_cons_self
        obtain ⟨a, b⟩ := e
        simp only at h1
        rw [OrdMap.insert, if_neg (show ¬ Key.lt k a from Nat.lt_asymm h1), if_pos (show Key.lt a k from h1),
          ihm fun e he => h e (List.mem_cons_of_mem _ he)]
        rfl
    rw [List.range'_succ, mergeV, hw]
    simp only [Res.bind, id]
    obtain ⟨r, h1, h2⟩ := ih (k + 1) (m.insert k k) (by
      rw [hins m hm]
      intro e he
      rcases List.mem_append.1 he with he | he
      · have := hm e he; omega
      · rw [List.mem_singleton] at he; subst he; simp) (OrdMap.sorted_insert hs _ _)
    refine ⟨r, h1, ?_⟩
    rw [h2, hins m hm, List.length_append, List.length_singleton]
    omega

/-- **C148** there is no bound for a pipeline with a `merge`: of inputs that cannot be merged it keeps every one. -/
theorem C148_merge_unbounded (n : Nat) : ∃ s, feed neverMerged.red neverMerged.red.init (List.range n) = .ok s ∧
    neverMerged.held s = n + 1 := by
  obtain ⟨m, h1, h2⟩ := mergeV_never 0 n [] (by simp) OrdMap.sorted_nil
  rw [← List.range_eq_range'] at h1
  have hk : chainOpen (.merge inferInstance .nil (fun _ _ => .ok none) id) (List.range n) = .ok (([] : List Nat), n) := by
    rw [chainOpen, chainOpen]
    simp only [Res.bind, h1, h2, Nat.zero_add, List.length_nil]
  have hf := feed_reducer (r := (Prog.fold 0 () fun c n _ => .ok (c, n + 1) : Prog Nat Nat).red)
    (a := (Chain.merge inferInstance .nil (fun _ _ => .ok none) id : Chain Nat Nat).stage) (Prog.fold 0 () fun c n _ => .ok (c, n + 1) : Prog Nat Nat).red.init (Chain.merge inferInstance .nil (fun _ _ => .ok none) id : Chain Nat Nat).stage.init (List.range n)
  rcases C148_chain_open (.merge inferInstance .nil (fun _ _ => .ok none) id : Chain Nat Nat) (List.range n) with ⟨_, h⟩ | ⟨s, ys, h3, h4⟩
  · rw [hk] at h; cases h
  · rw [hk] at h4
    injection h4 with h4
    injection h4 with h5 h6
    subst h5
    rw [h3] at hf
    exact ⟨_, hf, by
      show 1 + _ = n + 1
      rw [Nat.add_comm, h6]⟩

/-! ## Examples -/

/-- The spans of rising runs, and the number of inputs. -/
def exStream : Prog Nat (Nat × Nat) :=
  .fork (.behind (.groupby .nil fun a b => .ok (decide (a ≤ b))) (.fold 0 () fun c n _ => .ok (c, n + 1)))
    (.fold 0 () fun c n _ => .ok (c, n + 1))

example : Slots exStream 4 := ⟨3, 1, ⟨1, 1, rfl, rfl, rfl⟩, rfl, rfl⟩

/-- In the middle of a run: the two ends of it, and the two counters. -/
example : ∃ s, feed exStream.red exStream.red.init [1, 4, 2, 5, 7] = .ok s ∧ exStream.held s = 4 := ⟨_, rfl, rfl⟩

/-- By the parity of the inputs: the bound is met. -/
example : ∃ s, feed (Prog.split inferInstance inferInstance (fun x => .ok (x % 2)) fun _ => exStream).red
    (Prog.split inferInstance inferInstance (fun x => .ok (x % 2)) fun _ => exStream).red.init [1, 4, 3, 6] = .ok s ∧
    (Prog.split inferInstance inferInstance (fun x => .ok (x % 2)) fun _ => exStream).held s = 8 := ⟨_, rfl, rfl⟩

example : mergeHeld (mergeFin (([(1, 1), (2, 2), (3, 3)], none) : OrdMap Nat Nat × Option (List (Nat × Nat)))).1 = 5 := rfl

end Verif
