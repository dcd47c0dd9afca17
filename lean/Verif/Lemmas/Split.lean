import Verif.Lemmas.Merge

/-! # Lemmas about split and fork -/

set_option linter.unusedSimpArgs false
set_option linter.unusedSectionVars false

namespace Verif

theorem feed_cons {α ρ : Type} (r : Red α ρ) (s : r.σ) (x : α) (xs : List α) :
    feed r s (x :: xs) = (r.next s x).bind fun s' => feed r s' xs := by
  rw [feed]; cases r.next s x <;> rfl

theorem runRed_nil_reducer {α ρ : Type} (r : Red α ρ) (xs : List α) : runRed (reducer r (nilStage α)) xs = runRed r xs :=
  runRed_reducer (outs_nil xs)

section
variable {α κ ρ : Type} [Key κ] [DecidableEq κ] {keyfn : α → Res κ} {key : α → κ} {redfn : κ → Red α ρ}

/-- After the inputs `ys`: each key that occurred has the state of its reducer on its inputs. -/
structure SplitInv (key : α → κ) (redfn : κ → Red α ρ) (ys : List α) (m : OrdMap κ ((k : κ) × (redfn k).σ)) : Prop where
  sorted : m.Sorted
  absent : ∀ k, (∀ y ∈ ys, key y ≠ k) → m.get k = none
  present : ∀ k, (∃ y ∈ ys, key y = k) → ∃ s, m.get k = some ⟨k, s⟩ ∧
    feed (redfn k) (redfn k).init (ys.filter fun y => decide (key y = k)) = .ok s

theorem splitInv_nil : SplitInv key redfn [] [] :=
  ⟨OrdMap.sorted_nil, by intros; rfl, by simp⟩

theorem splitInv_cur {ys : List α} {m : OrdMap κ ((k : κ) × (redfn k).σ)} (h : SplitInv key redfn ys m) (k : κ) :
    ∃ s, (m.get k).getD ⟨k, (redfn k).init⟩ = ⟨k, s⟩ ∧
      feed (redfn k) (redfn k).init (ys.filter fun y => decide (key y = k)) = .ok s := by
  by_cases hk : ∃ y ∈ ys, key y = k
  · obtain ⟨s, h1, h2⟩ := h.present k hk
    exact ⟨s, by rw [h1]; rfl, h2⟩
  · have hk' : ∀ y ∈ ys, key y ≠ k := fun y hy h' => hk ⟨y, hy, h'⟩
    refine ⟨(redfn k).init, by rw [h.absent k hk']; rfl, ?_⟩
    have : ys.filter (fun y => decide (key y = k)) = [] := by
      rw [List.filter_eq_nil_iff]
      intro y hy; simpa using hk' y hy
    rw [this]; rfl

theorem filter_snoc (ys : List α) (x : α) (k : κ) :
    (ys ++ [x]).filter (fun y => decide (key y = k)) =
      ys.filter (fun y => decide (key y = k)) ++ if key x = k then [x] else [] := by
  rw [List.filter_append]
  by_cases h : key x = k <;> simp [h]

/-- One input. -/
theorem split_step {ys : List α} {m : OrdMap κ ((k : κ) × (redfn k).σ)} (h : SplitInv key redfn ys m) {x : α}
    (hx : keyfn x = .ok (key x)) :
    (splitNext keyfn redfn m x = .panic ∧
      feed (redfn (key x)) (redfn (key x)).init ((ys ++ [x]).filter fun y => decide (key y = key x)) = .panic) ∨
    ∃ m', splitNext keyfn redfn m x = .ok m' ∧ SplitInv key redfn (ys ++ [x]) m' := by
  obtain ⟨s, h1, h2⟩ := splitInv_cur h (key x)
  have hn : splitNext keyfn redfn m x = ((redfn (key x)).next s x).bind
      fun s' => .ok (m.insert (key x) ⟨key x, s'⟩) := by
    have hg : ∀ (c : (k : κ) × (redfn k).σ), c = ⟨key x, s⟩ →
        (match (redfn c.1).next c.2 x with
          | .panic => (.panic : Res (OrdMap κ ((k : κ) × (redfn k).σ)))
          | .ok s' => .ok (m.insert (key x) ⟨c.1, s'⟩)) =
        ((redfn (key x)).next s x).bind fun s' => .ok (m.insert (key x) ⟨key x, s'⟩) := by
      rintro c rfl
      cases (redfn (key x)).next s x <;> rfl
    unfold splitNext
    rw [hx]
    exact hg _ h1
  have hfeed : feed (redfn (key x)) (redfn (key x)).init ((ys ++ [x]).filter fun y => decide (key y = key x)) =
      ((redfn (key x)).next s x).bind fun s' => .ok s' := by
    rw [filter_snoc, if_pos rfl, feed_append, h2]
    show feed (redfn (key x)) s [x] = _
    rw [feed_cons]; rfl
  cases hs : (redfn (key x)).next s x with
  | panic => rw [hs] at hn hfeed; exact Or.inl ⟨hn, hfeed⟩
  | ok s' =>
    rw [hs] at hn hfeed
    refine Or.inr ⟨_, hn, OrdMap.sorted_insert h.sorted _ _, ?_, ?_⟩
    · intro k hk
      have h3 : k ≠ key x := fun h' => hk x (by simp) h'.symm
      rw [OrdMap.get_insert h.sorted, if_neg h3]
      exact h.absent k fun y hy => hk y (by simp [hy])
    · rintro k ⟨y, hy, hyk⟩
      rw [OrdMap.get_insert h.sorted]
      by_cases h3 : k = key x
      · subst h3
        exact ⟨s', by rw [if_pos rfl], hfeed⟩
      · rw [if_neg h3]
        have : ∃ y ∈ ys, key y = k := by
          rcases List.mem_append.1 hy with h' | h'
          · exact ⟨y, h', hyk⟩
          · rw [List.mem_singleton] at h'; subst h'; exact absurd hyk.symm h3
        obtain ⟨s'', h4, h5⟩ := h.present k this
        refine ⟨s'', h4, ?_⟩
        rw [filter_snoc, if_neg (fun h' => h3 h'.symm), List.append_nil]
        exact h5

theorem split_feed {ys : List α} {m : OrdMap κ ((k : κ) × (redfn k).σ)} (h : SplitInv key redfn ys m) (xs : List α)
    (hx : ∀ x ∈ xs, keyfn x = .ok (key x)) :
    (feed (splitRed keyfn redfn) m xs = .panic ∧
      ∃ x ∈ xs, feed (redfn (key x)) (redfn (key x)).init ((ys ++ xs).filter fun y => decide (key y = key x)) = .panic) ∨
    ∃ m', feed (splitRed keyfn redfn) m xs = .ok m' ∧ SplitInv key redfn (ys ++ xs) m' := by
  induction xs generalizing ys m with
  | nil => exact Or.inr ⟨m, rfl, by simpa using h⟩
  | cons x xs ih =>
    have hu : feed (splitRed keyfn redfn) m (x :: xs) = (splitNext keyfn redfn m x).bind
        fun s' => feed (splitRed keyfn redfn) s' xs := feed_cons _ _ _ _
    have e : ys ++ x :: xs = ys ++ [x] ++ xs := by simp
    rcases split_step h (hx x List.mem_cons_self) with ⟨h1, h2⟩ | ⟨m', h1, h2⟩
    · refine Or.inl ⟨by rw [hu, h1]; rfl, x, List.mem_cons_self, ?_⟩
      rw [e, List.filter_append, feed_append, h2]; rfl
    · rcases ih h2 (fun y hy => hx y (List.mem_cons_of_mem _ hy)) with ⟨h3, y, h4, h5⟩ | ⟨m'', h3, h4⟩
      · exact Or.inl ⟨by rw [hu, h1]; exact h3, y, List.mem_cons_of_mem _ h4, by rw [e]; exact h5⟩
      · exact Or.inr ⟨m'', by rw [hu, h1]; exact h3, by rw [e]; exact h4⟩

theorem splitFin_exists (acc : OrdMap κ ρ) (l : List (κ × ((k : κ) × (redfn k).σ)))
    (h : ∀ x ∈ l, ∃ v, (redfn x.2.1).fin x.2.2 = some (.ok v)) : ∃ r, splitFin redfn acc l = some (.ok r) := by
  induction l generalizing acc with
  | nil => exact ⟨acc, rfl⟩
  | cons x l ih =>
    obtain ⟨k, c⟩ := x
    obtain ⟨v, hv⟩ := h (k, c) List.mem_cons_self
    rw [splitFin]
    simp only at hv
    rw [hv]
    exact ih _ fun y hy => h y (List.mem_cons_of_mem _ hy)

theorem splitFin_spec {acc r : OrdMap κ ρ} {l : OrdMap κ ((k : κ) × (redfn k).σ)} (hr : splitFin redfn acc l = some (.ok r))
    (ha : acc.Sorted) (hl : l.Sorted) :
    r.Sorted ∧ (∀ k c, (k, c) ∈ l → ∃ v, (redfn c.1).fin c.2 = some (.ok v) ∧ r.get k = some v) ∧
    ∀ k, k ∉ l.map (·.1) → r.get k = acc.get k := by
  induction l generalizing acc with
  | nil =>
    simp only [splitFin, Option.some.injEq, Res.ok.injEq] at hr
    subst hr
    exact ⟨ha, by simp, by simp⟩
  | cons x l ih =>
    obtain ⟨k0, c0⟩ := x
    rw [splitFin] at hr
    have hs := OrdMap.sorted_cons.1 hl
    split at hr
    · simp at hr
    · simp at hr
    · next v hv =>
      obtain ⟨h1, h2, h3⟩ := ih hr (OrdMap.sorted_insert ha _ _) hs.2
      have hk0 : k0 ∉ l.map (·.1) := by
        intro hm
        obtain ⟨y, hy, he⟩ := List.mem_map.1 hm
        have := hs.1 y hy
        rw [he] at this
        exact Key.irrefl _ this
      refine ⟨h1, ?_, ?_⟩
      · intro k c hm
        rcases List.mem_cons.1 hm with h' | h'
        · simp only [Prod.mk.injEq] at h'
          obtain ⟨rfl, rfl⟩ := h'
          refine ⟨v, hv, ?_⟩
          rw [h3 k hk0, OrdMap.get_insert ha, if_pos rfl]
        · exact h2 k c h'
      · intro k hk
        simp only [List.map_cons, List.mem_cons, not_or] at hk
        rw [h3 k hk.2, OrdMap.get_insert ha, if_neg hk.1]

/-- `split` returns `m` iff `m` maps exactly the occurring keys to the results on their inputs. -/
theorem runRed_split_iff (xs : List α) (hx : ∀ x ∈ xs, keyfn x = .ok (key x)) (m : OrdMap κ ρ) :
    runRed (splitRed keyfn redfn) xs = some (.ok m) ↔
      m.Sorted ∧ (∀ k, k ∈ m.map (·.1) ↔ k ∈ xs.map key) ∧
      ∀ k v, (k, v) ∈ m → runRed (redfn k) (xs.filter fun x => decide (key x = k)) = some (.ok v) := by
  have hkey : ∀ k, k ∈ xs.map key ↔ ∃ y ∈ xs, key y = k := fun k => List.mem_map
  rcases split_feed (keyfn := keyfn) (splitInv_nil (key := key) (redfn := redfn)) xs hx with
    ⟨h1, x, h2, h3⟩ | ⟨st, h1, h2⟩
  · have hp : runRed (splitRed keyfn redfn) xs = some .panic := by
      rw [runRed_eq]; exact congrArg (fun z => Res.andThen z _) h1
    rw [hp]
    refine ⟨fun h => by simp at h, ?_⟩
    rintro ⟨hs, hk, hv⟩
    obtain ⟨v, hm⟩ : ∃ v, (key x, v) ∈ m := by
      have := (hk (key x)).2 (List.mem_map_of_mem h2)
      obtain ⟨⟨k, v⟩, hy, he⟩ := List.mem_map.1 this
      simp only at he; subst he
      exact ⟨v, hy⟩
    have := hv _ _ hm
    rw [runRed_eq, show xs.filter (fun y => decide (key y = key x)) = ([] ++ xs).filter _ from rfl, h3] at this
    simp [Res.andThen] at this
  · rw [List.nil_append] at h2
    have hrun : runRed (splitRed keyfn redfn) xs = splitFin redfn [] st := by
      rw [runRed_eq]; exact congrArg (fun z => Res.andThen z _) h1
    have hst : ∀ k c, (k, c) ∈ st ↔ st.get k = some c := fun k c => (OrdMap.get_eq_some h2.sorted).symm
    have hin : ∀ k, k ∈ st.map (·.1) ↔ k ∈ xs.map key := by
      intro k
      rw [← OrdMap.get_isSome h2.sorted, hkey]
      constructor
      · intro h
        by_cases hk : ∃ y ∈ xs, key y = k
        · exact hk
        · rw [h2.absent k fun y hy h' => hk ⟨y, hy, h'⟩] at h
          simp at h
      · intro h
        obtain ⟨s, h3, -⟩ := h2.present k h
        rw [h3]; rfl
    have hfin : ∀ k c, (k, c) ∈ st → (redfn c.1).fin c.2 = runRed (redfn k) (xs.filter fun x => decide (key x = k)) := by
      intro k c hc
      have hk := (hin k).1 (List.mem_map_of_mem hc)
      obtain ⟨s, h3, h4⟩ := h2.present k ((hkey k).1 hk)
      rw [(hst k c).1 hc] at h3
      simp only [Option.some.injEq] at h3
      subst h3
      rw [runRed_eq, h4]
      rfl
    rw [hrun]
    constructor
    · intro h
      obtain ⟨h3, h4, h5⟩ := splitFin_spec h OrdMap.sorted_nil h2.sorted
      have hmem : ∀ k, k ∈ m.map (·.1) ↔ k ∈ xs.map key := by
        intro k
        rw [← hin]
        constructor
        · intro hk
          by_cases hks : k ∈ st.map (·.1)
          · exact hks
          · have := h5 k hks
            rw [← OrdMap.get_isSome h3, this] at hk
            simp [OrdMap.get] at hk
        · intro hk
          obtain ⟨⟨k', c⟩, hy, he⟩ := List.mem_map.1 hk
          simp only at he; subst he
          obtain ⟨v, -, h6⟩ := h4 k' c hy
          rw [← OrdMap.get_isSome h3, h6]; rfl
      refine ⟨h3, hmem, ?_⟩
      intro k v hm
      have hk := (hin k).2 ((hmem k).1 (List.mem_map_of_mem hm))
      obtain ⟨⟨k', c⟩, hy, he⟩ := List.mem_map.1 hk
      simp only at he; subst he
      obtain ⟨v', h6, h7⟩ := h4 k' c hy
      rw [(OrdMap.get_eq_some h3).2 hm] at h7
      simp only [Option.some.injEq] at h7
      subst h7
      rw [← hfin k' c hy, h6]
    · rintro ⟨hs, hk, hv⟩
      obtain ⟨r, hr⟩ := splitFin_exists [] st (by
        rintro ⟨k, c⟩ hc
        have h3 := (hk k).2 ((hin k).1 (List.mem_map_of_mem hc))
        obtain ⟨⟨k', v⟩, hy, he⟩ := List.mem_map.1 h3
        simp only at he; subst he
        exact ⟨v, by rw [hfin k' c hc]; exact hv _ _ hy⟩)
      obtain ⟨h3, h4, h5⟩ := splitFin_spec hr OrdMap.sorted_nil h2.sorted
      rw [hr]
      congr 2
      refine OrdMap.ext h3 hs fun k => ?_
      by_cases hks : k ∈ st.map (·.1)
      · obtain ⟨⟨k', c⟩, hy, he⟩ := List.mem_map.1 hks
        simp only at he; subst he
        obtain ⟨v, h6, h7⟩ := h4 k' c hy
        have h8 := (hk k').2 ((hin k').1 hks)
        obtain ⟨⟨k'', v'⟩, hy', he⟩ := List.mem_map.1 h8
        simp only at he; subst he
        have h9 := hv _ _ hy'
        rw [← hfin k'' c hy, h6] at h9
        simp only [Option.some.injEq, Res.ok.injEq] at h9
        subst h9
        rw [h7, (OrdMap.get_eq_some hs).2 hy']
      · rw [h5 k hks]
        have : k ∉ m.map (·.1) := fun h => hks ((hin k).2 ((hk k).1 h))
        rw [← OrdMap.get_isSome hs] at this
        simp only [Bool.not_eq_true, Option.isSome_eq_false_iff, Option.isNone_iff_eq_none] at this
        rw [this]; rfl

theorem split_key_panic (xs : List α) (h : ∃ x ∈ xs, keyfn x = .panic) :
    runRed (splitRed keyfn redfn) xs = some .panic := by
  have : ∀ m, feed (splitRed keyfn redfn) m xs = .panic := by
    intro m
    induction xs generalizing m with
    | nil => simp at h
    | cons y xs ih =>
      have hu : feed (splitRed keyfn redfn) m (y :: xs) = (splitNext keyfn redfn m y).bind
          fun s' => feed (splitRed keyfn redfn) s' xs := feed_cons _ _ _ _
      obtain ⟨x, hx, hp⟩ := h
      rcases List.mem_cons.1 hx with h' | h'
      · subst h'
        rw [hu]
        have : splitNext keyfn redfn m x = .panic := by unfold splitNext; rw [hp]
        rw [this]; rfl
      · rw [hu]
        cases splitNext keyfn redfn m y with
        | panic => rfl
        | ok m' => exact ih ⟨x, h', hp⟩ _
  rw [runRed_eq]
  exact congrArg (fun z => Res.andThen z _) (this [])

end

section
variable {α ρ τ : Type} {r1 : Red α ρ} {r2 : Red α τ}

theorem feed_fork (s1 : r1.σ) (s2 : r2.σ) (xs : List α) :
    feed (forkRed r1 r2) (s1, s2) xs = (feed r1 s1 xs).bind fun a => (feed r2 s2 xs).bind fun b => .ok (a, b) := by
  induction xs generalizing s1 s2 with
  | nil => rfl
  | cons x xs ih =>
    have hu : feed (forkRed r1 r2) (s1, s2) (x :: xs) = match r1.next s1 x with
        | .panic => .panic
        | .ok s1' =>
          match r2.next s2 x with
          | .panic => .panic
          | .ok s2' => feed (forkRed r1 r2) (s1', s2') xs := by
      have : (forkRed r1 r2).next (s1, s2) x = match r1.next s1 x with
        | .panic => .panic
        | .ok s1 =>
          match r2.next s2 x with
          | .panic => .panic
          | .ok s2 => .ok (s1, s2) := rfl
      rw [feed, this]
      cases r1.next s1 x with
      | panic => rfl
      | ok s1' => cases r2.next s2 x <;> rfl
    rw [hu, feed, feed]
    cases r1.next s1 x with
    | panic => rfl
    | ok s1' =>
      simp only
      cases r2.next s2 x with
      | panic => cases feed r1 s1' xs <;> rfl
      | ok s2' => exact ih s1' s2'

theorem runRed_fork_iff (xs : List α) (a : ρ) (b : τ) :
    runRed (forkRed r1 r2) xs = some (.ok (a, b)) ↔
      runRed r1 xs = some (.ok a) ∧ runRed r2 xs = some (.ok b) := by
  have h := feed_fork r1.init r2.init xs
  have hr : runRed (forkRed r1 r2) xs = Res.andThen (feed (forkRed r1 r2) (r1.init, r2.init) xs) (forkRed r1 r2).fin :=
    runRed_eq _ _
  rw [hr, h, runRed_eq r1, runRed_eq r2]
  cases feed r1 r1.init xs with
  | panic => simp [Res.bind, Res.andThen]
  | ok s1 =>
    cases feed r2 r2.init xs with
    | panic => simp [Res.bind, Res.andThen]
    | ok s2 =>
      simp only [Res.bind, Res.andThen]
      rcases r1.fin s1 with _ | _ | _
      · simp
      · rcases r2.fin s2 with _ | _ | _ <;> simp
      · simp

end

/-! ## fold, count, sum -/

theorem feed_fold {α ι : Type} (i0 : ι) (f : ι → α → Res ι) (i : ι) (xs : List α) :
    feed (foldRed i0 f) i xs = xs.foldlM f i := by
  induction xs generalizing i with
  | nil => rfl
  | cons x xs ih =>
    have : feed (foldRed i0 f) i (x :: xs) = (f i x).bind fun s' => feed (foldRed i0 f) s' xs := feed_cons _ _ _ _
    rw [this, List.foldlM_cons]
    cases f i x with
    | panic => rfl
    | ok s' => exact ih s'

theorem runRed_fold {α ι : Type} (i0 : ι) (f : ι → α → Res ι) (xs : List α) :
    runRed (foldRed i0 f) xs = some (xs.foldlM f i0) := by
  rw [runRed_eq]
  show Res.andThen (feed (foldRed i0 f) i0 xs) _ = _
  rw [feed_fold]
  cases xs.foldlM f i0 <;> rfl

theorem runRed_sum (xs : List Nat) :
    runRed sumRed xs = some (if xs.sum ≤ usizeMax then .ok xs.sum else .panic) := by
  have h : ∀ acc, acc ≤ usizeMax → feed sumRed acc xs = if acc + xs.sum ≤ usizeMax then .ok (acc + xs.sum) else .panic := by
    induction xs with
    | nil => intro acc ha; rw [List.sum_nil, Nat.add_zero, if_pos ha]; rfl
    | cons x xs ih =>
      intro acc ha
      have : feed sumRed acc (x :: xs) = (uadd x acc).bind fun s' => feed sumRed s' xs := feed_cons _ _ _ _
      rw [this, uadd, List.sum_cons]
      by_cases h1 : x + acc ≤ usizeMax
      · rw [if_pos h1]
        show feed _ _ xs = _
        rw [ih _ h1, show x + acc + xs.sum = acc + (x + xs.sum) by omega]
      · rw [if_neg h1, if_neg (by omega)]; rfl
  rw [runRed_eq]
  have h0 : feed sumRed sumRed.init xs = if xs.sum ≤ usizeMax then .ok xs.sum else .panic := by
    have := h 0 (Nat.zero_le _)
    rwa [Nat.zero_add] at this
  rw [h0]
  split <;> rfl

theorem runRed_count {α : Type} (xs : List α) :
    runRed (countRed α) xs = some (if xs.length ≤ usizeMax then .ok xs.length else .panic) := by
  have h : ∀ acc, acc ≤ usizeMax →
      feed (countRed α) acc xs = if acc + xs.length ≤ usizeMax then .ok (acc + xs.length) else .panic := by
    induction xs with
    | nil => intro acc ha; rw [List.length_nil, Nat.add_zero, if_pos ha]; rfl
    | cons x xs ih =>
      intro acc ha
      have : feed (countRed α) acc (x :: xs) = (uadd acc 1).bind fun s' => feed (countRed α) s' xs := feed_cons _ _ _ _
      rw [this, uadd, List.length_cons]
      by_cases h1 : acc + 1 ≤ usizeMax
      · rw [if_pos h1]
        show feed _ _ xs = _
        rw [ih _ h1, show acc + 1 + xs.length = acc + (xs.length + 1) by omega]
      · rw [if_neg h1, if_neg (by omega)]; rfl
  rw [runRed_eq]
  have h0 : feed (countRed α) (countRed α).init xs = if xs.length ≤ usizeMax then .ok xs.length else .panic := by
    have := h 0 (Nat.zero_le _)
    rwa [Nat.zero_add] at this
  rw [h0]
  split <;> rfl

end Verif
