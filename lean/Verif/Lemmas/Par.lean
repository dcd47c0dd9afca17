import Verif.Lemmas.Histogram
import Verif.Lemmas.Iter
import Verif.Spec.Table

/-! # Parallel reductions -/

set_option linter.unusedSimpArgs false
set_option linter.unusedSectionVars false

namespace Verif

open Spec

section
variable {β ρ γ : Type} {f : β → Option (Res ρ)} {op : ρ → ρ → Res ρ} {e : ρ}

/-- A work item always finishes if every job does. -/
theorem parLeaf_total (acc : ρ) (xs : List β) (hf : ∀ x ∈ xs, f x ≠ none) : ∃ r, parLeaf f op acc xs = some r := by
  induction xs generalizing acc with
  | nil => exact ⟨_, rfl⟩
  | cons x xs ih =>
    rw [parLeaf]
    cases hx : f x with
    | none => exact absurd hx (hf x (List.mem_cons_self ..))
    | some r =>
      cases r with
      | panic => exact ⟨_, rfl⟩
      | ok v =>
        cases hop : op acc v with
        | panic => exact ⟨.panic, by simp only [hop]⟩
        | ok acc' =>
          obtain ⟨r, hr⟩ := ih acc' fun y hy => hf y (List.mem_cons_of_mem _ hy)
          exact ⟨r, by simp only [hop, hr]⟩

/-- Some schedule produces a result. -/
theorem parReduce_exists (xs : List β) (hf : ∀ x ∈ xs, f x ≠ none) : ∃ r, ParReduce f op e xs r := by
  obtain ⟨r, hr⟩ := parLeaf_total e xs hf
  exact ⟨r, .leaf hr⟩

theorem parLeaf_panic (acc : ρ) (xs : List β) {r : Res ρ} (h : parLeaf f op acc xs = some r) {x : β} (hx : x ∈ xs)
    (hp : f x = some .panic) : r = .panic := by
  induction xs generalizing acc with
  | nil => simp at hx
  | cons y xs ih =>
    rw [parLeaf] at h
    cases hy : f y with
    | none => rw [hy] at h; cases h
    | some s =>
      cases s with
      | panic => rw [hy] at h; cases h; rfl
      | ok v =>
        simp only [hy] at h
        cases hop : op acc v with
        | panic => simp only [hop] at h; cases h; rfl
        | ok acc' =>
          simp only [hop] at h
          rcases List.mem_cons.1 hx with rfl | hx
          · rw [hp] at hy; cases hy
          · exact ih acc' h hx

/-- A panicking job makes every schedule panic. -/
theorem parReduce_panic {xs : List β} {r : Res ρ} (h : ParReduce f op e xs r) {x : β} (hx : x ∈ xs)
    (hp : f x = some .panic) : r = .panic := by
  induction h with
  | leaf h => exact parLeaf_panic e _ h hx hp
  | node _ _ ih1 ih2 =>
    rcases List.mem_append.1 hx with hx | hx
    · cases ih1 hx
    · cases ih2 hx
  | panicL => rfl
  | panicR => rfl

theorem parLeaf_rep {I : List γ → ρ → Prop} (g : β → List γ) {N : Nat}
    (hop : ∀ a b u v, I u a → I v b → (u ++ v).length ≤ N → ∃ c, op a b = .ok c ∧ I (u ++ v) c)
    (xs : List β) (hf : ∀ x ∈ xs, ∃ v, f x = some (.ok v) ∧ I (g x) v) (acc : ρ) (u : List γ) (hu : I u acc)
    (hN : (u ++ (xs.map g).flatten).length ≤ N) :
    ∃ v, parLeaf f op acc xs = some (.ok v) ∧ I (u ++ (xs.map g).flatten) v := by
  induction xs generalizing acc u with
  | nil => exact ⟨acc, rfl, by simpa using hu⟩
  | cons x xs ih =>
    obtain ⟨v, h1, h2⟩ := hf x (List.mem_cons_self ..)
    rw [List.map_cons, List.flatten_cons, ← List.append_assoc] at hN ⊢
    obtain ⟨c, h3, h4⟩ := hop acc v u (g x) hu h2 (by rw [List.length_append] at hN; omega)
    obtain ⟨w, h5, h6⟩ := ih (fun y hy => hf y (List.mem_cons_of_mem _ hy)) c (u ++ g x) h4 hN
    refine ⟨w, ?_, h6⟩
    rw [parLeaf]
    simp only [h1, h3, h5]

/-- If every result describes a list, and the operation describes concatenation (up to a total length), then every
schedule gives the description of the whole list. -/
theorem parReduce_rep {I : List γ → ρ → Prop} (g : β → List γ) {N : Nat} (he : I [] e)
    (hop : ∀ a b u v, I u a → I v b → (u ++ v).length ≤ N → ∃ c, op a b = .ok c ∧ I (u ++ v) c)
    {xs : List β} {r : Res ρ} (h : ParReduce f op e xs r) (hf : ∀ x ∈ xs, ∃ v, f x = some (.ok v) ∧ I (g x) v)
    (hN : (xs.map g).flatten.length ≤ N) : ∃ v, r = .ok v ∧ I (xs.map g).flatten v := by
  induction h with
  | leaf h =>
    obtain ⟨v, h1, h2⟩ := parLeaf_rep g hop _ hf e [] he (by simpa using hN)
    rw [h] at h1
    cases h1
    exact ⟨v, rfl, by simpa using h2⟩
  | node _ _ ih1 ih2 =>
    rw [List.map_append, List.flatten_append] at hN ⊢
    have hN' := hN
    rw [List.length_append] at hN'
    obtain ⟨v, h1, h2⟩ := ih1 (fun x hx => hf x (List.mem_append_left _ hx)) (by omega)
    obtain ⟨w, h3, h4⟩ := ih2 (fun x hx => hf x (List.mem_append_right _ hx)) (by omega)
    cases h1
    cases h3
    exact hop _ _ _ _ h2 h4 hN
  | panicL _ _ ih1 _ =>
    rw [List.map_append, List.flatten_append] at hN
    rw [List.length_append] at hN
    obtain ⟨_, h1, -⟩ := ih1 (fun x hx => hf x (List.mem_append_left _ hx)) (by omega)
    cases h1
  | panicR _ _ _ ih2 =>
    rw [List.map_append, List.flatten_append] at hN
    rw [List.length_append] at hN
    obtain ⟨_, h1, -⟩ := ih2 (fun x hx => hf x (List.mem_append_right _ hx)) (by omega)
    cases h1

end

/-! ## Sums -/

section
variable {β : Type} {f : β → Option (Res Nat)}

theorem uadd_le {a b c : Nat} (h : uadd a b = .ok c) : c = a + b ∧ c ≤ usizeMax := by
  unfold uadd at h
  split at h
  · cases h; exact ⟨rfl, by assumption⟩
  · cases h

theorem uadd_panic {a b : Nat} : uadd a b = .panic ↔ usizeMax < a + b := by
  unfold uadd
  split
  · constructor
    · intro h; cases h
    · intro h; omega
  · exact ⟨fun _ => by omega, fun _ => rfl⟩

/-- Adding with the overflow check, a panic spoiling the sum. -/
def addR : Res Nat → Res Nat → Res Nat
  | .ok a, .ok b => uadd a b
  | _, _ => .panic

theorem addR_assoc (a b c : Res Nat) : addR (addR a b) c = addR a (addR b c) := by
  have pr : ∀ x, addR x .panic = .panic := fun x => by cases x <;> rfl
  have pl : ∀ x, addR .panic x = .panic := fun x => by cases x <;> rfl
  cases a with
  | panic => rw [pl, pl, pl]
  | ok a =>
    cases c with
    | panic => rw [pr, pr, pr]
    | ok c =>
      cases b with
      | panic => rw [pr, pl, pr]
      | ok b =>
        simp only [addR]
        unfold uadd
        by_cases h : a + b + c ≤ usizeMax
        · rw [if_pos (by omega), if_pos (by omega)]
          simp only
          rw [if_pos h, if_pos (by omega), Nat.add_assoc]
        · by_cases h1 : a + b ≤ usizeMax <;> by_cases h2 : b + c ≤ usizeMax
          · rw [if_pos h1, if_pos h2]
            simp only
            rw [if_neg h, if_neg (by omega)]
          · rw [if_pos h1, if_neg h2]
            simp only
            rw [if_neg h]
          · rw [if_neg h1, if_pos h2]
            simp only
            rw [if_neg (by omega)]
          · rw [if_neg h1, if_neg h2]

/-- The sum of a list. -/
def sumR (F : β → Res Nat) (xs : List β) : Res Nat := xs.foldr (fun x s => addR (F x) s) (.ok 0)

def Small (r : Res Nat) : Prop := ∀ v, r = .ok v → v ≤ usizeMax

theorem small_addR (a b : Res Nat) : Small (addR a b) := by
  intro v h
  cases a <;> cases b <;> simp only [addR] at h
  · exact (uadd_le h).2
  · cases h
  · cases h
  · cases h

theorem addR_zero {a : Res Nat} (h : Small a) : addR (.ok 0) a = a := by
  cases a with
  | panic => rfl
  | ok v =>
    have := h v rfl
    simp only [addR]
    unfold uadd
    rw [if_pos (by omega), Nat.zero_add]

theorem small_sumR (F : β → Res Nat) (xs : List β) : Small (sumR F xs) := by
  cases xs with
  | nil => intro v h; cases h; exact Nat.zero_le _
  | cons x xs => exact small_addR _ _

theorem sumR_append (F : β → Res Nat) (xs ys : List β) : sumR F (xs ++ ys) = addR (sumR F xs) (sumR F ys) := by
  induction xs with
  | nil => exact (addR_zero (small_sumR F ys)).symm
  | cons x xs ih =>
    show addR (F x) (sumR F (xs ++ ys)) = addR (addR (F x) (sumR F xs)) (sumR F ys)
    rw [ih, addR_assoc]

theorem parLeaf_sum {F : β → Res Nat} (xs : List β) (hf : ∀ x ∈ xs, f x = some (F x)) (acc : Nat) (ha : acc ≤ usizeMax) :
    parLeaf f uadd acc xs = some (addR (.ok acc) (sumR F xs)) := by
  induction xs generalizing acc with
  | nil =>
    show _ = some (uadd acc 0)
    rw [parLeaf]
    unfold uadd
    rw [if_pos (by omega), Nat.add_zero]
  | cons x xs ih =>
    rw [parLeaf, hf x (List.mem_cons_self ..)]
    show _ = some (addR (.ok acc) (addR (F x) (sumR F xs)))
    rw [← addR_assoc]
    cases hF : F x with
    | panic => rfl
    | ok v =>
      simp only
      cases hop : uadd acc v with
      | panic => simp only [addR, hop]
      | ok acc' =>
        simp only [hop]
        rw [ih (fun y hy => hf y (List.mem_cons_of_mem _ hy)) acc' (uadd_le hop).2]
        show _ = some (addR (uadd acc v) _)
        rw [hop]

/-- Every schedule gives the sum. -/
theorem parReduce_sum {F : β → Res Nat} {xs : List β} {r : Res Nat} (h : ParReduce f uadd 0 xs r)
    (hf : ∀ x ∈ xs, f x = some (F x)) : r = sumR F xs := by
  induction h with
  | leaf h =>
    rw [parLeaf_sum _ hf 0 (Nat.zero_le _), addR_zero (small_sumR _ _)] at h
    cases h; rfl
  | node _ _ ih1 ih2 =>
    rw [sumR_append, ← ih1 fun x hx => hf x (List.mem_append_left _ hx), ← ih2 fun x hx => hf x (List.mem_append_right _ hx)]
    rfl
  | panicL _ _ ih1 _ =>
    rw [sumR_append, ← ih1 fun x hx => hf x (List.mem_append_left _ hx)]
    rfl
  | panicR _ _ _ ih2 =>
    rw [sumR_append, ← ih2 fun x hx => hf x (List.mem_append_right _ hx)]
    cases sumR F _ <;> rfl

theorem sumR_eq (F : β → Nat) (xs : List β) : sumR (fun x => .ok (F x)) xs =
    if (xs.map F).sum ≤ usizeMax then .ok (xs.map F).sum else .panic := by
  induction xs with
  | nil => rfl
  | cons x xs ih =>
    show addR (.ok (F x)) (sumR _ xs) = _
    rw [ih, List.map_cons, List.sum_cons]
    split
    · simp only [addR]; rfl
    · rw [if_neg (by omega)]; rfl

theorem sumR_panic (F : β → Res Nat) {xs : List β} {x : β} (hx : x ∈ xs) (hp : F x = .panic) : sumR F xs = .panic := by
  induction xs with
  | nil => simp at hx
  | cons y xs ih =>
    show addR (F y) (sumR F xs) = _
    rcases List.mem_cons.1 hx with rfl | hx
    · rw [hp]; rfl
    · rw [ih hx]; cases F y <;> rfl

end

/-! ## ECU tables -/

theorem isEcuTable_nil : IsEcuTable [] [] := ⟨List.Pairwise.nil, by simp, by simp, by simp⟩

theorem isEcuTable_perm {xs ys : List (B4 × Option UInt32)} {m} (h : IsEcuTable xs m) (hp : xs.Perm ys) : IsEcuTable ys m where
  sorted := h.sorted
  keys ecu := by
    rw [h.keys]
    exact ⟨fun ⟨x, hx, h'⟩ => ⟨x, hp.mem_iff.1 hx, h'⟩, fun ⟨x, hx, h'⟩ => ⟨x, hp.mem_iff.2 hx, h'⟩⟩
  count ecu hist n he := by rw [h.count ecu hist n he, hp.count_eq]
  hist ecu hist n he := isHistogram_perm (h.hist ecu hist n he) (hp.filterMap _)

theorem isEcuTable_unique {xs : List (B4 × Option UInt32)} {m m' : OrdMap B4 (OrdMap UInt32 Nat × Nat)} (h : IsEcuTable xs m)
    (h' : IsEcuTable xs m') : m = m' := by
  have hs : m.Sorted := h.sorted
  have hs' : m'.Sorted := h'.sorted
  have key : ∀ ecu v, (ecu, v) ∈ m ↔ (ecu, v) ∈ m' := by
    have one : ∀ {m m' : List (B4 × (OrdMap UInt32 Nat × Nat))}, IsEcuTable xs m → IsEcuTable xs m' →
        ∀ ecu v, (ecu, v) ∈ m → (ecu, v) ∈ m' := by
      intro m m' h h' ecu v he
      obtain ⟨w, hw⟩ := (h'.keys ecu).2 ((h.keys ecu).1 ⟨v, he⟩)
      obtain ⟨a, b⟩ := v
      obtain ⟨c, d⟩ := w
      have h1 := h.count _ _ _ he
      have h2 := h'.count _ _ _ hw
      have h3 : a = c := isHistogram_unique (h.hist _ _ _ he) (h'.hist _ _ _ hw)
      rw [h3, h1, ← h2]
      exact hw
    exact fun ecu v => ⟨one h h' ecu v, one h' h ecu v⟩
  refine OrdMap.ext hs hs' fun k => ?_
  have : ∀ v, m.get k = some v ↔ m'.get k = some v := fun v => by
    rw [OrdMap.get_eq_some hs, OrdMap.get_eq_some hs', key]
  cases hg : m.get k with
  | some v => exact ((this v).1 hg).symm
  | none =>
    cases hg' : m'.get k with
    | none => rfl
    | some v => rw [(this v).2 hg'] at hg; cases hg

/-- One step of the merge: the items of one ECU. -/
theorem isEcuTable_insert {xs zs : List (B4 × Option UInt32)} {acc : OrdMap B4 (OrdMap UInt32 Nat × Nat)} {k : B4}
    {h : OrdMap UInt32 Nat} (ha : IsEcuTable xs acc) (hz : ∀ x ∈ zs, x.1 = k) (hne : zs ≠ [])
    (hh : IsHistogram (zs.filterMap fun x => x.2) h) (hl : xs.length + zs.length ≤ usizeMax) :
    ∃ h', mergeCounts ((acc.get k).getD ([], 0)).1 h = .ok h' ∧
      uadd ((acc.get k).getD ([], 0)).2 (zs.count (k, none)) = .ok (((acc.get k).getD ([], 0)).2 + zs.count (k, none)) ∧
      IsEcuTable (xs ++ zs) (acc.insert k (h', ((acc.get k).getD ([], 0)).2 + zs.count (k, none))) := by
  have hs : acc.Sorted := ha.sorted
  have hbase : IsHistogram (xs.filterMap fun x => if x.1 = k then x.2 else none) ((acc.get k).getD ([], 0)).1 ∧
      ((acc.get k).getD ([], 0)).2 = xs.count (k, none) := by
    cases hg : acc.get k with
    | some v =>
      obtain ⟨a, b⟩ := v
      have hm := (OrdMap.get_eq_some hs).1 hg
      exact ⟨ha.hist _ _ _ hm, ha.count _ _ _ hm⟩
    | none =>
      have hno : ∀ x ∈ xs, x.1 ≠ k := by
        intro x hx he
        obtain ⟨v, hv⟩ := (ha.keys k).2 ⟨x, hx, he⟩
        rw [(OrdMap.get_eq_some hs).2 hv] at hg
        cases hg
      refine ⟨?_, ?_⟩
      · have : (xs.filterMap fun x => if x.1 = k then x.2 else none) = [] := by
          rw [List.filterMap_eq_nil_iff]
          intro x hx
          rw [if_neg (hno x hx)]
        rw [this]
        exact isHistogram_nil
      · show 0 = _
        rw [List.count_eq_zero.2]
        intro hm
        exact hno _ hm rfl
  have hzf : (zs.filterMap fun x => if x.1 = k then x.2 else none) = zs.filterMap fun x => x.2 := by
    clear hne hh hl
    induction zs with
    | nil => rfl
    | cons z zs ih =>
      rw [List.filterMap_cons, List.filterMap_cons, if_pos (hz z (List.mem_cons_self ..)),
        ih fun x hx => hz x (List.mem_cons_of_mem _ hx)]
  have hlen1 := List.length_filterMap_le (fun x : B4 × Option UInt32 => if x.1 = k then x.2 else none) xs
  have hlen2 := List.length_filterMap_le (fun x : B4 × Option UInt32 => x.2) zs
  have hc1 := List.count_le_length (a := ((k, none) : B4 × Option UInt32)) (l := xs)
  have hc2 := List.count_le_length (a := ((k, none) : B4 × Option UInt32)) (l := zs)
  obtain ⟨h', hm1, hm2⟩ := mergeCounts_hist hbase.1 hh (by omega)
  refine ⟨h', hm1, uadd_ok (by rw [hbase.2]; omega), ?_⟩
  have hget := fun k' => OrdMap.get_insert hs k (h', ((acc.get k).getD ([], 0)).2 + zs.count (k, none)) k'
  have hs2 := OrdMap.sorted_insert hs k (h', ((acc.get k).getD ([], 0)).2 + zs.count (k, none))
  have hother : ∀ ecu, ecu ≠ k → (∀ x ∈ zs, x.1 ≠ ecu) := fun ecu hne x hx he => hne (by rw [← he, hz x hx])
  have hmem : ∀ ecu v, (ecu, v) ∈ acc.insert k (h', ((acc.get k).getD ([], 0)).2 + zs.count (k, none)) ↔
      (ecu = k ∧ v = (h', ((acc.get k).getD ([], 0)).2 + zs.count (k, none))) ∨ (ecu ≠ k ∧ (ecu, v) ∈ acc) := by
    intro ecu v
    rw [← OrdMap.get_eq_some hs2, hget]
    by_cases he : ecu = k
    · subst he
      rw [if_pos rfl]
      simp only [Option.some.injEq, true_and, ne_eq, not_true, false_and, or_false]
      exact eq_comm
    · rw [if_neg he, OrdMap.get_eq_some hs]
      simp [he]
  refine ⟨hs2, ?_, ?_, ?_⟩
  · intro ecu
    by_cases he : ecu = k
    · subst he
      constructor
      · intro _
        obtain ⟨z, hzm⟩ := List.exists_mem_of_ne_nil _ hne
        exact ⟨z, List.mem_append_right _ hzm, hz z hzm⟩
      · intro _
        exact ⟨_, (hmem _ _).2 (Or.inl ⟨rfl, rfl⟩)⟩
    · constructor
      · rintro ⟨v, hv⟩
        rcases (hmem _ _).1 hv with ⟨h1, -⟩ | ⟨-, h1⟩
        · exact absurd h1 he
        · obtain ⟨x, hx, h2⟩ := (ha.keys ecu).1 ⟨v, h1⟩
          exact ⟨x, List.mem_append_left _ hx, h2⟩
      · rintro ⟨x, hx, h2⟩
        rcases List.mem_append.1 hx with hx | hx
        · obtain ⟨v, hv⟩ := (ha.keys ecu).2 ⟨x, hx, h2⟩
          exact ⟨v, (hmem _ _).2 (Or.inr ⟨he, hv⟩)⟩
        · exact absurd h2 (hother ecu he x hx)
  · intro ecu hist n hn
    rcases (hmem _ _).1 hn with ⟨rfl, h1⟩ | ⟨h0, h1⟩
    · simp only [Prod.mk.injEq] at h1
      rw [h1.2, List.count_append, hbase.2]
    · have h2 : zs.count (ecu, none) = 0 := List.count_eq_zero.2 fun hm => hother ecu h0 _ hm rfl
      rw [ha.count _ _ _ h1, List.count_append, h2, Nat.add_zero]
  · intro ecu hist n hn
    rw [List.filterMap_append]
    rcases (hmem _ _).1 hn with ⟨rfl, h1⟩ | ⟨h0, h1⟩
    · simp only [Prod.mk.injEq] at h1
      rw [h1.1, hzf]
      exact hm2
    · have : (zs.filterMap fun x => if x.1 = ecu then x.2 else none) = [] := by
        rw [List.filterMap_eq_nil_iff]
        intro x hx
        rw [if_neg (hother ecu h0 x hx)]
      rw [this, List.append_nil]
      exact ha.hist _ _ _ h1

/-- Merging two tables gives the table of both. -/
theorem mergeNested_table {xs ys : List (B4 × Option UInt32)} {a b : OrdMap B4 (OrdMap UInt32 Nat × Nat)}
    (ha : IsEcuTable xs a) (hb : IsEcuTable ys b) (hl : xs.length + ys.length ≤ usizeMax) :
    ∃ m, mergeNested a b = .ok m ∧ IsEcuTable (xs ++ ys) m := by
  induction b generalizing xs ys a with
  | nil =>
    have : ys = [] := by
      cases ys with
      | nil => rfl
      | cons y ys =>
        obtain ⟨v, hv⟩ := (hb.keys y.1).2 ⟨y, List.mem_cons_self .., rfl⟩
        cases hv
    subst this
    exact ⟨a, rfl, by simpa using ha⟩
  | cons e b ih =>
    obtain ⟨k, h, n⟩ := e
    have hs := List.pairwise_cons.1 hb.sorted
    -- the items of `k` and the others
    let zs := ys.filter fun x => decide (x.1 = k)
    let ws := ys.filter fun x => !decide (x.1 = k)
    have hperm : (zs ++ ws).Perm ys := List.filter_append_perm _ _
    have hzl : zs.length + ws.length = ys.length := by rw [← List.length_append]; exact hperm.length_eq
    have hzk : ∀ x ∈ zs, x.1 = k := fun x hx => by simpa using (List.mem_filter.1 hx).2
    have hwk : ∀ x ∈ ws, x.1 ≠ k := fun x hx => by simpa using (List.mem_filter.1 hx).2
    have hzne : zs ≠ [] := by
      obtain ⟨x, hx, hxk⟩ := (hb.keys k).1 ⟨_, List.mem_cons_self ..⟩
      exact List.ne_nil_of_mem (List.mem_filter.2 ⟨hx, by simp [hxk]⟩)
    have hzh : IsHistogram (zs.filterMap fun x => x.2) h := by
      have h1 := hb.hist k h n (List.mem_cons_self ..)
      have h2 : (ys.filterMap fun x => if x.1 = k then x.2 else none) = zs.filterMap fun x => x.2 := by
        show _ = (ys.filter _).filterMap _
        rw [List.filterMap_filter]
        congr 1
        funext x
        by_cases hx : x.1 = k <;> simp [hx]
      rw [← h2]; exact h1
    have hzn : n = zs.count (k, none) := by
      rw [hb.count k h n (List.mem_cons_self ..)]
      show _ = (ys.filter _).count _
      rw [List.count_filter (by simp)]
    have hw : IsEcuTable ws b := by
      have hbk : ∀ ecu v, (ecu, v) ∈ b → ecu ≠ k := fun ecu v he heq => by
        have := hs.1 _ he
        simp only at this
        rw [heq] at this
        exact Key.irrefl k this
      refine ⟨hs.2, ?_, ?_, ?_⟩
      · intro ecu
        constructor
        · rintro ⟨v, hv⟩
          obtain ⟨x, hx, hxe⟩ := (hb.keys ecu).1 ⟨v, List.mem_cons_of_mem _ hv⟩
          exact ⟨x, List.mem_filter.2 ⟨hx, by simp [hxe, hbk ecu v hv]⟩, hxe⟩
        · rintro ⟨x, hx, hxe⟩
          obtain ⟨v, hv⟩ := (hb.keys ecu).2 ⟨x, (List.mem_filter.1 hx).1, hxe⟩
          rcases List.mem_cons.1 hv with h1 | h1
          · simp only [Prod.mk.injEq] at h1
            exact absurd (hxe.trans h1.1) (hwk x hx)
          · exact ⟨v, h1⟩
      · intro ecu hist m hm
        rw [hb.count ecu hist m (List.mem_cons_of_mem _ hm)]
        show _ = (ys.filter _).count _
        rw [List.count_filter (by simp [hbk ecu _ hm])]
      · intro ecu hist m hm
        have h1 := hb.hist ecu hist m (List.mem_cons_of_mem _ hm)
        have h2 : (ys.filterMap fun x => if x.1 = ecu then x.2 else none) =
            ws.filterMap fun x => if x.1 = ecu then x.2 else none := by
          show _ = (ys.filter _).filterMap _
          rw [List.filterMap_filter]
          congr 1
          funext x
          by_cases hx : x.1 = ecu
          · have : x.1 ≠ k := by rw [hx]; exact hbk ecu _ hm
            simp [hx, hbk ecu _ hm]
          · simp [hx]
        rw [← h2]; exact h1
    obtain ⟨h', h1, h2, h3⟩ := isEcuTable_insert ha hzk hzne hzh (by omega)
    obtain ⟨m, h4, h5⟩ := ih h3 hw (by rw [List.length_append]; omega)
    refine ⟨m, ?_, isEcuTable_perm h5 ?_⟩
    · rw [mergeNested]
      simp only [h1, Res.bind, hzn, h2]
      exact h4
    · rw [List.append_assoc]
      exact hperm.append_left xs

/-! ## The items of a table -/

/-- Items described by a table. -/
def itemsOf (m : List (B4 × (OrdMap UInt32 Nat × Nat))) : List (B4 × Option UInt32) :=
  m.flatMap fun e => List.replicate e.2.2 (e.1, none) ++ e.2.1.flatMap fun x => List.replicate x.2 (e.1, some x.1)

theorem sum_zeros {α : Type} (l : List α) : (l.map fun _ => 0).sum = 0 := by
  induction l with
  | nil => rfl
  | cons x l ih => rw [List.map_cons, List.sum_cons, ih]

theorem count_itemsOf_none (m : List (B4 × (OrdMap UInt32 Nat × Nat))) (k : B4) :
    (itemsOf m).count (k, none) = msgsIn m k := by
  unfold itemsOf msgsIn
  rw [List.count_flatMap]
  congr 1
  refine List.map_congr_left fun e _ => ?_
  simp only [Function.comp, List.count_append, List.count_replicate, List.count_flatMap]
  by_cases h : e.1 = k
  · simp [h, List.count_replicate, Function.comp_def, sum_zeros]
  · simp [h, List.count_replicate, Function.comp_def, sum_zeros]

theorem count_itemsOf_some (m : List (B4 × (OrdMap UInt32 Nat × Nat))) (k : B4) (d : UInt32) :
    (itemsOf m).count (k, some d) = spansIn m k d := by
  unfold itemsOf spansIn
  rw [List.count_flatMap]
  congr 1
  refine List.map_congr_left fun e _ => ?_
  simp only [Function.comp, List.count_append, List.count_replicate, List.count_flatMap]
  by_cases h : e.1 = k
  · simp [h, List.count_replicate, Function.comp_def]
  · simp [h, List.count_replicate, Function.comp_def, sum_zeros]

theorem count_filterMap (items : List (B4 × Option UInt32)) (k : B4) (d : UInt32) :
    (items.filterMap fun x => if x.1 = k then x.2 else none).count d = items.count (k, some d) := by
  induction items with
  | nil => rfl
  | cons x items ih =>
    obtain ⟨a, o⟩ := x
    rw [List.filterMap_cons, List.count_cons]
    by_cases h : a = k
    · subst h
      cases o with
      | none => simp [ih]
      | some u => simp [List.count_cons, ih]
    · simp [h, ih]

theorem msgsIn_tot (m : List (B4 × (OrdMap UInt32 Nat × Nat))) (k : B4) :
    msgsIn m k = tot (m.map fun e => (e.1, e.2.2)) k := by
  simp [msgsIn, tot, Function.comp_def]

theorem spansIn_tot (m : List (B4 × (OrdMap UInt32 Nat × Nat))) (k : B4) (d : UInt32) :
    spansIn m k d = tot (m.map fun e => (e.1, tot e.2.1 d)) k := by
  simp [spansIn, tot, Function.comp_def]

theorem sorted_map {ν μ : Type} {m : List (B4 × ν)} (h : m.Pairwise fun a b => Key.lt a.1 b.1) (g : B4 × ν → μ) :
    OrdMap.Sorted (m.map fun e => (e.1, g e)) := by
  unfold OrdMap.Sorted
  rw [List.pairwise_map]
  exact h

theorem msgsIn_eq {m : List (B4 × (OrdMap UInt32 Nat × Nat))} (hs : m.Pairwise fun a b => Key.lt a.1 b.1)
    {ecu hist n} (he : (ecu, hist, n) ∈ m) : msgsIn m ecu = n := by
  have h1 := sorted_map hs fun e => e.2.2
  rw [msgsIn_tot, tot_sorted h1, cnt,
    (OrdMap.get_eq_some h1).2 (List.mem_map.2 ⟨_, he, rfl⟩)]
  rfl

theorem spansIn_eq {m : List (B4 × (OrdMap UInt32 Nat × Nat))} (hs : m.Pairwise fun a b => Key.lt a.1 b.1)
    {ecu} {hist : OrdMap UInt32 Nat} {n} (he : (ecu, hist, n) ∈ m) (hh : hist.Sorted) (d : UInt32) :
    spansIn m ecu d = cnt hist d := by
  have h1 := sorted_map hs fun e => tot e.2.1 d
  rw [spansIn_tot, tot_sorted h1, cnt,
    (OrdMap.get_eq_some h1).2 (List.mem_map.2 ⟨_, he, rfl⟩), Option.getD_some, tot_sorted hh]

/-- A table with sorted, positive entries describes its items. -/
theorem isEcuTable_itemsOf {m : List (B4 × (OrdMap UInt32 Nat × Nat))} (hs : m.Pairwise fun a b => Key.lt a.1 b.1)
    (hp : ∀ ecu hist n, (ecu, hist, n) ∈ m → 0 < n ∧ OrdMap.Sorted hist ∧ ∀ x ∈ hist, 0 < x.2) : IsEcuTable (itemsOf m) m where
  sorted := hs
  keys ecu := by
    constructor
    · rintro ⟨⟨hist, n⟩, he⟩
      refine ⟨(ecu, none), List.count_pos_iff.1 ?_, rfl⟩
      rw [count_itemsOf_none, msgsIn_eq hs he]
      exact (hp _ _ _ he).1
    · rintro ⟨x, hx, rfl⟩
      unfold itemsOf at hx
      obtain ⟨e, he, hx⟩ := List.mem_flatMap.1 hx
      refine ⟨e.2, ?_⟩
      rcases List.mem_append.1 hx with hx | hx
      · rw [List.eq_of_mem_replicate hx]; exact he
      · obtain ⟨y, -, hx⟩ := List.mem_flatMap.1 hx
        rw [List.eq_of_mem_replicate hx]; exact he
  count ecu hist n he := by rw [count_itemsOf_none, msgsIn_eq hs he]
  hist ecu hist n he := by
    obtain ⟨-, h2, h3⟩ := hp _ _ _ he
    refine isHistogram_iff.2 ⟨h2, h3, fun d => ?_⟩
    rw [count_filterMap, count_itemsOf_some, spansIn_eq hs he h2]

/-- What a table of items reports. -/
theorem isEcuTable_counts {items : List (B4 × Option UInt32)} {m : List (B4 × (OrdMap UInt32 Nat × Nat))}
    (h : IsEcuTable items m) (ecu : B4) :
    msgsIn m ecu = items.count (ecu, none) ∧ ∀ d, spansIn m ecu d = items.count (ecu, some d) := by
  by_cases hk : ∃ v, (ecu, v) ∈ m
  · obtain ⟨⟨hist, n⟩, he⟩ := hk
    refine ⟨by rw [msgsIn_eq h.sorted he, h.count _ _ _ he], fun d => ?_⟩
    have hi := isHistogram_iff.1 (h.hist _ _ _ he)
    rw [spansIn_eq h.sorted he hi.1, hi.2.2, count_filterMap]
  · have hno : ∀ e ∈ m, e.1 ≠ ecu := fun e he heq => hk ⟨e.2, by rw [← heq]; exact he⟩
    have hno2 : ∀ o, items.count (ecu, o) = 0 := fun o => List.count_eq_zero.2 fun hm =>
      hk ((h.keys ecu).2 ⟨_, hm, rfl⟩)
    refine ⟨?_, fun d => ?_⟩
    · rw [hno2, msgsIn_tot]
      refine tot_eq_zero fun e he => ?_
      obtain ⟨x, hx, rfl⟩ := List.mem_map.1 he
      exact hno x hx
    · rw [hno2, spansIn_tot]
      refine tot_eq_zero fun e he => ?_
      obtain ⟨x, hx, rfl⟩ := List.mem_map.1 he
      exact hno x hx

end Verif
