import Verif.Spec.Histogram
import Verif.Lemmas.Pull
import Verif.Model.Ripdlt

/-! # Lemmas about histograms -/

set_option linter.unusedSimpArgs false
set_option linter.unusedSectionVars false

namespace Verif

open Spec

section
variable {κ : Type} [Key κ] [DecidableEq κ]

/-- The count stored for a key, 0 if there is none. -/
def cnt (m : OrdMap κ Nat) (k : κ) : Nat := (m.get k).getD 0

theorem isHistogram_iff {keys : List κ} {m : OrdMap κ Nat} :
    IsHistogram keys m ↔ m.Sorted ∧ (∀ e ∈ m, 0 < e.2) ∧ ∀ k, cnt m k = keys.count k := by
  constructor
  · intro h
    have hs : m.Sorted := h.sorted
    refine ⟨hs, ?_, ?_⟩
    · rintro ⟨k, v⟩ he; exact ((h.mem k v).1 he).1
    · intro k
      unfold cnt
      cases hg : m.get k with
      | some v =>
        have := (h.mem k v).1 ((OrdMap.get_eq_some hs).1 hg)
        simp [this.2]
      | none =>
        by_cases h0 : keys.count k = 0
        · simp [h0]
        · have := (OrdMap.get_eq_some hs).2 ((h.mem k (keys.count k)).2 ⟨by omega, rfl⟩)
          rw [hg] at this; simp at this
  · rintro ⟨hs, hp, hc⟩
    refine ⟨hs, ?_⟩
    intro k v
    constructor
    · intro he
      refine ⟨hp _ he, ?_⟩
      rw [← hc k, cnt, (OrdMap.get_eq_some hs).2 he]; rfl
    · rintro ⟨h0, rfl⟩
      rw [← OrdMap.get_eq_some hs]
      have := hc k
      unfold cnt at this
      cases hg : m.get k with
      | some v => rw [hg] at this; simp at this; rw [this]
      | none => rw [hg] at this; simp at this; omega

theorem isHistogram_unique {keys : List κ} {m m' : OrdMap κ Nat} (h : IsHistogram keys m) (h' : IsHistogram keys m') :
    m = m' := by
  have hs : m.Sorted := h.sorted
  have hs' : m'.Sorted := h'.sorted
  refine OrdMap.ext hs hs' fun k => ?_
  have : ∀ v, m.get k = some v ↔ m'.get k = some v := fun v => by
    rw [OrdMap.get_eq_some hs, OrdMap.get_eq_some hs', h.mem, h'.mem]
  cases hg : m.get k with
  | some v => exact ((this v).1 hg).symm
  | none =>
    cases hg' : m'.get k with
    | none => rfl
    | some v => rw [(this v).2 hg'] at hg; simp at hg

theorem isHistogram_nil : IsHistogram ([] : List κ) [] := ⟨List.Pairwise.nil, by intro k v; simp; omega⟩

theorem isHistogram_perm {keys keys' : List κ} {m : OrdMap κ Nat} (h : IsHistogram keys m) (hp : keys.Perm keys') :
    IsHistogram keys' m := ⟨h.sorted, fun k v => by rw [h.mem, hp.count_eq]⟩

/-- The rest of a histogram is the histogram of the other keys. -/
theorem isHistogram_tail {keys : List κ} {k : κ} {v : Nat} {m : OrdMap κ Nat} (h : IsHistogram keys ((k, v) :: m)) :
    IsHistogram (keys.filter fun x => decide (x ≠ k)) m ∧ v = keys.count k := by
  have hs := List.pairwise_cons.1 h.sorted
  refine ⟨⟨hs.2, ?_⟩, ((h.mem k v).1 List.mem_cons_self).2⟩
  intro k' v'
  have hcount : k' ≠ k → (keys.filter fun x => decide (x ≠ k)).count k' = keys.count k' := by
    intro hne
    rw [List.count_filter]
    simp [hne]
  have hzero : (keys.filter fun x => decide (x ≠ k)).count k = 0 := by
    rw [List.count_eq_zero]
    intro hm
    have := (List.mem_filter.1 hm).2
    simp at this
  constructor
  · intro hm
    have hne : k' ≠ k := by
      rintro rfl
      exact Key.irrefl _ (hs.1 (k', v') hm)
    rw [hcount hne]
    exact (h.mem k' v').1 (List.mem_cons_of_mem _ hm)
  · rintro ⟨h0, h1⟩
    have hne : k' ≠ k := by
      rintro rfl
      rw [hzero] at h1; omega
    rw [hcount hne] at h1
    rcases List.mem_cons.1 ((h.mem k' v').2 ⟨h0, h1⟩) with h' | h'
    · simp only [Prod.mk.injEq] at h'
      exact absurd h'.1 hne
    · exact h'

theorem sum_filter_count (g : κ → Nat) (k : κ) (keys : List κ) :
    g k * keys.count k + ((keys.filter fun x => decide (x ≠ k)).map g).sum = (keys.map g).sum := by
  induction keys with
  | nil => simp
  | cons x xs ih =>
    by_cases hx : x = k
    · subst hx
      simp only [List.count_cons_self, ne_eq, not_true_eq_false, decide_false, List.filter_cons_of_neg,
        Bool.false_eq_true, not_false_eq_true, List.map_cons, List.sum_cons, Nat.mul_add, Nat.mul_one]
      simp only [ne_eq] at ih
      omega
    · rw [List.count_cons_of_ne hx]
      have : (List.filter (fun y => decide (y ≠ k)) (x :: xs)) = x :: List.filter (fun y => decide (y ≠ k)) xs := by
        rw [List.filter_cons_of_pos]; simp [hx]
      rw [this, List.map_cons, List.sum_cons, List.map_cons, List.sum_cons]
      omega

/-- Weighted sums over a histogram are sums over the keys. -/
theorem isHistogram_sum (g : κ → Nat) {keys : List κ} {m : OrdMap κ Nat} (h : IsHistogram keys m) :
    (m.map fun e => g e.1 * e.2).sum = (keys.map g).sum := by
  induction m generalizing keys with
  | nil =>
    have : keys = [] := by
      cases keys with
      | nil => rfl
      | cons k ks =>
        have := (h.mem k ((k :: ks).count k)).2 ⟨by simp, rfl⟩
        simp at this
    subst this; rfl
  | cons e m ih =>
    obtain ⟨k, v⟩ := e
    obtain ⟨h1, h2⟩ := isHistogram_tail h
    rw [List.map_cons, List.sum_cons, ih h1, h2]
    exact sum_filter_count g k keys

theorem isHistogram_total {keys : List κ} {m : OrdMap κ Nat} (h : IsHistogram keys m) :
    (m.map (·.2)).sum = keys.length := by
  have := isHistogram_sum (fun _ => 1) h
  simp only [Nat.one_mul, List.map_const', List.sum_replicate_nat, Nat.mul_one] at this
  exact this

/-! ## Merging -/

/-- The total stored for `k` in a list of counts. -/
def tot (l : List (κ × Nat)) (k : κ) : Nat := (l.map fun e => if e.1 = k then e.2 else 0).sum

theorem bump_ok {m : OrdMap κ Nat} (hs : m.Sorted) (hp : ∀ e ∈ m, 0 < e.2) (k : κ) (v : Nat) (hv : 0 < v)
    (hb : cnt m k + v ≤ usizeMax) :
    ∃ m', bump m k v = .ok m' ∧ m'.Sorted ∧ (∀ e ∈ m', 0 < e.2) ∧
      ∀ k', cnt m' k' = cnt m k' + if k = k' then v else 0 := by
  refine ⟨m.insert k (cnt m k + v), ?_, OrdMap.sorted_insert hs _ _, ?_, ?_⟩
  · unfold bump
    unfold cnt at hb
    unfold uadd
    rw [if_pos hb]; rfl
  · intro e he
    rcases OrdMap.mem_insert_sub he with h' | h'
    · subst h'; simp only; omega
    · exact hp e h'
  · intro k'
    have := OrdMap.get_insert hs k (cnt m k + v) k'
    rw [cnt, this]
    by_cases hk : k' = k
    · subst hk; simp
    · rw [if_neg hk, if_neg (fun h => hk h.symm)]; rfl

theorem mergeCounts_ok {acc : OrdMap κ Nat} (hs : acc.Sorted) (hp : ∀ e ∈ acc, 0 < e.2) (l : List (κ × Nat))
    (hl : ∀ e ∈ l, 0 < e.2) (hb : ∀ k, cnt acc k + tot l k ≤ usizeMax) :
    ∃ m, mergeCounts acc l = .ok m ∧ m.Sorted ∧ (∀ e ∈ m, 0 < e.2) ∧ ∀ k, cnt m k = cnt acc k + tot l k := by
  induction l generalizing acc with
  | nil => exact ⟨acc, rfl, hs, hp, fun k => by simp [tot]⟩
  | cons e l ih =>
    obtain ⟨k, v⟩ := e
    have htot : ∀ k', tot ((k, v) :: l) k' = (if k = k' then v else 0) + tot l k' := by
      intro k'; simp [tot]
    have hbk := hb k
    rw [htot, if_pos rfl] at hbk
    obtain ⟨m, h1, h2, h3, h4⟩ := bump_ok hs hp k v (hl (k, v) List.mem_cons_self) (by omega)
    obtain ⟨m', h5, h6, h7, h8⟩ := ih h2 h3 (fun e he => hl e (List.mem_cons_of_mem _ he)) (by
      intro k'
      have := hb k'
      rw [htot] at this
      rw [h4]; omega)
    refine ⟨m', ?_, h6, h7, ?_⟩
    · simp only [mergeCounts, h1]; exact h5
    · intro k'; rw [h8, h4, htot]; omega

theorem tot_eq_zero {l : List (κ × Nat)} {k : κ} (h : ∀ e ∈ l, e.1 ≠ k) : tot l k = 0 := by
  induction l with
  | nil => rfl
  | cons e l ih =>
    have := ih fun x hx => h x (List.mem_cons_of_mem _ hx)
    simp only [tot, List.map_cons, List.sum_cons, if_neg (h e List.mem_cons_self)] at this ⊢
    omega

theorem tot_sorted {m : OrdMap κ Nat} (hs : m.Sorted) (k : κ) : tot m k = cnt m k := by
  induction m with
  | nil => rfl
  | cons e m ih =>
    obtain ⟨k', v⟩ := e
    have hs' := List.pairwise_cons.1 hs
    have hcons : tot ((k', v) :: m) k = (if k' = k then v else 0) + tot m k := by simp [tot]
    rw [hcons]
    rcases Key.cases k k' with h | h | h
    · have hz : tot m k = 0 := tot_eq_zero fun e he => by
        intro heq
        have hlt : Key.lt k e.1 := Key.trans h (hs'.1 e he)
        exact Key.irrefl k (heq ▸ hlt)
      rw [if_neg (Key.ne_of_lt h).symm, hz]
      simp [cnt, OrdMap.get, h]
    · subst h
      have hz : tot m k = 0 := tot_eq_zero fun e he heq => Key.irrefl k (heq ▸ hs'.1 e he)
      rw [if_pos rfl, hz]
      simp [cnt, OrdMap.get, Key.irrefl]
    · rw [if_neg (Key.ne_of_lt h), ih hs'.2]
      simp [cnt, OrdMap.get, h, Key.asymm h]

/-- Merging two histograms gives the histogram of both. -/
theorem mergeCounts_hist {xs ys : List κ} {a b : OrdMap κ Nat} (ha : IsHistogram xs a) (hb : IsHistogram ys b)
    (hl : xs.length + ys.length ≤ usizeMax) : ∃ m, mergeCounts a b = .ok m ∧ IsHistogram (xs ++ ys) m := by
  obtain ⟨sa, pa, ca⟩ := isHistogram_iff.1 ha
  obtain ⟨sb, pb, cb⟩ := isHistogram_iff.1 hb
  obtain ⟨m, h1, h2, h3, h4⟩ := mergeCounts_ok sa pa b pb (by
    intro k
    rw [tot_sorted sb, ca, cb]
    have := List.count_le_length (a := k) (l := xs)
    have := List.count_le_length (a := k) (l := ys)
    omega)
  refine ⟨m, h1, isHistogram_iff.2 ⟨h2, h3, ?_⟩⟩
  intro k
  rw [h4, tot_sorted sb, ca, cb, List.count_append]

/-! ## `split` with `count` -/

variable {α : Type} {keyfn : α → Res κ} {key : α → κ}

theorem runRed_genCount (xs : List α) :
    runRed (genCount α) xs = some (if xs.length ≤ usizeMax then .ok xs.length else .panic) := by
  rw [genCount, runRed_nil_reducer, runRed_count]

theorem count_map_eq (xs : List α) (k : κ) :
    (xs.map key).count k = (xs.filter fun x => decide (key x = k)).length := by
  rw [List.count, List.countP_map, List.countP_eq_length_filter]
  congr 1

theorem runRed_split_hist_iff (xs : List α) (hx : ∀ x ∈ xs, keyfn x = .ok (key x)) (hl : xs.length ≤ usizeMax)
    (m : OrdMap κ Nat) :
    runRed (splitRed keyfn fun _ => genCount α) xs = some (.ok m) ↔ IsHistogram (xs.map key) m := by
  rw [runRed_split_iff xs hx]
  have hfl : ∀ k, (xs.filter fun x => decide (key x = k)).length ≤ usizeMax := fun k =>
    Nat.le_trans (List.length_filter_le _ _) hl
  have hr : ∀ k v, runRed (genCount α) (xs.filter fun x => decide (key x = k)) = some (.ok v) ↔ (xs.map key).count k = v := by
    intro k v
    rw [runRed_genCount, if_pos (hfl k), count_map_eq]
    simp
  simp only [hr]
  constructor
  · rintro ⟨hs, hk, hv⟩
    refine ⟨hs, ?_⟩
    intro k v
    constructor
    · intro he
      have h1 := hv k v he
      refine ⟨?_, h1.symm⟩
      rw [← h1]
      exact List.count_pos_iff.2 ((hk k).1 (List.mem_map.2 ⟨_, he, rfl⟩))
    · rintro ⟨h0, rfl⟩
      obtain ⟨⟨k', v⟩, he, rfl⟩ := List.mem_map.1 ((hk k).2 (List.count_pos_iff.1 h0))
      rw [hv _ _ he]; exact he
  · intro h
    refine ⟨h.sorted, ?_, ?_⟩
    · intro k
      constructor
      · intro hm
        obtain ⟨⟨k', v⟩, he, rfl⟩ := List.mem_map.1 hm
        obtain ⟨h0, h1⟩ := (h.mem _ _).1 he
        exact List.count_pos_iff.1 (h1 ▸ h0)
      · intro hm
        exact List.mem_map.2 ⟨(k, (xs.map key).count k), (h.mem _ _).2 ⟨List.count_pos_iff.2 hm, rfl⟩, rfl⟩
    · intro k v he; exact ((h.mem k v).1 he).2.symm

theorem exists_histogram (xs : List κ) : ∃ m, IsHistogram xs m := by
  classical
  induction xs with
  | nil => exact ⟨[], isHistogram_nil⟩
  | cons x xs ih =>
    obtain ⟨m, hm⟩ := ih
    obtain ⟨sm, pm, cm⟩ := isHistogram_iff.1 hm
    refine ⟨OrdMap.insert m x (cnt m x + 1), isHistogram_iff.2 ⟨OrdMap.sorted_insert sm _ _, ?_, ?_⟩⟩
    · intro e he
      rcases OrdMap.mem_insert_sub he with h' | h'
      · subst h'; simp
      · exact pm e h'
    · intro k
      rw [cnt, OrdMap.get_insert sm]
      by_cases hk : k = x
      · subst hk
        simp only [if_pos, Option.getD_some, List.count_cons_self, cm]
      · rw [if_neg hk, List.count_cons_of_ne (fun h => hk h.symm), ← cm]; rfl

theorem runRed_split_hist (xs : List α) (hx : ∀ x ∈ xs, keyfn x = .ok (key x)) (hl : xs.length ≤ usizeMax) :
    ∃ m, runRed (splitRed keyfn fun _ => genCount α) xs = some (.ok m) ∧ IsHistogram (xs.map key) m := by
  obtain ⟨m, hm⟩ := exists_histogram (xs.map key)
  exact ⟨m, (runRed_split_hist_iff xs hx hl m).2 hm, hm⟩

theorem pullSplit_hist {it : Pull α} {s : it.σ} {xs : List α} (h : Streams it s (.ok xs))
    (hx : ∀ x ∈ xs, keyfn x = .ok (key x)) (hl : xs.length ≤ usizeMax) :
    ∃ m, pullSplit keyfn (fun _ => genCount α) it s = some (.ok m) ∧ IsHistogram (xs.map key) m := by
  obtain ⟨m, h1, h2⟩ := runRed_split_hist (keyfn := keyfn) xs hx hl
  refine ⟨m, ?_, h2⟩
  rw [pullSplit, pullReduce_eq _ h]
  exact h1

end

end Verif
