import Verif.Lemmas.Cost
import Verif.Props.PartitionExact

/-! # C73: how often partitioning reads -/

set_option linter.unusedSimpArgs false

namespace Verif

open Spec

/-! ## A file on which it reads exponentially often -/

/-- A storage header and a standard header that announces 65535 bytes: 20 bytes. -/
def bombHead : Bytes := [68, 76, 84, 1, 0, 0, 0, 0, 0, 0, 0, 0, 0, 0, 0, 0, 0x20, 0, 255, 255]

/-- `n` copies of it. -/
def bomb (n : Nat) : Bytes := (List.replicate n bombHead).flatten

theorem bomb_succ (n : Nat) : bomb (n + 1) = bombHead ++ bomb n := by
  unfold bomb; rw [List.replicate_succ, List.flatten_cons]

theorem bomb_length : ∀ n, (bomb n).length = 20 * n
  | 0 => rfl
  | n + 1 => by rw [bomb_succ, List.length_append, bomb_length n]; show 20 + 20 * n = _; omega

theorem bomb_drop : ∀ n i, i ≤ n → (bomb n).drop (20 * i) = bomb (n - i)
  | n, 0, _ => by simp
  | 0, i + 1, h => by omega
  | n + 1, i + 1, h => by
    rw [bomb_succ, show 20 * (i + 1) = bombHead.length + 20 * i by show _ = 20 + 20 * i; omega, List.drop_append,
      List.drop_eq_nil_of_le (by omega), Nat.add_sub_cancel_left, bomb_drop n i (by omega)]
    rw [List.nil_append, show n + 1 - (i + 1) = n - i by omega]

theorem bomb_marker {n j : Nat} : MarkerAt dltStorage (bomb n) j ↔ j % 20 = 0 ∧ j < 20 * n := by
  constructor
  · intro h
    have hlt := h.lt
    rw [bomb_length, show dltStorage.marker.length = 4 from rfl] at hlt
    refine ⟨?_, by omega⟩
    have h1 : (bomb n)[j]? = some 68 := by
      obtain ⟨r, hr⟩ := h
      have h2 : ((bomb n).drop j)[0]? = some 68 := by rw [← hr]; rfl
      rw [List.getElem?_drop] at h2
      simpa using h2
    have h3 : ((bomb n).drop (20 * (j / 20)))[j % 20]? = some 68 := by
      rw [List.getElem?_drop, show 20 * (j / 20) + j % 20 = j by omega]; exact h1
    rw [bomb_drop n (j / 20) (by omega), show n - j / 20 = (n - j / 20 - 1) + 1 by omega, bomb_succ,
      List.getElem?_append_left (by show j % 20 < 20; omega)] at h3
    have key : ∀ r, r < 20 → bombHead[r]? = some 68 → r = 0 := by decide
    exact key _ (Nat.mod_lt _ (by decide)) h3
  · rintro ⟨h1, h2⟩
    show dltMarker <+: (bomb n).drop j
    rw [show j = 20 * (j / 20) by omega, bomb_drop n (j / 20) (by omega),
      show n - j / 20 = (n - j / 20 - 1) + 1 by omega, bomb_succ]
    exact ⟨bombHead.drop 4 ++ bomb (n - j / 20 - 1), rfl⟩

/-- The message that starts at the `i`-th copy. -/
def bombEntry (n i : Nat) : StorageEntry :=
  ⟨⟨⟨68, 76, 84, 1⟩, 0, 0, ⟨0, 0, 0, 0⟩⟩, ⟨⟨⟨0x20⟩, 0, 65535⟩, (bomb (n - i - 1)).take 65531⟩⟩

theorem bomb_readable {n i : Nat} (h : 20 * i + 65551 ≤ 20 * n) :
    ReadableAt dltStorage (bomb n) (20 * i) (bombEntry n i) ∧ dltStorage.len (bombEntry n i) = 65551 := by
  have hl : ((bomb (n - i - 1)).take 65531).length = 65531 := by
    rw [List.length_take, bomb_length]; omega
  have hwf : WF (bombEntry n i) := ⟨rfl, by show 65535 = 4 + ((bomb (n - i - 1)).take 65531).length; rw [hl]⟩
  refine ⟨readableAt_iff_msgAt.2 ⟨hwf, (bomb n).take (20 * i), (bomb (n - i - 1)).drop 65531, ?_, ?_⟩, rfl⟩
  · have h1 : encode (bombEntry n i) = bombHead ++ (bomb (n - i - 1)).take 65531 := by
      have key : ∀ t, encode ⟨⟨⟨68, 76, 84, 1⟩, 0, 0, ⟨0, 0, 0, 0⟩⟩, ⟨⟨⟨0x20⟩, 0, 65535⟩, t⟩⟩ = bombHead ++ t := by
        intro t
        unfold encode
        dsimp only
        congr 1
      exact key _
    rw [h1, List.append_assoc, List.append_assoc, List.take_append_drop, ← bomb_succ,
      show n - i - 1 + 1 = n - i by omega, ← bomb_drop n i (by omega), List.take_append_drop]
  · rw [List.length_take, bomb_length]; omega

theorem nat_sorted_ext : ∀ {l l' : List Nat}, l.Pairwise (· < ·) → l'.Pairwise (· < ·) → (∀ x, x ∈ l ↔ x ∈ l') → l = l'
  | [], [], _, _, _ => rfl
  | [], b :: l', _, _, h => absurd ((h b).2 List.mem_cons_self) (by simp)
  | a :: l, [], _, _, h => absurd ((h a).1 List.mem_cons_self) (by simp)
  | a :: l, b :: l', h1, h2, h => by
    rw [List.pairwise_cons] at h1 h2
    have hab : a = b := by
      rcases List.mem_cons.1 ((h a).1 List.mem_cons_self) with h3 | h3
      · exact h3
      · rcases List.mem_cons.1 ((h b).2 List.mem_cons_self) with h4 | h4
        · exact h4.symm
        · have := h2.1 a h3; have := h1.1 b h4; omega
    subst hab
    rw [nat_sorted_ext h1.2 h2.2 fun x => ?_]
    constructor
    · intro hx
      rcases List.mem_cons.1 ((h x).1 (List.mem_cons_of_mem _ hx)) with h3 | h3
      · have := h1.1 x hx; omega
      · exact h3
    · intro hx
      rcases List.mem_cons.1 ((h x).2 (List.mem_cons_of_mem _ hx)) with h3 | h3
      · have := h2.1 x hx; omega
      · exact h3

/-- The candidates of `contained_by` at the `j`-th copy: the 3276 copies in front of it, and what is behind. -/
theorem bomb_candidates {n j : Nat} :
    (findIter dltStorage.marker ((bomb n).drop (20 * j - dltStorage.maxLen))).map (· + (20 * j - dltStorage.maxLen)) =
      (List.range' (j - 3276) (n - (j - 3276))).map (20 * ·) := by
  obtain ⟨h1, h2⟩ := candidates_spec dlt_lawful (bomb n) (20 * j - dltStorage.maxLen)
  refine nat_sorted_ext h2 ?_ fun x => ?_
  · rw [List.pairwise_map]
    exact List.Pairwise.imp (fun h => by omega) (List.pairwise_lt_range' (s := j - 3276) (n := n - (j - 3276)))
  · rw [h1, bomb_marker, List.mem_map]
    have hm : dltStorage.maxLen = 65535 := rfl
    rw [hm]
    constructor
    · rintro ⟨h3, h4, h5⟩
      refine ⟨x / 20, ?_, by omega⟩
      rw [List.mem_range'_1]; omega
    · rintro ⟨a, h3, rfl⟩
      rw [List.mem_range'_1] at h3
      refine ⟨?_, ?_, ?_⟩
      · omega
      · show 20 * a % 20 = 0
        omega
      · omega

theorem bomb_fits {n : Nat} (h : 20 * n < 2 ^ 63) : Fits (bomb n) := by unfold Fits; rw [bomb_length]; exact h

/-- The calls of `try_read` that `contained_by` makes for the marker of the `j`-th copy. -/
def bombCost (n j : Nat) : Nat := (containedByC dltStorage (bomb n) (20 * j) (20 * j + 4)).2

/-- One step of the loop. -/
theorem bomb_step {n j i : Nat} {p1 : Nat} {cs : List Nat} (hn : 20 * n < 2 ^ 63) (hj : 20 * j + 65531 ≤ 20 * n)
    (hi : i < j) (hji : j ≤ i + 3276) (hp : p1 ≤ 20 * j + 16) :
    (containedBy dltStorage (bomb n) (20 * i) (20 * i + 4) = .ok none ∧
      (∃ x, containedByLoop dltStorage (bomb n) (20 * j) p1 (20 * i :: cs) = .ok (some x)) ∧
      (containedByLoopC dltStorage (bomb n) (20 * j) p1 (20 * i :: cs)).2 = 1 + bombCost n i) ∨
    ((∃ x, containedBy dltStorage (bomb n) (20 * i) (20 * i + 4) = .ok (some x)) ∧
      containedByLoop dltStorage (bomb n) (20 * j) p1 (20 * i :: cs) =
        containedByLoop dltStorage (bomb n) (20 * j) p1 cs ∧
      (containedByLoopC dltStorage (bomb n) (20 * j) p1 (20 * i :: cs)).2 =
        1 + bombCost n i + (containedByLoopC dltStorage (bomb n) (20 * j) p1 cs).2) := by
  have hF := bomb_fits hn
  obtain ⟨hr, hl⟩ := bomb_readable (n := n) (i := i) (by omega)
  have hlen := bomb_length n
  have h1 := containedByLoop_cons dlt_lawful hF (p0 := 20 * j) (p1 := p1) (c := 20 * i) (cs := cs) (by omega) (by omega)
  have h2 := containedByLoopC_cons dlt_lawful hF (p0 := 20 * j) (p1 := p1) (c := 20 * i) (cs := cs) (by omega) (by omega)
  have hm : dltStorage.marker.length = 4 := rfl
  rw [hm] at h1 h2
  rcases h1 with ⟨h1, _⟩ | ⟨v, hv, h1⟩
  · exact absurd hr (h1 _)
  have hv' := hv.unique dlt_lawful hr
  subst hv'
  rw [if_pos (by omega)] at h1
  rcases h2 with ⟨h2, _⟩ | ⟨v, hv, h2⟩
  · exact absurd hr (h2 _)
  have hv' := hv.unique dlt_lawful hr
  subst hv'
  rcases h2 with ⟨h2, _⟩ | ⟨_, h2, h3⟩ | ⟨_, ⟨x, h2⟩, h3⟩
  · omega
  · left
    rw [h2] at h1
    exact ⟨h2, ⟨_, h1⟩, h3⟩
  · right
    rw [h2] at h1
    exact ⟨⟨x, h2⟩, h1, h3⟩

/-- The loop from the `i`-th copy on finds a container iff some copy up to the `j`-th is not contained itself. -/
theorem bomb_loop {n j : Nat} {p1 : Nat} (hn : 20 * n < 2 ^ 63) (hj : 20 * j + 65531 ≤ 20 * n) (hp : p1 ≤ 20 * j + 16)
    (ih : ∀ i, i < j → ∃ r, containedBy dltStorage (bomb n) (20 * i) (20 * i + 4) = .ok r ∧ (r = none ↔ i % 3277 = 0)) :
    ∀ (m i : Nat), i + m = n → j ≤ i + 3276 →
      ∃ r, containedByLoop dltStorage (bomb n) (20 * j) p1 ((List.range' i m).map (20 * ·)) = .ok r ∧
        (r = none ↔ ∀ k, i ≤ k → k < j → k % 3277 ≠ 0) := by
  intro m
  induction m with
  | zero =>
    intro i him hji
    refine ⟨none, by rw [List.range'_zero, List.map_nil, containedByLoop], ?_⟩
    simp only [true_iff]
    intro k h1 h2; omega
  | succ m ihm =>
    intro i him hji
    rw [List.range'_succ, List.map_cons]
    by_cases hi : i < j
    · obtain ⟨r, h1, h2⟩ := ihm (i + 1) (by omega) (by omega)
      obtain ⟨r0, h3, h4⟩ := ih i hi
      rcases bomb_step (cs := (List.range' (i + 1) m).map (20 * ·)) hn hj hi hji hp with ⟨h5, ⟨x, h6⟩, _⟩ | ⟨⟨x, h5⟩, h6, _⟩
      · rw [h5] at h3
        cases h3
        refine ⟨some x, h6, ?_⟩
        simp only [reduceCtorEq, false_iff]
        intro h7
        exact h7 i (Nat.le_refl _) hi (h4.1 rfl)
      · rw [h5] at h3
        cases h3
        refine ⟨r, by rw [h6]; exact h1, ?_⟩
        rw [h2]
        constructor
        · intro h7 k h8 h9
          rcases Nat.eq_or_lt_of_le h8 with rfl | h8
          · intro h10; exact absurd (h4.2 h10) (by simp)
          · exact h7 k (by omega) h9
        · intro h7 k h8 h9
          exact h7 k (by omega) h9
    · refine ⟨none, by rw [containedByLoop, dif_pos (by omega)], ?_⟩
      simp only [true_iff]
      intro k h1 h2; omega

/-- A copy is contained by another one iff its number is no multiple of 3277. -/
theorem bomb_contained {n : Nat} (hn : 20 * n < 2 ^ 63) : ∀ (j p1 : Nat), 20 * j + 65531 ≤ 20 * n → 20 * j < p1 →
    p1 ≤ 20 * j + 16 →
    ∃ r, containedBy dltStorage (bomb n) (20 * j) p1 = .ok r ∧ (r = none ↔ j % 3277 = 0) := by
  intro j
  induction j using Nat.strongRecOn with
  | ind j ih =>
    intro p1 hj h1 hp
    rw [containedBy_unfold, if_neg (by rw [bomb_length]; omega), bomb_candidates]
    obtain ⟨r, h2, h3⟩ := bomb_loop hn hj hp (fun i hi => ih i hi _ (by omega) (by omega) (by omega))
      (n - (j - 3276)) (j - 3276) (by omega) (by omega)
    refine ⟨r, h2, ?_⟩
    rw [h3]
    constructor
    · intro h
      apply Classical.byContradiction
      intro hne
      exact h (j - j % 3277) (by omega) (by omega) (by omega)
    · intro h k h4 h5; omega

/-- The cost of the loop: all copies before the first one that is not contained. -/
theorem bomb_loop_cost {n j : Nat} {p1 C : Nat} (hn : 20 * n < 2 ^ 63) (hj : 20 * j + 65531 ≤ 20 * n) (hp : p1 ≤ 20 * j + 16) :
    ∀ (m i k : Nat), i + m = n → j ≤ i + 3276 → i ≤ k → k ≤ j → (∀ x, i ≤ x → x < k → x % 3277 ≠ 0 ∧ C ≤ bombCost n x) →
      (k - i) * (C + 1) + (if k < j then 1 + bombCost n k else 0) ≤
        (containedByLoopC dltStorage (bomb n) (20 * j) p1 ((List.range' i m).map (20 * ·))).2 := by
  intro m
  induction m with
  | zero => intro i k him hji hik hkj _; omega
  | succ m ihm =>
    intro i k him hji hik hkj hx
    rw [List.range'_succ, List.map_cons]
    by_cases hi : i < j
    · rcases Nat.eq_or_lt_of_le hik with rfl | hlt
      · rw [Nat.sub_self, Nat.zero_mul, Nat.zero_add, if_pos hi]
        rcases bomb_step (cs := (List.range' (i + 1) m).map (20 * ·)) hn hj hi hji hp with ⟨_, _, h6⟩ | ⟨_, _, h6⟩ <;>
          rw [h6] <;> omega
      · have h1 := ihm (i + 1) k (by omega) (by omega) (by omega) hkj fun x h1 h2 => hx x (by omega) h2
        have h2 := hx i (Nat.le_refl _) hlt
        rcases bomb_step (cs := (List.range' (i + 1) m).map (20 * ·)) hn hj hi hji hp with ⟨h5, _, h6⟩ | ⟨_, _, h6⟩
        · obtain ⟨r, h3, h4⟩ := bomb_contained hn i (20 * i + 4) (by omega) (by omega) (by omega)
          rw [h5] at h3; cases h3
          exact absurd (h4.1 rfl) h2.1
        · rw [h6]
          have h7 : (k - i) * (C + 1) = (k - (i + 1)) * (C + 1) + (C + 1) := by
            rw [show k - i = (k - (i + 1)) + 1 by omega, Nat.add_mul, Nat.one_mul]
          rw [h7]
          have := h2.2
          omega
    · have : k = j := by omega
      subst this
      have : i = k := by omega
      subst this
      rw [if_neg (by omega), Nat.sub_self, Nat.zero_mul]
      exact Nat.zero_le _

theorem bomb_cost_eq {n j p1 : Nat} (hj : 20 * j + 65531 ≤ 20 * n) (h1 : 20 * j < p1) (hp : p1 ≤ 20 * j + 16) :
    containedByC dltStorage (bomb n) (20 * j) p1 =
      containedByLoopC dltStorage (bomb n) (20 * j) p1 ((List.range' (j - 3276) (n - (j - 3276))).map (20 * ·)) := by
  rw [containedByC_unfold, if_neg (by rw [bomb_length]; omega), bomb_candidates]

/-- A copy costs more than the last copy in front of it that is not contained. -/
theorem bomb_block {n a x : Nat} (hn : 20 * n < 2 ^ 63) (hx : 20 * x + 65531 ≤ 20 * n) (h1 : 3277 * a < x)
    (h2 : x ≤ 3277 * a + 3276) : bombCost n (3277 * a) + 1 ≤ bombCost n x := by
  have h := bomb_loop_cost (C := 0) (p1 := 20 * x + 4) hn hx (by omega) (n - (x - 3276)) (x - 3276) (3277 * a)
    (by omega) (by omega) (by omega) (by omega) (fun y h6 h7 => ⟨by omega, Nat.zero_le _⟩)
  rw [← bomb_cost_eq hx (by omega) (by omega), if_pos h1] at h
  have h' : (3277 * a - (x - 3276)) * (0 + 1) + (1 + bombCost n (3277 * a)) ≤ bombCost n x := h
  omega

/-- Each block of 3277 copies multiplies the cost by 3276. -/
theorem bomb_exponential {n : Nat} (hn : 20 * n < 2 ^ 63) : ∀ (a p1 : Nat), 20 * (3277 * a) + 65531 ≤ 20 * n →
    20 * (3277 * a) < p1 → p1 ≤ 20 * (3277 * a) + 16 →
    3276 ^ a ≤ (containedByC dltStorage (bomb n) (20 * (3277 * a)) p1).2 + 1 := by
  intro a
  induction a with
  | zero => intro p1 _ _ _; simp
  | succ a ih =>
    intro p1 hj h1 hp
    have ih' : 3276 ^ a ≤ bombCost n (3277 * a) + 1 := ih (20 * (3277 * a) + 4) (by omega) (by omega) (by omega)
    rw [bomb_cost_eq hj h1 hp]
    have hs : 3277 * (a + 1) - 3276 = 3277 * a + 1 := by omega
    rw [hs]
    have h2 := bomb_loop_cost (C := bombCost n (3277 * a) + 1) hn hj hp (n - (3277 * a + 1)) (3277 * a + 1) (3277 * (a + 1))
      (by omega) (by omega) (by omega) (Nat.le_refl _) (fun x h3 h4 => ⟨by omega, bomb_block hn (by omega) (by omega) (by omega)⟩)
    rw [if_neg (by omega), show 3277 * (a + 1) - (3277 * a + 1) = 3276 by omega] at h2
    have h6 : 3276 ^ (a + 1) = 3276 * 3276 ^ a := by rw [Nat.pow_succ, Nat.mul_comm]
    rw [h6]
    have h7 : 3276 * 3276 ^ a ≤ 3276 * (bombCost n (3277 * a) + 1) := Nat.mul_le_mul_left _ ih'
    generalize 3276 ^ a = z at *
    generalize bombCost n (3277 * a) = c at *
    omega

/-- **C73 (violated)** there are files of `131080 * a` bytes for which `partition_from(bytes, 2)` calls `try_read` at
least `3276 ^ a - 1` times: more than `10 ^ 35` times for a file of 1.3 MB. -/
theorem C73_partition_exponential (a : Nat) (ha : 0 < a) (hfit : 131080 * a < 2 ^ 63) :
    (bomb (6554 * a)).length = 131080 * a ∧ 3276 ^ a ≤ (partitionRangesC dltStorage (bomb (6554 * a)) 2).2 + 1 := by
  have hl : (bomb (6554 * a)).length = 131080 * a := by rw [bomb_length]; omega
  refine ⟨hl, ?_⟩
  have h1 := bomb_exponential (n := 6554 * a) (by omega) a (20 * (3277 * a) + 1) (by omega) (by omega) (by omega)
  unfold partitionRangesC
  rw [if_neg (by decide)]
  dsimp only
  have h2 : (bomb (6554 * a)).length / 2 = 20 * (3277 * a) := by rw [hl]; omega
  have h3 := partitionLoopC_first (S := dltStorage) (bytes := bomb (6554 * a)) (size := (bomb (6554 * a)).length / 2) (c0 := 0)
    (c1 := (bomb (6554 * a)).length / 2) (Nat.zero_le _) (Nat.div_le_self _ _)
  have h4 : 3276 ^ a ≤ (containedByC dltStorage (bomb (6554 * a)) ((bomb (6554 * a)).length / 2)
      ((bomb (6554 * a)).length / 2 + 1)).2 + 1 := by rw [h2]; exact h1
  generalize 3276 ^ a = z at *
  omega

/-- **C73 (violated)** on a file of 1.3 MB the number of reads exceeds the fifth power of its length. -/
theorem C73_not_polynomial : ¬ ∀ (bytes : Bytes), Fits bytes → ∀ num, num ≠ 0 →
    (partitionRangesC dltStorage bytes num).2 ≤ bytes.length ^ 5 := by
  intro h
  have h1 := h (bomb 65540) (bomb_fits (by decide)) 2 (by decide)
  obtain ⟨h2, h3⟩ := C73_partition_exponential 10 (by decide) (by decide)
  rw [show 6554 * 10 = 65540 from rfl] at h2 h3
  rw [h2, show (131080 * 10) ^ 5 = 3869743358511515207680000000000 by decide] at h1
  rw [show 3276 ^ 10 = 142376702695407935426017927942373376 by decide] at h3
  omega

/-- **C73 (partial)** if top-level messages have at most 65536 bytes and messages embedded in them end with them,
`contained_by` makes at most 131071 calls of `try_read`, and `partition_from` at most that many per slice and once
more. -/
theorem C73_partition_linear_partial (bytes : Bytes) (hF : Fits bytes) (G : List (Nat × StorageEntry))
    (hG : TopLevel bytes G) (hmax : AtMost 65536 G) (hnest : WellNested bytes G) :
    (∀ p, (containedByC dltStorage bytes p (p + 1)).2 ≤ 131071) ∧
    ∀ num rs, partitionRanges dltStorage bytes num = .ok rs →
      (partitionRangesC dltStorage bytes num).2 ≤ (rs.length + 1) * 131071 := by
  have h1 : ∀ p, (containedByC dltStorage bytes p (p + 1)).2 ≤ 131071 := by
    intro p
    refine containedBy_cost dlt_lawful hF (G := G) hG (fun x hx => ?_) (fun x hx j w hr h1 h2 => ?_) p
    · rw [show dltStorage.len x.2 = x.2.len from rfl, ← (topLevel_wf hG x hx).2]; exact hmax x hx
    · have hlen := (topLevel_wf hG x hx).2
      have hm := readableAt_iff_msgAt.1 hr
      have h3 := hnest x hx j w hm ⟨h1, by rw [hlen]; exact h2⟩
      rw [hlen, encode_len _ hm.1] at h3; exact h3
  refine ⟨h1, fun num rs hrs => ?_⟩
  rw [← partitionRangesC_fst] at hrs
  revert hrs
  unfold partitionRangesC
  split
  · intro h; cases h
  · intro h
    exact partitionLoopC_bound h1 _ _ _ rfl rs h

theorem five_nested : WellNested (packed five) (packedAt 0 five) := by
  intro x hx j e he hin
  have h1 := five_msgs j e he
  have hb := he.bounds
  rw [five_len] at hb
  exfalso
  have hm := (readableAt_iff_msgAt.2 he).marker dlt_lawful
  have key : ∀ j < 100, dltMarker <+: (packed five).drop j → j % 20 = 0 := by decide +kernel
  have hj := key j (by omega) hm
  obtain ⟨h2, h3⟩ := hin
  simp only [five, packedAt, List.mem_cons, List.not_mem_nil, or_false] at hx
  rcases hx with rfl | rfl | rfl | rfl | rfl
  · have : j < 0 + 20 := h3
    have : 0 < j := h2
    omega
  · have : j < 20 + 20 := h3
    have : 20 < j := h2
    omega
  · have : j < 40 + 20 := h3
    have : 40 < j := h2
    omega
  · have : j < 60 + 20 := h3
    have : 60 < j := h2
    omega
  · have : j < 80 + 20 := h3
    have : 80 < j := h2
    omega

/-- **C73** the hypotheses are met by the five messages. -/
example : (partitionRangesC dltStorage (packed five) 2).2 ≤ 3 * 131071 :=
  (C73_partition_linear_partial (packed five) five_fits _ (topLevel_packed five_wf) five_max five_nested).2 2
    [(0, 40), (40, 80)] C31_partition_drops_the_tail

end Verif
