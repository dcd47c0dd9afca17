import Verif.Lemmas.Stack
import Verif.Props.Cost

/-! # C123: the stack partitioning needs -/

set_option linter.unusedSimpArgs false

namespace Verif

open Spec

/-- **C123** the bounded stack only adds overflows: whatever `contained_by` and `partition_from` return with room for `k`
calls in progress, they return. -/
theorem C123_stack_sound (bytes : Bytes) (k : Nat) :
    (∀ p0 p1 r, containedByStack dltStorage bytes k p0 p1 = some r → containedBy dltStorage bytes p0 p1 = r) ∧
    ∀ num r, partitionRangesStack dltStorage bytes k num = some r → partitionRanges dltStorage bytes num = r := by
  refine ⟨fun p0 p1 r h => containedByStack_sound _ _ _ _ h, fun num r => ?_⟩
  unfold partitionRangesStack partitionRanges
  split
  · exact Option.some.inj
  · exact partitionLoopStack_sound _ _ _ rfl r

/-- **C123** on every file, a quarter of the bytes in front of the range (and two) is enough room for `contained_by`, and a
quarter of the file (and two) for `partition_from`. -/
theorem C123_depth_bound (bytes : Bytes) (hF : Fits bytes) (k : Nat) :
    (∀ p0 p1, p0 / 4 + 2 ≤ k → (containedByStack dltStorage bytes k p0 p1).isSome) ∧
    (bytes.length / 4 + 2 ≤ k → ∀ num, (partitionRangesStack dltStorage bytes k num).isSome) := by
  have h1 : ∀ p0 p1, p0 / 4 + 2 ≤ k → (containedByStack dltStorage bytes k p0 p1).isSome := fun p0 p1 h =>
    containedByStack_bound dlt_lawful hF k p0 p1 (by rw [show dltStorage.marker.length = 4 from rfl]; omega)
  refine ⟨h1, fun hk num => ?_⟩
  unfold partitionRangesStack
  split
  · rfl
  · refine partitionLoopStack_enough (fun p => ?_) _ _ _ rfl
    by_cases hp : p < bytes.length
    · exact h1 p _ (by omega)
    · obtain ⟨k, rfl⟩ : ∃ k', k = k' + 1 := ⟨k - 1, by omega⟩
      rw [containedByStack_unfold, if_pos (by omega)]; rfl

/-- **C123 (partial)** if top-level messages have at most 65536 bytes and messages embedded in them end with them, two
calls of `contained_by` in progress are enough, wherever a file is asked about and however it is cut. -/
theorem C123_two_frames_partial (bytes : Bytes) (hF : Fits bytes) (G : List (Nat × StorageEntry))
    (hG : TopLevel bytes G) (hmax : AtMost 65536 G) (hnest : WellNested bytes G) :
    (∀ p, (containedByStack dltStorage bytes 2 p (p + 1)).isSome) ∧
    ∀ num, (partitionRangesStack dltStorage bytes 2 num).isSome := by
  have h1 : ∀ p, (containedByStack dltStorage bytes 2 p (p + 1)).isSome := by
    intro p
    refine containedByStack_two dlt_lawful hF (G := G) hG (fun x hx => ?_) (fun x hx j w hr h1 h2 => ?_) p
    · rw [show dltStorage.len x.2 = x.2.len from rfl, ← (topLevel_wf hG x hx).2]; exact hmax x hx
    · have hlen := (topLevel_wf hG x hx).2
      have hm := readableAt_iff_msgAt.1 hr
      have h3 := hnest x hx j w hm ⟨h1, by rw [hlen]; exact h2⟩
      rw [hlen, encode_len _ hm.1] at h3; exact h3
  refine ⟨h1, fun num => ?_⟩
  unfold partitionRangesStack
  split
  · rfl
  · exact partitionLoopStack_enough h1 _ _ _ rfl

/-- **C123** the hypotheses are met by the five messages. -/
example : (partitionRangesStack dltStorage (packed five) 2 2).isSome :=
  (C123_two_frames_partial (packed five) five_fits _ (topLevel_packed five_wf) five_max five_nested).2 2

/-! ## Files that need any amount of stack -/

/-- A storage header and a standard header that announces four bytes of payload: 20 bytes. -/
def chainHead : Bytes := [68, 76, 84, 1, 0, 0, 0, 0, 0, 0, 0, 0, 0, 0, 0, 0, 0x20, 0, 0, 8]

/-- `n` copies of it: each message reaches over the marker of the next. -/
def chain (n : Nat) : Bytes := (List.replicate n chainHead).flatten

theorem chain_succ (n : Nat) : chain (n + 1) = chainHead ++ chain n := by
  unfold chain; rw [List.replicate_succ, List.flatten_cons]

theorem chain_length : ∀ n, (chain n).length = 20 * n
  | 0 => rfl
  | n + 1 => by rw [chain_succ, List.length_append, chain_length n]; show 20 + 20 * n = _; omega

theorem chain_drop : ∀ n i, i ≤ n → (chain n).drop (20 * i) = chain (n - i)
  | n, 0, _ => by simp
  | 0, i + 1, h => by omega
  | n + 1, i + 1, h => by
    rw [chain_succ, show 20 * (i + 1) = chainHead.length + 20 * i by show _ = 20 + 20 * i; omega, List.drop_append,
      List.drop_eq_nil_of_le (by omega), Nat.add_sub_cancel_left, chain_drop n i (by omega)]
    rw [List.nil_append, show n + 1 - (i + 1) = n - i by omega]

theorem chain_marker {n j : Nat} : MarkerAt dltStorage (chain n) j ↔ j % 20 = 0 ∧ j < 20 * n := by
  constructor
  · intro h
    have hlt := h.lt
    rw [chain_length, show dltStorage.marker.length = 4 from rfl] at hlt
    refine ⟨?_, by omega⟩
    have h1 : (chain n)[j]? = some 68 := by
      obtain ⟨r, hr⟩ := h
      have h2 : ((chain n).drop j)[0]? = some 68 := by rw [← hr]; rfl
      rw [List.getElem?_drop] at h2
      simpa using h2
    have h3 : ((chain n).drop (20 * (j / 20)))[j % 20]? = some 68 := by
      rw [List.getElem?_drop, show 20 * (j / 20) + j % 20 = j by omega]; exact h1
    rw [chain_drop n (j / 20) (by omega), show n - j / 20 = (n - j / 20 - 1) + 1 by omega, chain_succ,
      List.getElem?_append_left (by show j % 20 < 20; omega)] at h3
    have key : ∀ r, r < 20 → chainHead[r]? = some 68 → r = 0 := by decide
    exact key _ (Nat.mod_lt _ (by decide)) h3
  · rintro ⟨h1, h2⟩
    show dltMarker <+: (chain n).drop j
    rw [show j = 20 * (j / 20) by omega, chain_drop n (j / 20) (by omega),
      show n - j / 20 = (n - j / 20 - 1) + 1 by omega, chain_succ]
    exact ⟨chainHead.drop 4 ++ chain (n - j / 20 - 1), rfl⟩

/-- The message that starts at each copy. -/
def chainEntry : StorageEntry :=
  ⟨⟨⟨68, 76, 84, 1⟩, 0, 0, ⟨0, 0, 0, 0⟩⟩, ⟨⟨⟨0x20⟩, 0, 8⟩, [68, 76, 84, 1]⟩⟩

theorem chain_readable {n i : Nat} (h : i + 2 ≤ n) :
    ReadableAt dltStorage (chain n) (20 * i) chainEntry ∧ dltStorage.len chainEntry = 24 := by
  refine ⟨readableAt_iff_msgAt.2 ⟨⟨rfl, rfl⟩, (chain n).take (20 * i), chainHead.drop 4 ++ chain (n - i - 2), ?_, ?_⟩, rfl⟩
  · have h1 : encode chainEntry = chainHead ++ [68, 76, 84, 1] := by decide
    have h2 : chain (n - i) = encode chainEntry ++ (chainHead.drop 4 ++ chain (n - i - 2)) := by
      rw [show n - i = (n - i - 2) + 1 + 1 by omega, chain_succ, chain_succ, h1]
      rfl
    rw [List.append_assoc, ← h2, ← chain_drop n i (by omega), List.take_append_drop]
  · rw [List.length_take, chain_length]; omega

theorem chain_candidates {n j : Nat} :
    (findIter dltStorage.marker ((chain n).drop (20 * j - dltStorage.maxLen))).map (· + (20 * j - dltStorage.maxLen)) =
      (List.range' (j - 3276) (n - (j - 3276))).map (20 * ·) := by
  obtain ⟨h1, h2⟩ := candidates_spec dlt_lawful (chain n) (20 * j - dltStorage.maxLen)
  refine nat_sorted_ext h2 ?_ fun x => ?_
  · rw [List.pairwise_map]
    exact List.Pairwise.imp (fun h => by omega) (List.pairwise_lt_range' (s := j - 3276) (n := n - (j - 3276)))
  · rw [h1, chain_marker, List.mem_map]
    have hm : dltStorage.maxLen = 65535 := rfl
    rw [hm]
    constructor
    · rintro ⟨h3, h4, h5⟩
      refine ⟨x / 20, ?_, by omega⟩
      rw [List.mem_range'_1]; omega
    · rintro ⟨a, h3, rfl⟩
      rw [List.mem_range'_1] at h3
      refine ⟨?_, ?_, ?_⟩
      · omega
      · show 20 * a % 20 = 0
        omega
      · omega

theorem chain_fits {n : Nat} (h : 20 * n < 2 ^ 63) : Fits (chain n) := by unfold Fits; rw [chain_length]; exact h

/-- The loop gets to the copy in front without a nested call, and makes one there. -/
theorem chain_loop {n j p1 : Nat} {nested : Nat → Nat → Option (Res (Option (Nat × StorageEntry)))} (hn : 20 * n < 2 ^ 63)
    (hj : j + 2 ≤ n) (h1 : 20 * j < p1) (hp : p1 ≤ 20 * j + 4) 
    (hnest : nested (20 * (j - 1)) (20 * (j - 1) + dltStorage.marker.length) = none) :
    ∀ (m i : Nat), i + m = n → i < j → containedByLoopStack dltStorage (chain n) nested (20 * j) p1
        ((List.range' i m).map (20 * ·)) = none := by
  intro m
  induction m with
  | zero => intro i him hij; omega
  | succ m ih =>
    intro i him hij
    obtain ⟨hr, hl⟩ := chain_readable (n := n) (i := i) (by omega)
    have hlen := chain_length n
    rw [List.range'_succ, List.map_cons, containedByLoopStack, if_neg (by omega), sliceFrom_ok (by omega)]
    dsimp only
    rcases Lawful_tryRead_cases dlt_lawful (chain n) (20 * i) with ⟨_, h2⟩ | ⟨v, h2, h3⟩
    · exact absurd hr (h2 _)
    · have := h3.unique dlt_lawful hr
      subst this
      rw [h2]
      dsimp only
      rw [uadd_ok (by unfold usizeMax; omega)]
      dsimp only
      by_cases hi : i + 1 = j
      · rw [if_pos (by omega), show i = j - 1 by omega, hnest]
      · rw [if_neg (by omega)]
        exact ih (i + 1) (by omega) (by omega)

theorem chain_overflow {n : Nat} (hn : 20 * n < 2 ^ 63) : ∀ (k j p1 : Nat), j + 2 ≤ n → 20 * j < p1 → p1 ≤ 20 * j + 4 → k ≤ j →
    containedByStack dltStorage (chain n) k (20 * j) p1 = none := by
  intro k
  induction k with
  | zero => intro j p1 _ _ _ _; rfl
  | succ k ih =>
    intro j p1 hj h1 hp hk
    have hlen := chain_length n
    rw [containedByStack_unfold, if_neg (by omega), chain_candidates]
    refine chain_loop hn hj h1 hp (ih _ _ (by omega) (by show _ < _ + 4; omega) (by show _ + 4 ≤ _; omega) (by omega)) _ _
      (by omega) (by omega)

theorem chain_enough {n : Nat} (hn : 20 * n < 2 ^ 63) : ∀ (k j p1 : Nat), j + 2 ≤ n → 20 * j < p1 → j < k →
    (containedByStack dltStorage (chain n) k (20 * j) p1).isSome := by
  intro k
  induction k with
  | zero => intro j p1 _ _ h; omega
  | succ k ih =>
    intro j p1 hj h1 hk
    refine containedByStack_enough dlt_lawful (chain_fits hn) fun c v hc hv h => ?_
    have hm := chain_marker.1 (hv.marker dlt_lawful)
    obtain ⟨hr, hl⟩ := chain_readable (n := n) (i := c / 20) (by omega)
    rw [show 20 * (c / 20) = c by omega] at hr
    have := hv.unique dlt_lawful hr
    subst this
    rw [show c = 20 * (j - 1) by omega]
    exact ih _ _ (by omega) (by show _ < _ + 4; omega) (by omega)

/-- **C123 (violated)** in a file of `20 * n` bytes, asking about the marker of the `j`-th of `n` messages that each reach over the
marker of the next takes exactly `j + 1` calls in progress. -/
theorem C123_depth_grows (n j k p1 : Nat) (hn : 20 * n < 2 ^ 63) (hj : j + 2 ≤ n) (h1 : 20 * j < p1) (hp : p1 ≤ 20 * j + 4) :
    (containedByStack dltStorage (chain n) k (20 * j) p1).isSome ↔ j + 1 ≤ k := by
  constructor
  · intro h
    apply Nat.lt_of_not_le
    intro hk
    rw [chain_overflow hn k j p1 hj h1 hp hk] at h
    cases h
  · exact chain_enough hn k j p1 hj h1

/-- **C123 (violated)** no amount of stack is enough: with room for `k` calls in progress, cutting a file of `40 * k + 80` bytes
into two slices overflows the stack. -/
theorem C123_partition_overflows (k : Nat) (hk : 40 * k + 80 < 2 ^ 63) :
    ∃ bytes, bytes.length = 40 * k + 80 ∧ partitionRangesStack dltStorage bytes k 2 = none := by
  have hl : (chain (2 * k + 4)).length = 40 * k + 80 := by rw [chain_length]; omega
  refine ⟨chain (2 * k + 4), hl, ?_⟩
  unfold partitionRangesStack
  rw [if_neg (by decide), partitionLoopStack, if_neg (by omega), hl,
    show (40 * k + 80) / 2 = 20 * (k + 2) by omega,
    chain_overflow (by omega) k (k + 2) _ (by omega) (by omega) (by omega) (by omega)]

theorem chain_loop_cost {n j p1 : Nat} (hn : 20 * n < 2 ^ 63) (hj : j + 2 ≤ n) (h1 : 20 * j < p1) (hp : p1 ≤ 20 * j + 4) :
    ∀ (m i : Nat), i + m = n → i ≤ j → (containedByLoopC dltStorage (chain n) (20 * j) p1
        ((List.range' i m).map (20 * ·))).2 ≤
      (j - i) + if i < j then (containedByC dltStorage (chain n) (20 * (j - 1)) (20 * (j - 1) + 4)).2 else 0 := by
  intro m
  induction m with
  | zero => intro i him hij; omega
  | succ m ih =>
    intro i him hij
    have hlen := chain_length n
    rw [List.range'_succ, List.map_cons]
    by_cases hlt : i < j
    · rw [if_pos hlt]
      obtain ⟨hr, hl⟩ := chain_readable (n := n) (i := i) (by omega)
      have h2 := ih (i + 1) (by omega) (by omega)
      have h3 := containedByLoopC_cons dlt_lawful (chain_fits hn) (p0 := 20 * j) (p1 := p1) (c := 20 * i)
        (cs := (List.range' (i + 1) m).map (20 * ·)) (by omega) (by omega)
      have h5 : ∀ v, ReadableAt dltStorage (chain n) (20 * i) v → dltStorage.len v = 24 := by
        intro v hv
        have := hv.unique dlt_lawful hr
        subst this; exact hl
      rcases h3 with ⟨_, h⟩ | ⟨v, hv, ⟨h4, h⟩ | ⟨h4, _, h⟩ | ⟨h4, _, h⟩⟩
      · rw [h]
        split at h2 <;> omega
      · rw [h]
        have := h5 v hv
        rw [if_pos (by omega)] at h2
        omega
      · have := h5 v hv
        rw [h, show i = j - 1 by omega]
        show 1 + (containedByC dltStorage (chain n) (20 * (j - 1)) (20 * (j - 1) + 4)).2 ≤ _
        omega
      · have := h5 v hv
        rw [if_neg (by omega)] at h2
        rw [h]
        obtain rfl : i = j - 1 := by omega
        change 1 + (containedByC dltStorage (chain n) (20 * (j - 1)) (20 * (j - 1) + 4)).2 + _ ≤ _
        omega
    · rw [containedByLoopC, dif_pos (by omega)]; exact Nat.zero_le _

/-- **C123** such a file is not protected by the running time: the deep recursion takes at most 3276 reads for each message in
front. -/
theorem C123_deep_is_cheap (n : Nat) (hn : 20 * n < 2 ^ 63) : ∀ (j p1 : Nat), j + 2 ≤ n → 20 * j < p1 → p1 ≤ 20 * j + 4 →
    (containedByC dltStorage (chain n) (20 * j) p1).2 ≤ 3276 * j := by
  intro j
  induction j with
  | zero =>
    intro p1 hj h1 hp
    rw [containedByC_unfold, if_neg (by rw [chain_length]; omega), chain_candidates]
    have h := chain_loop_cost hn hj h1 hp (n - (0 - 3276)) (0 - 3276) (by omega) (by omega)
    rw [if_neg (by omega)] at h
    omega
  | succ j ih =>
    intro p1 hj h1 hp
    rw [containedByC_unfold, if_neg (by rw [chain_length]; omega), chain_candidates]
    have h := chain_loop_cost hn hj h1 hp (n - (j + 1 - 3276)) (j + 1 - 3276) (by omega) (by omega)
    rw [if_pos (by omega)] at h
    have h2 := ih (20 * j + 4) (by omega) (by omega) (by omega)
    rw [show j + 1 - 1 = j from rfl] at h
    omega

/-- **C123** a case: the thousandth of 1002 messages. -/
example : (containedByStack dltStorage (chain 1002) 1000 20000 20001).isSome = false ∧
    (containedByStack dltStorage (chain 1002) 1001 20000 20001).isSome = true := by
  refine ⟨?_, (C123_depth_grows 1002 1000 1001 20001 (by decide) (by decide) (by decide) (by decide)).2 (by decide)⟩
  rw [Bool.eq_false_iff]
  intro h
  exact absurd ((C123_depth_grows 1002 1000 1000 20001 (by decide) (by decide) (by decide) (by decide)).1 h) (by decide)

end Verif
