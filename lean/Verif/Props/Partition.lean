import Verif.Lemmas.Partition
import Verif.Props.Contain

/-! # C30–C33: `partition_from` -/

set_option linter.unusedSimpArgs false

namespace Verif
open Spec

theorem partitionRanges_pos {bytes : Bytes} {num : Nat} (h : num ≠ 0) :
    partitionRanges dltStorage bytes num =
      partitionLoop dltStorage bytes (bytes.length / num) 0 (bytes.length / num) := by
  unfold partitionRanges; rw [if_neg h]

theorem partitionFrom_of_ranges {bytes : Bytes} {num : Nat} {rs : List (Nat × Nat)}
    (h : partitionRanges dltStorage bytes num = .ok rs) :
    partitionFrom dltStorage bytes num = .ok (rs.map fun r => (bytes.take r.2).drop r.1) := by
  unfold partitionFrom; rw [h]

/-! ## C30 -/

/-- **C30** on every slice and for every `num > 0` the call returns; the slices are non-empty, and they are
the adjacent ranges `0 .. c₁, c₁ .. c₂, ...` of the input: their concatenation is a prefix of it. -/
theorem C30_partition_contiguous (bytes : Bytes) (hF : Fits bytes) (num : Nat) (hnum : num ≠ 0) :
    ∃ rs b slices, partitionRanges dltStorage bytes num = .ok rs ∧ Tiles 0 rs b ∧ b ≤ bytes.length ∧
      partitionFrom dltStorage bytes num = .ok slices ∧ slices.length = rs.length ∧
      (∀ s ∈ slices, s ≠ []) ∧ slices.flatten = bytes.take b := by
  obtain ⟨rs, b, h1, h2, h3⟩ := partitionLoop_tiles dlt_lawful hF (bytes.length / num) _ 0
    (bytes.length / num) rfl (Nat.zero_le _)
  have hr : partitionRanges dltStorage bytes num = .ok rs := by rw [partitionRanges_pos hnum, h1]
  obtain ⟨h4, _, h5⟩ := tiles_slices (bytes := bytes) h2 h3
  exact ⟨rs, b, _, hr, h2, h3, partitionFrom_of_ranges hr, by simp, h5, by rw [h4]; simp⟩

/-- **C30** it panics exactly for `num = 0`. -/
theorem C30_partition_panics_iff (bytes : Bytes) (hF : Fits bytes) (num : Nat) :
    partitionFrom dltStorage bytes num = .panic ↔ num = 0 := by
  constructor
  · intro h
    apply Classical.byContradiction; intro hn
    obtain ⟨_, _, s, _, _, _, h1, _⟩ := C30_partition_contiguous bytes hF num hn
    rw [h1] at h; cases h
  · rintro rfl
    unfold partitionFrom partitionRanges; simp

/-- **C30** the same for every type obeying the reading laws. -/
theorem C30_partition_contiguous_generic {T : Type} (S : SearchableMarker T) (L : Lawful S) (bytes : Bytes)
    (hF : Fits bytes) (num : Nat) (hnum : num ≠ 0) :
    ∃ rs b, partitionRanges S bytes num = .ok rs ∧ Tiles 0 rs b ∧ b ≤ bytes.length := by
  obtain ⟨rs, b, h1, h2, h3⟩ := partitionLoop_tiles L hF (bytes.length / num) _ 0
    (bytes.length / num) rfl (Nat.zero_le _)
  exact ⟨rs, b, by unfold partitionRanges; rw [if_neg hnum, h1], h2, h3⟩

/-! ## Cuts -/

/-- The slices of a file whose top-level messages have at most 65536 bytes: no cut strictly inside one. -/
theorem partitionLoop_cuts {bytes : Bytes} (hF : Fits bytes) {G : List (Nat × StorageEntry)}
    (hG : TopLevel bytes G) (hmax : AtMost 65536 G) (hns : NoStraddle bytes G) (size : Nat) :
    ∀ (k c0 : Nat), bytes.length - c0 = k → (∀ x ∈ G, ¬ StrictlyInside c0 x) →
      ∀ rs, partitionLoop dltStorage bytes size c0 (c0 + size) = .ok rs →
      ∀ r ∈ rs, ∀ x ∈ G, ¬ StrictlyInside r.2 x := by
  intro k
  induction k using Nat.strongRecOn with
  | ind k ih =>
    intro c0 hk hc0 rs hrs
    rcases partitionLoop_step dlt_lawful hF (size := size) (c0 := c0) (c1 := c0 + size) with
      ⟨_, h⟩ | ⟨h1, h1', q, hq, c, hc, h⟩
    · rw [h] at hrs; cases hrs; simp
    · rcases h with ⟨_, h⟩ | ⟨h2, _, h⟩ | ⟨h2, h3, h⟩
      · rw [h] at hrs; cases hrs; simp
      · rw [h] at hrs; cases hrs
        intro r hr x hx hin
        rw [List.mem_singleton.1 hr] at hin
        have hb := (topLevel_wf hG x hx).1.bounds
        have hlen := (topLevel_wf hG x hx).2
        have := hin.2
        simp only at this
        omega
      · have hcin : ∀ x ∈ G, ¬ StrictlyInside c x := by
          intro x hx hin
          have hb := (topLevel_wf hG x hx).1.bounds
          have hlen := (topLevel_wf hG x hx).2
          by_cases hlast : c0 + size + 1 < bytes.length
          · obtain ⟨q', hq', hiff⟩ := C29_contained_by_outermost_partial bytes hF G hG hmax hns (c0 + size) hlast
            rw [hq] at hq'
            have hqq : q = q' := by cases hq'; rfl
            subst hqq
            rcases hc with ⟨hn, rfl⟩ | ⟨v, hs, hr, h4, h5, _⟩
            · have := (hiff x).2 ⟨hx, hin⟩
              rw [hn] at this; simp at this
            · have hcv := (hiff (c, v)).1 hs
              have hd := Spec.Greedy.disjoint hG
              have hi : Inside dltStorage G (c + 1) (c, v) := by
                rw [inside_iff hG]
                refine ⟨hcv.1, ?_, ?_⟩
                · show c < c + 1; omega
                · have := (topLevel_wf hG _ hcv.1).1.bounds
                  have h6 := (topLevel_wf hG _ hcv.1).2
                  simp only at this h6 ⊢
                  omega
              have hi2 : Inside dltStorage G (c + 1) x ∨ x.1 + (encode x.2).length = c + 1 := by
                obtain ⟨h6, h7⟩ := hin
                by_cases h8 : x.1 + (encode x.2).length = c + 1
                · right; exact h8
                · left; rw [inside_iff hG]; exact ⟨hx, by omega, by omega⟩
              rcases hi2 with hi2 | hi2
              · have := Inside.unique hd hi hi2
                subst this
                have := hin.1
                simp only at this; omega
              · -- two top-level messages overlap in the byte at `c`
                have hne : x ≠ (c, v) := by
                  rintro rfl; have := hin.1; simp only at this; omega
                have key : ∀ G : List (Nat × StorageEntry),
                    (G.Pairwise fun a b => a.1 + dltStorage.len a.2 ≤ b.1) → x ∈ G → (c, v) ∈ G →
                    x.1 + x.2.len ≤ c ∨ c + v.len ≤ x.1 := by
                  intro G hd h1 h2
                  induction G with
                  | nil => simp at h1
                  | cons g G ihg =>
                    rw [List.pairwise_cons] at hd
                    rcases List.mem_cons.1 h1 with h1' | h1'
                    · subst h1'
                      rcases List.mem_cons.1 h2 with h2' | h2'
                      · exact absurd h2'.symm hne
                      · left; exact hd.1 _ h2'
                    · rcases List.mem_cons.1 h2 with h2' | h2'
                      · subst h2'; right; exact hd.1 _ h1'
                      · exact ihg hd.2 h1' h2'
                have := key G hd hx hcv.1
                have := hin.1
                omega
          · -- the candidate is the last byte of the file (or behind it): the slice would be tiny
            have hcc : c = c0 + size := by
              rcases hc with ⟨_, rfl⟩ | ⟨v, hs, _⟩
              · rfl
              · rw [containedBy_unfold, if_pos (by omega)] at hq
                rw [hs] at hq; cases hq
            have h6 := hin.1
            have h7 := hin.2
            apply hc0 x hx
            refine ⟨?_, ?_⟩ <;> omega
        cases hrest : partitionLoop dltStorage bytes size c (c + size) with
        | panic => rw [hrest] at h; rw [h] at hrs; cases hrs
        | ok rest =>
          rw [hrest] at h
          rw [h] at hrs; cases hrs
          intro r hr x hx
          rcases List.mem_cons.1 hr with h' | h'
          · subst h'; exact hcin x hx
          · exact ih (bytes.length - c) (by omega) c rfl hcin rest hrest r h' x hx

/-! ## C32 -/

theorem tiles_cover : ∀ {rs : List (Nat × Nat)} {a b s t : Nat}, Tiles a rs b → a ≤ s → s < t →
    (∀ r ∈ rs, ¬ (s < r.2 ∧ r.2 < t)) → (∃ r ∈ rs, r.1 ≤ s ∧ t ≤ r.2) ∨ b ≤ s := by
  intro rs
  induction rs with
  | nil => intro a b s t h h1 _ _; right; have h : a = b := h; omega
  | cons r rs ih =>
    intro a b s t h h1 h2 h3
    obtain ⟨c, d⟩ := r
    obtain ⟨rfl, hlt, ht⟩ := h
    have h4 := h3 (c, d) List.mem_cons_self
    simp only at h4
    by_cases hd : d ≤ s
    · rcases ih ht hd h2 fun r hr => h3 r (List.mem_cons_of_mem _ hr) with ⟨r, hr, h⟩ | h
      · left; exact ⟨r, List.mem_cons_of_mem _ hr, h⟩
      · right; exact h
    · left; exact ⟨(c, d), List.mem_cons_self, h1, by simp only; omega⟩

/-- **C32 (partial)** on a file whose top-level messages have at most 65536 bytes (and where no message
straddles the end of a top-level one), every top-level message lies entirely inside one slice or entirely
behind the slices. Missing, and false: longer messages (`C32_oversized_message_is_cut`) and straddling ones
(`C32_straddled_message_is_cut`). -/
theorem C32_no_message_spans_two_partial (bytes : Bytes) (hF : Fits bytes) (G : List (Nat × StorageEntry))
    (hG : TopLevel bytes G) (hmax : AtMost 65536 G) (hns : NoStraddle bytes G) (num : Nat) (hnum : num ≠ 0) :
    ∃ rs b, partitionRanges dltStorage bytes num = .ok rs ∧ Tiles 0 rs b ∧
      ∀ x ∈ G, (∃ r ∈ rs, r.1 ≤ x.1 ∧ x.1 + (encode x.2).length ≤ r.2) ∨ b ≤ x.1 := by
  obtain ⟨rs, b, _, h1, h2, _⟩ := C30_partition_contiguous bytes hF num hnum
  refine ⟨rs, b, h1, h2, fun x hx => ?_⟩
  rw [partitionRanges_pos hnum] at h1
  have hcut := partitionLoop_cuts hF hG hmax hns (bytes.length / num) _ 0 rfl
    (fun y _ h => by have := h.1; omega) rs (by rw [Nat.zero_add]; exact h1)
  have hb := (topLevel_wf hG x hx).1.bounds
  have hlen := (topLevel_wf hG x hx).2
  exact tiles_cover h2 (Nat.zero_le _) (by omega) fun r hr h => hcut r hr x hx h

/-! ### Evaluating the loop on concrete files -/

/-- Where the cut goes. -/
def cutAt (c1 : Nat) : Option (Nat × StorageEntry) → Nat
  | some (k, _) => k
  | none => c1

theorem partitionLoop_cut (bytes : Bytes) {size c0 c1 c : Nat} {r : Option (Nat × StorageEntry)}
    (hc : containedBy dltStorage bytes c1 (c1 + 1) = .ok r)
    (hr : cutAt c1 r = c)
    (h1 : c1 ≤ bytes.length) (h0 : c0 < c) (hcl : c ≤ bytes.length) (hm : c + size / 4 < bytes.length)
    {rest : List (Nat × Nat)} (hrest : partitionLoop dltStorage bytes size c (c + size) = .ok rest) :
    partitionLoop dltStorage bytes size c0 c1 = .ok ((c0, c) :: rest) := by
  rw [partitionLoop, if_neg (by omega)]
  simp only [hc]
  rcases r with _ | ⟨k, v⟩ <;> simp only [cutAt] at hr <;> subst hr <;> simp only
  all_goals
    rw [dif_neg (by omega), dif_neg (by omega)]
    simp only [slice_ok (Nat.le_of_lt h0) hcl, hrest]

theorem partitionLoop_last (bytes : Bytes) {size c0 c1 c : Nat} {r : Option (Nat × StorageEntry)}
    (hc : containedBy dltStorage bytes c1 (c1 + 1) = .ok r)
    (hr : cutAt c1 r = c)
    (h1 : c1 ≤ bytes.length) (h0 : c0 < c) (hcl : c ≤ bytes.length) (hm : bytes.length ≤ c + size / 4) :
    partitionLoop dltStorage bytes size c0 c1 = .ok [(c0, bytes.length)] := by
  rw [partitionLoop, if_neg (by omega)]
  simp only [hc]
  rcases r with _ | ⟨k, v⟩ <;> simp only [cutAt] at hr <;> subst hr <;> simp only
  all_goals
    rw [dif_neg (by omega), dif_pos (by omega)]
    simp only [sliceFrom_ok (show c0 ≤ bytes.length by omega)]

theorem partitionLoop_stop (bytes : Bytes) {size c0 c1 c : Nat} {r : Option (Nat × StorageEntry)}
    (hc : containedBy dltStorage bytes c1 (c1 + 1) = .ok r)
    (hr : cutAt c1 r = c)
    (h1 : c1 ≤ bytes.length) (h0 : c ≤ c0) : partitionLoop dltStorage bytes size c0 c1 = .ok [] := by
  by_cases h : c0 > bytes.length
  · rw [partitionLoop, if_pos (by omega)]
  · rw [partitionLoop, if_neg (by omega)]
    simp only [hc]
    rcases r with _ | ⟨k, v⟩ <;> simp only [cutAt] at hr <;> subst hr <;> simp only
    all_goals rw [dif_pos (by omega)]

theorem partitionLoop_over (bytes : Bytes) {size c0 c1 : Nat} (h : bytes.length < c1) :
    partitionLoop dltStorage bytes size c0 c1 = .ok [] := by
  rw [partitionLoop, if_pos (by omega)]

/-- `contained_by` on back-to-back messages of at most 65536 bytes. -/
theorem containedBy_packed {es : List StorageEntry} (hw : ∀ e ∈ es, WF e) (hF : Fits (packed es))
    (hmax : AtMost 65536 (packedAt 0 es)) {p : Nat} (hp : p + 1 < (packed es).length)
    {x : Nat × StorageEntry} (hx : x ∈ packedAt 0 es) (hin : StrictlyInside p x) :
    containedBy dltStorage (packed es) p (p + 1) = .ok (some x) := by
  obtain ⟨r, h1, h2⟩ := C29_contained_by_outermost_partial (packed es) hF _ (topLevel_packed hw) hmax
    (noStraddle_packed hw) p hp
  rw [h1, (h2 x).2 ⟨hx, hin⟩]

theorem containedBy_packed_none {es : List StorageEntry} (hw : ∀ e ∈ es, WF e) (hF : Fits (packed es))
    (hmax : AtMost 65536 (packedAt 0 es)) {p : Nat} (hp : p + 1 < (packed es).length)
    (hno : ∀ x ∈ packedAt 0 es, ¬ StrictlyInside p x) :
    containedBy dltStorage (packed es) p (p + 1) = .ok none := by
  obtain ⟨r, h1, h2⟩ := C29_contained_by_outermost_partial (packed es) hF _ (topLevel_packed hw) hmax
    (noStraddle_packed hw) p hp
  rw [h1]
  cases r with
  | none => rfl
  | some x => have := (h2 x).1 rfl; exact absurd this.2 (hno x this.1)

/-- Five messages of 20 bytes. -/
def five : List StorageEntry := [msg0, msg0, msg0, msg0, msg0]

theorem five_wf : ∀ e ∈ five, WF e := by
  intro e he
  simp only [five, List.mem_cons, List.not_mem_nil, or_false] at he
  rcases he with rfl | rfl | rfl | rfl | rfl <;> exact msg0_wf

theorem five_max : AtMost 65536 (packedAt 0 five) := by
  intro x hx
  simp only [five, packedAt, List.mem_cons, List.not_mem_nil, or_false] at hx
  rcases hx with rfl | rfl | rfl | rfl | rfl <;> show 20 ≤ 65536 <;> decide

theorem five_len : (packed five).length = 100 := rfl
theorem five_fits : Fits (packed five) := by unfold Fits; rw [five_len]; decide

theorem five_at : packedAt 0 five = [(0, msg0), (20, msg0), (40, msg0), (60, msg0), (80, msg0)] := rfl

theorem five_contained {p k : Nat} (hp : p < 99) (hk : (k, msg0) ∈ packedAt 0 five) (h : k < p ∧ p < k + 20) :
    containedBy dltStorage (packed five) p (p + 1) = .ok (some (k, msg0)) :=
  containedBy_packed five_wf five_fits five_max (by rw [five_len]; omega) hk h

/-! ## C31 -/

/-- **C31 (violated)** five messages of 20 bytes in two partitions: the slices are bytes 0–40 and 40–80,
the last message is in no slice. -/
theorem C31_partition_drops_the_tail :
    partitionRanges dltStorage (packed five) 2 = .ok [(0, 40), (40, 80)] := by
  rw [partitionRanges_pos (by decide), five_len, show 100 / 2 = 50 from rfl]
  have hl := five_len
  refine partitionLoop_cut _ (c := 40) (five_contained (p := 50) (k := 40) (by decide) (by simp [five_at]) (by decide)) rfl
    (by omega) (by omega) (by omega) (by omega) ?_
  refine partitionLoop_cut _ (c := 80) (five_contained (p := 90) (k := 80) (by decide) (by simp [five_at]) (by decide)) rfl
    (by omega) (by omega) (by omega) (by omega) ?_
  exact partitionLoop_over _ (by omega)

/-- **C31 (violated)** stated as the property: it fails. -/
theorem C31_loses_bytes : ¬ ∀ (bytes : Bytes) (num : Nat) (slices : List Bytes), Fits bytes → num ≠ 0 →
    partitionFrom dltStorage bytes num = .ok slices → slices.flatten = bytes := by
  intro h
  have h1 := h (packed five) 2 _ five_fits (by decide) (partitionFrom_of_ranges C31_partition_drops_the_tail)
  have h2 := congrArg List.length h1
  rw [five_len] at h2
  revert h2
  decide

/-- **C31 (violated)** with more partitions than bytes, everything is lost. -/
theorem C31_more_partitions_than_bytes (bytes : Bytes) (num : Nat) (hnum : num ≠ 0)
    (h : bytes.length < num) : partitionFrom dltStorage bytes num = .ok [] := by
  apply partitionFrom_of_ranges (rs := [])
  rw [partitionRanges_pos hnum, Nat.div_eq_of_lt h]
  have : containedBy dltStorage bytes 0 (0 + 1) = .ok none := by
    rw [containedBy_unfold]
    by_cases hb : 0 ≥ bytes.length ∨ 0 + 1 ≥ bytes.length ∨ 0 ≥ 0 + 1 ∨ 0 + 1 = 0
    · rw [if_pos hb]
    · rw [if_neg hb]
      cases findIter dltStorage.marker (List.drop (0 - dltStorage.maxLen) bytes) with
      | nil => simp [containedByLoop]
      | cons c cs => simp only [List.map_cons]; rw [containedByLoop, dif_pos (by omega)]
  exact partitionLoop_stop _ this rfl (Nat.zero_le _) (Nat.le_refl _)

/-! ## C31/C33: when nothing is lost -/

theorem partition_complete_of_lag {bytes : Bytes} (hF : Fits bytes) {num D : Nat} (hnum : num ≠ 0)
    (hlen : num ≤ bytes.length)
    (hlag : ∀ p s v, containedBy dltStorage bytes p (p + 1) = .ok (some (s, v)) → p ≤ s + D)
    (h : bytes.length % num + num * D ≤ bytes.length / num / 4) :
    ∃ rs slices, partitionRanges dltStorage bytes num = .ok rs ∧ Tiles 0 rs bytes.length ∧
      partitionFrom dltStorage bytes num = .ok slices ∧ slices.length = num ∧ slices.flatten = bytes := by
  have hpos : 0 < bytes.length / num := Nat.div_pos hlen (by omega)
  have hdm := Nat.div_add_mod bytes.length num
  obtain ⟨rs, h1, h2, h3⟩ := partitionLoop_count dlt_lawful hF (bytes.length / num) D (bytes.length % num) num
    hlag h hpos num 0 0 (by omega) (by omega) (by omega) (by omega)
  rw [Nat.zero_add] at h1
  have hr : partitionRanges dltStorage bytes num = .ok rs := by rw [partitionRanges_pos hnum, h1]
  refine ⟨rs, _, hr, h3, partitionFrom_of_ranges hr, by simp [h2], ?_⟩
  rw [(tiles_slices h3 (Nat.le_refl _)).1]; simp

/-- **C31, C33 (partial)** on every input — no assumption about its contents — that is large against the
square of the number of partitions, there are exactly `num` slices and they lose nothing. (For one thread
256 KiB suffice, for eight 16 MiB.) -/
theorem C33_large_files_partial (bytes : Bytes) (hF : Fits bytes) (num : Nat) (hnum : num ≠ 0)
    (h : bytes.length % num + num * 65535 ≤ bytes.length / num / 4) :
    ∃ slices, partitionFrom dltStorage bytes num = .ok slices ∧ slices.length = num ∧
      slices.flatten = bytes := by
  obtain ⟨_, slices, _, _, h1, h2, h3⟩ := partition_complete_of_lag (D := 65535) hF hnum (by
      apply Classical.byContradiction; intro hlt
      rw [Nat.div_eq_of_lt (Nat.lt_of_not_le hlt)] at h
      have : 0 < num * 65535 := by omega
      omega) (fun p s v hp => by
      obtain ⟨r, h4, h5⟩ := C28_contained_by_sound bytes hF p (p + 1)
      rw [hp] at h4; cases h4
      exact (h5 s v rfl).2.2.2) h
  exact ⟨slices, h1, h2, h3⟩

/-- **C31, C33 (partial)** the same for smaller inputs, if all messages are short: with messages of at most
`L` bytes it suffices that `len % num + num * (L - 1) ≤ (len / num) / 4`. -/
theorem C33_short_messages_partial (bytes : Bytes) (hF : Fits bytes) (num L : Nat) (hnum : num ≠ 0)
    (hle : num ≤ bytes.length) (hL : ∀ i e, MsgAt bytes i e → (encode e).length ≤ L)
    (h : bytes.length % num + num * (L - 1) ≤ bytes.length / num / 4) :
    ∃ slices, partitionFrom dltStorage bytes num = .ok slices ∧ slices.length = num ∧
      slices.flatten = bytes := by
  obtain ⟨_, slices, _, _, h1, h2, h3⟩ := partition_complete_of_lag (D := L - 1) hF hnum hle (fun p s v hp => by
      obtain ⟨r, h4, h5⟩ := C28_contained_by_sound bytes hF p (p + 1)
      rw [hp] at h4; cases h4
      obtain ⟨h6, _, h7, _⟩ := h5 s v rfl
      have := hL s v h6
      omega) h
  exact ⟨slices, h1, h2, h3⟩

/-- Concrete sizes meeting the hypotheses: 1 GiB in 32 partitions; and 1000 messages of 20 bytes in 8. -/
example : (2 ^ 30 % 32 + 32 * 65535 ≤ 2 ^ 30 / 32 / 4) ∧ (20000 % 8 + 8 * (20 - 1) ≤ 20000 / 8 / 4) := by
  decide

/-! ## C33 -/

/-- **C33 (violated)** a single message in two partitions gives no slice at all. -/
theorem C33_no_slices : ∃ bytes, Fits bytes ∧ bytes ≠ [] ∧ partitionFrom dltStorage bytes 2 = .ok [] := by
  have hw : ∀ e ∈ [msg1], WF e := by
    intro e he; rw [List.mem_singleton.1 he]; exact msg1_wf
  have hl : (packed [msg1]).length = (encode msg1).length := by simp [packed]
  have hF : Fits (packed [msg1]) := by decide
  refine ⟨packed [msg1], hF, by decide, partitionFrom_of_ranges (rs := []) ?_⟩
  rw [partitionRanges_pos (by decide)]
  have hc : containedBy dltStorage (packed [msg1]) ((packed [msg1]).length / 2) ((packed [msg1]).length / 2 + 1) =
      .ok (some (0, msg1)) := by
    refine containedBy_packed hw hF ?_ (by decide) (by simp [packedAt]) (by decide)
    intro x hx
    simp only [packedAt, List.mem_cons, List.not_mem_nil, or_false] at hx
    subst hx; decide
  exact partitionLoop_stop _ hc rfl (by omega) (Nat.le_refl _)

/-- **C33 (violated)** five messages of 20 bytes in three partitions give four slices. -/
theorem C33_too_many_slices :
    partitionRanges dltStorage (packed five) 3 = .ok [(0, 20), (20, 40), (40, 60), (60, 80)] := by
  rw [partitionRanges_pos (by decide), five_len, show 100 / 3 = 33 from rfl]
  have hl := five_len
  refine partitionLoop_cut _ (c := 20) (five_contained (p := 33) (k := 20) (by decide) (by simp [five_at]) (by decide)) rfl
    (by omega) (by omega) (by omega) (by omega) ?_
  refine partitionLoop_cut _ (c := 40) (five_contained (p := 53) (k := 40) (by decide) (by simp [five_at]) (by decide)) rfl
    (by omega) (by omega) (by omega) (by omega) ?_
  refine partitionLoop_cut _ (c := 60) (five_contained (p := 73) (k := 60) (by decide) (by simp [five_at]) (by decide)) rfl
    (by omega) (by omega) (by omega) (by omega) ?_
  refine partitionLoop_cut _ (c := 80) (five_contained (p := 93) (k := 80) (by decide) (by simp [five_at]) (by decide)) rfl
    (by omega) (by omega) (by omega) (by omega) ?_
  exact partitionLoop_over _ (by omega)

/-- **C33 (violated)** stated as the property: it fails in both directions. -/
theorem C33_slice_count_wrong :
    (∃ bytes num slices, Fits bytes ∧ num ≠ 0 ∧ partitionFrom dltStorage bytes num = .ok slices ∧
      slices.length < num) ∧
    (∃ bytes num slices, Fits bytes ∧ num ≠ 0 ∧ partitionFrom dltStorage bytes num = .ok slices ∧
      num < slices.length) := by
  obtain ⟨b, h1, _, h2⟩ := C33_no_slices
  exact ⟨⟨b, 2, [], h1, by decide, h2, by decide⟩,
    ⟨packed five, 3, _, five_fits, by decide, partitionFrom_of_ranges C33_too_many_slices, by decide⟩⟩

/-! ## C32: the exceptions -/

/-- A message of 65529 bytes. -/
def msgBig : StorageEntry :=
  ⟨⟨⟨68, 76, 84, 1⟩, 0, 0, ⟨0, 0, 0, 0⟩⟩, ⟨⟨⟨0⟩, 0, 65513⟩, List.replicate 65509 0⟩⟩

theorem msgBig_wf : WF msgBig := by
  refine ⟨rfl, ?_⟩
  simp only [msgBig, List.length_replicate]
  rfl

theorem msgBig_length : (encode msgBig).length = 65529 := by
  rw [encode_length, show msgBig.dlt.tail = List.replicate 65509 0 from rfl, List.length_replicate]

/-- **C32 (violated)** a message of 65551 bytes is cut in two: the first slice ends at byte 65540, strictly
inside the first message. -/
theorem C32_oversized_message_is_cut :
    TopLevel (packed [msgMax, msgBig]) (packedAt 0 [msgMax, msgBig]) ∧
    ∃ rest, partitionRanges dltStorage (packed [msgMax, msgBig]) 2 = .ok ((0, 65540) :: rest) ∧
      StrictlyInside 65540 (0, msgMax) := by
  have hw : ∀ e ∈ [msgMax, msgBig], WF e := by
    intro e he
    simp only [List.mem_cons, List.not_mem_nil, or_false] at he
    rcases he with rfl | rfl
    · exact msgMax_wf
    · exact msgBig_wf
  have hp : packed [msgMax, msgBig] = encode msgMax ++ encode msgBig := by simp [packed]
  have hl : (packed [msgMax, msgBig]).length = 131080 := by
    rw [hp, List.length_append, msgMax_length, msgBig_length]
  have hF : Fits (packed [msgMax, msgBig]) := by unfold Fits; rw [hl]; decide
  have hc : containedBy dltStorage (packed [msgMax, msgBig]) 65540 (65540 + 1) = .ok none := by
    obtain ⟨r, h1, h2⟩ := C28_contained_by_sound (packed [msgMax, msgBig]) hF 65540 (65540 + 1)
    cases r with
    | none => exact h1
    | some x =>
      obtain ⟨s, e⟩ := x
      obtain ⟨h3, h4, h5, h6⟩ := h2 s e rfl
      exfalso
      have hm := (readableAt_iff_msgAt.2 h3).marker dlt_lawful
      rw [hp] at hm
      exact no_msg_in_msgMax (encode msgBig) s (by omega) (by omega) hm
  refine ⟨topLevel_packed hw, ?_⟩
  obtain ⟨rest, b, h1, _⟩ := partitionLoop_tiles dlt_lawful hF 65540 _ 65540 (65540 + 65540) rfl (by omega)
  refine ⟨rest, ?_, ⟨by decide, by rw [msgMax_length]; decide⟩⟩
  rw [partitionRanges_pos (by decide), hl, show 131080 / 2 = 65540 from rfl]
  exact partitionLoop_cut _ (c := 65540) hc rfl (by omega) (by omega) (by omega) (by omega) h1

/-- **C32 (violated)** a message of 22 bytes is cut at byte 20, because the two bytes there together with the
following garbage read as the start of another message. -/
theorem C32_straddled_message_is_cut :
    TopLevel straddle [(0, straddleOuter)] ∧
    ∃ rest, partitionRanges dltStorage straddle 2 = .ok ((0, 20) :: rest) ∧ StrictlyInside 20 (0, straddleOuter) := by
  have hl : straddle.length = 76 := rfl
  have hF : Fits straddle := by decide
  refine ⟨straddle_top, ?_⟩
  obtain ⟨rest, b, h1, _⟩ := partitionLoop_tiles dlt_lawful hF 38 _ 20 (20 + 38) rfl (by omega)
  refine ⟨rest, ?_, by decide⟩
  rw [partitionRanges_pos (by decide), hl, show 76 / 2 = 38 from rfl]
  exact partitionLoop_cut _ (c := 20) C29_straddling_message_found.2.2 rfl (by omega) (by omega) (by omega) (by omega) h1

end Verif
