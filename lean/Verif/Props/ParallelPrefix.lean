import Verif.Props.ParallelCount
import Verif.Props.PartitionExact

/-! # C72: what the multithreaded commands miss -/

set_option linter.unusedSimpArgs false

namespace Verif

open Spec

/-- The messages in front of a cut are a prefix, those behind it fill at least 20 bytes each. -/
theorem messages_behind (segs : List (Bytes × StorageEntry)) (t : Bytes) (o b : Nat) :
    (∃ k, ((messagesAt o segs).filter fun x => decide (x.1 < b)) = (messagesAt o segs).take k) ∧
    ((messagesAt o segs).length - ((messagesAt o segs).filter fun x => decide (x.1 < b)).length) * 20 ≤
      o + (fileOf segs t).length - max o b := by
  induction segs generalizing o with
  | nil => exact ⟨⟨0, rfl⟩, by simp [messagesAt]⟩
  | cons s segs ih =>
    obtain ⟨g, e⟩ := s
    obtain ⟨⟨k, hk⟩, hl⟩ := ih (o + g.length + (encode e).length)
    have he : 20 ≤ (encode e).length := by rw [encode_length]; omega
    rw [fileOf_cons]
    simp only [messagesAt, List.length_append, List.filter_cons]
    by_cases hb : o + g.length < b
    · rw [if_pos (by simpa using hb)]
      refine ⟨⟨k + 1, by rw [List.take_succ_cons, hk]⟩, ?_⟩
      simp only [List.length_cons]
      omega
    · rw [if_neg (by simpa using hb)]
      have hnil : (messagesAt (o + g.length + (encode e).length) segs).filter (fun x => decide (x.1 < b)) = [] := by
        rw [List.filter_eq_nil_iff]
        intro x hx
        have := messagesAt_start _ _ x hx
        simp only [decide_eq_true_eq]; omega
      rw [hnil] at hl ⊢
      refine ⟨⟨0, rfl⟩, ?_⟩
      simp only [List.length_cons, List.length_nil] at hl ⊢
      omega

/-- **C72** on a clean file whose messages have at most 65536 bytes and are not straddled, the messages of the slices
are, in order, the first messages of the file: those that start in front of some byte `b`, where the slices end. -/
theorem C72_slices_hold_a_prefix (segs : List (Bytes × StorageEntry)) (t : Bytes) (hc : Clean segs t)
    (hF : Fits (fileOf segs t)) (hmax : AtMost 65536 (messagesAt 0 segs))
    (hns : NoStraddle (fileOf segs t) (messagesAt 0 segs)) (num : Nat) (hnum : num ≠ 0) :
    ∃ slices b mss, partitionFrom dltStorage (fileOf segs t) num = .ok slices ∧
      slices.flatten = (fileOf segs t).take b ∧ b ≤ (fileOf segs t).length ∧ Each Messages slices mss ∧
      mss.flatten = ((messagesAt 0 segs).filter fun x => decide (x.1 < b)).map (·.2) ∧
      mss.flatten <+: segs.map (·.2) := by
  obtain ⟨parts, b, h1, h2, h3, h4, h5⟩ := partition_clean segs t hc hF hmax hns num hnum
  obtain ⟨mss, hm⟩ := each_messages fun s hs => (partition_fits hF h1).2 s hs
  have h6 := messages_parts (fun p hp => (h4 p hp).1) hm
  refine ⟨_, b, mss, h1, h2, h3, hm, by rw [h6, h5], ?_⟩
  rw [h6, h5]
  obtain ⟨⟨k, hk⟩, _⟩ := messages_behind segs t 0 b
  rw [hk, ← messagesAt_map segs 0]
  exact (List.take_prefix _ _).map _

/-- **C72** if moreover no message is longer than `len / num` bytes, `par_count` never counts too many messages, and
those it misses fit (with 20 bytes each) in less than one slice. -/
theorem C72_par_count_bounds (segs : List (Bytes × StorageEntry)) (t : Bytes) (hc : Clean segs t)
    (hF : Fits (fileOf segs t)) (hmax : AtMost 65536 (messagesAt 0 segs))
    (hns : NoStraddle (fileOf segs t) (messagesAt 0 segs)) (num : Nat) (hnum : num ≠ 0)
    (hpos : num ≤ (fileOf segs t).length)
    (hsmall : AtMost ((fileOf segs t).length / num) (messagesAt 0 segs)) :
    ∃ n, (∀ r, Multithreaded ripCount (fileOf segs t) num r ↔ r = .ok n) ∧ n ≤ segs.length ∧
      (segs.length - n) * 20 < (fileOf segs t).length / num := by
  have hsz : 0 < (fileOf segs t).length / num := Nat.div_pos hpos (by omega)
  obtain ⟨-, slices, b, h1, h2, h3, h4⟩ := C34_par_count_exact_partial segs t hc hF hmax hns num hnum
  obtain ⟨-, slices', b', -, -, h5, -, -, -, h6, h7⟩ := partition_balanced hF hnum hsz (Nat.le_refl _) (fun p s v hp => by
    by_cases hlast : p + 1 < (fileOf segs t).length
    · obtain ⟨q, hq, hiff⟩ := C29_contained_by_outermost_partial _ hF _ (topLevel_fileOf segs t hc) hmax hns p hlast
      rw [hp] at hq
      cases hq
      obtain ⟨h8, _, h9⟩ := (hiff (s, v)).1 rfl
      have := hsmall _ h8
      simp only at this h9
      omega
    · rw [containedBy_unfold, if_pos (by omega)] at hp
      cases hp)
  rw [h1] at h5
  cases h5
  have hb : min b (fileOf segs t).length = min b' (fileOf segs t).length := by
    have := congrArg List.length (h2.symm.trans h6)
    rwa [List.length_take, List.length_take] at this
  have hml : (messagesAt 0 segs).length = segs.length := by
    have := congrArg List.length (messagesAt_map segs 0)
    rwa [List.length_map, List.length_map] at this
  obtain ⟨-, hl⟩ := messages_behind segs t 0 b
  refine ⟨_, h4, ?_, ?_⟩
  · rw [← hml]; exact List.length_filter_le _ _
  · rw [hml] at hl
    omega

/-- **C72** the hypotheses are met by the five messages and two slices: 20 bytes are lost, less than 50. -/
example : ∃ n, (∀ r, Multithreaded ripCount (packed five) 2 r ↔ r = .ok n) ∧ n ≤ 5 ∧ (5 - n) * 20 < 50 := by
  have hF := five_fits
  have hns := noStraddle_packed five_wf
  have hmx := five_max
  rw [← fileOf_packed] at hF hns
  rw [← messagesAt_packed] at hns hmx
  have h := C72_par_count_bounds _ [] (clean_packed five_wf) hF hmx hns 2 (by decide) (by rw [fileOf_packed]; decide) (by
    rw [fileOf_packed, five_len, messagesAt_packed]
    intro x hx
    simp only [five, packedAt, List.mem_cons, List.not_mem_nil, or_false] at hx
    rcases hx with rfl | rfl | rfl | rfl | rfl <;> show 20 ≤ 100 / 2 <;> decide)
  rw [fileOf_packed, five_len] at h
  exact h

end Verif
