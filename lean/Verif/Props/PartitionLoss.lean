import Verif.Props.ContainExact

/-! # C31: what `partition_from` loses, and why -/

set_option linter.unusedSimpArgs false

namespace Verif

open Spec

theorem cutsBy_end {len size : Nat} {cut : Nat → Nat → Prop} {c0 : Nat} {rs : List (Nat × Nat)}
    (h : CutsBy len size cut c0 rs) : ∀ b, Tiles c0 rs b →
      b = len ∨ len < b + size ∨ (b + size ≤ len ∧ ∃ c, cut (b + size) c ∧ c ≤ b) := by
  induction h with
  | beyond h => intro b hb; cases hb; exact .inr (.inl h)
  | stuck h1 h2 h3 => intro b hb; cases hb; exact .inr (.inr ⟨h1, _, h2, h3⟩)
  | last => rintro b ⟨-, -, hb⟩; cases hb; exact .inl rfl
  | cut _ _ _ _ _ ih => rintro b ⟨-, -, hb⟩; exact ih b hb

/-- **C31 (exact)** the slices are a prefix of the input, and if some bytes are lost, that is for one of three reasons:
there are more partitions than bytes; fewer bytes are left than one slice has; or the next cut would not move forward,
because the first free message that reaches behind it starts at or before the last cut. -/
theorem C31_what_is_lost_partial (bytes : Bytes) (hF : Fits bytes) (free : Nat → Prop) (hfree : IsFree bytes free) (num : Nat)
    (hnum : num ≠ 0) (slices : List Bytes) (hp : partitionFrom dltStorage bytes num = .ok slices) :
    ∃ b, b ≤ bytes.length ∧ slices.flatten = bytes.take b ∧
      (b < bytes.length → bytes.length < num ∨ bytes.length < b + bytes.length / num ∨
        ∃ x, FirstReaching bytes free (b + bytes.length / num) (b + bytes.length / num + 1) x ∧ x.1 ≤ b) := by
  obtain ⟨rs, b, slices', h1, h2, h3, h4, -, -, h5⟩ := C30_partition_contiguous bytes hF num hnum
  rw [hp] at h4
  cases h4
  refine ⟨b, h3, h5, fun hb => ?_⟩
  rcases cutsBy_end ((C80_partition_exact bytes hF free hfree num hnum rs).1 h1) b h2 with h | h | ⟨h, c, hc, hle⟩
  · omega
  · exact .inr (.inl h)
  · rcases hc with ⟨-, x, hx, rfl⟩ | ⟨-, rfl⟩
    · exact .inr (.inr ⟨x, hx, hle⟩)
    · left
      have : bytes.length / num = 0 := by
        generalize bytes.length / num = q at hle ⊢
        omega
      rcases (Nat.div_eq_zero_iff).1 this with h | h
      · exact absurd h hnum
      · exact h

/-- **C31 (partial)** if there are not more partitions than bytes and no message in the file is longer than a slice, then
less than one slice is lost. -/
theorem C31_loses_less_than_a_slice_partial (bytes : Bytes) (hF : Fits bytes) (num : Nat) (hnum : num ≠ 0)
    (hlen : num ≤ bytes.length) (hmsg : ∀ i e, MsgAt bytes i e → (encode e).length ≤ bytes.length / num)
    (slices : List Bytes) (hp : partitionFrom dltStorage bytes num = .ok slices) :
    ∃ lost, bytes = slices.flatten ++ lost ∧ lost.length < bytes.length / num := by
  obtain ⟨free, hfree⟩ := (C79_contained_by_exact bytes hF).1
  obtain ⟨b, h1, h2, h3⟩ := C31_what_is_lost_partial bytes hF free hfree num hnum slices hp
  have hpos : 0 < bytes.length / num := Nat.div_pos hlen (by omega)
  refine ⟨bytes.drop b, by rw [h2, List.take_append_drop], ?_⟩
  rw [List.length_drop]
  by_cases hb : b < bytes.length
  · rcases h3 hb with h | h | ⟨x, ⟨⟨-, hm, -, -, h5⟩, -⟩, h6⟩
    · omega
    · omega
    · have := hmsg x.1 x.2 hm
      omega
  · omega

/-- The hypotheses are met: five messages of 20 bytes, two partitions of 50 bytes; 20 bytes are lost. -/
example : (∀ i e, MsgAt (packed five) i e → (encode e).length ≤ (packed five).length / 2) ∧ 2 ≤ (packed five).length := by
  refine ⟨fun i e h => ?_, by rw [five_len]; omega⟩
  obtain ⟨hw, pre, post, hb, hi⟩ := h
  rw [five_len]
  have hpre : dltMarker <+: (packed five).drop i := by
    rw [hb, ← hi, List.append_assoc, List.drop_left]
    exact wf_marker_prefix hw post
  have hr := readableAt_iff_msgAt.2 ⟨hw, pre, post, hb, hi⟩
  have hil : i < 100 := by
    have := congrArg List.length hb
    rw [five_len] at this
    simp only [List.length_append] at this
    have : 20 ≤ (encode e).length := by rw [encode_length]; omega
    omega
  have hi' : i ∈ [0, 20, 40, 60, 80] := by
    have key : ∀ j : Fin 100, dltMarker.isPrefixOf ((packed five).drop j.1) = true → j.1 ∈ [0, 20, 40, 60, 80] := by decide +kernel
    exact key ⟨i, hil⟩ (List.isPrefixOf_iff_prefix.2 hpre)
  have hat : ∀ k ∈ [0, 20, 40, 60, 80], MsgAt (packed five) k msg0 := by
    intro k hk
    refine ⟨msg0_wf, (packed five).take k, (packed five).drop (k + 20), ?_, ?_⟩
    · have key : ∀ k ∈ [0, 20, 40, 60, 80], packed five = (packed five).take k ++ encode msg0 ++ (packed five).drop (k + 20) := by
        decide +kernel
      exact key k hk
    · rw [List.length_take, five_len]
      simp only [List.mem_cons, List.not_mem_nil, or_false] at hk
      omega
  have := hr.unique dlt_lawful (readableAt_iff_msgAt.2 (hat i hi'))
  subst this
  show 20 ≤ 50
  decide

end Verif
