import Verif.Spec.Cuts
import Verif.Props.Partition

/-! # C70, C71: where the cuts are, and how large the slices -/

set_option linter.unusedSimpArgs false

namespace Verif

open Spec

theorem cutPoint_unique {len : Nat} {G : List (Nat × StorageEntry)}
    (hd : G.Pairwise fun a b => a.1 + (encode a.2).length ≤ b.1) {p c c' : Nat} (h : CutPoint len G p c)
    (h' : CutPoint len G p c') : c = c' := by
  rcases h with ⟨x, hx, hin, hp, rfl⟩ | ⟨hn, rfl⟩
  · rcases h' with ⟨y, hy, hin', _, rfl⟩ | ⟨hn', _⟩
    · have key : ∀ G : List (Nat × StorageEntry), (G.Pairwise fun a b => a.1 + (encode a.2).length ≤ b.1) → x ∈ G → y ∈ G →
          x = y := by
        intro G hd h1 h2
        unfold StrictlyInside at hin hin'
        induction G with
        | nil => simp at h1
        | cons g G ih =>
          rw [List.pairwise_cons] at hd
          rcases List.mem_cons.1 h1 with h1' | h1'
          · subst h1'
            rcases List.mem_cons.1 h2 with h2' | h2'
            · exact h2'.symm
            · have := hd.1 _ h2'; omega
          · rcases List.mem_cons.1 h2 with h2' | h2'
            · subst h2'; have := hd.1 _ h1'; omega
            · exact ih hd.2 h1' h2'
      rw [key G hd hx hy]
    · exact absurd hin (hn' hp x hx)
  · rcases h' with ⟨y, hy, hin', hp, rfl⟩ | ⟨_, rfl⟩
    · exact absurd hin' (hn hp y hy)
    · rfl

theorem cuts_unique {len size : Nat} {G : List (Nat × StorageEntry)}
    (hd : G.Pairwise fun a b => a.1 + (encode a.2).length ≤ b.1) {c0 : Nat} {rs rs' : List (Nat × Nat)}
    (h : Cuts len size G c0 rs) (h' : Cuts len size G c0 rs') : rs = rs' := by
  induction h generalizing rs' with
  | beyond h1 => cases h' <;> first | rfl | omega
  | stuck h1 h2 h3 =>
    cases h' with
    | beyond => rfl
    | stuck => rfl
    | last _ h5 h6 _ => have := cutPoint_unique hd h2 h5; omega
    | cut _ h5 h6 _ _ => have := cutPoint_unique hd h2 h5; omega
  | last h1 h2 h3 h4 =>
    cases h' with
    | beyond => omega
    | stuck _ h5 h6 => have := cutPoint_unique hd h2 h5; omega
    | last => rfl
    | cut _ h5 h6 _ _ => have := cutPoint_unique hd h2 h5; omega
  | cut h1 h2 h3 h4 _ ih =>
    cases h' with
    | beyond => omega
    | stuck _ h5 h6 => have := cutPoint_unique hd h2 h5; omega
    | last _ h5 h6 h7 => have := cutPoint_unique hd h2 h5; omega
    | cut _ h5 h6 h7 h8 =>
      have := cutPoint_unique hd h2 h5
      subst this
      rw [ih h8]

theorem topLevel_disjoint {bytes : Bytes} {G : List (Nat × StorageEntry)} (hG : TopLevel bytes G) :
    G.Pairwise fun a b => a.1 + (encode a.2).length ≤ b.1 := by
  refine (Spec.Greedy.disjoint hG).imp_of_mem fun {a b} ha _ h => ?_
  rw [(topLevel_wf hG a ha).2]
  exact h

theorem partitionLoop_cuts_exact {bytes : Bytes} (hF : Fits bytes) {G : List (Nat × StorageEntry)}
    (hG : TopLevel bytes G) (hmax : AtMost 65536 G) (hns : NoStraddle bytes G) (size : Nat) :
    ∀ (k c0 : Nat), bytes.length - c0 = k → c0 ≤ bytes.length →
      ∃ rs, partitionLoop dltStorage bytes size c0 (c0 + size) = .ok rs ∧ Cuts bytes.length size G c0 rs := by
  intro k
  induction k using Nat.strongRecOn with
  | ind k ih =>
    intro c0 hk h0
    rcases partitionLoop_step dlt_lawful hF (size := size) (c0 := c0) (c1 := c0 + size) with
      ⟨h1, h⟩ | ⟨h1, _, q, hq, c, hc, h⟩
    · exact ⟨[], h, .beyond (by omega)⟩
    · have hcp : CutPoint bytes.length G (c0 + size) c := by
        by_cases hlast : c0 + size + 1 < bytes.length
        · obtain ⟨q', hq', hiff⟩ := C29_contained_by_outermost_partial bytes hF G hG hmax hns (c0 + size) hlast
          rw [hq] at hq'
          cases hq'
          rcases hc with ⟨rfl, rfl⟩ | ⟨v, rfl, _⟩
          · right
            refine ⟨fun _ x hx hin => ?_, rfl⟩
            have := (hiff x).2 ⟨hx, hin⟩
            cases this
          · left
            obtain ⟨h2, h3⟩ := (hiff (c, v)).1 rfl
            exact ⟨_, h2, h3, hlast, rfl⟩
        · right
          refine ⟨fun h => absurd h hlast, ?_⟩
          rcases hc with ⟨_, rfl⟩ | ⟨v, hs, _⟩
          · rfl
          · rw [containedBy_unfold, if_pos (by omega)] at hq
            rw [hs] at hq; cases hq
      have hcl : c ≤ bytes.length := by
        rcases hc with ⟨_, rfl⟩ | ⟨v, _, _, h3, _⟩ <;> omega
      rcases h with ⟨h2, h⟩ | ⟨h2, h3, h⟩ | ⟨h2, h3, h⟩
      · exact ⟨_, h, .stuck h1 hcp h2⟩
      · exact ⟨_, h, .last h1 hcp h2 h3⟩
      · obtain ⟨rest, h4, h5⟩ := ih (bytes.length - c) (by omega) c rfl hcl
        rw [h4] at h
        exact ⟨_, h, .cut h1 hcp h2 h3 h5⟩

/-- **C71** on a file whose top-level messages have at most 65536 bytes and are not straddled, the slices are exactly
those described by `Cuts`: aim at every `len / num` bytes, move back to the start of the message. -/
theorem C71_partition_exact (bytes : Bytes) (hF : Fits bytes) (G : List (Nat × StorageEntry))
    (hG : TopLevel bytes G) (hmax : AtMost 65536 G) (hns : NoStraddle bytes G) (num : Nat) (hnum : num ≠ 0)
    (rs : List (Nat × Nat)) :
    partitionRanges dltStorage bytes num = .ok rs ↔ Cuts bytes.length (bytes.length / num) G 0 rs := by
  obtain ⟨rs', h1, h2⟩ := partitionLoop_cuts_exact hF hG hmax hns (bytes.length / num) _ 0 rfl (Nat.zero_le _)
  rw [partitionRanges_pos hnum]
  rw [Nat.zero_add] at h1
  rw [h1]
  constructor
  · intro h; cases h; exact h2
  · intro h; rw [cuts_unique (topLevel_disjoint hG) h2 h]

/-- Slices have at most `size` bytes, the last at most a quarter more; if no container is longer than `L ≤ size`,
they have more than `size - L` bytes, and less than `size` bytes are lost. -/
theorem partitionLoop_balanced {bytes : Bytes} (hF : Fits bytes) (size L : Nat) (hL : 0 < L) (hLs : L ≤ size)
    (hlag : ∀ p s v, containedBy dltStorage bytes p (p + 1) = .ok (some (s, v)) → p < s + L) :
    ∀ (k c0 : Nat), bytes.length - c0 = k → c0 ≤ bytes.length →
      ∃ rs b, partitionLoop dltStorage bytes size c0 (c0 + size) = .ok rs ∧ Tiles c0 rs b ∧
        Balanced (size - L + 1) size rs ∧ (b = bytes.length ∨ b < bytes.length ∧ bytes.length < b + size) ∧
        (b = bytes.length → b ≤ c0 + rs.length * size + size / 4) ∧
        (b < bytes.length → b ≤ c0 + rs.length * size ∧ (rs = [] ∨ b + size / 4 < bytes.length)) := by
  intro k
  induction k using Nat.strongRecOn with
  | ind k ih =>
    intro c0 hk h0
    rcases partitionLoop_step dlt_lawful hF (size := size) (c0 := c0) (c1 := c0 + size) with
      ⟨h1, h⟩ | ⟨h1, _, q, hq, c, hc, h⟩
    · refine ⟨[], c0, h, rfl, trivial, ?_, ?_, ?_⟩
      · omega
      · intro _; simp
      · intro _; simp
    · have hcb : c ≤ c0 + size ∧ c0 + size < c + L := by
        rcases hc with ⟨_, rfl⟩ | ⟨v, h3, _, h4, _⟩
        · omega
        · rw [h3] at hq
          have := hlag _ _ _ hq
          omega
      have hcl : c ≤ bytes.length := by omega
      have hcc : c0 < c ∧ size - L + 1 ≤ c - c0 := by
        rcases hc with ⟨_, rfl⟩ | ⟨v, h3, _, h4, _⟩
        · omega
        · rw [h3] at hq
          have := hlag _ _ _ hq
          omega
      rcases h with ⟨h2, h⟩ | ⟨h2, h3, h⟩ | ⟨h2, h3, h⟩
      · omega
      · refine ⟨_, bytes.length, h, ⟨rfl, by omega, rfl⟩, ?_, Or.inl rfl, ?_, ?_⟩
        · show bytes.length - c0 ≤ size + size / 4
          omega
        · intro _; simp only [List.length_singleton]; omega
        · intro h; omega
      · obtain ⟨rest, b, h4, h5, h6, h7, h8, h9⟩ := ih (bytes.length - c) (by omega) c rfl hcl
        rw [h4] at h
        have hm : (rest.length + 1) * size = rest.length * size + size := by rw [Nat.add_mul, Nat.one_mul]
        refine ⟨_, b, h, ⟨rfl, h2, h5⟩, ?_, h7, ?_, ?_⟩
        · cases rest with
          | nil => show c - c0 ≤ size + size / 4; omega
          | cons r rs => exact ⟨by show _ ≤ c - c0; omega, by show c - c0 ≤ size; omega, h6⟩
        · intro hb
          have := h8 hb
          rw [List.length_cons, hm]; omega
        · intro hb
          obtain ⟨h10, h11⟩ := h9 hb
          refine ⟨by rw [List.length_cons, hm]; omega, Or.inr ?_⟩
          rcases h11 with rfl | h11
          · have : c = b := h5
            omega
          · exact h11

theorem tiles_bounds : ∀ {rs : List (Nat × Nat)} {a b : Nat}, Tiles a rs b → a ≤ b ∧ ∀ r ∈ rs, r.1 < r.2 ∧ r.2 ≤ b
  | [], a, b, h => ⟨Nat.le_of_eq h, by simp⟩
  | (s, t) :: rs, a, b, h => by
    obtain ⟨rfl, h1, h2⟩ := h
    obtain ⟨h3, h4⟩ := tiles_bounds h2
    refine ⟨by omega, fun r hr => ?_⟩
    rcases List.mem_cons.1 hr with rfl | hr
    · exact ⟨h1, h3⟩
    · exact h4 r hr

theorem balanced_all {lo hi : Nat} : ∀ {rs : List (Nat × Nat)}, Balanced lo hi rs →
    (∀ r ∈ rs, r.2 - r.1 ≤ hi + hi / 4) ∧ ∀ r ∈ rs.dropLast, lo ≤ r.2 - r.1 ∧ r.2 - r.1 ≤ hi
  | [], _ => by simp
  | [r], h => ⟨fun x hx => by rw [List.mem_singleton.1 hx]; exact h, by simp⟩
  | r :: r' :: rs, h => by
    obtain ⟨h1, h2, h3⟩ := h
    obtain ⟨h4, h5⟩ := balanced_all h3
    refine ⟨fun x hx => ?_, fun x hx => ?_⟩
    · rcases List.mem_cons.1 hx with rfl | hx
      · omega
      · exact h4 x hx
    · rw [List.dropLast_cons_of_ne_nil (by simp)] at hx
      rcases List.mem_cons.1 hx with rfl | hx
      · exact ⟨h1, h2⟩
      · exact h5 x hx

theorem partition_balanced {bytes : Bytes} (hF : Fits bytes) {num : Nat} (hnum : num ≠ 0) {L : Nat} (hL : 0 < L)
    (hLs : L ≤ bytes.length / num)
    (hlag : ∀ p s v, containedBy dltStorage bytes p (p + 1) = .ok (some (s, v)) → p < s + L) :
    ∃ rs slices b, partitionRanges dltStorage bytes num = .ok rs ∧ Tiles 0 rs b ∧
      partitionFrom dltStorage bytes num = .ok slices ∧ num ≤ slices.length ∧
      (∀ s ∈ slices, s.length ≤ bytes.length / num + bytes.length / num / 4) ∧
      (∀ s ∈ slices.dropLast, bytes.length / num - L < s.length ∧ s.length ≤ bytes.length / num) ∧
      slices.flatten = bytes.take b ∧
      (b = bytes.length ∨ bytes.length / num / 4 < bytes.length - b ∧ bytes.length - b < bytes.length / num) := by
  obtain ⟨rs, b, h1, h2, h3, h4, h5, h6⟩ := partitionLoop_balanced hF (bytes.length / num) L hL hLs hlag _ 0 rfl (Nat.zero_le _)
  rw [Nat.zero_add] at h1
  have hr : partitionRanges dltStorage bytes num = .ok rs := by rw [partitionRanges_pos hnum, h1]
  have hb : b ≤ bytes.length := by omega
  have hdm := Nat.div_add_mod bytes.length num
  have hlen : ∀ r ∈ rs, ((bytes.take r.2).drop r.1).length = r.2 - r.1 := by
    intro r hr
    have := (tiles_bounds h2).2 r hr
    rw [List.length_drop, List.length_take]; omega
  obtain ⟨h7, h8⟩ := balanced_all h3
  have hcount : num ≤ rs.length := by
    apply Classical.byContradiction
    intro hn
    have hmul : (rs.length + 1) * (bytes.length / num) ≤ num * (bytes.length / num) := Nat.mul_le_mul_right _ (by omega)
    rw [Nat.add_mul, Nat.one_mul] at hmul
    rcases h4 with h4 | h4
    · have := h5 h4; omega
    · have := h6 h4.1; omega
  refine ⟨rs, _, b, hr, h2, partitionFrom_of_ranges hr, by rw [List.length_map]; exact hcount, ?_, ?_, ?_, ?_⟩
  · intro s hs
    obtain ⟨r, hr, rfl⟩ := List.mem_map.1 hs
    rw [hlen r hr]; exact h7 r hr
  · intro s hs
    rw [← List.map_dropLast] at hs
    obtain ⟨r, hr, rfl⟩ := List.mem_map.1 hs
    rw [hlen r (List.dropLast_subset _ hr)]
    have := h8 r hr
    omega
  · rw [(tiles_slices h2 hb).1, List.drop_zero]
  · rcases h4 with h4 | h4
    · exact Or.inl h4
    · right
      rcases (h6 h4.1).2 with h | h
      · rw [h] at hcount; simp only [List.length_nil] at hcount; omega
      · omega

/-- **C70** if no message (wherever it starts) is longer than `len / num` bytes, there are at least `num` slices; none
has more than five quarters of `len / num` bytes; all but the last have at most `len / num` and more than `len / num`
minus the longest message; either nothing is lost, or a tail of more than a quarter of and less than `len / num`
bytes. -/
theorem C70_balanced (bytes : Bytes) (hF : Fits bytes) (num : Nat) (hnum : num ≠ 0) (L : Nat) (hL : 0 < L)
    (hLs : L ≤ bytes.length / num) (hmsg : ∀ i e, MsgAt bytes i e → (encode e).length ≤ L) :
    ∃ slices b, partitionFrom dltStorage bytes num = .ok slices ∧ num ≤ slices.length ∧
      (∀ s ∈ slices, s.length ≤ bytes.length / num + bytes.length / num / 4) ∧
      (∀ s ∈ slices.dropLast, bytes.length / num - L < s.length ∧ s.length ≤ bytes.length / num) ∧
      slices.flatten = bytes.take b ∧
      (b = bytes.length ∨ bytes.length / num / 4 < bytes.length - b ∧ bytes.length - b < bytes.length / num) := by
  obtain ⟨rs, slices, b, _, _, h⟩ := partition_balanced hF hnum hL hLs (fun p s v hp => by
    obtain ⟨r, h4, h5⟩ := C28_contained_by_sound bytes hF p (p + 1)
    rw [hp] at h4; cases h4
    obtain ⟨h6, _, h7, _⟩ := h5 s v rfl
    have := hmsg s v h6
    omega)
  exact ⟨slices, b, h⟩

/-- **C70, C71** the file of five messages in two slices of `C31_partition_drops_the_tail`: messages of 20 bytes,
slices of 50 aimed at, a tail of 20 bytes lost. -/
example : Cuts 100 50 (packedAt 0 five) 0 [(0, 40), (40, 80)] :=
  (C71_partition_exact (packed five) five_fits _ (topLevel_packed five_wf) five_max (noStraddle_packed five_wf) 2
    (by decide) _).1 C31_partition_drops_the_tail

theorem five_msgs : ∀ i e, MsgAt (packed five) i e → (encode e).length ≤ 20 := by
  intro i e h
  have hb := h.bounds
  rw [five_len] at hb
  have hi : i < 100 := by omega
  obtain ⟨n, hr⟩ := readableAt_iff_msgAt.2 h
  have hn := ((C02_read_iff _ n e).1 hr).2.1
  have key : ∀ i < 100, (match StorageEntry.tryRead ((packed five).drop i) with
      | .ok (some (n, _)) => decide (n ≤ 20)
      | _ => true) = true := by decide +kernel
  have hk := key i hi
  rw [show StorageEntry.tryRead ((packed five).drop i) = .ok (some (n, e)) from hr] at hk
  have : n ≤ 20 := by simpa using hk
  omega

/-- **C70** the hypotheses are met by the five messages and two slices. -/
example : ∃ slices b, partitionFrom dltStorage (packed five) 2 = .ok slices ∧ 2 ≤ slices.length ∧
    slices.flatten = (packed five).take b := by
  obtain ⟨s, b, h1, h2, _, _, h3, _⟩ := C70_balanced (packed five) five_fits 2 (by decide) 20 (by decide) (by rw [five_len]; decide)
    five_msgs
  exact ⟨s, b, h1, h2, h3⟩

end Verif
