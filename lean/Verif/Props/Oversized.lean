import Verif.Props.ContainExact
import Verif.Props.DdPartition

/-! # C29, C32, C53: files with messages of more than 65536 bytes

A message has at most 65551 bytes with its storage header, and `contained_by` looks back 65535 bytes only. -/

set_option linter.unusedSimpArgs false

namespace Verif

open Spec

/-- No complete message starts in the last three bytes of a top-level message, nor more than 65535 bytes behind its start.
(For top-level messages of at most 65536 bytes this is `NoStraddle`.) -/
def Spec.InReach (bytes : Bytes) (G : List (Nat × StorageEntry)) : Prop :=
  ∀ x ∈ G, ∀ j e, MsgAt bytes j e → StrictlyInside j x → j + 4 ≤ x.1 + (encode x.2).length ∧ j ≤ x.1 + 65535

/-- The start of a top-level message. -/
def Spec.StartsTop (G : List (Nat × StorageEntry)) (c : Nat) : Prop := ∃ e, (c, e) ∈ G

theorem inReach_of_atMost {bytes : Bytes} {G : List (Nat × StorageEntry)} (hmax : AtMost 65536 G) (hns : NoStraddle bytes G) :
    InReach bytes G := fun x hx j e he hin => ⟨hns x hx j e he hin, by have := hmax x hx; have := hin.2; omega⟩

theorem top_apart {bytes : Bytes} {G : List (Nat × StorageEntry)} (hG : TopLevel bytes G) {x y : Nat × StorageEntry}
    (hx : x ∈ G) (hy : y ∈ G) : x = y ∨ x.1 + (encode x.2).length ≤ y.1 ∨ y.1 + (encode y.2).length ≤ x.1 := by
  have hd := topLevel_disjoint hG
  clear hG
  induction G with
  | nil => cases hx
  | cons g G ih =>
    rw [List.pairwise_cons] at hd
    rcases List.mem_cons.1 hx with rfl | hx'
    · rcases List.mem_cons.1 hy with rfl | hy'
      · exact .inl rfl
      · exact .inr (.inl (hd.1 _ hy'))
    · rcases List.mem_cons.1 hy with rfl | hy'
      · exact .inr (.inr (hd.1 _ hx'))
      · exact ih hx' hy' hd.2

/-- The free messages are the top-level ones. -/
theorem free_top {bytes : Bytes} {G : List (Nat × StorageEntry)} (hG : TopLevel bytes G) (hr : InReach bytes G) :
    IsFree bytes (StartsTop G) := by
  intro c
  constructor
  · rintro ⟨e, he⟩
    refine ⟨⟨e, (topLevel_wf hG _ he).1⟩, ?_⟩
    rintro d w ⟨w', hd⟩ hw hlt -
    have hww := (readableAt_iff_msgAt.2 hw).unique dlt_lawful (readableAt_iff_msgAt.2 (topLevel_wf hG _ hd).1)
    simp only at hww
    subst hww
    have hb := (topLevel_wf hG _ he).1.bounds
    rcases top_apart hG hd he with h | h | h
    · cases h; omega
    · simp only at h; omega
    · simp only at h; omega
  · rintro ⟨⟨e, he⟩, hno⟩
    rcases Spec.Greedy.covers dlt_lawful hG c e (Nat.zero_le _) (readableAt_iff_msgAt.2 he) with hmem | ⟨x, hx, h1, h2⟩
    · exact ⟨e, hmem⟩
    · have hxm := topLevel_wf hG x hx
      have hin : StrictlyInside c x := ⟨h1, by rw [hxm.2]; exact h2⟩
      obtain ⟨h3, h4⟩ := hr x hx c e he hin
      have := hno x.1 x.2 ⟨x.2, hx⟩ hxm.1 h1 h4
      omega

theorem reaches_top {bytes : Bytes} {G : List (Nat × StorageEntry)} (hG : TopLevel bytes G) {p : Nat}
    {x : Nat × StorageEntry} : Reaches bytes (StartsTop G) p (p + 1) x ↔ x ∈ G ∧ StrictlyInside p x ∧ p ≤ x.1 + 65535 := by
  constructor
  · rintro ⟨⟨w, h1⟩, h2, h3, h4, h5⟩
    have := (readableAt_iff_msgAt.2 h2).unique dlt_lawful (readableAt_iff_msgAt.2 (topLevel_wf hG _ h1).1)
    simp only at this
    rw [← this] at h1
    exact ⟨h1, ⟨h3, by omega⟩, h4⟩
  · rintro ⟨h1, h2, h3⟩
    exact ⟨⟨x.2, h1⟩, (topLevel_wf hG x h1).1, h2.1, h3, h2.2⟩

theorem reaches_one {bytes : Bytes} {G : List (Nat × StorageEntry)} (hG : TopLevel bytes G) {p : Nat}
    {x y : Nat × StorageEntry} (hx : Reaches bytes (StartsTop G) p (p + 1) x) (hy : Reaches bytes (StartsTop G) p (p + 1) y) : x = y := by
  obtain ⟨h1, h2, -⟩ := (reaches_top hG).1 hx
  obtain ⟨h3, h4, -⟩ := (reaches_top hG).1 hy
  have := h2.1
  have := h2.2
  have := h4.1
  have := h4.2
  rcases top_apart hG h1 h3 with h | h | h
  · exact h
  · omega
  · omega

/-- **C29** with messages of any length: for a position `p` (not the last byte of the file) `contained_by(bytes, (p, p+1))`
returns the top-level message with `p` strictly inside if `p` is at most 65535 bytes behind its start, and `None`
otherwise; so only the last 15 bytes of a message can go unrecognised. -/
theorem C29_found_iff (bytes : Bytes) (hF : Fits bytes) (G : List (Nat × StorageEntry)) (hG : TopLevel bytes G)
    (hr : InReach bytes G) (p : Nat) (hp : p + 1 < bytes.length) :
    ∃ r, containedBy dltStorage bytes p (p + 1) = .ok r ∧
      ∀ x, r = some x ↔ x ∈ G ∧ StrictlyInside p x ∧ p ≤ x.1 + 65535 := by
  obtain ⟨r, h1, h2⟩ := (C79_contained_by_exact bytes hF).2 _ (free_top hG hr) p (p + 1)
  refine ⟨r, h1, fun x => ?_⟩
  rw [h2, ← reaches_top hG]
  constructor
  · rintro ⟨-, -, h, -⟩; exact h
  · intro h
    exact ⟨by omega, hp, h, fun y hy => by rw [reaches_one hG h hy]; exact Nat.le_refl _⟩

theorem inReach_packed {es : List StorageEntry} (hw : ∀ e ∈ es, WF e) (hm : ∀ e ∈ es, ¬ dltMarker <:+: (encode e).drop 65536) :
    InReach (packed es) (packedAt 0 es) := by
  intro x hx j e he hin
  have h4 := noStraddle_packed hw x hx j e he hin
  refine ⟨h4, Nat.le_of_not_lt fun hlt => hm x.2 (packedAt_mem hx) ?_⟩
  obtain ⟨-, pre, post, h1, h2⟩ := (topLevel_wf (topLevel_packed hw) x hx).1
  have hmk : dltMarker <+: (packed es).drop j := (readableAt_iff_msgAt.2 he).marker dlt_lawful
  rw [h1, List.append_assoc, show j = pre.length + (j - x.1) by omega, List.drop_length_add_append,
    List.drop_append_of_le_length (by have := hin.2; omega)] at hmk
  have hl : dltMarker.length ≤ ((encode x.2).drop (j - x.1)).length := by
    rw [List.length_drop]
    show 4 ≤ _
    omega
  have hmk' := List.prefix_of_prefix_length_le hmk (List.prefix_append _ _) hl
  refine hmk'.isInfix.trans ?_
  rw [show j - x.1 = 65536 + (j - x.1 - 65536) by omega, ← List.drop_drop]
  exact (List.drop_suffix _ _).isInfix

/-- A file with a message of 65551 bytes meets the hypotheses. -/
theorem max_file : (∀ e ∈ [msgMax, msg0], WF e) ∧ (∀ e ∈ [msgMax, msg0], ¬ dltMarker <:+: (encode e).drop 65536) ∧
    (packed [msgMax, msg0]).length = 65571 := by
  refine ⟨?_, ?_, ?_⟩
  · intro e he
    simp only [List.mem_cons, List.not_mem_nil, or_false] at he
    rcases he with rfl | rfl
    · exact msgMax_wf
    · exact msg0_wf
  · intro e he
    simp only [List.mem_cons, List.not_mem_nil, or_false] at he
    rcases he with rfl | rfl
    · have : (encode msgMax).drop 65536 = List.replicate 15 0 := by
        rw [(encode_head msgMax).1, show (65536 : Nat) = (headOf msgMax).length + 65516 from rfl, List.drop_length_add_append,
          show msgMax.dlt.tail = List.replicate 65531 0 from rfl, List.drop_replicate]
      rw [this]
      rintro ⟨s, t, h⟩
      have : (68 : UInt8) ∈ List.replicate 15 (0 : UInt8) := by rw [← h]; simp [dltMarker]
      simp at this
    · rintro ⟨s, t, h⟩
      have := congrArg List.length h
      simp [encode_length, msg0, dltMarker] at this
  · rw [show packed [msgMax, msg0] = encode msgMax ++ encode msg0 by simp [packed], List.length_append, msgMax_length]
    rfl

/-- **C29** at work: 65535 bytes behind its start the message is found, behind that not. -/
example : (∃ r, containedBy dltStorage (packed [msgMax, msg0]) 65535 65536 = .ok (some r)) ∧
    containedBy dltStorage (packed [msgMax, msg0]) 65536 65537 = .ok none := by
  obtain ⟨hw, hm, hlen⟩ := max_file
  have hF : Fits (packed [msgMax, msg0]) := by unfold Fits; rw [hlen]; decide
  constructor
  · obtain ⟨r, h1, h2⟩ := C29_found_iff _ hF _ (topLevel_packed hw) (inReach_packed hw hm) 65535 (by rw [hlen]; decide)
    have hmem : ((0, msgMax) : Nat × StorageEntry) ∈ packedAt 0 [msgMax, msg0] := by rw [packedAt]; exact List.mem_cons_self ..
    have hin : ∀ p, 0 < p → p < 65551 → StrictlyInside p (0, msgMax) := fun p h h' =>
      ⟨h, by rw [msgMax_length, Nat.zero_add]; exact h'⟩
    rw [(h2 (0, msgMax)).2 ⟨hmem, hin _ (by omega) (by omega), by rw [Nat.zero_add]; exact Nat.le_refl _⟩] at h1
    exact ⟨_, h1⟩
  · obtain ⟨r, h1, h2⟩ := C29_found_iff _ hF _ (topLevel_packed hw) (inReach_packed hw hm) 65536 (by rw [hlen]; decide)
    cases r with
    | none => exact h1
    | some x =>
      obtain ⟨h3, ⟨h4, -⟩, h5⟩ := (h2 x).1 rfl
      simp only [packedAt, msgMax_length, List.mem_cons, List.not_mem_nil, or_false] at h3
      rcases h3 with rfl | rfl
      · exact absurd h5 (by decide)
      · exact absurd h4 (by decide)

/-- The cuts that are not at the edges of messages. -/
theorem cutsBy_inside {bytes : Bytes} {G : List (Nat × StorageEntry)} (hG : TopLevel bytes G) {size c0 : Nat}
    {rs : List (Nat × Nat)} (h : CutsBy bytes.length size (CutAt bytes (StartsTop G)) c0 rs)
    (h0 : ∀ x ∈ G, StrictlyInside c0 x → x.1 + 65535 < c0) :
    ∀ r ∈ rs, ∀ x ∈ G, StrictlyInside r.2 x → x.1 + 65535 < r.2 ∧ r.2 = r.1 + size := by
  induction h with
  | beyond => intro r hr; cases hr
  | stuck => intro r hr; cases hr
  | last =>
    intro r hr x hx hin
    rw [List.mem_singleton.1 hr] at hin
    have hb := (topLevel_wf hG x hx).1.bounds
    have hlen := (topLevel_wf hG x hx).2
    have := hin.2
    simp only at this
    omega
  | @cut c0 c rest h1 h2 h3 h4 _ ih =>
    have hc : ∀ x ∈ G, StrictlyInside c x → x.1 + 65535 < c ∧ c = c0 + size := by
      intro x hx hin
      have hb := (topLevel_wf hG x hx).1.bounds
      have hlen := (topLevel_wf hG x hx).2
      have h5 := hin.1
      have h6 := hin.2
      rcases h2 with ⟨h7, y, ⟨hy, -⟩, rfl⟩ | ⟨h7, rfl⟩
      · obtain ⟨hy1, hy2, -⟩ := (reaches_top hG).1 hy
        have := hy2.1
        have := hy2.2
        rcases top_apart hG hx hy1 with h | h | h
        · subst h; omega
        · omega
        · omega
      · refine ⟨?_, rfl⟩
        by_cases hlast : c0 + size + 1 < bytes.length
        · apply Nat.lt_of_not_le
          intro hle
          exact h7 hlast x ((reaches_top hG).2 ⟨hx, hin, hle⟩)
        · have := h0 x hx
          unfold StrictlyInside at this
          omega
    intro r hr x hx hin
    rcases List.mem_cons.1 hr with rfl | hr
    · exact hc x hx hin
    · exact ih (fun x hx hin => (hc x hx hin).1) r hr x hx hin

/-- **C32** with messages of any length: a slice that ends inside a message ends in its last 15 bytes, more than 65535 bytes
behind its start, and has exactly the size aimed at. -/
theorem C32_only_the_end (bytes : Bytes) (hF : Fits bytes) (G : List (Nat × StorageEntry)) (hG : TopLevel bytes G)
    (hr : InReach bytes G) (num : Nat) (hnum : num ≠ 0) :
    ∃ rs b, partitionRanges dltStorage bytes num = .ok rs ∧ Tiles 0 rs b ∧
      ∀ r ∈ rs, ∀ x ∈ G, StrictlyInside r.2 x →
        x.1 + 65535 < r.2 ∧ x.1 + (encode x.2).length ≤ r.2 + 15 ∧ r.2 = r.1 + bytes.length / num := by
  obtain ⟨rs, b, _, h1, h2, _⟩ := C30_partition_contiguous bytes hF num hnum
  refine ⟨rs, b, h1, h2, fun r hr' x hx hin => ?_⟩
  have hc := (C80_partition_exact bytes hF _ (free_top hG hr) num hnum rs).1 h1
  obtain ⟨h3, h4⟩ := cutsBy_inside hG hc (fun x _ h => absurd h.1 (Nat.not_lt_zero _)) r hr' x hx hin
  refine ⟨h3, ?_, h4⟩
  have hwf := (topLevel_wf hG x hx).1.1
  have := hwf.2
  have := x.2.dlt.header.length.toNat_lt
  have := encode_length x.2
  omega

/-- **C32** exactly, for a file with messages of any length: the first slice ends inside a message if and only if the place
aimed at is in it, more than 65535 bytes behind its start. -/
theorem C32_first_cut_iff (bytes : Bytes) (hF : Fits bytes) (G : List (Nat × StorageEntry)) (hG : TopLevel bytes G)
    (hr : InReach bytes G) (num : Nat) (hnum : 2 ≤ num) (x : Nat × StorageEntry) (hx : x ∈ G) :
    ∃ rs, partitionRanges dltStorage bytes num = .ok rs ∧
      ((∃ r, rs.head? = some r ∧ StrictlyInside r.2 x) ↔ StrictlyInside (bytes.length / num) x ∧ x.1 + 65535 < bytes.length / num) := by
  obtain ⟨rs, b, _, h1, h2, _⟩ := C30_partition_contiguous bytes hF num (by omega)
  have hc := (C80_partition_exact bytes hF _ (free_top hG hr) num (by omega) rs).1 h1
  have hhalf : bytes.length / num ≤ bytes.length / 2 := Nat.div_le_div_left hnum (by decide)
  refine ⟨rs, h1, ?_⟩
  constructor
  · rintro ⟨r, hh, hin⟩
    have hm := List.mem_of_head? hh
    obtain ⟨h3, h4⟩ := cutsBy_inside hG hc (fun x _ h => absurd h.1 (Nat.not_lt_zero _)) r hm x hx hin
    have h5 : r.1 = 0 := by
      cases rs with
      | nil => cases hh
      | cons a rs =>
        simp only [List.head?_cons, Option.some.injEq] at hh
        subst hh
        obtain ⟨s, t⟩ := a
        exact h2.1
    rw [h5, Nat.zero_add] at h4
    rw [h4] at hin h3
    exact ⟨hin, h3⟩
  · rintro ⟨hin, hfar⟩
    generalize hs : bytes.length / num = size at *
    have hcut : ∀ c, CutAt bytes (StartsTop G) (0 + size) c → c = size := by
      rw [Nat.zero_add]
      rintro c (⟨h7, y, ⟨hy, -⟩, rfl⟩ | ⟨_, rfl⟩)
      · obtain ⟨hy1, hy2, hy3⟩ := (reaches_top hG).1 hy
        have := hy2.1
        have := hy2.2
        have := hin.1
        have := hin.2
        rcases top_apart hG hx hy1 with h | h | h
        · subst h; omega
        · omega
        · omega
      · rfl
    cases hc with
    | beyond h => omega
    | stuck _ h h' => have := hcut _ h; omega
    | last _ h _ h' => have := hcut _ h; omega
    | @cut _ c _ _ h _ _ _ =>
      rw [hcut _ h]
      exact ⟨_, rfl, hin⟩

/-- The hypotheses of the two theorems are met by a file with a message of 65551 bytes. -/
example : ∃ rs b, partitionRanges dltStorage (packed [msgMax, msg0]) 3 = .ok rs ∧ Tiles 0 rs b ∧
    ∀ r ∈ rs, ∀ x ∈ packedAt 0 [msgMax, msg0], StrictlyInside r.2 x → x.1 + 65535 < r.2 := by
  obtain ⟨hw, hm, hlen⟩ := max_file
  obtain ⟨rs, b, h1, h2, h3⟩ := C32_only_the_end _ (by unfold Fits; rw [hlen]; decide) _ (topLevel_packed hw)
    (inReach_packed hw hm) 3 (by decide)
  exact ⟨rs, b, h1, h2, fun r hr x hx hin => (h3 r hr x hx hin).1⟩

/-! ## The output of `dd_dlt` -/

/-- The cuts in a file of equally long messages. -/
theorem equal_cuts_iff {es : List StorageEntry} {L : Nat} (hw : ∀ e ∈ es, WF e) (hl : ∀ e ∈ es, (encode e).length = L)
    (hL : 20 ≤ L) (hm : ∀ e ∈ es, ¬ dltMarker <:+: (encode e).drop 65536) (hF : Fits (packed es)) (num : Nat) (hnum : num ≠ 0) :
    ∃ rs b, partitionRanges dltStorage (packed es) num = .ok rs ∧ Tiles 0 rs b ∧
      ((∀ r ∈ rs, L ∣ r.1 ∧ L ∣ r.2) ↔ es.length * L / num % L < 65536) := by
  have hG := topLevel_packed hw
  have hr := inReach_packed hw hm
  obtain ⟨rs, b, _, h1, h2, h3, _⟩ := C30_partition_contiguous (packed es) hF num hnum
  have hc := (C80_partition_exact (packed es) hF _ (free_top hG hr) num hnum rs).1 h1
  have hin := cutsBy_inside hG hc (fun x _ h => absurd h.1 (Nat.not_lt_zero _))
  have hlen := packed_length es L hl
  rw [hlen] at hc hin h3
  refine ⟨rs, b, h1, h2, ?_⟩
  -- the message around a place that is no multiple
  have around : ∀ p, p < es.length * L → p % L ≠ 0 → ∃ x ∈ packedAt 0 es, x.1 = p / L * L ∧ StrictlyInside p x := by
    intro p hp h0
    have hdm := Nat.div_add_mod' p L
    have hlt := Nat.mod_lt p (show 0 < L by omega)
    obtain ⟨e, he, hmem⟩ := packedAt_get es 0 (p / L) hl ((Nat.div_lt_iff_lt_mul (by omega)).2 hp)
    refine ⟨_, hmem, by simp, ?_, ?_⟩
    · show 0 + p / L * L < p
      omega
    · show p < 0 + p / L * L + (encode e).length
      rw [hl e he]; omega
  constructor
  · intro hall
    apply Nat.lt_of_not_le
    intro hge
    have hn2 : 2 ≤ num := by
      apply Nat.le_of_not_lt
      intro hlt
      rw [show num = 1 by omega, Nat.div_one, Nat.mul_mod_left] at hge
      omega
    have hhalf : es.length * L / num ≤ es.length * L / 2 := Nat.div_le_div_left hn2 (by decide)
    have hpos : 65536 ≤ es.length * L / num := Nat.le_trans hge (Nat.mod_le _ _)
    obtain ⟨x, hx, hx1, hxin⟩ := around (es.length * L / num) (by omega) (by omega)
    obtain ⟨rs', h1', hiff⟩ := C32_first_cut_iff (packed es) hF _ hG hr num hn2 x hx
    rw [h1] at h1'
    cases h1'
    rw [hlen] at hiff
    have hdm := Nat.div_add_mod' (es.length * L / num) L
    obtain ⟨r, hh, hri⟩ := hiff.2 ⟨hxin, by omega⟩
    obtain ⟨k, hk⟩ := (hall r (List.mem_of_head? hh)).2
    have h5 := hri.1
    have h6 := hri.2
    rw [hl _ (packedAt_mem hx), hx1, hk] at h6
    rw [hx1, hk] at h5
    rw [Nat.mul_comm L k] at h5 h6
    rw [← Nat.succ_mul] at h6
    have := Nat.lt_of_mul_lt_mul_right h5
    have := Nat.lt_of_mul_lt_mul_right h6
    omega
  · intro hlt
    -- every slice starts at a multiple, and ends at one
    have key : ∀ rs' a b', Tiles a rs' b' → (∀ r ∈ rs', r ∈ rs) → L ∣ a → ∀ r ∈ rs', L ∣ r.1 ∧ L ∣ r.2 := by
      intro rs'
      induction rs' with
      | nil => intro a b' _ _ _ r hr; cases hr
      | cons q rs' ih =>
        intro a b' ht hsub ha
        obtain ⟨s, t⟩ := q
        obtain ⟨rfl, hst, ht⟩ := ht
        have hq := hsub (s, t) (List.mem_cons_self ..)
        have ht2 : L ∣ t := by
          apply Classical.byContradiction
          intro hnd
          have h0 : t % L ≠ 0 := fun h => hnd (Nat.dvd_of_mod_eq_zero h)
          have hle : t ≤ es.length * L := by
            have := tiles_le h2 (s, t) hq
            simp only at this
            omega
          have hne : t ≠ es.length * L := by
            intro h
            rw [h, Nat.mul_mod_left] at h0
            exact h0 rfl
          obtain ⟨x, hx, hx1, hxin⟩ := around t (by omega) h0
          obtain ⟨h5, h6⟩ := hin (s, t) hq x hx hxin
          simp only at h5 h6
          obtain ⟨k, hk⟩ := ha
          have hmod : t % L = es.length * L / num % L := by rw [h6, hk, Nat.mul_add_mod]
          have hdm := Nat.div_add_mod' t L
          omega
        intro r hr
        rcases List.mem_cons.1 hr with rfl | hr
        · exact ⟨ha, ht2⟩
        · exact ih t b' ht (fun r hr => hsub r (List.mem_cons_of_mem _ hr)) ht2 r hr
    exact key rs 0 b h2 (fun _ h => h) (Nat.dvd_zero _)

/-- The bytes of a message of `dd_dlt` behind its 34 bytes of headers. -/
theorem ddMessage_drop {ecuid appid payload : Bytes} {info : MessageType} {i : Nat} {e : StorageEntry}
    (h : DdMessage ecuid appid info i payload e) : (encode e).drop 34 = payload := by
  have hp : payload <:+ encode e := by
    have h1 := h.pay
    rw [payload_eq] at h1
    generalize (if flag e.dlt 0 then 10 else 0) = k at h1
    split at h1
    · cases h1
    · split at h1
      · simp only [Res.ok.injEq, Option.some.injEq] at h1
        rw [← h1]
        refine (List.drop_suffix _ _).trans ?_
        unfold encode
        exact List.suffix_append _ _
      · simp at h1
  obtain ⟨pre, hpre⟩ := hp
  have := h.size
  rw [← hpre, List.length_append] at this
  rw [← hpre, List.drop_append_of_le_length (by omega), List.drop_of_length_le (by omega), List.nil_append]

/-- **C53** exactly, for every payload size `dd_dlt` can handle: unless a payload has the marker `DLT 0x01` behind its
first 65502 bytes, all slice boundaries are multiples of the message size `34 + n` if and only if
`len / num` leaves a remainder of less than 65536 when divided by it. -/
theorem C53_partition_iff (bd : Build) (addr : Ctor → UInt8) (ecuid appid size input : Bytes) (rest : List Bytes) (n : Nat)
    (hecu : ecuid.length = 4) (happ : appid.length = 4) (hsize : Decimal size n) (h1 : 1 ≤ n) (h2 : n ≤ 65517)
    (hk : input.length / n ≤ 42949673) (hfit : ∀ i, i < input.length / n → LinesFit (roomBehind bd.late) (chunk n input i))
    (hmark : ∀ i, i < input.length / n → ¬ dltMarker <:+: (chunk n input i).drop 65502)
    (num : Nat) (hnum : num ≠ 0) :
    ∃ output rs b, (∀ out e, DdMain bd addr (ecuid :: appid :: size :: rest) input out e ↔
        out = output ∧ e = .finished (UInt32.ofNat (input.length / n))) ∧
      output.length = input.length / n * (34 + n) ∧
      partitionRanges dltStorage output num = .ok rs ∧ Tiles 0 rs b ∧
      ((∀ r ∈ rs, (34 + n) ∣ r.1 ∧ (34 + n) ∣ r.2) ↔ output.length / num % (34 + n) < 65536) := by
  obtain ⟨output, msgs, h3, -, h4, h5, h6, h7, h8⟩ := C51_round_trip_partial bd addr ecuid appid size input rest n hecu happ
    hsize h1 (by omega) (.inr hk) hfit
  have hget : ∀ e ∈ msgs, ∃ i, i < input.length / n ∧
      DdMessage ecuid appid (MessageType.create addr true (.log .info)) i (chunk n input i) e := by
    intro e he
    obtain ⟨i, hi⟩ := List.getElem?_of_mem he
    exact ⟨i, by rw [← h4]; exact (List.getElem?_eq_some_iff.1 hi).1, h8 i e hi⟩
  have hl : ∀ e ∈ msgs, (encode e).length = 34 + n := by
    intro e he
    obtain ⟨i, hi, hd⟩ := hget e he
    rw [hd.size, chunk_length (index_le _ i rfl hi)]
  rw [h5] at h6
  obtain ⟨rs, b, h9, h10, h11⟩ := equal_cuts_iff h7 hl (by omega) (fun e he => by
    obtain ⟨i, hi, hd⟩ := hget e he
    rw [show (65536 : Nat) = 34 + 65502 from rfl, ← List.drop_drop, ddMessage_drop hd]
    exact hmark i hi) h6 num hnum
  have hlen : output.length = input.length / n * (34 + n) := by rw [h5, packed_length _ _ hl, h4]
  exact ⟨output, rs, b, h3, hlen, by rw [h5]; exact h9, h10, by rw [hlen, ← h4]; exact h11⟩

/-- **C53** for every payload size `dd_dlt` can handle and up to 4370 slices: unless a payload has the marker behind its
first 65502 bytes, no slice boundary is inside a message. -/
theorem C53_few_slices (bd : Build) (addr : Ctor → UInt8) (ecuid appid size input : Bytes) (rest : List Bytes) (n : Nat)
    (hecu : ecuid.length = 4) (happ : appid.length = 4) (hsize : Decimal size n) (h1 : 1 ≤ n) (h2 : n ≤ 65517)
    (hk : input.length / n ≤ 42949673) (hfit : ∀ i, i < input.length / n → LinesFit (roomBehind bd.late) (chunk n input i))
    (hmark : ∀ i, i < input.length / n → ¬ dltMarker <:+: (chunk n input i).drop 65502)
    (num : Nat) (hnum : num ≠ 0) (hfew : num ≤ 4370) :
    ∃ output rs b, (∀ out e, DdMain bd addr (ecuid :: appid :: size :: rest) input out e ↔
        out = output ∧ e = .finished (UInt32.ofNat (input.length / n))) ∧
      partitionRanges dltStorage output num = .ok rs ∧ Tiles 0 rs b ∧ ∀ r ∈ rs, (34 + n) ∣ r.1 ∧ (34 + n) ∣ r.2 := by
  obtain ⟨output, rs, b, h3, h4, h5, h6, h7⟩ := C53_partition_iff bd addr ecuid appid size input rest n hecu happ hsize h1 h2
    hk hfit hmark num hnum
  refine ⟨output, rs, b, h3, h5, h6, h7.2 ?_⟩
  rw [h4]
  generalize input.length / n = k
  -- `k = a * num + c` with `c < num`, and `c * L / num ≤ L - L / num < 65536`
  have hdm := Nat.div_add_mod k num
  have hc := Nat.mod_lt k (Nat.pos_of_ne_zero hnum)
  generalize k % num = c at hdm hc
  generalize k / num = a at hdm
  rw [← hdm, Nat.add_mul, Nat.mul_assoc, Nat.mul_add_div (Nat.pos_of_ne_zero hnum), Nat.mul_add_mod_self_right]
  refine Nat.lt_of_le_of_lt (Nat.mod_le _ _) ((Nat.div_lt_iff_lt_mul (Nat.pos_of_ne_zero hnum)).2 ?_)
  have h8 : c * (34 + n) ≤ (num - 1) * (34 + n) := Nat.mul_le_mul_right _ (by omega)
  have h9 : (num - 1) * (34 + n) ≤ (num - 1) * 65551 := Nat.mul_le_mul_left _ (by omega)
  omega

/-- A case that meets the hypotheses: three payloads of 65517 zeros, two slices. -/
example (bd : Build) (addr : Ctor → UInt8) : ∃ output rs b,
    (∀ out e, DdMain bd addr [[69, 67, 85, 49], [65, 80, 80, 49], [54, 53, 53, 49, 55]] (List.replicate (3 * 65517) 0) out e ↔
      out = output ∧ e = .finished 3) ∧
    partitionRanges dltStorage output 2 = .ok rs ∧ Tiles 0 rs b ∧ ∀ r ∈ rs, 65551 ∣ r.1 ∧ 65551 ∣ r.2 := by
  obtain ⟨n, hn⟩ : ∃ n : Nat, n = 65517 := ⟨_, rfl⟩
  obtain ⟨k, hk⟩ : ∃ k : Nat, k = 3 := ⟨_, rfl⟩
  have hin : (List.replicate (k * n) (0 : UInt8)).length / n = k := by
    rw [List.length_replicate, Nat.mul_div_cancel _ (by omega)]
  have hch : ∀ i, i < k → chunk n (List.replicate (k * n) 0) i = List.replicate n 0 := fun i hi =>
    chunk_replicate (Nat.mul_le_mul_right _ hi)
  obtain ⟨output, rs, b, h1, h2, h3, h4⟩ := C53_few_slices bd addr [69, 67, 85, 49] [65, 80, 80, 49] [54, 53, 53, 49, 55]
    (List.replicate (k * n) 0) [] n rfl rfl ((C52_size_argument _ _).1 (by rw [hn]; decide)).1 (by omega) (by omega) (by omega)
    (fun i hi => by
      rw [hin] at hi
      rw [hch i hi]
      intro pre post h
      have : (10 : UInt8) ∈ List.replicate n (0 : UInt8) := by rw [h]; simp
      exact absurd (List.eq_of_mem_replicate this) (by decide))
    (fun i hi => by
      rw [hin] at hi
      rw [hch i hi, List.drop_replicate]
      rintro ⟨s, t, h⟩
      have : (68 : UInt8) ∈ List.replicate (n - 65502) (0 : UInt8) := by rw [← h]; simp [dltMarker]
      exact absurd (List.eq_of_mem_replicate this) (by decide))
    2 (by decide) (by decide)
  rw [hin] at h1
  subst hn hk
  exact ⟨output, rs, b, h1, h2, h3, h4⟩

/-! ### A marker at the end of a large payload -/

/-- 65517 bytes that end in a marker and eleven zeros. -/
def markedPayload : Bytes := List.replicate 65502 0 ++ [68, 76, 84, 1, 0, 0, 0, 0, 0, 0, 0, 0, 0, 0, 0]

theorem markedPayload_length : markedPayload.length = 65517 := by
  unfold markedPayload
  rw [List.length_append, List.length_replicate]
  rfl

theorem no_newline_fits {cap : Nat} {data : Bytes} (h : 10 ∉ data) : LinesFit cap data := by
  intro pre post he
  exact absurd (by rw [he]; simp) h

theorem markedPayload_fits (cap : Nat) : LinesFit cap markedPayload := by
  apply no_newline_fits
  unfold markedPayload
  rw [List.mem_append, List.mem_replicate]
  rintro (⟨-, h⟩ | h)
  · exact absurd h (by decide)
  · exact absurd h (by decide)

theorem zeros_fit (cap n : Nat) : LinesFit cap (List.replicate n 0) := by
  apply no_newline_fits
  rw [List.mem_replicate]
  rintro ⟨-, h⟩
  exact absurd h (by decide)

/-- The message that starts in the end of the first one and reaches into the second. -/
def markedInner (t : Bytes) : StorageEntry := ⟨⟨⟨68, 76, 84, 1⟩, 0, 0, ⟨0, 0, 0, 68⟩⟩, ⟨⟨⟨76⟩, 84, 256⟩, t⟩⟩

theorem markedInner_encode (t : Bytes) : encode (markedInner t) =
    [68, 76, 84, 1, 0, 0, 0, 0, 0, 0, 0, 0, 0, 0, 0, 68, 76, 84, 1, 0] ++ t := by
  rw [show markedInner t = ⟨⟨⟨68, 76, 84, 1⟩, 0, 0, ⟨0, 0, 0, 68⟩⟩, ⟨⟨⟨76⟩, 84, 256⟩, t⟩⟩ from rfl, encode_asBytes]
  rfl

theorem second_encode (info : MessageType) (len : UInt16) (p : Bytes) :
    ∃ t, encode (ddMsg info ⟨0, 0, 0, 0⟩ ⟨0, 0, 0, 0⟩ len 1 p) = 68 :: 76 :: 84 :: 1 :: 0 :: t ∧ t.length = 29 + p.length := by
  obtain ⟨t, ht⟩ : ∃ t, encode (ddMsg info ⟨0, 0, 0, 0⟩ ⟨0, 0, 0, 0⟩ len 1 p) = 68 :: 76 :: 84 :: 1 :: 0 :: t := by
    rw [ddMsg_encode]
    exact ⟨_, rfl⟩
  have h := ddMsg_length info ⟨0, 0, 0, 0⟩ ⟨0, 0, 0, 0⟩ len 1 p
  rw [ht] at h
  simp only [List.length_cons] at h
  exact ⟨t, ht, by omega⟩

/-- **C53 (violated)** already for two messages and two slices, if the first payload of 65517 bytes ends in a marker and
eleven more bytes: the first slice ends inside the first message. -/
theorem C53_marker_at_the_end (bd : Build) (addr : Ctor → UInt8) :
    ∃ (output : Bytes) (c : Nat) (rs : List (Nat × Nat)),
      DdMain bd addr [[0, 0, 0, 0], [0, 0, 0, 0], [54, 53, 53, 49, 55]] (markedPayload ++ List.replicate 65517 0) output (.finished 2) ∧
      output.length = 2 * 65551 ∧ partitionRanges dltStorage output 2 = .ok ((0, c) :: rs) ∧ 0 < c ∧ c < 65551 := by
  obtain ⟨ecu, app, len, hg, he, ha, hlen, hn⟩ := ddGood_of (bd := bd) (addr := addr) (ecuid := [0, 0, 0, 0])
    (appid := [0, 0, 0, 0]) (n := 65517) rfl rfl (by omega)
  have hecu : ecu = ⟨0, 0, 0, 0⟩ := by
    have := (ofBytes_iff _ _).2 he
    simpa [B4.ofBytes?, eq_comm] using this
  have happ : app = ⟨0, 0, 0, 0⟩ := by
    have := (ofBytes_iff _ _).2 ha
    simpa [B4.ofBytes?, eq_comm] using this
  subst hecu happ
  have hp : parseU16 [54, 53, 53, 49, 55] = some 65517 := by decide
  generalize hinp : markedPayload ++ List.replicate 65517 0 = input
  have hil : input.length = 2 * 65517 := by
    rw [← hinp, List.length_append, markedPayload_length, List.length_replicate]
  have hc0 : chunk 65517 input 0 = markedPayload := by
    unfold chunk
    rw [Nat.zero_mul, List.drop_zero, ← hinp, ← markedPayload_length, List.take_left]
  have hc1 : chunk 65517 input 1 = List.replicate 65517 0 := by
    unfold chunk
    rw [Nat.one_mul, ← hinp]
    conv => lhs; rw [← markedPayload_length]
    rw [List.drop_left, markedPayload_length, List.take_of_length_le (by rw [List.length_replicate]; exact Nat.le_refl _)]
  have hin : input.length / 65517 = 2 := by rw [hil]
  obtain ⟨s, h3, h4⟩ := ddLoop_finishes hg (by show 0 < (UInt16.ofNat 65517).toNat; omega) input (by
    show bd.checks = false ∨ input.length / (UInt16.ofNat 65517).toNat ≤ _
    rw [hn, hin]
    right
    omega)
  simp only [hn, hin] at h3 h4
  rw [ddOut_packed _ _ _ _ _ _ _ _ (fun i hi => by
    rcases (show i = 0 ∨ i = 1 by omega) with rfl | rfl
    · rw [hc0]; exact markedPayload_fits _
    · rw [hc1]; exact zeros_fit _ _)] at h4
  have hmain := (ddMain_loop (rest := []) hp h3 _ _).2 ⟨rfl, rfl⟩
  rw [h4] at hmain
  generalize hinf : ddInfo ⟨bd, addr, [0, 0, 0, 0], [0, 0, 0, 0], UInt16.ofNat 65517⟩ = info at hmain
  have hinfo : info.msin ≠ 68 := by rw [← hinf]; exact ddInfo_ne addr
  have hmsgs : ddMsgs info ⟨0, 0, 0, 0⟩ ⟨0, 0, 0, 0⟩ len 65517 2 0 input =
      [ddMsg info ⟨0, 0, 0, 0⟩ ⟨0, 0, 0, 0⟩ len 0 markedPayload,
       ddMsg info ⟨0, 0, 0, 0⟩ ⟨0, 0, 0, 0⟩ len 1 (List.replicate 65517 0)] := by
    rw [ddMsgs, ddMsgs, ddMsgs]
    unfold chunk at hc0 hc1
    rw [Nat.zero_mul, List.drop_zero] at hc0
    rw [Nat.one_mul] at hc1
    rw [hc0, hc1]
    rfl
  rw [hmsgs] at hmain
  obtain ⟨t, ht, htl⟩ := second_encode info len (List.replicate 65517 0)
  rw [List.length_replicate] at htl
  have hbytes : packed [ddMsg info ⟨0, 0, 0, 0⟩ ⟨0, 0, 0, 0⟩ len 0 markedPayload,
       ddMsg info ⟨0, 0, 0, 0⟩ ⟨0, 0, 0, 0⟩ len 1 (List.replicate 65517 0)] =
      encode (ddMsg info ⟨0, 0, 0, 0⟩ ⟨0, 0, 0, 0⟩ len 0 (List.replicate 65502 0)) ++
        (encode (markedInner (t.take 252)) ++ t.drop 252) := by
    have h2 : ∀ a b : StorageEntry, packed [a, b] = encode a ++ encode b := fun a b => by simp [packed]
    rw [h2, ht, markedInner_encode, ddMsg_encode, ddMsg_encode]
    conv => lhs; rw [← List.take_append_drop 252 t]
    unfold markedPayload
    simp only [List.append_assoc, List.cons_append, List.nil_append, List.append_nil]
  have hfl : (encode (ddMsg info ⟨0, 0, 0, 0⟩ ⟨0, 0, 0, 0⟩ len 0 (List.replicate 65502 0))).length = 65536 := by
    rw [ddMsg_length, List.length_replicate]
  generalize hb : packed [ddMsg info ⟨0, 0, 0, 0⟩ ⟨0, 0, 0, 0⟩ len 0 markedPayload,
       ddMsg info ⟨0, 0, 0, 0⟩ ⟨0, 0, 0, 0⟩ len 1 (List.replicate 65517 0)] = bytes at hmain hbytes
  have hil : (encode (markedInner (t.take 252))).length = 272 := by
    rw [markedInner_encode, List.length_append, List.length_take, htl]
    rfl
  have hbl : bytes.length = 2 * 65551 := by
    rw [hbytes, List.length_append, List.length_append, hfl, hil, List.length_drop, htl]
  have hF : Fits bytes := by unfold Fits; rw [hbl]; decide
  have hinner : MsgAt bytes 65536 (markedInner (t.take 252)) := by
    refine ⟨⟨rfl, ?_⟩, _, t.drop 252, by rw [hbytes, List.append_assoc], hfl⟩
    show (256 : UInt16).toNat = 4 + (t.take 252).length
    rw [List.length_take, htl]
    rfl
  have hmk : ∀ j e, MsgAt bytes j e → 1 ≤ j → 65536 ≤ j := by
    intro j e hj h1
    apply Nat.le_of_not_lt
    intro hlt
    have hm := (readableAt_iff_msgAt.2 hj).marker dlt_lawful
    have hm : dltMarker <+: bytes.drop j := hm
    rw [hbytes] at hm
    exact no_marker_in_zeroMsg hinfo (by omega) _ j h1 (by omega) hm
  obtain ⟨free, hfree⟩ := (C79_contained_by_exact bytes hF).1
  have hfi : free 65536 := (hfree 65536).2 ⟨⟨_, hinner⟩, fun d w _ hw h1 h2 => by
    have := hmk d w hw (by omega)
    omega⟩
  have hreach : Reaches bytes free 65551 65552 (65536, markedInner (t.take 252)) :=
    ⟨hfi, hinner, by show 65536 < 65551; omega, by show 65551 ≤ 65536 + 65535; omega, by rw [hil]; show 65552 ≤ 65536 + 272; omega⟩
  obtain ⟨rs, b, _, h5, h6, _⟩ := C30_partition_contiguous bytes hF 2 (by decide)
  have hc := (C80_partition_exact bytes hF free hfree 2 (by decide) rs).1 h5
  rw [hbl, show 2 * 65551 / 2 = 65551 by omega] at hc
  have hcut : ∀ c, CutAt bytes free (0 + 65551) c → 0 < c ∧ c < 65551 := by
    rw [Nat.zero_add]
    rintro c (⟨h7, y, ⟨⟨hy1, hy2, hy3, hy4, hy5⟩, -⟩, rfl⟩ | ⟨h7, rfl⟩)
    · exact ⟨by omega, hy3⟩
    · exact absurd hreach (h7 (by rw [hbl]; omega) _)
  cases hc with
  | beyond h => omega
  | stuck _ h h' => have := hcut _ h; omega
  | last _ h _ h' => have := hcut _ h; omega
  | @cut _ c rest _ h _ _ _ => exact ⟨bytes, c, rest, hmain, hbl, h5, hcut _ h⟩

end Verif
