import Verif.Spec.Contained
import Verif.Props.PartitionExact

/-! # C79, C80: `contained_by` and `partition_from`, exactly, on every byte sequence -/

set_option linter.unusedSimpArgs false

namespace Verif

open Spec

/-- The loop returns the first candidate that reaches the range and is not contained. -/
theorem containedByLoop_exact {bytes : Bytes} (hF : Fits bytes) {p0 p1 : Nat} (hp0 : p0 < bytes.length) :
    ∀ (cs : List Nat), cs.Pairwise (· < ·) →
    ∃ r, containedByLoop dltStorage bytes p0 p1 cs = .ok r ∧
      ∀ x, r = some x ↔ (x.1 ∈ cs ∧ x.1 < p0 ∧ ReadableAt dltStorage bytes x.1 x.2 ∧ p1 ≤ x.1 + dltStorage.len x.2 ∧
        containedBy dltStorage bytes x.1 (x.1 + 4) = .ok none) ∧
        ∀ d ∈ cs, d < x.1 → ∀ w, ReadableAt dltStorage bytes d w → p1 ≤ d + dltStorage.len w →
          containedBy dltStorage bytes d (d + 4) ≠ .ok none
  | [], _ => ⟨none, by rw [containedByLoop], by simp⟩
  | c :: cs, hs => by
    rw [List.pairwise_cons] at hs
    obtain ⟨r, h1, h2⟩ := containedByLoop_exact hF (p1 := p1) hp0 cs hs.2
    by_cases hlt : c ≥ p0
    · refine ⟨none, by rw [containedByLoop, dif_pos hlt], fun x => ?_⟩
      simp only [reduceCtorEq, false_iff]
      rintro ⟨⟨h3, h4, _⟩, _⟩
      rcases List.mem_cons.1 h3 with h5 | h5
      · omega
      · have := hs.1 _ h5; omega
    · -- skipping `c`
      have skip : (∀ w, ReadableAt dltStorage bytes c w → p1 ≤ c + dltStorage.len w →
          containedBy dltStorage bytes c (c + 4) ≠ .ok none) →
          ∃ r, containedByLoop dltStorage bytes p0 p1 cs = .ok r ∧
            ∀ x, r = some x ↔ (x.1 ∈ c :: cs ∧ x.1 < p0 ∧ ReadableAt dltStorage bytes x.1 x.2 ∧ p1 ≤ x.1 + dltStorage.len x.2 ∧
              containedBy dltStorage bytes x.1 (x.1 + 4) = .ok none) ∧
              ∀ d ∈ c :: cs, d < x.1 → ∀ w, ReadableAt dltStorage bytes d w → p1 ≤ d + dltStorage.len w →
                containedBy dltStorage bytes d (d + 4) ≠ .ok none := by
        intro hno
        refine ⟨r, h1, fun x => ?_⟩
        rw [h2]
        constructor
        · rintro ⟨⟨h3, h4⟩, h5⟩
          refine ⟨⟨List.mem_cons_of_mem _ h3, h4⟩, fun d hd h6 w h7 h8 => ?_⟩
          rcases List.mem_cons.1 hd with rfl | hd
          · exact hno w h7 h8
          · exact h5 d hd h6 w h7 h8
        · rintro ⟨⟨h3, h4, h5, h6, h7⟩, h8⟩
          rcases List.mem_cons.1 h3 with h9 | h9
          · rw [h9] at h5 h6 h7
            exact absurd h7 (hno _ h5 h6)
          · exact ⟨⟨h9, h4, h5, h6, h7⟩, fun d hd => h8 d (List.mem_cons_of_mem _ hd)⟩
      rcases containedByLoop_cons dlt_lawful hF (p0 := p0) (p1 := p1) (cs := cs) (c := c) (by omega) (by omega) with
        ⟨hno, h⟩ | ⟨v, hr, h⟩
      · rw [h]
        exact skip fun w hw => absurd hw (hno w)
      · rw [show dltStorage.marker.length = 4 from rfl] at h
        rw [h]
        by_cases hge : c + dltStorage.len v ≥ p1
        · rw [if_pos hge]
          obtain ⟨q, hq, _⟩ := containedBy_sound dlt_lawful hF c (c + 4)
          rw [hq]
          cases q with
          | some y => exact skip fun _ _ _ => by rw [hq]; intro h; cases h
          | none =>
            refine ⟨_, rfl, fun x => ?_⟩
            rw [Option.some.injEq]
            constructor
            · rintro rfl
              refine ⟨⟨List.mem_cons_self, by simp only; omega, hr, hge, hq⟩, fun d hd h3 => ?_⟩
              rcases List.mem_cons.1 hd with rfl | hd
              · simp only at h3; omega
              · have := hs.1 d hd; simp only at h3; omega
            · rintro ⟨⟨h3, h4, h5, h6, h7⟩, h8⟩
              rcases List.mem_cons.1 h3 with h9 | h9
              · obtain ⟨x1, x2⟩ := x
                simp only at h9 h5
                subst h9
                rw [hr.unique dlt_lawful h5]
              · exact absurd hq (h8 c List.mem_cons_self (hs.1 _ h9) v hr hge)
        · rw [if_neg hge]
          refine skip fun w hw hlen => ?_
          rw [hw.unique dlt_lawful hr] at hlen
          omega

/-- `contained_by` in terms of itself at smaller offsets. -/
theorem containedBy_exact {bytes : Bytes} (hF : Fits bytes) (p0 p1 : Nat) :
    ∃ r, containedBy dltStorage bytes p0 p1 = .ok r ∧
      ∀ x, r = some x ↔ p0 < p1 ∧ p1 < bytes.length ∧
        FirstReaching bytes (fun c => (∃ e, MsgAt bytes c e) ∧ containedBy dltStorage bytes c (c + 4) = .ok none) p0 p1 x := by
  rw [containedBy_unfold]
  by_cases hg : p0 ≥ bytes.length ∨ p1 ≥ bytes.length ∨ p0 ≥ p1 ∨ p1 = 0
  · rw [if_pos hg]
    refine ⟨none, rfl, fun x => ?_⟩
    simp only [reduceCtorEq, false_iff]
    intro h; omega
  · rw [if_neg hg]
    obtain ⟨hc, hs⟩ := candidates_spec dlt_lawful bytes (p0 - dltStorage.maxLen)
    rw [show dltStorage.maxLen = 65535 from rfl] at hc hs ⊢
    obtain ⟨r, h1, h2⟩ := containedByLoop_exact hF (p0 := p0) (p1 := p1) (by omega) _ hs
    refine ⟨r, h1, fun x => ?_⟩
    rw [h2]
    have hlen : ∀ d w, MsgAt bytes d w → (encode w).length = dltStorage.len w := fun d w h => encode_len w h.1
    constructor
    · rintro ⟨⟨h3, h4, h5, h6, h7⟩, h8⟩
      have hm := readableAt_iff_msgAt.1 h5
      refine ⟨by omega, by omega, ⟨⟨⟨_, hm⟩, h7⟩, hm, h4, ?_, ?_⟩, ?_⟩
      · have := ((hc _).1 h3).1; omega
      · rw [hlen _ _ hm]; exact h6
      · rintro ⟨d, w⟩ ⟨⟨_, h9⟩, h10, h11, h12, h13⟩
        apply Nat.le_of_not_lt
        intro hlt
        simp only at h9 h10 h11 h12 h13 hlt
        have hr := readableAt_iff_msgAt.2 h10
        refine h8 d ((hc d).2 ⟨by omega, hr.marker dlt_lawful⟩) hlt w hr ?_ h9
        rw [← hlen _ _ h10]; exact h13
    · rintro ⟨_, _, ⟨⟨_, h7⟩, hm, h4, h5, h6⟩, h8⟩
      have hr := readableAt_iff_msgAt.2 hm
      refine ⟨⟨(hc _).2 ⟨by omega, hr.marker dlt_lawful⟩, h4, hr, by rw [← hlen _ _ hm]; exact h6, h7⟩, ?_⟩
      intro d hd hlt w hw hge hcd
      have hmw := readableAt_iff_msgAt.1 hw
      have := h8 (d, w) ⟨⟨⟨w, hmw⟩, hcd⟩, hmw, by simp only; omega, by have := ((hc d).1 hd).1; simp only; omega,
        by simp only; rw [hlen _ _ hmw]; exact hge⟩
      simp only at this
      omega

theorem isFree_unique {bytes : Bytes} {f g : Nat → Prop} (hf : IsFree bytes f) (hg : IsFree bytes g) : ∀ c, f c ↔ g c := by
  intro c
  induction c using Nat.strongRecOn with
  | ind c ih =>
    rw [hf, hg]
    constructor <;> rintro ⟨h1, h2⟩ <;> refine ⟨h1, fun d w h3 h4 h5 h6 => h2 d w ?_ h4 h5 h6⟩
    · exact (ih d h5).2 h3
    · exact (ih d h5).1 h3

theorem containedBy_isFree {bytes : Bytes} (hF : Fits bytes) :
    IsFree bytes (fun c => (∃ e, MsgAt bytes c e) ∧ containedBy dltStorage bytes c (c + 4) = .ok none) := by
  intro c
  obtain ⟨r, h1, h2⟩ := containedBy_exact hF c (c + 4)
  refine and_congr_right fun hm => ?_
  obtain ⟨e, he⟩ := hm
  have hb := he.bounds
  rw [h1]
  constructor
  · intro h d w hd hw hlt hle
    cases h
    apply Nat.lt_of_not_le
    intro hge
    -- there is a reaching message, hence a first one
    have hex : ∃ n, ∃ w, Reaches bytes (fun c => (∃ e, MsgAt bytes c e) ∧ containedBy dltStorage bytes c (c + 4) = .ok none) c (c + 4) (n, w) :=
      ⟨d, w, hd, hw, hlt, hle, hge⟩
    obtain ⟨n, ⟨w', hn⟩, hmin⟩ : ∃ n, (∃ w, Reaches bytes (fun c => (∃ e, MsgAt bytes c e) ∧ containedBy dltStorage bytes c (c + 4) = .ok none) c (c + 4) (n, w)) ∧
        ∀ m, m < n → ¬ ∃ w, Reaches bytes (fun c => (∃ e, MsgAt bytes c e) ∧ containedBy dltStorage bytes c (c + 4) = .ok none) c (c + 4) (m, w) := by
      obtain ⟨n, hn⟩ := hex
      induction n using Nat.strongRecOn with
      | ind n ih =>
        by_cases hm : ∃ m, m < n ∧ ∃ w, Reaches bytes (fun c => (∃ e, MsgAt bytes c e) ∧ containedBy dltStorage bytes c (c + 4) = .ok none) c (c + 4) (m, w)
        · obtain ⟨m, hlt, hm⟩ := hm
          exact ih m hlt hm
        · exact ⟨n, hn, fun m hlt hw => hm ⟨m, hlt, hw⟩⟩
    have := (h2 (n, w')).2 ⟨by omega, by omega, hn, fun y hy => Nat.le_of_not_lt fun hlt => hmin y.1 hlt ⟨y.2, hy⟩⟩
    cases this
  · intro h
    cases r with
    | none => rfl
    | some x =>
      obtain ⟨_, _, ⟨h3, h4, h5, h6, h7⟩, _⟩ := (h2 x).1 rfl
      have := h x.1 x.2 h3 h4 h5 h6
      omega

/-- **C79** there is exactly one set of free messages, and for it `contained_by` returns the first free message that
reaches the end of the range from at most 65535 bytes before its start; nothing exactly if there is none, if the range
is empty, or if it touches the end of the file. This holds for every byte sequence. -/
theorem C79_contained_by_exact (bytes : Bytes) (hF : Fits bytes) :
    (∃ free, IsFree bytes free) ∧
    ∀ free, IsFree bytes free → ∀ p0 p1, ∃ r, containedBy dltStorage bytes p0 p1 = .ok r ∧
      ∀ x, r = some x ↔ p0 < p1 ∧ p1 < bytes.length ∧ FirstReaching bytes free p0 p1 x := by
  refine ⟨⟨_, containedBy_isFree hF⟩, fun free hfree p0 p1 => ?_⟩
  obtain ⟨r, h1, h2⟩ := containedBy_exact hF p0 p1
  have hiff := isFree_unique (containedBy_isFree hF) hfree
  have : (fun c => (∃ e, MsgAt bytes c e) ∧ containedBy dltStorage bytes c (c + 4) = .ok none) = free :=
    funext fun c => propext (hiff c)
  rw [this] at h2
  exact ⟨r, h1, h2⟩

/-- There is only one such set. -/
theorem C79_free_unique (bytes : Bytes) (f g : Nat → Prop) (hf : IsFree bytes f) (hg : IsFree bytes g) : f = g :=
  funext fun c => propext (isFree_unique hf hg c)

theorem straddle_msgs {d : Nat} {w : StorageEntry} (h : MsgAt straddle d w) :
    (d = 0 ∧ w = straddleOuter) ∨ (d = 20 ∧ w = straddleInner) := by
  have h0 : MsgAt straddle 0 straddleOuter := ⟨by decide, [], straddle.drop 22, by decide, rfl⟩
  have h20 : MsgAt straddle 20 straddleInner := ⟨by decide, straddle.take 20, [], by decide, rfl⟩
  have hr := readableAt_iff_msgAt.2 h
  rcases straddle_markers d (hr.marker dlt_lawful) with rfl | rfl
  · exact .inl ⟨rfl, hr.unique dlt_lawful (readableAt_iff_msgAt.2 h0)⟩
  · exact .inr ⟨rfl, hr.unique dlt_lawful (readableAt_iff_msgAt.2 h20)⟩

/-- In the straddling file of C29 both messages are free. -/
theorem straddle_free : IsFree straddle (fun c => c = 0 ∨ c = 20) := by
  intro c
  constructor
  · rintro (rfl | rfl)
    · exact ⟨⟨straddleOuter, by decide, [], straddle.drop 22, by decide, rfl⟩, fun d w _ _ h => by omega⟩
    · refine ⟨⟨straddleInner, by decide, straddle.take 20, [], by decide, rfl⟩, fun d w _ hw h _ => ?_⟩
      rcases straddle_msgs hw with ⟨rfl, rfl⟩ | ⟨rfl, _⟩
      · show 0 + 22 < 20 + 4; decide
      · omega
  · rintro ⟨⟨e, he⟩, _⟩
    rcases straddle_msgs he with ⟨rfl, _⟩ | ⟨rfl, _⟩ <;> simp

/-- **C79** at work: the answer that C29 complains about is the one C79 predicts. -/
example : FirstReaching straddle (fun c => c = 0 ∨ c = 20) 38 39 (20, straddleInner) := by
  obtain ⟨r, h1, h2⟩ := (C79_contained_by_exact straddle (by decide)).2 _ straddle_free 38 39
  rw [C29_straddling_message_found.2.2] at h1
  cases h1
  exact ((h2 _).1 rfl).2.2

/-! ## C80 -/

theorem firstReaching_unique {bytes : Bytes} {free : Nat → Prop} {p0 p1 : Nat} {x y : Nat × StorageEntry}
    (hx : FirstReaching bytes free p0 p1 x) (hy : FirstReaching bytes free p0 p1 y) : x.1 = y.1 :=
  Nat.le_antisymm (hx.2 y hy.1) (hy.2 x hx.1)

theorem cutAt_unique {bytes : Bytes} {free : Nat → Prop} {p c c' : Nat} (h : CutAt bytes free p c)
    (h' : CutAt bytes free p c') : c = c' := by
  rcases h with ⟨hp, x, hx, rfl⟩ | ⟨hn, rfl⟩
  · rcases h' with ⟨_, y, hy, rfl⟩ | ⟨hn', _⟩
    · exact firstReaching_unique hx hy
    · exact absurd hx.1 (hn' hp x)
  · rcases h' with ⟨hp, y, hy, rfl⟩ | ⟨_, rfl⟩
    · exact absurd hy.1 (hn hp y)
    · rfl

theorem cutsBy_unique {len size : Nat} {cut : Nat → Nat → Prop} (hu : ∀ p c c', cut p c → cut p c' → c = c') {c0 : Nat}
    {rs rs' : List (Nat × Nat)} (h : CutsBy len size cut c0 rs) (h' : CutsBy len size cut c0 rs') : rs = rs' := by
  induction h generalizing rs' with
  | beyond h1 => cases h' <;> first | rfl | omega
  | stuck h1 h2 h3 =>
    cases h' with
    | beyond => rfl
    | stuck => rfl
    | last _ h5 h6 _ => have := hu _ _ _ h2 h5; omega
    | cut _ h5 h6 _ _ => have := hu _ _ _ h2 h5; omega
  | last h1 h2 h3 h4 =>
    cases h' with
    | beyond => omega
    | stuck _ h5 h6 => have := hu _ _ _ h2 h5; omega
    | last => rfl
    | cut _ h5 h6 _ _ => have := hu _ _ _ h2 h5; omega
  | cut h1 h2 h3 h4 _ ih =>
    cases h' with
    | beyond => omega
    | stuck _ h5 h6 => have := hu _ _ _ h2 h5; omega
    | last _ h5 h6 h7 => have := hu _ _ _ h2 h5; omega
    | cut _ h5 h6 h7 h8 =>
      have := hu _ _ _ h2 h5
      subst this
      rw [ih h8]

theorem partitionLoop_cutsBy {bytes : Bytes} (hF : Fits bytes) {free : Nat → Prop} (hfree : IsFree bytes free) (size : Nat) :
    ∀ (k c0 : Nat), bytes.length - c0 = k → c0 ≤ bytes.length →
      ∃ rs, partitionLoop dltStorage bytes size c0 (c0 + size) = .ok rs ∧
        CutsBy bytes.length size (CutAt bytes free) c0 rs := by
  intro k
  induction k using Nat.strongRecOn with
  | ind k ih =>
    intro c0 hk h0
    rcases partitionLoop_step dlt_lawful hF (size := size) (c0 := c0) (c1 := c0 + size) with
      ⟨h1, h⟩ | ⟨h1, _, q, hq, c, hc, h⟩
    · exact ⟨[], h, .beyond (by omega)⟩
    · obtain ⟨r, hr, hiff⟩ := (C79_contained_by_exact bytes hF).2 free hfree (c0 + size) (c0 + size + 1)
      rw [hq] at hr
      cases hr
      have hcp : CutAt bytes free (c0 + size) c := by
        rcases hc with ⟨rfl, rfl⟩ | ⟨v, rfl, _⟩
        · right
          refine ⟨fun hlast x hx => ?_, rfl⟩
          -- the first reaching message would have been returned
          obtain ⟨n, ⟨w, hn⟩, hmin⟩ : ∃ n, (∃ w, Reaches bytes free (c0 + size) (c0 + size + 1) (n, w)) ∧
              ∀ m, m < n → ¬ ∃ w, Reaches bytes free (c0 + size) (c0 + size + 1) (m, w) := by
            obtain ⟨n, w⟩ := x
            have hn : ∃ w, Reaches bytes free (c0 + size) (c0 + size + 1) (n, w) := ⟨w, hx⟩
            clear hx w
            induction n using Nat.strongRecOn with
            | ind n ih =>
              by_cases hm : ∃ m, m < n ∧ ∃ w, Reaches bytes free (c0 + size) (c0 + size + 1) (m, w)
              · obtain ⟨m, hlt, hm⟩ := hm
                exact ih m hlt hm
              · exact ⟨n, hn, fun m hlt hw => hm ⟨m, hlt, hw⟩⟩
          have := (hiff (n, w)).2 ⟨by omega, hlast, hn, fun y hy => Nat.le_of_not_lt fun hlt => hmin y.1 hlt ⟨y.2, hy⟩⟩
          cases this
        · left
          obtain ⟨_, h2, h3⟩ := (hiff (c, v)).1 rfl
          exact ⟨h2, (c, v), h3, rfl⟩
      have hcl : c ≤ bytes.length := by
        rcases hc with ⟨_, rfl⟩ | ⟨v, _, _, h3, _⟩ <;> omega
      rcases h with ⟨h2, h⟩ | ⟨h2, h3, h⟩ | ⟨h2, h3, h⟩
      · exact ⟨_, h, .stuck h1 hcp h2⟩
      · exact ⟨_, h, .last h1 hcp h2 h3⟩
      · obtain ⟨rest, h4, h5⟩ := ih (bytes.length - c) (by omega) c rfl hcl
        rw [h4] at h
        exact ⟨_, h, .cut h1 hcp h2 h3 h5⟩

/-- **C80** on every byte sequence the slices are exactly those one gets by aiming every `len / num` bytes and moving back
to the start of the first free message that reaches behind the aim. -/
theorem C80_partition_exact (bytes : Bytes) (hF : Fits bytes) (free : Nat → Prop) (hfree : IsFree bytes free) (num : Nat)
    (hnum : num ≠ 0) (rs : List (Nat × Nat)) :
    partitionRanges dltStorage bytes num = .ok rs ↔
      CutsBy bytes.length (bytes.length / num) (CutAt bytes free) 0 rs := by
  obtain ⟨rs', h1, h2⟩ := partitionLoop_cutsBy hF hfree (bytes.length / num) _ 0 rfl (Nat.zero_le _)
  rw [partitionRanges_pos hnum]
  rw [Nat.zero_add] at h1
  rw [h1]
  constructor
  · intro h; cases h; exact h2
  · intro h
    have hu : ∀ p c c', CutAt bytes free p c → CutAt bytes free p c' → c = c' := fun _ _ _ => cutAt_unique
    rw [cutsBy_unique hu h2 h]

theorem straddle_cut {p : Nat} (h1 : 24 ≤ p) (h2 : p < 75) : CutAt straddle (fun c => c = 0 ∨ c = 20) p 20 := by
  refine .inl ⟨by show p + 1 < 76; omega, (20, straddleInner), ⟨⟨.inr rfl, ?_, ?_, ?_, ?_⟩, ?_⟩, rfl⟩
  · exact ⟨by decide, straddle.take 20, [], by decide, rfl⟩
  · show 20 < p; omega
  · show p ≤ 20 + 65535; omega
  · show p + 1 ≤ 20 + 56; omega
  · rintro ⟨d, w⟩ ⟨_, hw, h3, _, h5⟩
    rcases straddle_msgs hw with ⟨rfl, rfl⟩ | ⟨rfl, rfl⟩
    · have h5 : p + 1 ≤ 0 + 22 := h5
      omega
    · exact Nat.le_refl _

/-- **C80** at work on the straddling file: aiming at byte 38 moves the cut back to byte 20, aiming at byte 58 does not get
further, and the rest is lost. -/
example : partitionRanges dltStorage straddle 2 = .ok [(0, 20)] :=
  (C80_partition_exact straddle (by decide) _ straddle_free 2 (by decide) _).2
    (.cut (by decide) (straddle_cut (by decide) (by decide)) (by decide) (by decide)
      (.stuck (by decide) (straddle_cut (by decide) (by decide)) (by decide)))

end Verif
