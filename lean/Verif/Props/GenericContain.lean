import Verif.Spec.Generic
import Verif.Props.ContainExact

/-! # `contained_by` and `partition_from`, exactly, for any lawful message type -/

set_option linter.unusedSimpArgs false

namespace Verif.Any

open Spec

section
variable {T : Type} {S : SearchableMarker T}

/-- The loop returns the first candidate that reaches the range and is not contained. -/
theorem containedByLoop_exact (L : Lawful S) {bytes : Bytes} (hF : Fits bytes) {p0 p1 : Nat} (hp0 : p0 < bytes.length) :
    ∀ (cs : List Nat), cs.Pairwise (· < ·) →
    ∃ r, containedByLoop S bytes p0 p1 cs = .ok r ∧
      ∀ x, r = some x ↔ (x.1 ∈ cs ∧ x.1 < p0 ∧ ReadableAt S bytes x.1 x.2 ∧ p1 ≤ x.1 + S.len x.2 ∧
        containedBy S bytes x.1 (x.1 + S.marker.length) = .ok none) ∧
        ∀ d ∈ cs, d < x.1 → ∀ w, ReadableAt S bytes d w → p1 ≤ d + S.len w →
          containedBy S bytes d (d + S.marker.length) ≠ .ok none
  | [], _ => ⟨none, by rw [containedByLoop], by simp⟩
  | c :: cs, hs => by
    rw [List.pairwise_cons] at hs
    obtain ⟨r, h1, h2⟩ := containedByLoop_exact L hF (p1 := p1) hp0 cs hs.2
    by_cases hlt : c ≥ p0
    · refine ⟨none, by rw [containedByLoop, dif_pos hlt], fun x => ?_⟩
      simp only [reduceCtorEq, false_iff]
      rintro ⟨⟨h3, h4, _⟩, _⟩
      rcases List.mem_cons.1 h3 with h5 | h5
      · omega
      · have := hs.1 _ h5; omega
    · -- skipping `c`
      have skip : (∀ w, ReadableAt S bytes c w → p1 ≤ c + S.len w →
          containedBy S bytes c (c + S.marker.length) ≠ .ok none) →
          ∃ r, containedByLoop S bytes p0 p1 cs = .ok r ∧
            ∀ x, r = some x ↔ (x.1 ∈ c :: cs ∧ x.1 < p0 ∧ ReadableAt S bytes x.1 x.2 ∧ p1 ≤ x.1 + S.len x.2 ∧
              containedBy S bytes x.1 (x.1 + S.marker.length) = .ok none) ∧
              ∀ d ∈ c :: cs, d < x.1 → ∀ w, ReadableAt S bytes d w → p1 ≤ d + S.len w →
                containedBy S bytes d (d + S.marker.length) ≠ .ok none := by
        intro hno
        refine ⟨r, h1, fun x => ?_⟩
        rw [h2]
        constructor
        · rintro ⟨⟨h3, h4⟩, h5⟩
          refine ⟨⟨List.mem_cons_of_mem _ h3, h4⟩, fun d hd h6 w h7 h8 => ?_⟩
          rcases List.mem_cons.1 hd with rfl | hd
          · exact hno w h7 h8
          · exact h5 d hd h6 w h7 h8
        · rintro ⟨⟨h3, h4, h5, h6, h7⟩, h8⟩
          rcases List.mem_cons.1 h3 with h9 | h9
          · rw [h9] at h5 h6 h7
            exact absurd h7 (hno _ h5 h6)
          · exact ⟨⟨h9, h4, h5, h6, h7⟩, fun d hd => h8 d (List.mem_cons_of_mem _ hd)⟩
      rcases containedByLoop_cons L hF (p0 := p0) (p1 := p1) (cs := cs) (c := c) (by omega) (by omega) with
        ⟨hno, h⟩ | ⟨v, hr, h⟩
      · rw [h]
        exact skip fun w hw => absurd hw (hno w)
      · rw [h]
        by_cases hge : c + S.len v ≥ p1
        · rw [if_pos hge]
          obtain ⟨q, hq, _⟩ := containedBy_sound L hF c (c + S.marker.length)
          rw [hq]
          cases q with
          | some y => exact skip fun _ _ _ => by rw [hq]; intro h; cases h
          | none =>
            refine ⟨_, rfl, fun x => ?_⟩
            rw [Option.some.injEq]
            constructor
            · rintro rfl
              refine ⟨⟨List.mem_cons_self, by simp only; omega, hr, hge, hq⟩, fun d hd h3 => ?_⟩
              rcases List.mem_cons.1 hd with rfl | hd
              · simp only at h3; omega
              · have := hs.1 d hd; simp only at h3; omega
            · rintro ⟨⟨h3, h4, h5, h6, h7⟩, h8⟩
              rcases List.mem_cons.1 h3 with h9 | h9
              · obtain ⟨x1, x2⟩ := x
                simp only at h9 h5
                subst h9
                rw [hr.unique L h5]
              · exact absurd hq (h8 c List.mem_cons_self (hs.1 _ h9) v hr hge)
        · rw [if_neg hge]
          refine skip fun w hw hlen => ?_
          rw [hw.unique L hr] at hlen
          omega

/-- `contained_by` in terms of itself at smaller offsets. -/
theorem containedBy_exact (L : Lawful S) {bytes : Bytes} (hF : Fits bytes) (p0 p1 : Nat) :
    ∃ r, containedBy S bytes p0 p1 = .ok r ∧
      ∀ x, r = some x ↔ p0 < p1 ∧ p1 < bytes.length ∧
        FirstReachingOf S bytes (fun c => (∃ e, ReadableAt S bytes c e) ∧ containedBy S bytes c (c + S.marker.length) = .ok none) p0 p1 x := by
  rw [containedBy_unfold]
  by_cases hg : p0 ≥ bytes.length ∨ p1 ≥ bytes.length ∨ p0 ≥ p1 ∨ p1 = 0
  · rw [if_pos hg]
    refine ⟨none, rfl, fun x => ?_⟩
    simp only [reduceCtorEq, false_iff]
    intro h; omega
  · rw [if_neg hg]
    obtain ⟨hc, hs⟩ := candidates_spec L bytes (p0 - S.maxLen)
    obtain ⟨r, h1, h2⟩ := containedByLoop_exact L hF (p0 := p0) (p1 := p1) (by omega) _ hs
    refine ⟨r, h1, fun x => ?_⟩
    rw [h2]
    constructor
    · rintro ⟨⟨h3, h4, h5, h6, h7⟩, h8⟩
      have hm := h5
      refine ⟨by omega, by omega, ⟨⟨⟨_, hm⟩, h7⟩, hm, h4, ?_, ?_⟩, ?_⟩
      · have := ((hc _).1 h3).1; omega
      · exact h6
      · rintro ⟨d, w⟩ ⟨⟨_, h9⟩, h10, h11, h12, h13⟩
        apply Nat.le_of_not_lt
        intro hlt
        simp only at h9 h10 h11 h12 h13 hlt
        have hr := h10
        refine h8 d ((hc d).2 ⟨by omega, hr.marker L⟩) hlt w hr h13 h9
    · rintro ⟨_, _, ⟨⟨_, h7⟩, hm, h4, h5, h6⟩, h8⟩
      have hr := hm
      refine ⟨⟨(hc _).2 ⟨by omega, hr.marker L⟩, h4, hr, h6, h7⟩, ?_⟩
      intro d hd hlt w hw hge hcd
      have hmw := hw
      have := h8 (d, w) ⟨⟨⟨w, hmw⟩, hcd⟩, hmw, by simp only; omega, by have := ((hc d).1 hd).1; simp only; omega,
        hge⟩
      simp only at this
      omega

theorem isFree_unique {bytes : Bytes} {f g : Nat → Prop} (hf : IsFreeOf S bytes f) (hg : IsFreeOf S bytes g) : ∀ c, f c ↔ g c := by
  intro c
  induction c using Nat.strongRecOn with
  | ind c ih =>
    rw [hf, hg]
    constructor <;> rintro ⟨h1, h2⟩ <;> refine ⟨h1, fun d w h3 h4 h5 h6 => h2 d w ?_ h4 h5 h6⟩
    · exact (ih d h5).2 h3
    · exact (ih d h5).1 h3

theorem containedBy_isFree (L : Lawful S) {bytes : Bytes} (hF : Fits bytes) :
    IsFreeOf S bytes (fun c => (∃ e, ReadableAt S bytes c e) ∧ containedBy S bytes c (c + S.marker.length) = .ok none) := by
  intro c
  obtain ⟨r, h1, h2⟩ := containedBy_exact L hF c (c + S.marker.length)
  refine and_congr_right fun hm => ?_
  obtain ⟨e, he⟩ := hm
  have hb := he.bounds L
  have hmp := S.marker_pos
  rw [h1]
  constructor
  · intro h d w hd hw hlt hle
    cases h
    apply Nat.lt_of_not_le
    intro hge
    -- there is a reaching message, hence a first one
    have hex : ∃ n, ∃ w, ReachesOf S bytes (fun c => (∃ e, ReadableAt S bytes c e) ∧ containedBy S bytes c (c + S.marker.length) = .ok none) c (c + S.marker.length) (n, w) :=
      ⟨d, w, hd, hw, hlt, hle, hge⟩
    obtain ⟨n, ⟨w', hn⟩, hmin⟩ : ∃ n, (∃ w, ReachesOf S bytes (fun c => (∃ e, ReadableAt S bytes c e) ∧ containedBy S bytes c (c + S.marker.length) = .ok none) c (c + S.marker.length) (n, w)) ∧
        ∀ m, m < n → ¬ ∃ w, ReachesOf S bytes (fun c => (∃ e, ReadableAt S bytes c e) ∧ containedBy S bytes c (c + S.marker.length) = .ok none) c (c + S.marker.length) (m, w) := by
      obtain ⟨n, hn⟩ := hex
      induction n using Nat.strongRecOn with
      | ind n ih =>
        by_cases hm : ∃ m, m < n ∧ ∃ w, ReachesOf S bytes (fun c => (∃ e, ReadableAt S bytes c e) ∧ containedBy S bytes c (c + S.marker.length) = .ok none) c (c + S.marker.length) (m, w)
        · obtain ⟨m, hlt, hm⟩ := hm
          exact ih m hlt hm
        · exact ⟨n, hn, fun m hlt hw => hm ⟨m, hlt, hw⟩⟩
    have := (h2 (n, w')).2 ⟨by omega, by omega, hn, fun y hy => Nat.le_of_not_lt fun hlt => hmin y.1 hlt ⟨y.2, hy⟩⟩
    cases this
  · intro h
    cases r with
    | none => rfl
    | some x =>
      obtain ⟨_, _, ⟨h3, h4, h5, h6, h7⟩, _⟩ := (h2 x).1 rfl
      have := h x.1 x.2 h3 h4 h5 h6
      omega

/-- there is exactly one set of free messages, and for it `contained_by` returns the first free message that
reaches the end of the range from at most `max_len()` bytes before its start; nothing exactly if there is none, if the range
is empty, or if it touches the end of the file. This holds for every byte sequence. -/
theorem contained_by_exact (L : Lawful S) (bytes : Bytes) (hF : Fits bytes) :
    (∃ free, IsFreeOf S bytes free) ∧
    ∀ free, IsFreeOf S bytes free → ∀ p0 p1, ∃ r, containedBy S bytes p0 p1 = .ok r ∧
      ∀ x, r = some x ↔ p0 < p1 ∧ p1 < bytes.length ∧ FirstReachingOf S bytes free p0 p1 x := by
  refine ⟨⟨_, containedBy_isFree L hF⟩, fun free hfree p0 p1 => ?_⟩
  obtain ⟨r, h1, h2⟩ := containedBy_exact L hF p0 p1
  have hiff := isFree_unique (containedBy_isFree L hF) hfree
  have : (fun c => (∃ e, ReadableAt S bytes c e) ∧ containedBy S bytes c (c + S.marker.length) = .ok none) = free :=
    funext fun c => propext (hiff c)
  rw [this] at h2
  exact ⟨r, h1, h2⟩

/-- There is only one such set. -/
theorem free_unique (bytes : Bytes) (f g : Nat → Prop) (hf : IsFreeOf S bytes f) (hg : IsFreeOf S bytes g) : f = g :=
  funext fun c => propext (isFree_unique hf hg c)

theorem firstReaching_unique {bytes : Bytes} {free : Nat → Prop} {p0 p1 : Nat} {x y : Nat × T}
    (hx : FirstReachingOf S bytes free p0 p1 x) (hy : FirstReachingOf S bytes free p0 p1 y) : x.1 = y.1 :=
  Nat.le_antisymm (hx.2 y hy.1) (hy.2 x hx.1)

theorem cutAt_unique {bytes : Bytes} {free : Nat → Prop} {p c c' : Nat} (h : CutAtOf S bytes free p c)
    (h' : CutAtOf S bytes free p c') : c = c' := by
  rcases h with ⟨hp, x, hx, rfl⟩ | ⟨hn, rfl⟩
  · rcases h' with ⟨_, y, hy, rfl⟩ | ⟨hn', _⟩
    · exact firstReaching_unique hx hy
    · exact absurd hx.1 (hn' hp x)
  · rcases h' with ⟨hp, y, hy, rfl⟩ | ⟨_, rfl⟩
    · exact absurd hy.1 (hn hp y)
    · rfl

theorem partitionLoop_cutsBy (L : Lawful S) {bytes : Bytes} (hF : Fits bytes) {free : Nat → Prop} (hfree : IsFreeOf S bytes free) (size : Nat) :
    ∀ (k c0 : Nat), bytes.length - c0 = k → c0 ≤ bytes.length →
      ∃ rs, partitionLoop S bytes size c0 (c0 + size) = .ok rs ∧
        CutsBy bytes.length size (CutAtOf S bytes free) c0 rs := by
  intro k
  induction k using Nat.strongRecOn with
  | ind k ih =>
    intro c0 hk h0
    rcases partitionLoop_step L hF (size := size) (c0 := c0) (c1 := c0 + size) with
      ⟨h1, h⟩ | ⟨h1, _, q, hq, c, hc, h⟩
    · exact ⟨[], h, .beyond (by omega)⟩
    · obtain ⟨r, hr, hiff⟩ := (contained_by_exact L bytes hF).2 free hfree (c0 + size) (c0 + size + 1)
      rw [hq] at hr
      cases hr
      have hcp : CutAtOf S bytes free (c0 + size) c := by
        rcases hc with ⟨rfl, rfl⟩ | ⟨v, rfl, _⟩
        · right
          refine ⟨fun hlast x hx => ?_, rfl⟩
          -- the first reaching message would have been returned
          obtain ⟨n, ⟨w, hn⟩, hmin⟩ : ∃ n, (∃ w, ReachesOf S bytes free (c0 + size) (c0 + size + 1) (n, w)) ∧
              ∀ m, m < n → ¬ ∃ w, ReachesOf S bytes free (c0 + size) (c0 + size + 1) (m, w) := by
            obtain ⟨n, w⟩ := x
            have hn : ∃ w, ReachesOf S bytes free (c0 + size) (c0 + size + 1) (n, w) := ⟨w, hx⟩
            clear hx w
            induction n using Nat.strongRecOn with
            | ind n ih =>
              by_cases hm : ∃ m, m < n ∧ ∃ w, ReachesOf S bytes free (c0 + size) (c0 + size + 1) (m, w)
              · obtain ⟨m, hlt, hm⟩ := hm
                exact ih m hlt hm
              · exact ⟨n, hn, fun m hlt hw => hm ⟨m, hlt, hw⟩⟩
          have := (hiff (n, w)).2 ⟨by omega, hlast, hn, fun y hy => Nat.le_of_not_lt fun hlt => hmin y.1 hlt ⟨y.2, hy⟩⟩
          cases this
        · left
          obtain ⟨_, h2, h3⟩ := (hiff (c, v)).1 rfl
          exact ⟨h2, (c, v), h3, rfl⟩
      have hcl : c ≤ bytes.length := by
        rcases hc with ⟨_, rfl⟩ | ⟨v, _, _, h3, _⟩ <;> omega
      rcases h with ⟨h2, h⟩ | ⟨h2, h3, h⟩ | ⟨h2, h3, h⟩
      · exact ⟨_, h, .stuck h1 hcp h2⟩
      · exact ⟨_, h, .last h1 hcp h2 h3⟩
      · obtain ⟨rest, h4, h5⟩ := ih (bytes.length - c) (by omega) c rfl hcl
        rw [h4] at h
        exact ⟨_, h, .cut h1 hcp h2 h3 h5⟩

/-- on every byte sequence the slices are exactly those one gets by aiming every `len / num` bytes and moving back
to the start of the first free message that reaches behind the aim. -/
theorem partition_exact (L : Lawful S) (bytes : Bytes) (hF : Fits bytes) (free : Nat → Prop) (hfree : IsFreeOf S bytes free) (num : Nat)
    (hnum : num ≠ 0) (rs : List (Nat × Nat)) :
    partitionRanges S bytes num = .ok rs ↔
      CutsBy bytes.length (bytes.length / num) (CutAtOf S bytes free) 0 rs := by
  obtain ⟨rs', h1, h2⟩ := partitionLoop_cutsBy L hF hfree (bytes.length / num) _ 0 rfl (Nat.zero_le _)
  have hpr : partitionRanges S bytes num = partitionLoop S bytes (bytes.length / num) 0 (bytes.length / num) := by
    unfold partitionRanges; rw [if_neg hnum]
  rw [hpr]
  rw [Nat.zero_add] at h1
  rw [h1]
  constructor
  · intro h; cases h; exact h2
  · intro h
    have hu : ∀ p c c', CutAtOf S bytes free p c → CutAtOf S bytes free p c' → c = c' := fun _ _ _ => cutAt_unique
    rw [cutsBy_unique hu h2 h]


end

end Verif.Any
