import Verif.Spec.Hello
import Verif.Props.Utf8
import Verif.Spec.Grep

/-! # The pattern `H.* World` -/

set_option linter.unusedSimpArgs false

namespace Verif

open Spec

theorem Spec.Utf8.append {p q : Bytes} (hp : Utf8 p) (hq : Utf8 q) : Utf8 (p ++ q) := by
  induction hp with
  | nil => exact hq
  | one c h1 h2 _ ih => exact .one c h1 h2 ih
  | two c h1 h2 h3 h4 _ ih => exact .two c h1 h2 h3 h4 ih
  | three c h1 h2 h3 h4 h5 h6 _ ih => exact .three c h1 h2 h3 h4 h5 h6 ih
  | four c h1 h2 h3 h4 h5 h6 _ ih => exact .four c h1 h2 h3 h4 h5 h6 ih

/-- What follows well-formed text in well-formed text is well-formed text. -/
theorem Spec.Utf8.rest {p q : Bytes} (hp : Utf8 p) (h : Utf8 (p ++ q)) : Utf8 q := by
  induction hp with
  | nil => exact h
  | one c h1 h2 _ ih =>
    simp only [List.cons_append] at h
    generalize hl : _ :: _ = l at h
    cases h with
    | nil => cases hl
    | one c' g1 g2 g =>
      simp only [List.cons.injEq] at hl
      obtain ⟨rfl, rfl⟩ := hl
      exact ih g
    | two c' g1 g2 g3 g4 g =>
      simp only [List.cons.injEq] at hl
      obtain ⟨rfl, -⟩ := hl
      omega
    | three c' g1 g2 g3 g4 g5 g6 g =>
      simp only [List.cons.injEq] at hl
      obtain ⟨rfl, -⟩ := hl
      omega
    | four c' g1 g2 g3 g4 g5 g6 g =>
      simp only [List.cons.injEq] at hl
      obtain ⟨rfl, -⟩ := hl
      omega
  | two c h1 h2 h3 h4 _ ih =>
    simp only [List.cons_append] at h
    generalize hl : _ :: _ = l at h
    cases h with
    | nil => cases hl
    | one c' g1 g2 g =>
      simp only [List.cons.injEq] at hl
      obtain ⟨rfl, -⟩ := hl
      omega
    | two c' g1 g2 g3 g4 g =>
      simp only [List.cons.injEq] at hl
      obtain ⟨rfl, rfl, rfl⟩ := hl
      exact ih g
    | three c' g1 g2 g3 g4 g5 g6 g =>
      simp only [List.cons.injEq] at hl
      obtain ⟨rfl, -⟩ := hl
      omega
    | four c' g1 g2 g3 g4 g5 g6 g =>
      simp only [List.cons.injEq] at hl
      obtain ⟨rfl, -⟩ := hl
      omega
  | three c h1 h2 h3 h4 h5 h6 _ ih =>
    simp only [List.cons_append] at h
    generalize hl : _ :: _ = l at h
    cases h with
    | nil => cases hl
    | one c' g1 g2 g =>
      simp only [List.cons.injEq] at hl
      obtain ⟨rfl, -⟩ := hl
      omega
    | two c' g1 g2 g3 g4 g =>
      simp only [List.cons.injEq] at hl
      obtain ⟨rfl, -⟩ := hl
      omega
    | three c' g1 g2 g3 g4 g5 g6 g =>
      simp only [List.cons.injEq] at hl
      obtain ⟨rfl, rfl, rfl, rfl⟩ := hl
      exact ih g
    | four c' g1 g2 g3 g4 g5 g6 g =>
      simp only [List.cons.injEq] at hl
      obtain ⟨rfl, -⟩ := hl
      omega
  | four c h1 h2 h3 h4 h5 h6 _ ih =>
    simp only [List.cons_append] at h
    generalize hl : _ :: _ = l at h
    cases h with
    | nil => cases hl
    | one c' g1 g2 g =>
      simp only [List.cons.injEq] at hl
      obtain ⟨rfl, -⟩ := hl
      omega
    | two c' g1 g2 g3 g4 g =>
      simp only [List.cons.injEq] at hl
      obtain ⟨rfl, -⟩ := hl
      omega
    | three c' g1 g2 g3 g4 g5 g6 g =>
      simp only [List.cons.injEq] at hl
      obtain ⟨rfl, -⟩ := hl
      omega
    | four c' g1 g2 g3 g4 g5 g6 g =>
      simp only [List.cons.injEq] at hl
      obtain ⟨rfl, rfl, rfl, rfl, rfl⟩ := hl
      exact ih g

/-- Well-formed text starts with a scalar value of at most four bytes. -/
theorem Spec.Utf8.first {bs : Bytes} (h : Utf8 bs) (hne : bs ≠ []) :
    ∃ k ∈ [1, 2, 3, 4], k ≤ bs.length ∧ Utf8 (bs.take k) := by
  cases h with
  | nil => exact absurd rfl hne
  | one c h1 h2 _ => exact ⟨1, by simp, by simp, .one c h1 h2 .nil⟩
  | two c h1 h2 h3 h4 _ => exact ⟨2, by simp, by simp, .two c h1 h2 h3 h4 .nil⟩
  | three c h1 h2 h3 h4 h5 h6 _ => exact ⟨3, by simp, by simp, .three c h1 h2 h3 h4 h5 h6 .nil⟩
  | four c h1 h2 h3 h4 h5 h6 _ => exact ⟨4, by simp, by simp, .four c h1 h2 h3 h4 h5 h6 .nil⟩

theorem scalarLen_some {bs : Bytes} {k : Nat} (h : scalarLen bs = some k) :
    1 ≤ k ∧ k ≤ bs.length ∧ Utf8 (bs.take k) ∧ ∀ j, 1 ≤ j → j ≤ bs.length → Utf8 (bs.take j) → k ≤ j := by
  unfold scalarLen at h
  have h1 := List.find?_some h
  have h2 := List.mem_of_find?_eq_some h
  simp only [Bool.and_eq_true, decide_eq_true_eq] at h1
  have hk : 1 ≤ k ∧ k ≤ 4 := by simp at h2; omega
  refine ⟨hk.1, h1.1, (utf8Valid_iff _).1 h1.2, ?_⟩
  intro j hj hjl hu
  have hnot : ∀ i, 1 ≤ i → i < k → i ≤ bs.length → ¬ Utf8 (bs.take i) := by
    intro i hi hik hil hu
    have hv := (utf8Valid_iff _).2 hu
    rw [List.find?_eq_some_iff_append] at h
    obtain ⟨-, as, cs, hl, hall⟩ := h
    have hmem : i ∈ as := by
      have : i ∈ [1, 2, 3, 4] := by simp; omega
      rw [hl] at this
      rw [List.mem_append, List.mem_cons] at this
      rcases this with h | h | h
      · exact h
      · omega
      · have hs : ([1, 2, 3, 4] : List Nat).Pairwise (· < ·) := by decide
        rw [hl] at hs
        have := (List.pairwise_append.1 hs).2.1
        have := (List.pairwise_cons.1 this).1 i h
        omega
    have := hall i hmem
    rw [hv] at this
    simp only [Bool.and_true, Bool.not_eq_true', decide_eq_false_iff_not] at this
    exact this hil
  apply Nat.le_of_not_lt
  intro hjk
  exact hnot j hj hjk hjl hu

theorem scalarLen_none {bs : Bytes} (h : scalarLen bs = none) (k : Nat) (hk : k ≤ bs.length) (hu : Utf8 (bs.take k)) :
    k = 0 := by
  apply Classical.byContradiction
  intro hne
  have hne' : bs.take k ≠ [] := by
    intro hx
    have := congrArg List.length hx
    rw [List.length_take, List.length_nil] at this
    omega
  obtain ⟨j, hj, hl, hu'⟩ := hu.first hne'
  rw [List.length_take] at hl
  unfold scalarLen at h
  rw [List.find?_eq_none] at h
  have := h j hj
  rw [List.take_take, Nat.min_eq_left (by omega)] at hu'
  simp only [Bool.and_eq_true, decide_eq_true_eq, not_and, Bool.not_eq_true] at this
  have := this (by omega)
  rw [(utf8Valid_iff _).2 hu'] at this
  cases this

theorem take_split {bs : Bytes} {k j : Nat} (hkj : k ≤ j) : bs.take j = bs.take k ++ (bs.drop k).take (j - k) := by
  have h1 : j = k + (j - k) := by omega
  conv => lhs; rw [h1, List.take_add]

/-- `.*` can match exactly the prefixes that are well-formed text without a line break. -/
theorem mem_dotStar : ∀ (n : Nat) (bs : Bytes), bs.length ≤ n → ∀ j,
    (j ∈ dotStar n bs ↔ j ≤ bs.length ∧ Utf8 (bs.take j) ∧ 10 ∉ bs.take j)
  | 0, bs, hn, j => by
    have : bs = [] := List.eq_nil_of_length_eq_zero (by omega)
    subst this
    simp only [dotStar, List.mem_singleton, List.length_nil, List.take_nil, List.not_mem_nil, not_false_eq_true, and_true]
    exact ⟨fun h => ⟨by omega, .nil⟩, fun h => by omega⟩
  | n + 1, bs, hn, j => by
    unfold dotStar
    split
    · next h =>
      rw [List.mem_singleton]
      constructor
      · rintro rfl
        exact ⟨by omega, .nil, by simp⟩
      · rintro ⟨h1, h2, h3⟩
        exact scalarLen_none h j h1 h2
    · next k h =>
      obtain ⟨h1, h2, h3, h4⟩ := scalarLen_some h
      split
      · next hnl =>
        rw [List.mem_singleton]
        constructor
        · rintro rfl
          exact ⟨by omega, .nil, by simp⟩
        · rintro ⟨g1, g2, g3⟩
          apply Classical.byContradiction
          intro hj
          have hkj := h4 j (by omega) g1 g2
          rw [take_split hkj] at g3
          exact g3 (List.mem_append_left _ hnl)
      · next hnl =>
        rw [List.mem_append, List.mem_map, List.mem_singleton]
        constructor
        · rintro (⟨i, hi, rfl⟩ | rfl)
          · rw [mem_dotStar n (bs.drop k) (by rw [List.length_drop]; omega)] at hi
            obtain ⟨g1, g2, g3⟩ := hi
            rw [List.length_drop] at g1
            have hx : bs.take (i + k) = bs.take k ++ (bs.drop k).take i := by
              have := take_split (bs := bs) (k := k) (j := i + k) (by omega)
              rwa [Nat.add_sub_cancel] at this
            rw [hx]
            exact ⟨by omega, h3.append g2, fun hm => (List.mem_append.1 hm).elim hnl g3⟩
          · exact ⟨by omega, .nil, by simp⟩
        · rintro ⟨g1, g2, g3⟩
          by_cases hj : j = 0
          · exact Or.inr hj
          · have hkj := h4 j (by omega) g1 g2
            left
            refine ⟨j - k, ?_, by omega⟩
            rw [mem_dotStar n (bs.drop k) (by rw [List.length_drop]; omega)]
            rw [take_split hkj] at g2 g3
            exact ⟨by rw [List.length_drop]; omega, h3.rest g2, fun hm => g3 (List.mem_append_right _ hm)⟩

/-- Longer ones come first. -/
theorem dotStar_sorted : ∀ (n : Nat) (bs : Bytes), (dotStar n bs).Pairwise (· > ·)
  | 0, _ => by simp [dotStar]
  | n + 1, bs => by
    unfold dotStar
    split
    · simp
    · next k h =>
      obtain ⟨h1, -, -, -⟩ := scalarLen_some h
      split
      · simp
      · rw [List.pairwise_append]
        refine ⟨?_, by simp, ?_⟩
        · rw [List.pairwise_map]
          exact (dotStar_sorted n _).imp fun h => by omega
        · intro a ha b hb
          rw [List.mem_singleton] at hb
          rw [List.mem_map] at ha
          obtain ⟨i, -, rfl⟩ := ha
          omega

theorem helloAt_iff {bytes rest : Bytes} {s : Nat} (h : bytes.drop s = 72 :: rest) (e : Nat) :
    HelloAt bytes s e ↔ ∃ k ∈ dotStar rest.length rest, worldText <+: rest.drop k ∧ e = s + (1 + k + 6) := by
  unfold HelloAt
  rw [h]
  constructor
  · rintro ⟨mid, hu, hn, hp, rfl⟩
    rw [List.cons_prefix_cons] at hp
    obtain ⟨r, hr⟩ := hp.2
    have ht : rest.take mid.length = mid := by rw [← hr, List.append_assoc, List.take_left]
    refine ⟨mid.length, ?_, ?_, by omega⟩
    · rw [mem_dotStar _ _ (Nat.le_refl _), ht]
      exact ⟨by rw [← hr]; simp, hu, hn⟩
    · rw [← hr, List.append_assoc, List.drop_left]
      exact List.prefix_append _ _
  · rintro ⟨k, hk, ⟨r, hw⟩, rfl⟩
    rw [mem_dotStar _ _ (Nat.le_refl _)] at hk
    refine ⟨rest.take k, hk.2.1, hk.2.2, ?_, ?_⟩
    · rw [List.cons_prefix_cons]
      refine ⟨rfl, r, ?_⟩
      have hw' : [32, 87, 111, 114, 108, 100] ++ r = rest.drop k := hw
      rw [List.append_assoc, hw', List.take_append_drop]
    · rw [List.length_take]
      omega

/-- The pattern's preferred match at a position is the longest one. -/
theorem helloRegex_iff (bytes : Bytes) (s e : Nat) (g : Option (Nat × Nat)) :
    helloRegex.matchAt bytes s = some (e, g) ↔ g = none ∧ HelloAt bytes s e ∧ ∀ e', HelloAt bytes s e' → e' ≤ e := by
  show Option.map _ (helloMatchLen (bytes.drop s)) = _ ↔ _
  cases hd : bytes.drop s with
  | nil =>
    constructor
    · intro h; cases h
    · rintro ⟨-, ⟨mid, -, -, hp, -⟩, -⟩
      rw [hd] at hp
      exact absurd (List.prefix_nil.1 hp) (by simp)
  | cons c rest =>
    by_cases hc : c = 72
    · subst hc
      show Option.map _ (Option.map _ _) = _ ↔ _
      rw [Option.map_map, Option.map_eq_some_iff]
      have hall := helloAt_iff hd
      constructor
      · rintro ⟨k, hk, heq⟩
        cases heq
        have hw := List.find?_some hk
        have hw' : worldText <+: rest.drop k := by simpa using hw
        have hm := List.mem_of_find?_eq_some hk
        refine ⟨rfl, (hall _).2 ⟨k, hm, hw', rfl⟩, ?_⟩
        intro e' he'
        obtain ⟨j, hj, hjw, rfl⟩ := (hall e').1 he'
        rw [List.find?_eq_some_iff_append] at hk
        obtain ⟨-, as, cs, hl, hno⟩ := hk
        show s + (1 + j + 6) ≤ s + (1 + k + 6)
        rw [hl, List.mem_append, List.mem_cons] at hj
        rcases hj with h | h | h
        · have := hno j h
          simp [hjw] at this
        · omega
        · have hs := dotStar_sorted rest.length rest
          rw [hl] at hs
          have := (List.pairwise_append.1 hs).2.1
          have := (List.pairwise_cons.1 this).1 j h
          omega
      · rintro ⟨rfl, hh, hmax⟩
        obtain ⟨k, hk, hw, rfl⟩ := (hall e).1 hh
        cases hf : (dotStar rest.length rest).find? fun k => decide (worldText <+: rest.drop k) with
        | none =>
          rw [List.find?_eq_none] at hf
          have := hf k hk
          simp [hw] at this
        | some j =>
          refine ⟨j, rfl, ?_⟩
          have hjw := List.find?_some hf
          have hjw' : worldText <+: rest.drop j := by simpa using hjw
          have hjm := List.mem_of_find?_eq_some hf
          have h1 := hmax _ ((hall _).2 ⟨j, hjm, hjw', rfl⟩)
          rw [List.find?_eq_some_iff_append] at hf
          obtain ⟨-, as, cs, hl, hno⟩ := hf
          have h2 : k ≤ j := by
            rw [hl, List.mem_append, List.mem_cons] at hk
            rcases hk with h | h | h
            · have := hno k h
              simp [hw] at this
            · omega
            · have hs := dotStar_sorted rest.length rest
              rw [hl] at hs
              have := (List.pairwise_append.1 hs).2.1
              have := (List.pairwise_cons.1 this).1 k h
              omega
          have : j = k := by omega
          subst this
          rfl
    · have h1 : helloMatchLen (c :: rest) = none := by
        unfold helloMatchLen
        split
        · next heq => cases heq; exact absurd rfl hc
        · rfl
      rw [h1]
      constructor
      · intro h; cases h
      · rintro ⟨-, ⟨mid, -, -, hp, -⟩, -⟩
        rw [hd, List.cons_prefix_cons] at hp
        exact absurd hp.1.symm hc

theorem hello_matches_iff (bytes : Bytes) (s e : Nat) :
    Matches helloRegex bytes s e ↔ HelloAt bytes s e ∧ ∀ e', HelloAt bytes s e' → e' ≤ e := by
  unfold Matches
  constructor
  · rintro ⟨g, hg⟩; exact ((helloRegex_iff bytes s e g).1 hg).2
  · intro h; exact ⟨none, (helloRegex_iff bytes s e none).2 ⟨rfl, h⟩⟩

theorem hello_nonEmpty (bytes : Bytes) : NonEmpty helloRegex bytes := by
  intro s e h
  obtain ⟨⟨mid, -, -, -, rfl⟩, -⟩ := (hello_matches_iff bytes s e).1 h
  omega

end Verif
