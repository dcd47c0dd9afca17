import Verif.Lemmas.Work
import Verif.Lemmas.DltLaws
import Verif.Props.Depth
import Verif.Props.Contain

/-! # C96, C97: the work and the stack of the iterators -/

set_option linter.unusedSimpArgs false

namespace Verif

open Spec

section
variable {T : Type} {S : SearchableMarker T}

theorem readFallbackNextW_at_marker {bytes : Bytes} (off : Nat)
    (hoff : off + S.marker.length ≤ usizeMax) (hm : MarkerAt S bytes off) :
    (readFallbackNextW S bytes off).2.frames = 1 ∧ (readFallbackNextW S bytes off).2.reads ≤ 1 ∧
      (readFallbackNextW S bytes off).2.scanned ≤ S.marker.length := by
  rw [readFallbackNextW_unfold hoff]
  have hsm : (bytes.drop off).take S.marker.length = S.marker := take_eq_iff_prefix.2 hm
  by_cases hge : off + S.marker.length ≥ bytes.length
  · rw [if_pos hge]; exact ⟨rfl, Nat.zero_le _, Nat.zero_le _⟩
  · rw [if_neg hge, if_pos hsm]
    rcases S.tryReadValidMarker (bytes.drop off) with o | _
    · rcases o with _ | ⟨n, v⟩
      · exact ⟨rfl, Nat.le_refl _, Nat.le_refl _⟩
      · dsimp only
        cases uadd off n <;> exact ⟨rfl, Nat.le_refl _, Nat.le_refl _⟩
    · exact ⟨rfl, Nat.le_refl _, Nat.le_refl _⟩

/-- One call of `ReadFallbackIterator::next`. -/
theorem readFallbackNextW_cost (L : Lawful S) {bytes : Bytes} (hF : Fits bytes) (off : Nat)
    (hoff : off + S.marker.length ≤ usizeMax) :
    (readFallbackNextW S bytes off).2.frames ≤ 2 ∧ (readFallbackNextW S bytes off).2.reads ≤ 1 ∧
    ((∃ off', (readFallbackNextW S bytes off).1 = .ok (none, off') ∧
        (readFallbackNextW S bytes off).2.scanned ≤ bytes.length - off + 2 * S.marker.length) ∨
     (∃ i v, (readFallbackNextW S bytes off).1 = .ok (some (i, v), i + S.len v) ∧ off ≤ i ∧ ReadableAt S bytes i v ∧
        (readFallbackNextW S bytes off).2.scanned ≤ i - off + 3 * S.marker.length)) := by
  have hF' := fits_le hF
  have hspec := readFallbackNext_spec L hF off hoff
  rw [← readFallbackNextW_erase] at hspec
  by_cases hm : MarkerAt S bytes off
  · obtain ⟨h1, h2, h3⟩ := readFallbackNextW_at_marker off hoff hm
    refine ⟨by omega, h2, ?_⟩
    rcases hspec with ⟨off', g1, _⟩ | ⟨i, v, g1, g2, g3⟩
    · exact Or.inl ⟨off', g1, by omega⟩
    · exact Or.inr ⟨i, v, g1, g2.1, g3, by omega⟩
  · have hsm : ¬ (bytes.drop off).take S.marker.length = S.marker := fun h => hm (take_eq_iff_prefix.1 h)
    by_cases hge : off + S.marker.length ≥ bytes.length
    · have hu := readFallbackNextW_unfold (S := S) (bytes := bytes) hoff
      rw [if_pos hge] at hu
      rw [hu]
      exact ⟨by simp only; omega, Nat.zero_le _, Or.inl ⟨off, rfl, Nat.zero_le _⟩⟩
    · have hu := readFallbackNextW_unfold (S := S) (bytes := bytes) hoff
      rw [if_neg hge, if_neg hsm] at hu
      cases hf : find S.marker (bytes.drop off) with
      | none =>
        have hsp : findSpan S.marker (bytes.drop off) = bytes.length - off := by
          unfold findSpan; rw [hf, List.length_drop]
        rw [hf, hsp] at hu
        rw [hu]
        exact ⟨by simp only; omega, Nat.zero_le _, Or.inl ⟨off, rfl, by simp only; omega⟩⟩
      | some p =>
        obtain ⟨hp1, hp2, hp3⟩ := find_some hf
        rw [List.drop_drop] at hp2
        have hm' : MarkerAt S bytes (off + p) := hp2
        have hml := hm'.lt
        have hp0 : p ≠ 0 := fun h => hm (by rw [h] at hm'; exact hm')
        have hsp : findSpan S.marker (bytes.drop off) = p + S.marker.length := by
          unfold findSpan; rw [hf]
        rw [hf, hsp] at hu
        dsimp only at hu
        rw [if_neg hp0, uadd_ok (show off + p ≤ usizeMax by unfold usizeMax; omega)] at hu
        dsimp only at hu
        obtain ⟨h1, h2, h3⟩ := readFallbackNextW_at_marker (off + p) (by unfold usizeMax; omega) hm'
        have hcost : (readFallbackNextW S bytes off).2.frames = 2 ∧ (readFallbackNextW S bytes off).2.reads ≤ 1 ∧
            (readFallbackNextW S bytes off).2.scanned ≤ p + 3 * S.marker.length := by
          rw [hu]; simp only [Work.plus]; omega
        obtain ⟨c1, c2, c3⟩ := hcost
        refine ⟨by omega, c2, ?_⟩
        rcases hspec with ⟨off', g1, _⟩ | ⟨i, v, g1, g2, g3⟩
        · exact Or.inl ⟨off', g1, by omega⟩
        · refine Or.inr ⟨i, v, g1, g2.1, g3, ?_⟩
          have hfm : FirstMarker S bytes off (off + p) := by
            refine ⟨by omega, hm', fun j h1 h2 hmj => hp3 (j - off) (by omega) ?_⟩
            rw [List.drop_drop, show off + (j - off) = j by omega]; exact hmj
          have := g2.unique hfm
          omega

/-! ## `SearchIterator` -/

theorem findSpan_le {n h : Bytes} : findSpan n h ≤ h.length := by
  unfold findSpan
  split
  · next i hf =>
    obtain ⟨h1, h2, _⟩ := find_some hf
    have := h2.length_le
    rw [List.length_drop] at this
    omega
  · exact Nat.le_refl _

theorem searchSearchW_cost (bytes : Bytes) (off : Nat) :
    (searchSearchW S bytes off).2.frames = 0 ∧ (searchSearchW S bytes off).2.reads ≤ 1 ∧
    (searchSearchW S bytes off).2.scanned ≤ bytes.length - off := by
  unfold searchSearchW
  by_cases h : off ≥ bytes.length
  · rw [if_pos h]; exact ⟨rfl, Nat.zero_le _, Nat.zero_le _⟩
  · rw [if_neg h, sliceFrom_ok (by omega)]
    have hs := findSpan_le (n := S.marker) (h := bytes.drop off)
    rw [List.length_drop] at hs
    dsimp only
    have h0 : (Work.zero.scan (findSpan S.marker (bytes.drop off))).frames = 0 ∧
      (Work.zero.scan (findSpan S.marker (bytes.drop off))).reads = 0 ∧
      (Work.zero.scan (findSpan S.marker (bytes.drop off))).scanned ≤ bytes.length - off := by
      refine ⟨rfl, rfl, ?_⟩
      simp only [Work.scan, Work.zero, Nat.zero_add]; exact hs
    obtain ⟨h1, h2, h3⟩ := h0
    generalize (Work.zero.scan (findSpan S.marker (bytes.drop off))) = w at h1 h2 h3
    cases find S.marker (bytes.drop off) with
    | none => exact ⟨h1, by dsimp only; omega, h3⟩
    | some c =>
      dsimp only
      cases uadd c off with
      | panic => exact ⟨h1, by dsimp only; omega, h3⟩
      | ok c =>
        dsimp only
        cases sliceFrom bytes c with
        | panic => exact ⟨h1, by dsimp only; omega, h3⟩
        | ok t' =>
          dsimp only
          rcases S.tryReadValidMarker t' with o | _
          · rcases o with _ | ⟨n, v⟩ <;> exact ⟨h1, by simp only [Work.read]; omega, h3⟩
          · exact ⟨h1, by simp only [Work.read]; omega, h3⟩

theorem searchSearchW_found {bytes : Bytes} {off i : Nat} {v : T}
    (h : (searchSearchW S bytes off).1 = .ok (some (i, v))) :
    off ≤ i ∧ (searchSearchW S bytes off).2.scanned = i - off + S.marker.length := by
  unfold searchSearchW at h ⊢
  by_cases h0 : off ≥ bytes.length
  · rw [if_pos h0] at h; cases h
  · rw [if_neg h0, sliceFrom_ok (by omega)] at h ⊢
    dsimp only at h ⊢
    cases hf : find S.marker (bytes.drop off) with
    | none => rw [hf] at h; cases h
    | some c =>
      rw [hf] at h
      dsimp only at h ⊢
      rcases hu : uadd c off with c' | _
      · have hc := uadd_eq hu
        rw [hu] at h
        dsimp only at h ⊢
        rcases hs : sliceFrom bytes c' with t' | _
        · rw [hs] at h
          dsimp only at h ⊢
          rcases hr : S.tryReadValidMarker t' with o | _
          · rw [hr] at h
            rcases o with _ | ⟨n, w⟩
            · cases h
            · cases h
              simp only [Work.read, Work.scan, Work.zero, findSpan, hf]
              omega
          · rw [hr] at h; cases h
        · rw [hs] at h; cases h
      · rw [hu] at h; cases h

/-- A message found was parsed once. -/
theorem searchSearchW_found_reads {bytes : Bytes} {off i : Nat} {v : T}
    (h : (searchSearchW S bytes off).1 = .ok (some (i, v))) : (searchSearchW S bytes off).2.reads = 1 := by
  unfold searchSearchW at h ⊢
  by_cases h0 : off ≥ bytes.length
  · rw [if_pos h0] at h; cases h
  · rw [if_neg h0, sliceFrom_ok (by omega)] at h ⊢
    dsimp only at h ⊢
    cases hf : find S.marker (bytes.drop off) with
    | none => rw [hf] at h; cases h
    | some c =>
      rw [hf] at h
      dsimp only at h ⊢
      rcases hu : uadd c off with c' | _
      · rw [hu] at h
        dsimp only at h ⊢
        rcases hs : sliceFrom bytes c' with t' | _
        · rw [hs] at h
          dsimp only at h ⊢
          rcases hr : S.tryReadValidMarker t' with o | _
          · rw [hr] at h
            rcases o with _ | ⟨n, w⟩
            · cases h
            · rfl
          · rw [hr] at h; cases h
        · rw [hs] at h; cases h
      · rw [hu] at h; cases h

/-- A search stops at the first marker. -/
theorem searchSearchW_stops {bytes : Bytes} {off j : Nat} (hj : off ≤ j) (hm : MarkerAt S bytes j) :
    (searchSearchW S bytes off).2.scanned ≤ j - off + S.marker.length := by
  have hml := hm.lt
  have hmp := S.marker_pos
  unfold searchSearchW
  rw [if_neg (by omega), sliceFrom_ok (by omega)]
  dsimp only
  have hm' : S.marker <+: (bytes.drop off).drop (j - off) := by
    rw [List.drop_drop, show off + (j - off) = j by omega]; exact hm
  cases hf : find S.marker (bytes.drop off) with
  | none => exact absurd hm' (find_none hf _)
  | some c =>
    obtain ⟨_, _, h3⟩ := find_some hf
    have hc : c ≤ j - off := Nat.le_of_not_lt fun h => h3 _ h hm'
    have hw : (Work.zero.scan (findSpan S.marker (bytes.drop off))).scanned ≤ j - off + S.marker.length := by
      simp only [Work.scan, Work.zero, findSpan, hf]; omega
    generalize (Work.zero.scan (findSpan S.marker (bytes.drop off))) = w at hw
    dsimp only
    cases uadd c off with
    | panic => exact hw
    | ok c =>
      dsimp only
      cases sliceFrom bytes c with
      | panic => exact hw
      | ok t' =>
        dsimp only
        rcases S.tryReadValidMarker t' with o | _
        · rcases o with _ | ⟨n, v⟩ <;> exact hw
        · exact hw

theorem searchNextW_found {bytes : Bytes} {off i off' : Nat} {v : T}
    (h : (searchSearchW S bytes off).1 = .ok (some (i, v))) (hu : uadd i (S.len v) = .ok off') :
    searchNextW S bytes off = (.ok (some (i, v), off'), (searchSearchW S bytes off).2.frame) := by
  rw [searchNextW]; simp only [h, hu]

/-- One call of `SearchIterator::next`. -/
theorem searchNextW_cost (L : Lawful S) {bytes : Bytes} (hF : Fits bytes) (hm : S.marker.length < 2 ^ 62)
    (off : Nat) (hoff : off + 2 * S.marker.length ≤ usizeMax) :
    (∃ off', (searchNextW S bytes off).1 = .ok (none, off') ∧
      (searchNextW S bytes off).2.frames * S.marker.length ≤ bytes.length - off + S.marker.length ∧
      (searchNextW S bytes off).2.reads ≤ (searchNextW S bytes off).2.frames ∧
      (searchNextW S bytes off).2.scanned ≤ (searchNextW S bytes off).2.frames * (bytes.length - off)) ∨
    (∃ i v, (searchNextW S bytes off).1 = .ok (some (i, v), i + S.len v) ∧ off ≤ i ∧ ReadableAt S bytes i v ∧
      (searchNextW S bytes off).2.frames * S.marker.length ≤ i - off + S.marker.length ∧
      (searchNextW S bytes off).2.reads ≤ (searchNextW S bytes off).2.frames ∧
      (searchNextW S bytes off).2.scanned ≤ (searchNextW S bytes off).2.frames * (i - off + S.marker.length)) := by
  have hF' := fits_le hF
  have hmp := S.marker_pos
  generalize hk : bytes.length - off = k
  induction k using Nat.strongRecOn generalizing off with
  | ind k ih =>
    have hc := searchSearchW_cost (S := S) bytes off
    rcases searchSearch_spec L.toReads hF off with ⟨i, v, h1, h2, h3⟩ | ⟨h1, h2⟩
    · right
      rw [← searchSearchW_erase] at h1
      have hb := h3.bounds L
      have hu : uadd i (S.len v) = .ok (i + S.len v) := uadd_ok (by unfold usizeMax; omega)
      have hst := searchSearchW_stops h2.1 h2.2.1
      rw [searchNextW_found h1 hu]
      refine ⟨i, v, rfl, h2.1, h3, ?_⟩
      obtain ⟨c1, c2, _⟩ := hc
      generalize (searchSearchW S bytes off).2 = w at c1 c2 hst
      simp only [Work.frame, c1, Nat.zero_add, Nat.one_mul]
      exact ⟨by omega, c2, hst⟩
    · rw [← searchSearchW_erase] at h1
      have hu : uadd off S.marker.length = .ok (off + S.marker.length) := uadd_ok (by omega)
      rw [searchNextW_unfold h1 hu]
      by_cases hge : off + S.marker.length ≥ bytes.length
      · left
        rw [if_pos hge]
        refine ⟨_, rfl, ?_⟩
        obtain ⟨c1, c2, c3⟩ := hc
        generalize (searchSearchW S bytes off).2 = w at c1 c2 c3
        simp only [Work.frame, c1, Nat.zero_add, Nat.one_mul]
        exact ⟨by omega, c2, by omega⟩
      · rw [if_neg hge]
        obtain ⟨c1, c2, c3⟩ := hc
        rcases ih (bytes.length - (off + S.marker.length)) (by omega) (off + S.marker.length)
          (by unfold usizeMax; omega) rfl with ⟨off', g1, g2, g3, g4⟩ | ⟨i, v, g1, g2, g3, g4, g5, g6⟩
        · left
          refine ⟨off', g1, ?_⟩
          generalize (searchSearchW S bytes off).2 = w at c1 c2 c3
          generalize (searchNextW S bytes (off + S.marker.length)).2 = u at g2 g3 g4
          have h5 := Nat.mul_le_mul_left u.frames (show bytes.length - (off + S.marker.length) ≤ k by omega)
          simp only [Work.frame, Work.plus, c1, Nat.zero_add, Nat.add_mul, Nat.one_mul]
          exact ⟨by omega, by omega, by omega⟩
        · right
          have hst := searchSearchW_stops (show off ≤ i by omega) (g3.marker L)
          refine ⟨i, v, g1, by omega, g3, ?_⟩
          generalize (searchSearchW S bytes off).2 = w at c1 c2 c3 hst
          generalize (searchNextW S bytes (off + S.marker.length)).2 = u at g4 g5 g6
          have h5 := Nat.mul_le_mul_left u.frames
            (show i - (off + S.marker.length) + S.marker.length ≤ i - off + S.marker.length by omega)
          simp only [Work.frame, Work.plus, c1, Nat.zero_add, Nat.add_mul, Nat.one_mul]
          exact ⟨by omega, by omega, by omega⟩

/-- The sum of `d`, `d - m`, `d - 2 * m`, … with `q` terms. -/
def steps (m : Nat) : Nat → Nat → Nat
  | _, 0 => 0
  | d, q + 1 => d + steps m (d - m) q

theorem searchSearchW_nothing {bytes : Bytes} {off : Nat} (hoff : off ≤ bytes.length)
    (hno : ∀ j, off ≤ j → ¬ MarkerAt S bytes j) :
    searchSearchW S bytes off = (.ok none, ⟨0, bytes.length - off, 0⟩) := by
  unfold searchSearchW
  by_cases h : off ≥ bytes.length
  · rw [if_pos h, show bytes.length - off = 0 by omega]; rfl
  · rw [if_neg h, sliceFrom_ok hoff]
    dsimp only
    cases hf : find S.marker (bytes.drop off) with
    | none => simp only [Work.scan, Work.zero, findSpan, hf, List.length_drop, Nat.zero_add]
    | some p =>
      have := (find_some hf).2.1
      rw [List.drop_drop] at this
      exact absurd this (hno _ (by omega))

/-- One call of `SearchIterator::next` where no marker is left: exactly. -/
theorem searchNextW_nothing {bytes : Bytes} (hF : Fits bytes) (hm : S.marker.length < 2 ^ 62) (off : Nat)
    (hoff : off < bytes.length) (hno : ∀ j, off ≤ j → ¬ MarkerAt S bytes j) (q : Nat)
    (hq1 : bytes.length - off ≤ q * S.marker.length) (hq2 : q * S.marker.length < bytes.length - off + S.marker.length) :
    (searchNextW S bytes off).2 = ⟨q, steps S.marker.length (bytes.length - off) q, 0⟩ := by
  have hF' := fits_le hF
  have hmp := S.marker_pos
  induction q generalizing off with
  | zero => omega
  | succ q ih =>
    rw [Nat.add_mul, Nat.one_mul] at hq1 hq2
    have hu : uadd off S.marker.length = .ok (off + S.marker.length) := uadd_ok (by unfold usizeMax; omega)
    have hs := searchSearchW_nothing (Nat.le_of_lt hoff) hno
    rw [searchNextW_unfold (by rw [hs]) hu, hs]
    by_cases hge : off + S.marker.length ≥ bytes.length
    · have : q = 0 := by
        cases q with
        | zero => rfl
        | succ q => rw [Nat.add_mul, Nat.one_mul] at hq2; omega
      subst this
      rw [if_pos hge]
      simp only [Work.frame, steps, Nat.zero_add, Nat.add_zero]
    · rw [if_neg hge, ih (off + S.marker.length) (by omega) (fun j hj => hno j (by omega)) (by omega) (by omega)]
      simp only [Work.frame, Work.plus, steps, Nat.sub_sub]
      congr 1
      omega

/-! ## `RevSearchIterator` -/

theorem rfindSpan_le {n h : Bytes} : rfindSpan n h ≤ h.length := by
  unfold rfindSpan
  split
  · exact Nat.sub_le _ _
  · exact Nat.le_refl _

theorem marker_take {bytes : Bytes} {off j : Nat} (hm : MarkerAt S bytes j) (h : j + S.marker.length ≤ off) :
    S.marker <+: (bytes.take off).drop j := by
  rw [List.drop_take, List.prefix_take_iff]
  exact ⟨hm, by omega⟩

theorem take_marker {bytes : Bytes} {off j : Nat} (h : S.marker <+: (bytes.take off).drop j) :
    MarkerAt S bytes j ∧ j + S.marker.length ≤ off := by
  rw [List.drop_take] at h
  have hmp := S.marker_pos
  have := h.length_le
  rw [List.length_take, List.length_drop] at this
  exact ⟨h.trans (List.take_prefix _ _), by omega⟩

theorem revSearchW_cost (bytes : Bytes) (off : Nat) :
    (revSearchW S bytes off).2.frames = 0 ∧ (revSearchW S bytes off).2.reads ≤ 1 ∧
    (revSearchW S bytes off).2.scanned ≤ off := by
  unfold revSearchW
  by_cases h : off > bytes.length ∨ off = usizeMax
  · rw [if_pos h]; exact ⟨rfl, Nat.zero_le _, Nat.zero_le _⟩
  · rw [if_neg h, sliceTo_ok (by omega)]
    have hs := rfindSpan_le (n := S.marker) (h := bytes.take off)
    rw [List.length_take] at hs
    dsimp only
    have h0 : (Work.zero.scan (rfindSpan S.marker (bytes.take off))).frames = 0 ∧
      (Work.zero.scan (rfindSpan S.marker (bytes.take off))).reads = 0 ∧
      (Work.zero.scan (rfindSpan S.marker (bytes.take off))).scanned ≤ off := by
      refine ⟨rfl, rfl, ?_⟩
      simp only [Work.scan, Work.zero, Nat.zero_add]; omega
    obtain ⟨h1, h2, h3⟩ := h0
    generalize (Work.zero.scan (rfindSpan S.marker (bytes.take off))) = w at h1 h2 h3
    cases rfind S.marker (bytes.take off) with
    | none => exact ⟨h1, by dsimp only; omega, h3⟩
    | some c =>
      dsimp only
      cases sliceFrom bytes c with
      | panic => exact ⟨h1, by dsimp only; omega, h3⟩
      | ok t' =>
        dsimp only
        rcases S.tryReadValidMarker t' with o | _
        · rcases o with _ | ⟨n, v⟩ <;> exact ⟨h1, by simp only [Work.read]; omega, h3⟩
        · exact ⟨h1, by simp only [Work.read]; omega, h3⟩

/-- A search backwards stops at the last marker. -/
theorem revSearchW_stops {bytes : Bytes} {off j : Nat} (hj : j + S.marker.length ≤ off) (hm : MarkerAt S bytes j) :
    (revSearchW S bytes off).2.scanned ≤ off - j := by
  have hml := hm.lt
  have hmp := S.marker_pos
  unfold revSearchW
  by_cases h : off > bytes.length ∨ off = usizeMax
  · rw [if_pos h]; exact Nat.zero_le _
  · rw [if_neg h, sliceTo_ok (by omega)]
    dsimp only
    have hm' := marker_take hm hj
    cases hf : rfind S.marker (bytes.take off) with
    | none => exact absurd hm' (rfind_none hf _)
    | some c =>
      obtain ⟨_, h3⟩ := rfind_some hmp hf
      have hc : j ≤ c := Nat.le_of_not_lt fun h => h3 _ h hm'
      have hw : (Work.zero.scan (rfindSpan S.marker (bytes.take off))).scanned ≤ off - j := by
        simp only [Work.scan, Work.zero, rfindSpan, hf, List.length_take]; omega
      generalize (Work.zero.scan (rfindSpan S.marker (bytes.take off))) = w at hw
      dsimp only
      cases sliceFrom bytes c with
      | panic => exact hw
      | ok t' =>
        dsimp only
        rcases S.tryReadValidMarker t' with o | _
        · rcases o with _ | ⟨n, v⟩ <;> exact hw
        · exact hw

theorem revNextW_unfold {bytes : Bytes} {off : Nat} (h : (revSearchW S bytes off).1 = .ok none)
    (hoff : off < usizeMax) :
    revNextW S bytes off =
      if S.marker.length ≤ off then ((revNextW S bytes (off - S.marker.length)).1,
        (revSearchW S bytes off).2.frame.plus (revNextW S bytes (off - S.marker.length)).2)
      else (.ok (none, usizeMax), (revSearchW S bytes off).2.frame) := by
  rw [revNextW]
  simp only [h]
  by_cases h1 : S.marker.length ≤ off
  · rw [dif_pos h1, if_pos h1, if_neg (by omega)]
  · rw [dif_neg h1, if_neg h1]

/-- One call of `RevSearchIterator::next`. -/
theorem revNextW_cost (L : Lawful S) {bytes : Bytes} (hF : Fits bytes) (off : Nat) (hoff : off ≤ bytes.length) :
    ((revNextW S bytes off).1 = .ok (none, usizeMax) ∧
      (revNextW S bytes off).2.frames * S.marker.length ≤ off + S.marker.length ∧
      (revNextW S bytes off).2.reads ≤ (revNextW S bytes off).2.frames ∧
      (revNextW S bytes off).2.scanned ≤ (revNextW S bytes off).2.frames * off) ∨
    (∃ i v, (revNextW S bytes off).1 = .ok (some (i, v), i) ∧ i + S.marker.length ≤ off ∧ ReadableAt S bytes i v ∧
      (revNextW S bytes off).2.frames * S.marker.length ≤ off - i ∧
      (revNextW S bytes off).2.reads ≤ (revNextW S bytes off).2.frames ∧
      (revNextW S bytes off).2.scanned ≤ (revNextW S bytes off).2.frames * (off - i)) := by
  have hF' := fits_le hF
  have hmp := S.marker_pos
  induction off using Nat.strongRecOn with
  | ind off ih =>
    have hc := revSearchW_cost (S := S) bytes off
    rcases revSearch_spec L.toReads off hF hoff with ⟨i, v, h1, h2, h3, h4⟩ | ⟨h1, h2⟩
    · right
      rw [← revSearchW_erase] at h1
      have hst := revSearchW_stops h2 (h3.marker L)
      have hu : revNextW S bytes off = (.ok (some (i, v), i), (revSearchW S bytes off).2.frame) := by
        rw [revNextW]; simp only [h1]
      rw [hu]
      refine ⟨i, v, rfl, h2, h3, ?_⟩
      obtain ⟨c1, c2, _⟩ := hc
      generalize (revSearchW S bytes off).2 = w at c1 c2 hst
      simp only [Work.frame, c1, Nat.zero_add, Nat.one_mul]
      exact ⟨by omega, c2, hst⟩
    · rw [← revSearchW_erase] at h1
      rw [revNextW_unfold h1 (by unfold usizeMax; omega)]
      by_cases hle : S.marker.length ≤ off
      · rw [if_pos hle]
        obtain ⟨c1, c2, c3⟩ := hc
        rcases ih (off - S.marker.length) (by omega) (by omega) with ⟨g1, g2, g3, g4⟩ | ⟨i, v, g1, g2, g3, g4, g5, g6⟩
        · left
          refine ⟨g1, ?_⟩
          generalize (revSearchW S bytes off).2 = w at c1 c2 c3
          generalize (revNextW S bytes (off - S.marker.length)).2 = u at g2 g3 g4
          have h5 := Nat.mul_le_mul_left u.frames (show off - S.marker.length ≤ off by omega)
          simp only [Work.frame, Work.plus, c1, Nat.zero_add, Nat.add_mul, Nat.one_mul]
          exact ⟨by omega, by omega, by omega⟩
        · right
          have hst := revSearchW_stops (show i + S.marker.length ≤ off by omega) (g3.marker L)
          refine ⟨i, v, g1, by omega, g3, ?_⟩
          generalize (revSearchW S bytes off).2 = w at c1 c2 c3 hst
          generalize (revNextW S bytes (off - S.marker.length)).2 = u at g4 g5 g6
          have h5 := Nat.mul_le_mul_left u.frames (show off - S.marker.length - i ≤ off - i by omega)
          simp only [Work.frame, Work.plus, c1, Nat.zero_add, Nat.add_mul, Nat.one_mul]
          exact ⟨by omega, by omega, by omega⟩
      · left
        rw [if_neg hle]
        refine ⟨rfl, ?_⟩
        obtain ⟨c1, c2, c3⟩ := hc
        generalize (revSearchW S bytes off).2 = w at c1 c2 c3
        simp only [Work.frame, c1, Nat.zero_add, Nat.one_mul]
        exact ⟨by omega, c2, by omega⟩

theorem revSearchW_nothing {bytes : Bytes} {off : Nat} (hF : Fits bytes) (hoff : off ≤ bytes.length)
    (hno : ∀ j, j + S.marker.length ≤ off → ¬ MarkerAt S bytes j) :
    revSearchW S bytes off = (.ok none, ⟨0, off, 0⟩) := by
  have hF' := fits_le hF
  unfold revSearchW
  rw [if_neg (by unfold usizeMax; omega), sliceTo_ok hoff]
  dsimp only
  cases hf : rfind S.marker (bytes.take off) with
  | none =>
    simp only [Work.scan, Work.zero, rfindSpan, hf, List.length_take, Nat.zero_add]
    rw [Nat.min_eq_left hoff]
  | some p =>
    obtain ⟨h1, h2⟩ := take_marker (rfind_some S.marker_pos hf).1
    exact absurd h1 (hno _ h2)

/-- One call of `RevSearchIterator::next` where no marker is left: exactly. -/
theorem revNextW_nothing {bytes : Bytes} (hF : Fits bytes) (off : Nat) (hoff : off ≤ bytes.length)
    (hno : ∀ j, j + S.marker.length ≤ off → ¬ MarkerAt S bytes j) (q : Nat)
    (hq1 : q * S.marker.length ≤ off) (hq2 : off < q * S.marker.length + S.marker.length) :
    (revNextW S bytes off).2 = ⟨q + 1, steps S.marker.length off (q + 1), 0⟩ := by
  have hF' := fits_le hF
  have hmp := S.marker_pos
  induction q generalizing off with
  | zero =>
    have hs := revSearchW_nothing hF hoff hno
    rw [revNextW_unfold (by rw [hs]) (by unfold usizeMax; omega), hs, if_neg (by omega)]
    simp only [Work.frame, steps, Nat.zero_add, Nat.add_zero]
  | succ q ih =>
    rw [Nat.add_mul, Nat.one_mul] at hq1 hq2
    have hs := revSearchW_nothing hF hoff hno
    rw [revNextW_unfold (by rw [hs]) (by unfold usizeMax; omega), hs, if_pos (by omega),
      ih (off - S.marker.length) (by omega) (fun j hj => hno j (by omega)) (by omega) (by omega)]
    simp only [Work.frame, Work.plus, steps]
    congr 1
    omega

theorem steps_full (m q : Nat) : 2 * steps m (q * m) q = m * (q * (q + 1)) := by
  induction q with
  | zero => simp [steps]
  | succ q ih =>
    rw [steps, show (q + 1) * m - m = q * m by rw [Nat.add_mul, Nat.one_mul]; omega, Nat.mul_add, ih]
    simp only [Nat.add_mul, Nat.mul_add, Nat.one_mul, Nat.mul_one]
    simp only [Nat.mul_comm, Nat.mul_left_comm]
    omega

theorem steps_zero (m q : Nat) : steps m (q * m) (q + 1) = steps m (q * m) q := by
  induction q with
  | zero => simp [steps]
  | succ q ih =>
    have h : (q + 1) * m - m = q * m := by rw [Nat.add_mul, Nat.one_mul]; omega
    show (q + 1) * m + steps m ((q + 1) * m - m) (q + 1) = (q + 1) * m + steps m ((q + 1) * m - m) q
    rw [h, ih]

/-- Draining `ReadFallbackIterator` over values of at least three markers' length. -/
theorem readFallback_drainW (L : Lawful S) {bytes : Bytes} (hF : Fits bytes) (hm : S.marker.length < 2 ^ 62)
    (hlen : ∀ i v, ReadableAt S bytes i v → 3 * S.marker.length ≤ S.len v) (off : Nat) (hoff : off ≤ bytes.length) :
    ∃ fuel items w, drainW (readFallbackNextW S bytes) fuel off = some (.ok items, w) ∧ w.frames ≤ 2 ∧
      w.reads ≤ items.length + 1 ∧ w.scanned ≤ bytes.length - off + 2 * S.marker.length := by
  have hF' := fits_le hF
  generalize hk : bytes.length - off = k
  induction k using Nat.strongRecOn generalizing off with
  | ind k ih =>
    obtain ⟨c1, c2, ⟨off', h1, h2⟩ | ⟨i, v, h1, h2, h3, h4⟩⟩ :=
      readFallbackNextW_cost L hF off (by unfold usizeMax; omega)
    · refine ⟨1, [], (readFallbackNextW S bytes off).2, ?_, c1, c2, by omega⟩
      rw [drainW, h1]
    · have hb := h3.bounds L
      have hl := hlen i v h3
      obtain ⟨fuel, items, w, g1, g2, g3, g4⟩ := ih (bytes.length - (i + S.len v)) (by omega) (i + S.len v) (by omega) rfl
      refine ⟨fuel + 1, (i, v) :: items, (readFallbackNextW S bytes off).2.after w, ?_, ?_, ?_, ?_⟩
      · rw [drainW, h1]; dsimp only; rw [g1]
      · exact Nat.max_le.2 ⟨c1, g2⟩
      · simp only [Work.after, List.length_cons]; omega
      · simp only [Work.after]; omega

end

/-! ## DLT -/

/-- **C96 (partial)** `dltit` is linear: draining the iterator over any file searches through at most as many bytes as the
file has, and eight more; it parses at most one header per message, and one more. -/
theorem C96_dltit_linear_partial (bytes : Bytes) (hF : Fits bytes) :
    ∃ items fuel w, Collects (dltitOffsetNext bytes) 0 items ∧
      drainW (readFallbackNextW dltStorage bytes) fuel 0 = some (.ok items, w) ∧
      w.scanned ≤ bytes.length + 8 ∧ w.reads ≤ items.length + 1 := by
  obtain ⟨fuel, items, w, h1, _, h3, h4⟩ := readFallback_drainW dlt_lawful hF (by decide)
    (fun i v hr => by
      have := (readableAt_iff_msgAt.1 hr).bounds
      have h2 : dltStorage.marker.length = 4 := rfl
      have h3 : dltStorage.len v = v.len := rfl
      omega) 0 (Nat.zero_le _)
  refine ⟨items, fuel, w, ⟨fuel, ?_⟩, h1, h4, h3⟩
  have he := drainW_erase (readFallbackNextW dltStorage bytes) fuel 0
  rw [h1] at he
  unfold dltitOffsetNext
  rw [show (fun o => (readFallbackNextW dltStorage bytes o).1) = readFallbackNext dltStorage bytes from
    funext fun o => readFallbackNextW_erase bytes o] at he
  rw [← he]; rfl

/-- **C97 (partial)** `dltit` needs two frames at most, in every call of `next`, on any file and from any offset. -/
theorem C97_dltit_two_frames_partial (bytes : Bytes) (hF : Fits bytes) (off : Nat) (hoff : off ≤ bytes.length) :
    (readFallbackNextW dltStorage bytes off).1 = dltitOffsetNext bytes off ∧
    (readFallbackNextW dltStorage bytes off).2.frames ≤ 2 :=
  ⟨readFallbackNextW_erase bytes off, (readFallbackNextW_cost dlt_lawful hF off
    (by have := fits_le hF; have : dltStorage.marker.length = 4 := rfl; unfold usizeMax; omega)).1⟩

/-- `n` zero bytes. -/
def zeroBytes (n : Nat) : Bytes := List.replicate n 0

theorem zeroBytes_length (n : Nat) : (zeroBytes n).length = n := List.length_replicate ..

theorem zeroBytes_nothing (n j : Nat) : ¬ MarkerAt dltStorage (zeroBytes n) j := by
  rintro ⟨r, hr⟩
  have h1 : (68 : UInt8) ∈ (zeroBytes n).drop j := by rw [← hr]; simp [dltStorage, StorageEntry.marker]
  have := List.eq_of_mem_replicate (List.mem_of_mem_drop h1)
  exact absurd this (by decide)

theorem zeroBytes_fits {n : Nat} (h : n < 2 ^ 63) : Fits (zeroBytes n) := by
  unfold Fits; rw [zeroBytes_length]; exact h

/-- **C96, C97 (violated)** `SearchIterator` on `4 * q` zero bytes: one call of `next` nests `q` calls and searches through
`2 * q * (q + 1)` bytes to return `None`. -/
theorem C96_search_zeros (q : Nat) (hq : 0 < q) (hf : 4 * q < 2 ^ 63) :
    (searchNextW dltStorage (zeroBytes (4 * q)) 0).1 = .ok (none, 4 * q) ∧
    (searchNextW dltStorage (zeroBytes (4 * q)) 0).2 = ⟨q, 2 * (q * (q + 1)), 0⟩ := by
  have hF := zeroBytes_fits hf
  have hl := zeroBytes_length (4 * q)
  have h4 : dltStorage.marker.length = 4 := rfl
  constructor
  · have hgo : ∀ k off, off + 4 * k = 4 * q → 0 < k → searchNext dltStorage (zeroBytes (4 * q)) off = .ok (none, 4 * q) := by
      intro k
      induction k with
      | zero => intro off _ h; omega
      | succ k ih =>
        intro off h _
        have hs := searchSearchW_nothing (S := dltStorage) (bytes := zeroBytes (4 * q)) (off := off) (by omega)
          (fun j _ => zeroBytes_nothing _ j)
        have hs' : searchSearch dltStorage (zeroBytes (4 * q)) off = .ok none := by
          rw [← searchSearchW_erase, hs]
        rw [searchNext_unfold hs' (off' := off + 4) (uadd_ok (by rw [h4]; unfold usizeMax; omega))]
        by_cases hk : k = 0
        · subst hk; rw [if_pos (by omega), show off + 4 = 4 * q by omega]
        · rw [if_neg (by omega)]; exact ih (off + 4) (by omega) (by omega)
    rw [searchNextW_erase]; exact hgo q 0 (by omega) hq
  · have h := searchNextW_nothing (S := dltStorage) (bytes := zeroBytes (4 * q)) hF (by decide) 0 (by omega)
      (fun j _ => zeroBytes_nothing _ j) q (by rw [h4]; omega) (by rw [h4]; omega)
    rw [h, hl, h4]
    have h2 := steps_full 4 q
    rw [Nat.mul_comm q 4] at h2
    congr 1
    show steps 4 (4 * q - 0) q = _
    rw [Nat.sub_zero]; omega

/-- **C96, C97 (violated)** `RevSearchIterator` from the end of `4 * q` zero bytes: `q + 1` nested calls, `2 * q * (q + 1)`
bytes. -/
theorem C96_rev_zeros (q : Nat) (hf : 4 * q < 2 ^ 63) :
    (revNextW dltStorage (zeroBytes (4 * q)) (4 * q)).1 = .ok (none, usizeMax) ∧
    (revNextW dltStorage (zeroBytes (4 * q)) (4 * q)).2 = ⟨q + 1, 2 * (q * (q + 1)), 0⟩ := by
  have hF := zeroBytes_fits hf
  have hl := zeroBytes_length (4 * q)
  have h4 : dltStorage.marker.length = 4 := rfl
  constructor
  · rcases revNextW_cost dlt_lawful hF (4 * q) (by omega) with h | ⟨i, v, _, _, h, _⟩
    · exact h.1
    · exact absurd (h.marker dlt_lawful) (zeroBytes_nothing _ _)
  · rw [revNextW_nothing hF (4 * q) (by omega) (fun j _ => zeroBytes_nothing _ j) q
      (by rw [h4]; omega) (by rw [h4]; omega), h4]
    have h2 := steps_full 4 q
    have h3 := steps_zero 4 q
    rw [Nat.mul_comm q 4] at h2 h3
    rw [h3]
    congr 1
    omega

theorem quadratic (c : Nat) : c * (4 * (2 * c + 1) + 1) < 2 * ((2 * c + 1) * (2 * c + 1 + 1)) := by
  have h1 : c * (4 * (2 * c + 1) + 1) = 8 * (c * c) + 5 * c := by
    rw [show 4 * (2 * c + 1) + 1 = 8 * c + 5 by omega, Nat.mul_add, Nat.mul_comm c 5, Nat.mul_left_comm]
  have h2 : (2 * c + 1) * (2 * c + 1 + 1) = 4 * (c * c) + 6 * c + 2 := by
    rw [show 2 * c + 1 + 1 = 2 * c + 2 by omega, Nat.add_mul, Nat.mul_add, Nat.mul_mul_mul_comm]
    omega
  omega

/-- **C96 (violated)** no constant factor bounds the bytes searched through by the length of the file: neither for
`SearchIterator` nor for `RevSearchIterator`. -/
theorem C96_search_not_linear (c : Nat) (hc : c < 2 ^ 59) : ∃ bytes, Fits bytes ∧
    c * (bytes.length + 1) < (searchNextW dltStorage bytes 0).2.scanned ∧
    c * (bytes.length + 1) < (revNextW dltStorage bytes bytes.length).2.scanned := by
  have hf : 4 * (2 * c + 1) < 2 ^ 63 := by omega
  refine ⟨zeroBytes (4 * (2 * c + 1)), zeroBytes_fits hf, ?_, ?_⟩
  · rw [(C96_search_zeros _ (by omega) hf).2, zeroBytes_length]
    exact quadratic c
  · rw [zeroBytes_length, (C96_rev_zeros _ hf).2]
    exact quadratic c

/-- **C97 (violated)** nor is there a bound for the nesting of the calls. -/
theorem C97_search_unbounded_stack (c : Nat) (hc : c < 2 ^ 59) : ∃ bytes, Fits bytes ∧
    c < (searchNextW dltStorage bytes 0).2.frames ∧ c < (revNextW dltStorage bytes bytes.length).2.frames := by
  have hf : 4 * (c + 1) < 2 ^ 63 := by omega
  refine ⟨zeroBytes (4 * (c + 1)), zeroBytes_fits hf, ?_, ?_⟩
  · rw [(C96_search_zeros _ (by omega) hf).2]; simp only; omega
  · rw [zeroBytes_length, (C96_rev_zeros _ hf).2]; simp only; omega

/-- **C96, C97 (partial)** how much it can be: the calls nest at most once per four bytes between the offset and the message
found (or the end of the file), and none of them searches beyond it. -/
theorem C96_search_bound_partial (bytes : Bytes) (hF : Fits bytes) (off : Nat) (hoff : off ≤ bytes.length) :
    (searchNextW dltStorage bytes off).1 = searchNext dltStorage bytes off ∧
    ((∃ off', searchNext dltStorage bytes off = .ok (none, off') ∧
      (searchNextW dltStorage bytes off).2.frames ≤ (bytes.length - off) / 4 + 1 ∧
      (searchNextW dltStorage bytes off).2.scanned ≤ ((bytes.length - off) / 4 + 1) * (bytes.length - off)) ∨
    (∃ i e, searchNext dltStorage bytes off = .ok (some (i, e), i + e.len) ∧ off ≤ i ∧ MsgAt bytes i e ∧
      (searchNextW dltStorage bytes off).2.frames ≤ (i - off) / 4 + 1 ∧
      (searchNextW dltStorage bytes off).2.scanned ≤ ((i - off) / 4 + 1) * (i - off + 4))) := by
  have h4 : dltStorage.marker.length = 4 := rfl
  have hF' := fits_le hF
  refine ⟨searchNextW_erase bytes off, ?_⟩
  rcases searchNextW_cost dlt_lawful hF (by decide) off (by rw [h4]; unfold usizeMax; omega) with
    ⟨off', h1, h2, _, h3⟩ | ⟨i, v, h1, h2, h3, h5, _, h6⟩
  · left
    rw [searchNextW_erase] at h1
    rw [h4] at h2
    have hq : (searchNextW dltStorage bytes off).2.frames ≤ (bytes.length - off) / 4 + 1 := by omega
    exact ⟨off', h1, hq, Nat.le_trans h3 (Nat.mul_le_mul_right _ hq)⟩
  · right
    rw [searchNextW_erase] at h1
    rw [h4] at h5 h6
    have hq : (searchNextW dltStorage bytes off).2.frames ≤ (i - off) / 4 + 1 := by omega
    exact ⟨i, v, h1, h2, readableAt_iff_msgAt.1 h3, hq, Nat.le_trans h6 (Nat.mul_le_mul_right _ hq)⟩

/-- **C96, C97 (partial)** the same backwards. -/
theorem C96_rev_bound_partial (bytes : Bytes) (hF : Fits bytes) (off : Nat) (hoff : off ≤ bytes.length) :
    (revNextW dltStorage bytes off).1 = revNext dltStorage bytes off ∧
    ((revNext dltStorage bytes off = .ok (none, usizeMax) ∧
      (revNextW dltStorage bytes off).2.frames ≤ off / 4 + 1 ∧
      (revNextW dltStorage bytes off).2.scanned ≤ (off / 4 + 1) * off) ∨
    (∃ i e, revNext dltStorage bytes off = .ok (some (i, e), i) ∧ i < off ∧ MsgAt bytes i e ∧
      (revNextW dltStorage bytes off).2.frames ≤ (off - i) / 4 ∧
      (revNextW dltStorage bytes off).2.scanned ≤ (off - i) / 4 * (off - i))) := by
  have h4 : dltStorage.marker.length = 4 := rfl
  refine ⟨revNextW_erase bytes off, ?_⟩
  rcases revNextW_cost dlt_lawful hF off hoff with ⟨h1, h2, _, h3⟩ | ⟨i, v, h1, h2, h3, h5, _, h6⟩
  · left
    rw [revNextW_erase] at h1
    rw [h4] at h2
    have hq : (revNextW dltStorage bytes off).2.frames ≤ off / 4 + 1 := by omega
    exact ⟨h1, hq, Nat.le_trans h3 (Nat.mul_le_mul_right _ hq)⟩
  · right
    rw [revNextW_erase] at h1
    rw [h4] at h2 h5
    have hq : (revNextW dltStorage bytes off).2.frames ≤ (off - i) / 4 := by omega
    exact ⟨i, v, h1, by omega, readableAt_iff_msgAt.1 h3, hq, Nat.le_trans h6 (Nat.mul_le_mul_right _ hq)⟩

/-- **C96, C97 (partial)** on a log without gaps `SearchIterator` does not search at all: one frame, the four bytes of each
marker, and one parsed header per message. -/
theorem C96_search_packed_partial (es : List StorageEntry) (hw : ∀ e ∈ es, WF e) (hF : Fits (packed es)) :
    ∃ w, drainW (searchNextW dltStorage (packed es)) (es.length + 1) 0 = some (.ok (packedAt 0 es), w) ∧
      w.frames = 1 ∧ w.scanned = 4 * es.length ∧ w.reads = es.length := by
  have h4 : dltStorage.marker.length = 4 := rfl
  have key : ∀ (es : List StorageEntry) (pre : Bytes), (∀ e ∈ es, WF e) → Fits (pre ++ packed es) →
      ∃ w, drainW (searchNextW dltStorage (pre ++ packed es)) (es.length + 1) pre.length =
        some (.ok (packedAt pre.length es), w) ∧ w.frames = 1 ∧ w.scanned = 4 * es.length ∧ w.reads = es.length := by
    intro es
    induction es with
    | nil =>
      intro pre _ hF
      have hF' := fits_le hF
      have hl : (pre ++ packed []).length = pre.length := by simp [packed]
      have hs : searchSearchW dltStorage (pre ++ packed []) pre.length = (.ok none, Work.zero) := by
        unfold searchSearchW; rw [if_pos (by omega)]
      have hn : searchNextW dltStorage (pre ++ packed []) pre.length = (.ok (none, pre.length + 4), Work.zero.frame) := by
        rw [searchNextW_unfold (off' := pre.length + 4) (by rw [hs]) (uadd_ok (by rw [h4]; unfold usizeMax; omega)),
          if_pos (by omega), hs]
      exact ⟨Work.zero.frame, by rw [List.length_nil, drainW, hn]; rfl, rfl, rfl, rfl⟩
    | cons e es ih =>
      intro pre hw hF
      have hF' := fits_le hF
      have happ : pre ++ packed (e :: es) = (pre ++ encode e) ++ packed es := by
        simp [packed, List.append_assoc]
      have hmsg : MsgAt (pre ++ packed (e :: es)) pre.length e :=
        ⟨hw e (List.mem_cons_self ..), pre, packed es, by rw [happ], rfl⟩
      have hr := readableAt_iff_msgAt.2 hmsg
      have hb := hmsg.bounds
      have hel := encode_len e (hw e (List.mem_cons_self ..))
      obtain ⟨w, g1, g2, g3, g4⟩ := ih (pre ++ encode e) (fun x hx => hw x (List.mem_cons_of_mem _ hx)) (by rw [← happ]; exact hF)
      rw [← happ, List.length_append] at g1
      have hs : ∃ u, searchNextW dltStorage (pre ++ packed (e :: es)) pre.length =
          (.ok (some (pre.length, e), pre.length + (encode e).length), u) ∧ u.frames = 1 ∧ u.scanned = 4 ∧ u.reads = 1 := by
        rcases searchSearch_spec dlt_lawful.toReads hF pre.length with ⟨i, v, h1, h2, h3⟩ | ⟨_, h2⟩
        · have hi : i = pre.length := h2.unique ⟨Nat.le_refl _, hr.marker dlt_lawful, fun j _ _ => by omega⟩
          subst hi
          have hv := h3.unique dlt_lawful hr
          subst hv
          rw [← searchSearchW_erase] at h1
          have hc := searchSearchW_cost (S := dltStorage) (pre ++ packed (v :: es)) pre.length
          have hsc := (searchSearchW_found h1).2
          rw [Nat.sub_self, h4] at hsc
          refine ⟨(searchSearchW dltStorage (pre ++ packed (v :: es)) pre.length).2.frame, ?_, ?_, ?_, searchSearchW_found_reads h1⟩
          · rw [searchNextW_found h1 (off' := pre.length + (encode v).length)]
            show uadd pre.length v.len = _
            rw [← hel, uadd_ok (by unfold usizeMax; omega)]
          · simp only [Work.frame]; omega
          · simp only [Work.frame]; omega
        · rcases h2 with h2 | ⟨i, h2, h3⟩
          · exact absurd (hr.marker dlt_lawful) (h2 _ (Nat.le_refl _))
          · have hi : i = pre.length := h2.unique ⟨Nat.le_refl _, hr.marker dlt_lawful, fun j _ _ => by omega⟩
            subst hi
            exact absurd hr (h3 e)
      obtain ⟨u, hu, u1, u2, u3⟩ := hs
      refine ⟨u.after w, ?_, ?_, ?_, ?_⟩
      · rw [List.length_cons, drainW, hu]
        dsimp only
        rw [g1]
        rfl
      · simp only [Work.after]; omega
      · simp only [Work.after, List.length_cons]; omega
      · simp only [Work.after, List.length_cons]; omega
  exact key es [] hw hF

/-- **C96 (violated)** `GrepIterator` on `n` letters x, which hold no message: to find that no message holds an `x`, it
searches backwards through the file again for each letter, through `n * (n - 1) / 2` bytes in all. -/
theorem C96_grep_quadratic (n : Nat) (hn : n < 2 ^ 63) (h0 : 0 < n) :
    ∃ w, grepStackW dltStorage (literal [120]) (xs n) n 0 = some (.ok none, w) ∧
      w.frames = n ∧ 2 * w.scanned = n * (n - 1) ∧ w.reads = 0 := by
  have hF : Fits (xs n) := by unfold Fits xs; rw [List.length_replicate]; exact hn
  have hl : (xs n).length = n := by unfold xs; rw [List.length_replicate]
  have hmk : ∀ j, ¬ MarkerAt dltStorage (xs n) j := by
    rintro j ⟨r, hr⟩
    have h1 : (68 : UInt8) ∈ (xs n).drop j := by rw [← hr]; simp [dltStorage, StorageEntry.marker]
    have h2 := List.mem_of_mem_drop h1
    unfold xs at h2
    have := List.eq_of_mem_replicate h2
    exact absurd this (by decide)
  have key : ∀ k off, off + k = n → 0 < k → ∃ w, grepStackW dltStorage (literal [120]) (xs n) k off = some (.ok none, w) ∧
      w.frames = k ∧ 2 * w.scanned + off * (off - 1) = n * (n - 1) ∧ w.reads = 0 := by
    intro k
    induction k with
    | zero => intro off _ h; omega
    | succ k ih =>
      intro off h _
      have hfa : (literal [120]).findAt (xs n) off = some (off, off + 1) := by
        unfold Regex.findAt Regex.capturesAt
        rw [show (xs n).length + 1 - off = (n - off) + 1 by omega, List.range'_succ, List.findSome?_cons,
          xs_matchAt n off (by omega)]
        rfl
      have hs := revSearchW_nothing (S := dltStorage) (bytes := xs n) (off := off) hF (by omega) (fun j _ => hmk j)
      rw [grepStackW, if_neg (by omega), hfa]
      dsimp only
      rw [hs]
      dsimp only
      have harith : (off + 1) * off = 2 * off + off * (off - 1) := by
        cases off with
        | zero => rfl
        | succ m => rw [Nat.add_sub_cancel, Nat.mul_comm (m + 1) m, ← Nat.add_mul]; congr 1; omega
      by_cases hk : k = 0
      · subst hk
        rw [if_pos (by omega)]
        refine ⟨_, rfl, rfl, ?_, rfl⟩
        simp only [Work.frame]
        rw [← harith, ← h, Nat.add_sub_cancel]
      · rw [if_neg (by omega)]
        obtain ⟨w, g1, g2, g3, g4⟩ := ih (off + 1) (by omega) (by omega)
        rw [g1]
        refine ⟨_, rfl, ?_, ?_, ?_⟩
        · simp only [Work.frame, Work.plus]; omega
        · rw [Nat.add_sub_cancel] at g3
          simp only [Work.frame, Work.plus]; omega
        · simp only [Work.frame, Work.plus]; omega
  obtain ⟨w, h1, h2, h3, h4⟩ := key n 0 (by omega) h0
  exact ⟨w, h1, h2, by omega, h4⟩

/-- A megabyte of zero bytes nests 262144 calls and searches through 137 gigabytes. -/
example : (searchNextW dltStorage (zeroBytes (4 * 262144)) 0).2 = ⟨262144, 2 * (262144 * 262145), 0⟩ :=
  (C96_search_zeros 262144 (by decide) (by decide)).2

/-- The same file with `dltit`: one search. -/
example : readFallbackNextW dltStorage (zeroBytes 8) 0 = (.ok (none, 0), ⟨1, 12, 0⟩) := by decide +kernel

example : ∃ w, drainW (searchNextW dltStorage (packed [msg1, msgNested, msg0])) 4 0 =
    some (.ok (packedAt 0 [msg1, msgNested, msg0]), w) ∧ w.frames = 1 ∧ w.scanned = 12 ∧ w.reads = 3 :=
  C96_search_packed_partial [msg1, msgNested, msg0] (by decide) (by decide)

/-- A file whose last message is cut off: the marker is found, then the rest is searched every four bytes. -/
example : searchNextW dltStorage ((encode msg1).take 20) 0 = (.ok (none, 20), ⟨5, 44, 1⟩) := by decide +kernel

end Verif
