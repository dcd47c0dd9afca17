import Verif.Lemmas.Grep

/-! # Lemmas about `RegExMatcherIterator` -/

set_option linter.unusedSimpArgs false

namespace Verif
open Spec

section
variable {T : Type} {S : SearchableMarker T}


/-! ## `RegExMatcherIterator` -/

/-- Why and how `capture` goes on, written for an arbitrary continuation `f`. -/
def regexBody (S : SearchableMarker T) (re : Regex) (bytes : Bytes)
    (f : Nat → Option (Res (Option (Nat × (Nat × Nat))))) (offset : Nat) : Option (Res (Option (Nat × (Nat × Nat)))) :=
  if offset ≥ bytes.length then some (.ok none)
  else
    match re.capturesAt bytes offset with
    | none => some (.ok none)
    | some (start, stop, group) =>
      match revSearch S bytes start with
      | .panic => some .panic
      | .ok (some (off, val)) =>
        match uadd off (S.len val) with
        | .panic => some .panic
        | .ok e =>
          if off < start ∧ e < stop then f stop
          else
            match group with
            | some g => some (.ok (some (off, g)))
            | none => some (.ok none)
      | .ok none =>
        if stop ≥ bytes.length then some (.ok none)
        else f stop

theorem regexCapture_unfold (re : Regex) (bytes : Bytes) (off : Nat) :
    regexCapture S re bytes off = regexBody S re bytes (regexCapture S re bytes) off := by
  rw [regexCapture]; rfl

theorem regexBody_cases (L : Lawful S) {re : Regex} {bytes : Bytes} (hF : Fits bytes)
    (f : Nat → Option (Res (Option (Nat × (Nat × Nat))))) (off : Nat) :
    (bytes.length ≤ off ∨ ∀ s, off ≤ s → re.matchAt bytes s = none) ∧ regexBody S re bytes f off = some (.ok none) ∨
    (off < bytes.length ∧ ∃ s e g, re.matchAt bytes s = some (e, g) ∧ off ≤ s ∧ s ≤ e ∧ e ≤ bytes.length ∧
      (∀ j, off ≤ j → j < s → re.matchAt bytes j = none) ∧
      ((∃ i v, ReadableAt S bytes i v ∧ LastMarker S bytes s i ∧
          ((i + S.len v < e ∧ regexBody S re bytes f off = f e) ∨
           (e ≤ i + S.len v ∧ regexBody S re bytes f off = some (.ok (g.map fun r => (i, r)))))) ∨
       ((∀ i v, LastMarker S bytes s i → ¬ ReadableAt S bytes i v) ∧
          ((bytes.length ≤ e ∧ regexBody S re bytes f off = some (.ok none)) ∨
           (e < bytes.length ∧ regexBody S re bytes f off = f e))))) := by
  have hl := fits_le hF
  have hmp := S.marker_pos
  unfold regexBody
  by_cases h0 : off ≥ bytes.length
  · left; rw [if_pos h0]; exact ⟨Or.inl h0, rfl⟩
  · rw [if_neg h0]
    cases hc : re.capturesAt bytes off with
    | none =>
      left
      exact ⟨Or.inr (Regex.capturesAt_none hc), rfl⟩
    | some m =>
      right
      obtain ⟨s, e, g⟩ := m
      obtain ⟨h1, h2, h3, h4, h5⟩ := Regex.capturesAt_some hc
      refine ⟨by omega, s, e, g, h4, h1, h2, h3, h5, ?_⟩
      rcases revSearch_spec L.toReads s hF (by omega) with ⟨i, v, hr, h6, h7, h8⟩ | ⟨hr, hno⟩
      · left
        have hb := h7.bounds L
        refine ⟨i, v, h7, ⟨h6, h7.marker L, h8⟩, ?_⟩
        simp only [hr, uadd_ok (show i + S.len v ≤ usizeMax by unfold usizeMax; omega)]
        by_cases he : i + S.len v < e
        · left; exact ⟨he, by rw [if_pos ⟨by omega, he⟩]⟩
        · right; refine ⟨by omega, ?_⟩
          rw [if_neg (by omega)]; cases g <;> rfl
      · right
        constructor
        · intro i v hlm hrd
          rcases hno with hno | ⟨i', h6, h7, h8, h9⟩
          · exact hno i hlm.1 hlm.2.1
          · have : i = i' := by
              rcases Nat.lt_trichotomy i i' with h | h | h
              · exact absurd h7 (hlm.2.2 i' h h6)
              · exact h
              · exact absurd hlm.2.1 (h9 i h hlm.1)
            subst this
            exact h8 v hrd
        · simp only [hr]
          by_cases he : e ≥ bytes.length
          · left; exact ⟨he, by rw [if_pos he]⟩
          · right; exact ⟨by omega, by rw [if_neg he]⟩


/-- What a returned capture is. -/
theorem regexCapture_sound (L : Lawful S) {re : Regex} {bytes : Bytes} (hF : Fits bytes) (off : Nat)
    (r : Res (Option (Nat × (Nat × Nat)))) (h : regexCapture S re bytes off = some r) :
    ∃ o, r = .ok o ∧ ∀ i p, o = some (i, p) → ∃ v, ReadableAt S bytes i v ∧
      ∃ s e, re.matchAt bytes s = some (e, some p) ∧ off ≤ s ∧ LastMarker S bytes s i ∧ e ≤ i + S.len v := by
  refine regexCapture.partial_correctness S re bytes (fun off r => ∃ o, r = .ok o ∧ ∀ i p, o = some (i, p) →
    ∃ v, ReadableAt S bytes i v ∧ ∃ s e, re.matchAt bytes s = some (e, some p) ∧ off ≤ s ∧
      LastMarker S bytes s i ∧ e ≤ i + S.len v) ?_ off r h
  intro f ih off r hr
  have hr' : regexBody S re bytes f off = some r := hr
  rcases regexBody_cases L (re := re) hF f off with ⟨_, h⟩ | ⟨_, s, e, g, hm, h1, h2, h3, _, hc⟩
  · rw [h] at hr'; cases hr'; exact ⟨none, rfl, by simp⟩
  · have back : ∀ r, f e = some r → ∃ o, r = .ok o ∧ ∀ i p, o = some (i, p) → ∃ v, ReadableAt S bytes i v ∧
        ∃ s e, re.matchAt bytes s = some (e, some p) ∧ off ≤ s ∧ LastMarker S bytes s i ∧ e ≤ i + S.len v := by
      intro r hf
      obtain ⟨o, ho, hi⟩ := ih e r hf
      refine ⟨o, ho, fun i p hiv => ?_⟩
      obtain ⟨v, h4, s', e', h5, h6, h7, h8⟩ := hi i p hiv
      exact ⟨v, h4, s', e', h5, by omega, h7, h8⟩
    rcases hc with ⟨i, v, hrd, hlm, ⟨_, h⟩ | ⟨he, h⟩⟩ | ⟨_, ⟨_, h⟩ | ⟨_, h⟩⟩
    · rw [h] at hr'; exact back r hr'
    · rw [h] at hr'; cases hr'
      refine ⟨_, rfl, fun i' p hiv => ?_⟩
      cases g with
      | none => simp at hiv
      | some q =>
        simp only [Option.map_some, Option.some.injEq, Prod.mk.injEq] at hiv
        obtain ⟨rfl, rfl⟩ := hiv
        exact ⟨v, hrd, s, e, hm, h1, hlm, he⟩
    · rw [h] at hr'; cases hr'; exact ⟨none, rfl, by simp⟩
    · rw [h] at hr'; exact back r hr'

theorem regexCapture_terminates (L : Lawful S) {re : Regex} {bytes : Bytes} (hF : Fits bytes)
    (hne : NonEmptyMatches re bytes) (off : Nat) : ∃ r, regexCapture S re bytes off = some r := by
  generalize hk : bytes.length - off = k
  induction k using Nat.strongRecOn generalizing off with
  | ind k ih =>
    rw [regexCapture_unfold]
    rcases regexBody_cases L (re := re) hF (regexCapture S re bytes) off with ⟨_, h⟩ | ⟨h0, s, e, g, hm, h1, h2, h3, _, hc⟩
    · exact ⟨_, h⟩
    · have := hne s e g hm
      have hrec := ih (bytes.length - e) (by omega) e rfl
      rcases hc with ⟨i, v, hrd, hlm, ⟨_, h⟩ | ⟨he, h⟩⟩ | ⟨_, ⟨_, h⟩ | ⟨_, h⟩⟩
      · rw [h]; exact hrec
      · exact ⟨_, h⟩
      · exact ⟨_, h⟩
      · rw [h]; exact hrec

theorem regexNext_cases (L : Lawful S) {re : Regex} {bytes : Bytes} (hF : Fits bytes) (off : Nat) :
    (regexCapture S re bytes off = none ∧ regexNext S re bytes off = none) ∨
    (regexCapture S re bytes off = some (.ok none) ∧ regexNext S re bytes off = some (.ok (none, off))) ∨
    ∃ i a b, regexCapture S re bytes off = some (.ok (some (i, (a, b)))) ∧
      regexNext S re bytes off = some (.ok (some (i, (a, b)), i + b)) := by
  have hl := fits_le hF
  unfold regexNext
  cases hs : regexCapture S re bytes off with
  | none => left; exact ⟨rfl, rfl⟩
  | some r =>
    obtain ⟨o, rfl, ho⟩ := regexCapture_sound L hF off r hs
    cases o with
    | none => right; left; exact ⟨rfl, rfl⟩
    | some x =>
      obtain ⟨i, a, b⟩ := x
      obtain ⟨v, h1, s, e, h2, _, h3, h4⟩ := ho i (a, b) rfl
      have hb := h1.bounds L
      have hlw := (re.law _ _ _ _ h2)
      have hg := hlw.2.2 a b rfl
      have hF' : bytes.length < 2 ^ 63 := hF
      right; right
      refine ⟨i, a, b, rfl, ?_⟩
      simp only [uadd_ok (show i + b ≤ usizeMax by unfold usizeMax; omega)]

/-! ## Computing single steps -/

/-- a hit -/
theorem grepSearch_hit (L : Lawful S) {re : Regex} {bytes : Bytes} (hF : Fits bytes) {off s e i : Nat} {g v}
    (h0 : off < bytes.length) (hm : re.matchAt bytes s = some (e, g)) (hle : off ≤ s)
    (hno : ∀ j, off ≤ j → j < s → re.matchAt bytes j = none) (hlm : LastMarker S bytes s i)
    (hr : ReadableAt S bytes i v) (hin : e ≤ i + S.len v) :
    grepSearch S re bytes off = some (.ok (some (i, v))) := by
  rw [grepSearch_unfold]
  rcases grepBody_cases L (re := re) hF (grepSearch S re bytes) off with ⟨h, _⟩ | ⟨_, s', e', g', hm', h1, h2, h3, h4, hc⟩
  · rcases h with h | h
    · omega
    · rw [h s hle] at hm; simp at hm
  · have hss : s' = s := by
      rcases Nat.lt_trichotomy s' s with h | h | h
      · rw [hno s' h1 h] at hm'; simp at hm'
      · exact h
      · rw [h4 s hle h] at hm; simp at hm
    subst hss
    rw [hm] at hm'
    simp only [Option.some.injEq, Prod.mk.injEq] at hm'
    obtain ⟨rfl, rfl⟩ := hm'
    rcases hc with ⟨i', v', hrd, hlm', hc⟩ | ⟨hno', _⟩
    · have hii : i' = i := by
        rcases Nat.lt_trichotomy i' i with h | h | h
        · exact absurd hlm.2.1 (hlm'.2.2 i h hlm.1)
        · exact h
        · exact absurd hlm'.2.1 (hlm.2.2 i' h hlm'.1)
      subst hii
      have := hrd.unique L hr
      subst this
      rcases hc with ⟨h, _⟩ | ⟨_, h⟩
      · omega
      · exact h
    · exact absurd hr (hno' i v hlm)

/-- a match reaching beyond the message it starts in is skipped -/
theorem grepSearch_skip (L : Lawful S) {re : Regex} {bytes : Bytes} (hF : Fits bytes) {off s e i : Nat} {g v}
    (h0 : off < bytes.length) (hm : re.matchAt bytes s = some (e, g)) (hle : off ≤ s)
    (hno : ∀ j, off ≤ j → j < s → re.matchAt bytes j = none) (hlm : LastMarker S bytes s i)
    (hr : ReadableAt S bytes i v) (hin : i + S.len v < e) :
    grepSearch S re bytes off = grepSearch S re bytes e := by
  rw [grepSearch_unfold]
  rcases grepBody_cases L (re := re) hF (grepSearch S re bytes) off with ⟨h, _⟩ | ⟨_, s', e', g', hm', h1, h2, h3, h4, hc⟩
  · rcases h with h | h
    · omega
    · rw [h s hle] at hm; simp at hm
  · have hss : s' = s := by
      rcases Nat.lt_trichotomy s' s with h | h | h
      · rw [hno s' h1 h] at hm'; simp at hm'
      · exact h
      · rw [h4 s hle h] at hm; simp at hm
    subst hss
    rw [hm] at hm'
    simp only [Option.some.injEq, Prod.mk.injEq] at hm'
    obtain ⟨rfl, rfl⟩ := hm'
    rcases hc with ⟨i', v', hrd, hlm', hc⟩ | ⟨hno', _⟩
    · have hii : i' = i := by
        rcases Nat.lt_trichotomy i' i with h | h | h
        · exact absurd hlm.2.1 (hlm'.2.2 i h hlm.1)
        · exact h
        · exact absurd hlm'.2.1 (hlm.2.2 i' h hlm'.1)
      subst hii
      have := hrd.unique L hr
      subst this
      rcases hc with ⟨_, h⟩ | ⟨h, _⟩
      · exact h
      · omega
    · exact absurd hr (hno' i v hlm)

/-- no match left -/
theorem grepSearch_end {re : Regex} {bytes : Bytes} {off : Nat} (h : bytes.length ≤ off) :
    grepSearch S re bytes off = some (.ok none) := by
  rw [grepSearch_unfold]; unfold grepBody; rw [if_pos h]

/-- a capture -/
theorem regexCapture_hit (L : Lawful S) {re : Regex} {bytes : Bytes} (hF : Fits bytes) {off s e i : Nat} {g v}
    (h0 : off < bytes.length) (hm : re.matchAt bytes s = some (e, g)) (hle : off ≤ s)
    (hno : ∀ j, off ≤ j → j < s → re.matchAt bytes j = none) (hlm : LastMarker S bytes s i)
    (hr : ReadableAt S bytes i v) (hin : e ≤ i + S.len v) :
    regexCapture S re bytes off = some (.ok (g.map fun r => (i, r))) := by
  rw [regexCapture_unfold]
  rcases regexBody_cases L (re := re) hF (regexCapture S re bytes) off with ⟨h, _⟩ | ⟨_, s', e', g', hm', h1, h2, h3, h4, hc⟩
  · rcases h with h | h
    · omega
    · rw [h s hle] at hm; simp at hm
  · have hss : s' = s := by
      rcases Nat.lt_trichotomy s' s with h | h | h
      · rw [hno s' h1 h] at hm'; simp at hm'
      · exact h
      · rw [h4 s hle h] at hm; simp at hm
    subst hss
    rw [hm] at hm'
    simp only [Option.some.injEq, Prod.mk.injEq] at hm'
    obtain ⟨rfl, rfl⟩ := hm'
    rcases hc with ⟨i', v', hrd, hlm', hc⟩ | ⟨hno', _⟩
    · have hii : i' = i := by
        rcases Nat.lt_trichotomy i' i with h | h | h
        · exact absurd hlm.2.1 (hlm'.2.2 i h hlm.1)
        · exact h
        · exact absurd hlm'.2.1 (hlm.2.2 i' h hlm'.1)
      subst hii
      have := hrd.unique L hr
      subst this
      rcases hc with ⟨h, _⟩ | ⟨_, h⟩
      · omega
      · exact h
    · exact absurd hr (hno' i v hlm)

/-- no match left -/
theorem regexCapture_end (L : Lawful S) {re : Regex} {bytes : Bytes} (hF : Fits bytes) {off : Nat}
    (h : ∀ s, off ≤ s → re.matchAt bytes s = none) :
    regexCapture S re bytes off = some (.ok none) := by
  rw [regexCapture_unfold]
  rcases regexBody_cases L (re := re) hF (regexCapture S re bytes) off with ⟨_, h'⟩ | ⟨_, s', e', g', hm', h1, _⟩
  · exact h'
  · rw [h s' h1] at hm'; simp at hm'

end

end Verif
