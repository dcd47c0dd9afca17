import Verif.Model.AnyMarkerGrep
import Verif.Spec.AnyMarker
import Verif.Props.AnyMarker
import Verif.Props.ContainExact
import Verif.Props.GrepExact

/-! # C139: searching for patterns and cutting into slices for message types with an empty marker -/

set_option linter.unusedSimpArgs false
set_option linter.unusedVariables false

namespace Verif

open Spec

/-! ## Other markers -/

section
variable {T : Type} (S : SearchableMarker T)

theorem grepSearchM_eq (re : Regex) (bytes : Bytes) (off : Nat) : grepSearchM S.any re bytes off = grepSearch S re bytes off := by
  have h1 : ∀ off r, grepSearchM S.any re bytes off = some r → grepSearch S re bytes off = some r := by
    apply grepSearchM.partial_correctness S.any re bytes (fun off r => grepSearch S re bytes off = some r)
    intro f ih off r hr
    rw [grepSearch]
    simp only [any_revSearch, any_len] at hr
    split
    · next h => rw [if_pos h] at hr; exact hr
    · next h =>
      rw [if_neg h] at hr
      split
      · next h' => rw [h'] at hr; exact hr
      · next s e h' =>
        rw [h'] at hr
        simp only at hr
        split
        · next h'' => rw [h''] at hr; exact hr
        · next o v h'' =>
          rw [h''] at hr
          simp only at hr
          split
          · next h3 => rw [h3] at hr; exact hr
          · next k h3 =>
            rw [h3] at hr
            simp only at hr
            split
            · next h4 => rw [if_pos h4] at hr; exact ih _ _ hr
            · next h4 => rw [if_neg h4] at hr; exact hr
        · next h'' =>
          rw [h''] at hr
          simp only at hr
          split
          · next h4 => rw [if_pos h4] at hr; exact hr
          · next h4 => rw [if_neg h4] at hr; exact ih _ _ hr
  have h2 : ∀ off r, grepSearch S re bytes off = some r → grepSearchM S.any re bytes off = some r := by
    apply grepSearch.partial_correctness S re bytes (fun off r => grepSearchM S.any re bytes off = some r)
    intro f ih off r hr
    rw [grepSearchM]
    simp only [any_revSearch, any_len]
    split
    · next h => rw [if_pos h] at hr; exact hr
    · next h =>
      rw [if_neg h] at hr
      split
      · next h' => rw [h'] at hr; exact hr
      · next s e h' =>
        rw [h'] at hr
        simp only at hr
        split
        · next h'' => rw [h''] at hr; exact hr
        · next o v h'' =>
          rw [h''] at hr
          simp only at hr
          split
          · next h3 => rw [h3] at hr; exact hr
          · next k h3 =>
            rw [h3] at hr
            simp only at hr
            split
            · next h4 => rw [if_pos h4] at hr; exact ih _ _ hr
            · next h4 => rw [if_neg h4] at hr; exact hr
        · next h'' =>
          rw [h''] at hr
          simp only at hr
          split
          · next h4 => rw [if_pos h4] at hr; exact hr
          · next h4 => rw [if_neg h4] at hr; exact ih _ _ hr
  rcases h : grepSearch S re bytes off with _ | r
  · rcases h' : grepSearchM S.any re bytes off with _ | r
    · rfl
    · rw [h1 _ _ h'] at h; cases h
  · exact h2 _ _ h

theorem regexCaptureM_eq (re : Regex) (bytes : Bytes) (off : Nat) : regexCaptureM S.any re bytes off = regexCapture S re bytes off := by
  have h1 : ∀ off r, regexCaptureM S.any re bytes off = some r → regexCapture S re bytes off = some r := by
    apply regexCaptureM.partial_correctness S.any re bytes (fun off r => regexCapture S re bytes off = some r)
    intro f ih off r hr
    rw [regexCapture]
    simp only [any_revSearch, any_len] at hr
    split
    · next h => rw [if_pos h] at hr; exact hr
    · next h =>
      rw [if_neg h] at hr
      split
      · next h' => rw [h'] at hr; exact hr
      · next s e g h' =>
        rw [h'] at hr
        simp only at hr
        split
        · next h'' => rw [h''] at hr; exact hr
        · next o v h'' =>
          rw [h''] at hr
          simp only at hr
          split
          · next h3 => rw [h3] at hr; exact hr
          · next k h3 =>
            rw [h3] at hr
            simp only at hr
            split
            · next h4 => rw [if_pos h4] at hr; exact ih _ _ hr
            · next h4 => rw [if_neg h4] at hr; exact hr
        · next h'' =>
          rw [h''] at hr
          simp only at hr
          split
          · next h4 => rw [if_pos h4] at hr; exact hr
          · next h4 => rw [if_neg h4] at hr; exact ih _ _ hr
  have h2 : ∀ off r, regexCapture S re bytes off = some r → regexCaptureM S.any re bytes off = some r := by
    apply regexCapture.partial_correctness S re bytes (fun off r => regexCaptureM S.any re bytes off = some r)
    intro f ih off r hr
    rw [regexCaptureM]
    simp only [any_revSearch, any_len]
    split
    · next h => rw [if_pos h] at hr; exact hr
    · next h =>
      rw [if_neg h] at hr
      split
      · next h' => rw [h'] at hr; exact hr
      · next s e g h' =>
        rw [h'] at hr
        simp only at hr
        split
        · next h'' => rw [h''] at hr; exact hr
        · next o v h'' =>
          rw [h''] at hr
          simp only at hr
          split
          · next h3 => rw [h3] at hr; exact hr
          · next k h3 =>
            rw [h3] at hr
            simp only at hr
            split
            · next h4 => rw [if_pos h4] at hr; exact ih _ _ hr
            · next h4 => rw [if_neg h4] at hr; exact hr
        · next h'' =>
          rw [h''] at hr
          simp only at hr
          split
          · next h4 => rw [if_pos h4] at hr; exact hr
          · next h4 => rw [if_neg h4] at hr; exact ih _ _ hr
  rcases h : regexCapture S re bytes off with _ | r
  · rcases h' : regexCaptureM S.any re bytes off with _ | r
    · rfl
    · rw [h1 _ _ h'] at h; cases h
  · exact h2 _ _ h

theorem partitionLoopM_eq (bytes : Bytes) (size c0 c1 : Nat) : partitionLoopM S.any bytes size c0 c1 = partitionLoop S bytes size c0 c1 := by
  generalize hk : bytes.length - c0 = k
  induction k using Nat.strongRecOn generalizing c0 c1 with
  | ind k ih =>
    rw [partitionLoopM, partitionLoop, (containedByM_eq S bytes c1).1]
    by_cases h : c0 > bytes.length ∨ c1 > bytes.length
    · rw [if_pos h, if_pos h]
    · rw [if_neg h, if_neg h]
      rcases containedBy S bytes c1 (c1 + 1) with r | _
      · simp only
        have key : ∀ c, (if h0 : c0 ≥ c then Res.ok [] else if h1 : c + size / 4 ≥ bytes.length then
              match sliceFrom bytes c0 with | .panic => .panic | .ok _ => .ok [(c0, bytes.length)]
            else match slice bytes c0 c with
              | .panic => .panic
              | .ok _ => match partitionLoopM S.any bytes size c (c + size) with
                | .panic => .panic
                | .ok rest => .ok ((c0, c) :: rest)) =
            (if h0 : c0 ≥ c then Res.ok [] else if h1 : c + size / 4 ≥ bytes.length then
              match sliceFrom bytes c0 with | .panic => .panic | .ok _ => .ok [(c0, bytes.length)]
            else match slice bytes c0 c with
              | .panic => .panic
              | .ok _ => match partitionLoop S bytes size c (c + size) with
                | .panic => .panic
                | .ok rest => .ok ((c0, c) :: rest)) := by
          intro c
          by_cases h0 : c0 ≥ c
          · rw [dif_pos h0, dif_pos h0]
          · rw [dif_neg h0, dif_neg h0]
            by_cases h1 : c + size / 4 ≥ bytes.length
            · rw [dif_pos h1, dif_pos h1]
            · rw [dif_neg h1, dif_neg h1, ih (bytes.length - c) (by omega) c (c + size) rfl]
        rcases r with _ | ⟨c, v⟩
        · exact key c1
        · exact key c
      · rfl

/-- **C139**: nothing changes for the other markers. -/
theorem C139_other_markers (re : Regex) (bytes : Bytes) (off num : Nat) :
    grepNextM S.any re bytes off = grepNext S re bytes off ∧ regexNextM S.any re bytes off = regexNext S re bytes off ∧
    partitionRangesM S.any bytes num = partitionRanges S bytes num := by
  refine ⟨?_, ?_, ?_⟩
  · unfold grepNextM grepNext
    rw [grepSearchM_eq]
    rfl
  · unfold regexNextM regexNext
    rw [regexCaptureM_eq]
    rfl
  · unfold partitionRangesM partitionRanges
    simp only [partitionLoopM_eq]

end

/-! ## The empty marker -/

section
variable {T : Type} {S : AnyMarker T}

/-- What a search does with the first match, for an arbitrary continuation `f`. -/
theorem startStep (hS : S.marker = []) (re : Regex) {bytes : Bytes} (hF : Fits bytes) (hh : Harmless S bytes) (off : Nat)
    (h0 : off < bytes.length) :
    (re.capturesAt bytes off = none ∧ ∀ s e, off ≤ s → ¬ Matches re bytes s e) ∨
    ∃ s e g, re.capturesAt bytes off = some (s, e, g) ∧ NextMatch re bytes off s e g ∧ s ≤ e ∧ e ≤ bytes.length ∧
      ((∃ v, ValueAt S bytes s v ∧ revSearchM S bytes s = .ok (some (s, v)) ∧ uadd s (S.len v) = .ok (s + S.len v)) ∨
       ((∀ v, ¬ ValueAt S bytes s v) ∧ revSearchM S bytes s = .ok none)) := by
  have hl := fits_le hF
  rcases hc : re.capturesAt bytes off with _ | ⟨s, e, g⟩
  · left
    refine ⟨rfl, fun s e hs => ?_⟩
    rintro ⟨g, hg⟩
    rw [Regex.capturesAt_none hc s hs] at hg
    cases hg
  · right
    obtain ⟨h1, h2, h3, h4, h5⟩ := Regex.capturesAt_some hc
    refine ⟨s, e, g, rfl, ⟨h1, h4, ?_⟩, h2, h3, ?_⟩
    · rintro j e' hj hj' ⟨g', hg'⟩
      rw [h5 j hj hj'] at hg'
      cases hg'
    · rw [revSearchM_nil hS bytes s (by omega) (by unfold usizeMax; omega)]
      rcases hr : S.tryReadValidMarker (bytes.drop s) with o | _
      · rcases o with _ | ⟨n, v⟩
        · right
          refine ⟨fun v hv => ?_, rfl⟩
          obtain ⟨n, hn⟩ := hv
          rw [hr] at hn
          cases hn
        · left
          exact ⟨v, ⟨n, hr⟩, rfl, uadd_ok (hh.2 s v (by omega) ⟨n, hr⟩)⟩
      · exact absurd hr (hh.1 s (by omega))

theorem valueAt_unique {bytes : Bytes} {p : Nat} {v w : T} (h : ValueAt S bytes p v) (h' : ValueAt S bytes p w) : v = w := by
  obtain ⟨n, hn⟩ := h
  obtain ⟨m, hm⟩ := h'
  rw [hn] at hm
  cases hm
  rfl

theorem startSearch_unique {re : Regex} {bytes : Bytes} {off : Nat} {o o'} (h : StartSearch S re bytes off o)
    (h' : StartSearch S re bytes off o') : o = o' := by
  induction h generalizing o' with
  | past h => cases h' with
    | past => rfl
    | noMatch => rfl
    | hit h0 => omega
    | skip h0 => omega
  | noMatch h => cases h' with
    | past => rfl
    | noMatch => rfl
    | hit h0 hn => exact absurd ⟨_, hn.2.1⟩ (h _ _ hn.1)
    | skip h0 hn => exact absurd ⟨_, hn.2.1⟩ (h _ _ hn.1)
  | hit h0 hn hv => cases h' with
    | past h => omega
    | noMatch h => exact absurd ⟨_, hn.2.1⟩ (h _ _ hn.1)
    | hit _ hn' hv' =>
      obtain ⟨rfl, rfl, rfl⟩ := hn.unique hn'
      rw [valueAt_unique hv hv']
    | skip _ hn' hv' =>
      obtain ⟨rfl, rfl, rfl⟩ := hn.unique hn'
      exact absurd hv (hv' _)
  | skip h0 hn hv _ ih => cases h' with
    | past h => omega
    | noMatch h => exact absurd ⟨_, hn.2.1⟩ (h _ _ hn.1)
    | hit _ hn' hv' =>
      obtain ⟨rfl, rfl, rfl⟩ := hn.unique hn'
      exact absurd hv' (hv _)
    | skip _ hn' _ hs =>
      obtain ⟨rfl, rfl, rfl⟩ := hn.unique hn'
      exact ih hs

theorem findAt_of_captures {re : Regex} {bytes : Bytes} {off s e : Nat} {g} (h : re.capturesAt bytes off = some (s, e, g)) :
    re.findAt bytes off = some (s, e) := by
  unfold Regex.findAt; rw [h]; rfl

theorem findAt_of_no_captures {re : Regex} {bytes : Bytes} {off : Nat} (h : re.capturesAt bytes off = none) :
    re.findAt bytes off = none := by
  unfold Regex.findAt; rw [h]; rfl

theorem grepSearchM_iff (hS : S.marker = []) (re : Regex) {bytes : Bytes} (hF : Fits bytes) (hh : Harmless S bytes) (off : Nat)
    (r : Res (Option (Nat × T))) :
    grepSearchM S re bytes off = some r ↔ ∃ o, r = .ok (o.map Prod.fst) ∧ StartSearch S re bytes off o := by
  constructor
  · revert off r
    apply grepSearchM.partial_correctness S re bytes (fun off r => ∃ o, r = .ok (o.map Prod.fst) ∧ StartSearch S re bytes off o)
    intro f ih off r hr
    by_cases h0 : off ≥ bytes.length
    · rw [if_pos h0] at hr
      cases hr
      exact ⟨none, rfl, .past h0⟩
    · rw [if_neg h0] at hr
      rcases startStep hS re hF hh off (by omega) with ⟨hc, hn⟩ | ⟨s, e, g, hc, hn, h1, h2, ⟨v, hv, hr1, hu⟩ | ⟨hv, hr1⟩⟩
      · rw [findAt_of_no_captures hc] at hr
        cases hr
        exact ⟨none, rfl, .noMatch hn⟩
      · rw [findAt_of_captures hc] at hr
        simp only [hr1, hu] at hr
        rw [if_neg (by omega)] at hr
        cases hr
        exact ⟨some ((s, v), g), rfl, .hit (by omega) hn hv⟩
      · rw [findAt_of_captures hc] at hr
        simp only [hr1] at hr
        by_cases he : e ≥ bytes.length
        · rw [if_pos he] at hr
          cases hr
          exact ⟨none, rfl, .skip (by omega) hn hv (.past he)⟩
        · rw [if_neg he] at hr
          obtain ⟨o, ho, hs⟩ := ih e r hr
          exact ⟨o, ho, .skip (by omega) hn hv hs⟩
  · rintro ⟨o, rfl, h⟩
    induction h with
    | past h => rw [grepSearchM, if_pos h]; rfl
    | @noMatch off hno =>
      rw [grepSearchM]
      by_cases h0 : off ≥ bytes.length
      · rw [if_pos h0]; rfl
      · rw [if_neg h0]
        rcases startStep hS re hF hh off (by omega) with ⟨hc, hn⟩ | ⟨s, e, g, hc, hn, _⟩
        · rw [findAt_of_no_captures hc]; rfl
        · exact absurd ⟨g, hn.2.1⟩ (hno s e hn.1)
    | @hit off s e g v h0 hn hv =>
      rw [grepSearchM, if_neg (by omega)]
      rcases startStep hS re hF hh off (by omega) with ⟨hc, hno⟩ | ⟨s', e', g', hc, hn', h1, h2, ⟨w, hw, hr1, hu⟩ | ⟨hw, hr1⟩⟩
      · exact absurd ⟨g, hn.2.1⟩ (hno s e hn.1)
      · obtain ⟨rfl, rfl, rfl⟩ := hn.unique hn'
        have := valueAt_unique hv hw
        subst this
        rw [findAt_of_captures hc]
        simp only [hr1, hu]
        rw [if_neg (by omega)]
        rfl
      · obtain ⟨rfl, rfl, rfl⟩ := hn.unique hn'
        exact absurd hv (hw _)
    | @skip off s e g o h0 hn hv _ ih =>
      rw [grepSearchM, if_neg (by omega)]
      rcases startStep hS re hF hh off (by omega) with ⟨hc, hno⟩ | ⟨s', e', g', hc, hn', h1, h2, ⟨w, hw, hr1, hu⟩ | ⟨hw, hr1⟩⟩
      · exact absurd ⟨g, hn.2.1⟩ (hno s e hn.1)
      · obtain ⟨rfl, rfl, rfl⟩ := hn.unique hn'
        exact absurd hw (hv _)
      · obtain ⟨rfl, rfl, rfl⟩ := hn.unique hn'
        rw [findAt_of_captures hc]
        simp only [hr1]
        by_cases he : e ≥ bytes.length
        · rw [if_pos he, ← ih, grepSearchM, if_pos he]
        · rw [if_neg he, ih]

theorem regexCaptureM_iff (hS : S.marker = []) (re : Regex) {bytes : Bytes} (hF : Fits bytes) (hh : Harmless S bytes) (off : Nat)
    (r : Res (Option (Nat × (Nat × Nat)))) :
    regexCaptureM S re bytes off = some r ↔
      ∃ o, r = .ok (o.bind fun x => x.2.map fun g => (x.1.1, g)) ∧ StartSearch S re bytes off o := by
  constructor
  · revert off r
    apply regexCaptureM.partial_correctness S re bytes
      (fun off r => ∃ o, r = .ok (o.bind fun x => x.2.map fun g => (x.1.1, g)) ∧ StartSearch S re bytes off o)
    intro f ih off r hr
    by_cases h0 : off ≥ bytes.length
    · rw [if_pos h0] at hr
      cases hr
      exact ⟨none, rfl, .past h0⟩
    · rw [if_neg h0] at hr
      rcases startStep hS re hF hh off (by omega) with ⟨hc, hn⟩ | ⟨s, e, g, hc, hn, h1, h2, ⟨v, hv, hr1, hu⟩ | ⟨hv, hr1⟩⟩
      · rw [hc] at hr
        cases hr
        exact ⟨none, rfl, .noMatch hn⟩
      · rw [hc] at hr
        simp only [hr1, hu] at hr
        rw [if_neg (by omega)] at hr
        refine ⟨some ((s, v), g), ?_, .hit (by omega) hn hv⟩
        rcases g with _ | g <;> (cases hr; rfl)
      · rw [hc] at hr
        simp only [hr1] at hr
        by_cases he : e ≥ bytes.length
        · rw [if_pos he] at hr
          cases hr
          exact ⟨none, rfl, .skip (by omega) hn hv (.past he)⟩
        · rw [if_neg he] at hr
          obtain ⟨o, ho, hs⟩ := ih e r hr
          exact ⟨o, ho, .skip (by omega) hn hv hs⟩
  · rintro ⟨o, rfl, h⟩
    induction h with
    | past h => rw [regexCaptureM, if_pos h]; rfl
    | @noMatch off hno =>
      rw [regexCaptureM]
      by_cases h0 : off ≥ bytes.length
      · rw [if_pos h0]; rfl
      · rw [if_neg h0]
        rcases startStep hS re hF hh off (by omega) with ⟨hc, hn⟩ | ⟨s, e, g, hc, hn, _⟩
        · rw [hc]; rfl
        · exact absurd ⟨g, hn.2.1⟩ (hno s e hn.1)
    | @hit off s e g v h0 hn hv =>
      rw [regexCaptureM, if_neg (by omega)]
      rcases startStep hS re hF hh off (by omega) with ⟨hc, hno⟩ | ⟨s', e', g', hc, hn', h1, h2, ⟨w, hw, hr1, hu⟩ | ⟨hw, hr1⟩⟩
      · exact absurd ⟨g, hn.2.1⟩ (hno s e hn.1)
      · obtain ⟨rfl, rfl, rfl⟩ := hn.unique hn'
        have := valueAt_unique hv hw
        subst this
        rw [hc]
        simp only [hr1, hu]
        rw [if_neg (by omega)]
        rcases g with _ | g <;> rfl
      · obtain ⟨rfl, rfl, rfl⟩ := hn.unique hn'
        exact absurd hv (hw _)
    | @skip off s e g o h0 hn hv _ ih =>
      rw [regexCaptureM, if_neg (by omega)]
      rcases startStep hS re hF hh off (by omega) with ⟨hc, hno⟩ | ⟨s', e', g', hc, hn', h1, h2, ⟨w, hw, hr1, hu⟩ | ⟨hw, hr1⟩⟩
      · exact absurd ⟨g, hn.2.1⟩ (hno s e hn.1)
      · obtain ⟨rfl, rfl, rfl⟩ := hn.unique hn'
        exact absurd hw (hv _)
      · obtain ⟨rfl, rfl, rfl⟩ := hn.unique hn'
        rw [hc]
        simp only [hr1]
        by_cases he : e ≥ bytes.length
        · rw [if_pos he, ← ih, regexCaptureM, if_pos he]
        · rw [if_neg he, ih]

theorem startSearch_value {re : Regex} {bytes : Bytes} {off : Nat} {o} (h : StartSearch S re bytes off o) :
    ∀ x g, o = some (x, g) → x.1 ≤ bytes.length ∧ ValueAt S bytes x.1 x.2 ∧ off ≤ x.1 ∧ ∀ a b, g = some (a, b) → b ≤ bytes.length := by
  induction h with
  | past => intro x g h; cases h
  | noMatch => intro x g h; cases h
  | @hit off s e g v h0 hn hv =>
    intro x g' h
    cases h
    obtain ⟨h1, h2, h3⟩ := re.law _ _ _ _ hn.2.1
    exact ⟨by simp only; omega, hv, hn.1, fun a b hg => by have := h3 a b hg; omega⟩
  | @skip off s e g o h0 hn hv _ ih =>
    intro x g' h
    obtain ⟨h1, h2, h3⟩ := re.law _ _ _ _ hn.2.1
    obtain ⟨i1, i2, i3, i4⟩ := ih x g' h
    exact ⟨i1, i2, by have := hn.1; omega, i4⟩

/-- **C139**: with an empty marker `GrepIterator::next` gives the first value that starts where a match starts: a match inside a value
does not find it, and no value found contains the match by being around it. -/
theorem C139_grep_next (hS : S.marker = []) (re : Regex) (bytes : Bytes) (hF : Fits bytes) (hh : Harmless S bytes) (off : Nat) :
    (∀ x off', grepNextM S re bytes off = some (.ok (some x, off')) ↔
      (∃ g, StartSearch S re bytes off (some (x, g))) ∧ off' = x.1 + S.len x.2) ∧
    (∀ off', grepNextM S re bytes off = some (.ok (none, off')) ↔ StartSearch S re bytes off none ∧ off' = off) ∧
    grepNextM S re bytes off ≠ some .panic := by
  have hnext : ∀ o, StartSearch S re bytes off o → grepNextM S re bytes off =
      some (.ok (match o with | none => (none, off) | some (x, _) => (some x, x.1 + S.len x.2))) := by
    intro o ho
    have := (grepSearchM_iff hS re hF hh off _).2 ⟨o, rfl, ho⟩
    unfold grepNextM
    rw [this]
    rcases o with _ | ⟨⟨s, v⟩, g⟩
    · rfl
    · simp only [Option.map]
      obtain ⟨h1, h2, -⟩ := startSearch_value ho _ _ rfl
      rw [uadd_ok (hh.2 s v h1 h2)]
  have hback : ∀ r, grepNextM S re bytes off = some r → ∃ o, StartSearch S re bytes off o := by
    intro r hr
    unfold grepNextM at hr
    rcases hq : grepSearchM S re bytes off with _ | q
    · rw [hq] at hr; cases hr
    · obtain ⟨o, -, ho⟩ := (grepSearchM_iff hS re hF hh off q).1 hq
      exact ⟨o, ho⟩
  refine ⟨fun x off' => ⟨fun h => ?_, ?_⟩, fun off' => ⟨fun h => ?_, ?_⟩, fun h => ?_⟩
  · obtain ⟨o, ho⟩ := hback _ h
    rw [hnext o ho] at h
    rcases o with _ | ⟨y, g⟩
    · cases h
    · cases h
      exact ⟨⟨g, ho⟩, rfl⟩
  · rintro ⟨⟨g, ho⟩, rfl⟩
    rw [hnext _ ho]
  · obtain ⟨o, ho⟩ := hback _ h
    rw [hnext o ho] at h
    rcases o with _ | ⟨y, g⟩
    · cases h
      exact ⟨ho, rfl⟩
    · cases h
  · rintro ⟨ho, rfl⟩
    rw [hnext _ ho]
  · obtain ⟨o, ho⟩ := hback _ h
    rw [hnext o ho] at h
    cases h

/-- **C139**: what the whole iteration gives. -/
theorem C139_grep (hS : S.marker = []) (re : Regex) (bytes : Bytes) (hF : Fits bytes) (hh : Harmless S bytes) (off : Nat)
    (items : List (Nat × T)) : CollectsD (grepNextM S re bytes) off items ↔ StartGrep S re bytes off items := by
  constructor
  · rintro ⟨fuel, h⟩
    induction fuel generalizing off items with
    | zero => cases h
    | succ fuel ih =>
      rw [collectDN] at h
      obtain ⟨h1, h2, h3⟩ := C139_grep_next hS re bytes hF hh off
      rcases hn : grepNextM S re bytes off with _ | ⟨o, off'⟩ | _
      · rw [hn] at h; cases h
      · rw [hn] at h
        rcases o with _ | x
        · cases h
          exact .done ((h2 off').1 hn).1
        · simp only at h
          obtain ⟨⟨g, hs⟩, rfl⟩ := (h1 x off').1 hn
          rcases hr : collectDN (grepNextM S re bytes) fuel (x.1 + S.len x.2) with _ | rest | _
          · rw [hr] at h; cases h
          · rw [hr] at h; cases h
            exact .hit hs (ih _ _ hr)
          · rw [hr] at h; cases h
      · exact absurd hn h3
  · intro h
    induction h with
    | done h => exact CollectsD.nil (((C139_grep_next hS re bytes hF hh _).2.1 _).2 ⟨h, rfl⟩)
    | hit h _ ih => exact CollectsD.cons (((C139_grep_next hS re bytes hF hh _).1 _ _).2 ⟨⟨_, h⟩, rfl⟩) ih

theorem startSkips_no_search {re : Regex} {bytes : Bytes} {off q : Nat} (h : StartSkips S re bytes off q) :
    (∀ o, ¬ StartSearch S re bytes q o) → ∀ o, ¬ StartSearch S re bytes off o := by
  induction h with
  | here => exact id
  | skip h0 hn hv _ ih =>
    intro hq o ho
    cases ho with
    | past h => omega
    | noMatch h => exact h _ _ hn.1 ⟨_, hn.2.1⟩
    | hit _ hn' hv' =>
      obtain ⟨rfl, rfl, rfl⟩ := hn.unique hn'
      exact hv _ hv'
    | skip _ hn' _ hs =>
      obtain ⟨rfl, rfl, rfl⟩ := hn.unique hn'
      exact ih hq _ hs

theorem startSearch_stuck {re : Regex} {bytes : Bytes} {q : Nat} (h0 : q < bytes.length) (hm : Matches re bytes q q)
    (hv : ∀ v, ¬ ValueAt S bytes q v) (o) : ¬ StartSearch S re bytes q o := by
  obtain ⟨g, hg⟩ := hm
  have hn : NextMatch re bytes q q q g := ⟨Nat.le_refl _, hg, fun j _ h1 h2 => by omega⟩
  intro h
  generalize hp : q = p at h
  induction h with
  | past h => omega
  | noMatch h => exact h q q (by omega) ⟨g, hg⟩
  | hit _ hn' hv' =>
    subst hp
    obtain ⟨rfl, rfl, rfl⟩ := hn.unique hn'
    exact hv _ hv'
  | skip _ hn' _ _ ih =>
    subst hp
    obtain ⟨rfl, rfl, rfl⟩ := hn.unique hn'
    exact ih rfl

/-- **C139**: exactly when a call of `next` does not return: it gets to an empty match at which no value starts. -/
theorem C139_grep_diverges_iff (hS : S.marker = []) (re : Regex) (bytes : Bytes) (hF : Fits bytes) (hh : Harmless S bytes) (off : Nat) :
    grepNextM S re bytes off = none ↔
      ∃ q, StartSkips S re bytes off q ∧ q < bytes.length ∧ Matches re bytes q q ∧ ∀ v, ¬ ValueAt S bytes q v := by
  have hsearch : grepNextM S re bytes off = none ↔ ∀ o, ¬ StartSearch S re bytes off o := by
    obtain ⟨h1, h2, h3⟩ := C139_grep_next hS re bytes hF hh off
    constructor
    · intro h o ho
      rcases o with _ | ⟨x, g⟩
      · rw [(h2 off).2 ⟨ho, rfl⟩] at h; cases h
      · rw [(h1 x _).2 ⟨⟨g, ho⟩, rfl⟩] at h; cases h
    · intro h
      rcases hn : grepNextM S re bytes off with _ | ⟨o, off'⟩ | _
      · rfl
      · rcases o with _ | x
        · exact absurd ((h2 off').1 hn).1 (h _)
        · obtain ⟨⟨g, hs⟩, -⟩ := (h1 x off').1 hn
          exact absurd hs (h _)
      · exact absurd hn h3
  rw [hsearch]
  clear hsearch
  constructor
  · intro h
    generalize hk : bytes.length - off = k
    induction k using Nat.strongRecOn generalizing off with
    | ind k ih =>
      have h0 : off < bytes.length := Nat.lt_of_not_ge fun h' => h none (.past h')
      rcases startStep hS re hF hh off h0 with ⟨hc, hno⟩ | ⟨s, e, g, hc, hn, h1, h2, ⟨v, hv, _⟩ | ⟨hv, _⟩⟩
      · exact absurd (.noMatch hno) (h none)
      · exact absurd (.hit h0 hn hv) (h _)
      · have hne : ∀ o, ¬ StartSearch S re bytes e o := fun o ho => h o (.skip h0 hn hv ho)
        have he : e < bytes.length := Nat.lt_of_not_ge fun h' => hne none (.past h')
        by_cases hoe : off = e
        · subst hoe
          have : s = off := by have := hn.1; omega
          subst this
          exact ⟨s, .here _, h0, ⟨g, hn.2.1⟩, hv⟩
        · obtain ⟨q, hq⟩ := ih (bytes.length - e) (by have := hn.1; omega) e hne rfl
          exact ⟨q, .skip h0 hn hv hq.1, hq.2⟩
  · rintro ⟨q, hq, h0, hm, hv⟩
    exact startSkips_no_search hq (startSearch_stuck h0 hm hv)

/-- **C139**: the capture iterator: the same search; it ends where the match has no group 1, and goes on at the place of the value plus
the place where the group ends. -/
theorem C139_capture_next (hS : S.marker = []) (re : Regex) (bytes : Bytes) (hF : Fits bytes) (hh : Harmless S bytes) (off : Nat) :
    (∀ i a b off', regexNextM S re bytes off = some (.ok (some (i, (a, b)), off')) ↔
      (∃ v, StartSearch S re bytes off (some ((i, v), some (a, b)))) ∧ off' = i + b) ∧
    (∀ off', regexNextM S re bytes off = some (.ok (none, off')) ↔
      (StartSearch S re bytes off none ∨ ∃ x, StartSearch S re bytes off (some (x, none))) ∧ off' = off) ∧
    regexNextM S re bytes off ≠ some .panic ∧ (regexNextM S re bytes off = none ↔ grepNextM S re bytes off = none) := by
  have hl := fits_le hF
  have hnext : ∀ o, StartSearch S re bytes off o → regexNextM S re bytes off =
      some (.ok (match o with | some ((i, _), some (a, b)) => (some (i, (a, b)), i + b) | _ => (none, off))) := by
    intro o ho
    have := (regexCaptureM_iff hS re hF hh off _).2 ⟨o, rfl, ho⟩
    unfold regexNextM
    rw [this]
    rcases o with _ | ⟨⟨s, v⟩, _ | ⟨a, b⟩⟩
    · rfl
    · rfl
    · obtain ⟨h1, h2, -, h4⟩ := startSearch_value ho _ _ rfl
      have := h4 a b rfl
      simp only at h1
      simp only [Option.bind, Option.map]
      rw [uadd_ok (by unfold usizeMax; omega)]
  have hback : ∀ r, regexNextM S re bytes off = some r → ∃ o, StartSearch S re bytes off o := by
    intro r hr
    unfold regexNextM at hr
    rcases hq : regexCaptureM S re bytes off with _ | q
    · rw [hq] at hr; cases hr
    · obtain ⟨o, -, ho⟩ := (regexCaptureM_iff hS re hF hh off q).1 hq
      exact ⟨o, ho⟩
  refine ⟨fun i a b off' => ⟨fun h => ?_, ?_⟩, fun off' => ⟨fun h => ?_, ?_⟩, fun h => ?_, fun h => ?_, fun h => ?_⟩
  · obtain ⟨o, ho⟩ := hback _ h
    rw [hnext o ho] at h
    rcases o with _ | ⟨⟨s, v⟩, _ | ⟨a', b'⟩⟩
    · cases h
    · cases h
    · cases h
      exact ⟨⟨v, ho⟩, rfl⟩
  · rintro ⟨⟨v, ho⟩, rfl⟩
    rw [hnext _ ho]
  · obtain ⟨o, ho⟩ := hback _ h
    rw [hnext o ho] at h
    rcases o with _ | ⟨⟨s, v⟩, _ | ⟨a', b'⟩⟩
    · cases h
      exact ⟨.inl ho, rfl⟩
    · cases h
      exact ⟨.inr ⟨_, ho⟩, rfl⟩
    · cases h
  · rintro ⟨ho | ⟨x, ho⟩, rfl⟩
    · rw [hnext _ ho]
    · rw [hnext _ ho]
  · obtain ⟨o, ho⟩ := hback _ h
    rw [hnext o ho] at h
    cases h
  · obtain ⟨g1, g2, g3⟩ := C139_grep_next hS re bytes hF hh off
    rcases hn : grepNextM S re bytes off with _ | ⟨o, off'⟩ | _
    · rfl
    · rcases o with _ | x
      · rw [hnext _ ((g2 off').1 hn).1] at h; cases h
      · obtain ⟨⟨g, hs⟩, -⟩ := (g1 x off').1 hn
        rw [hnext _ hs] at h; cases h
    · exact absurd hn g3
  · rcases hn : regexNextM S re bytes off with _ | r
    · rfl
    · obtain ⟨o, ho⟩ := hback _ hn
      obtain ⟨g1, g2, g3⟩ := C139_grep_next hS re bytes hF hh off
      rcases o with _ | ⟨x, g⟩
      · rw [(g2 off).2 ⟨ho, rfl⟩] at h; cases h
      · rw [(g1 x _).2 ⟨⟨g, ho⟩, rfl⟩] at h; cases h

/-- **C139**: what the whole iteration of the capture iterator gives. -/
theorem C139_capture (hS : S.marker = []) (re : Regex) (bytes : Bytes) (hF : Fits bytes) (hh : Harmless S bytes) (off : Nat)
    (items : List (Nat × (Nat × Nat))) : CollectsD (regexNextM S re bytes) off items ↔ StartCapture S re bytes off items := by
  constructor
  · rintro ⟨fuel, h⟩
    induction fuel generalizing off items with
    | zero => cases h
    | succ fuel ih =>
      rw [collectDN] at h
      obtain ⟨h1, h2, h3, -⟩ := C139_capture_next hS re bytes hF hh off
      rcases hn : regexNextM S re bytes off with _ | ⟨o, off'⟩ | _
      · rw [hn] at h; cases h
      · rw [hn] at h
        rcases o with _ | ⟨i, a, b⟩
        · cases h
          rcases ((h2 off').1 hn).1 with hs | ⟨x, hs⟩
          · exact .done hs
          · exact .noGroup hs
        · simp only at h
          obtain ⟨⟨v, hs⟩, rfl⟩ := (h1 i a b off').1 hn
          rcases hr : collectDN (regexNextM S re bytes) fuel (i + b) with _ | rest | _
          · rw [hr] at h; cases h
          · rw [hr] at h; cases h
            exact .hit (x := (i, v)) hs (ih _ _ hr)
          · rw [hr] at h; cases h
      · exact absurd hn h3
  · intro h
    induction h with
    | done h => exact CollectsD.nil (((C139_capture_next hS re bytes hF hh _).2.1 _).2 ⟨.inl h, rfl⟩)
    | noGroup h => exact CollectsD.nil (((C139_capture_next hS re bytes hF hh _).2.1 _).2 ⟨.inr ⟨_, h⟩, rfl⟩)
    | hit h _ ih => exact CollectsD.cons (((C139_capture_next hS re bytes hF hh _).1 _ _ _ _).2 ⟨⟨_, h⟩, rfl⟩) ih

theorem cutAtFirst_unique {bytes : Bytes} {p c c' : Nat} (h : CutAtFirst S bytes p c) (h' : CutAtFirst S bytes p c') : c = c' := by
  rcases h with ⟨h1, h2, h3⟩ | ⟨h1, rfl⟩
  · rcases h' with ⟨_, h5, h6⟩ | ⟨h4, _⟩
    · exact Nat.le_antisymm (h3 _ h5) (h6 _ h2)
    · exact absurd h2 (h4 h1 _)
  · rcases h' with ⟨h4, h5, _⟩ | ⟨_, rfl⟩
    · exact absurd h5 (h1 h4 _)
    · rfl

/-- **C139**: with an empty marker `partition_from` moves a cut back to the first place, at most `max_len()` in front, at which a value can
be read that goes on behind it: whatever looks like a value is taken for one. -/
theorem C139_partition (hS : S.marker = []) (hr : ∀ bs, S.tryRead bs ≠ .panic) (bytes : Bytes)
    (hl : ∀ c n v, c ≤ bytes.length → S.tryRead (bytes.drop c) = .ok (some (n, v)) → c + S.len v ≤ usizeMax) (num : Nat) (hnum : num ≠ 0)
    (rs : List (Nat × Nat)) :
    partitionRangesM S bytes num = .ok rs ↔ CutsBy bytes.length (bytes.length / num) (CutAtFirst S bytes) 0 rs := by
  have hcut : ∀ p, ∃ r, containedByM S bytes p (p + 1) = .ok r ∧ (∀ c v, r = some (c, v) → CutAtFirst S bytes p c ∧ c < p) ∧
      (r = none → CutAtFirst S bytes p p) := by
    intro p
    by_cases hp : p + 1 < bytes.length
    · have key := C138_contained_by hS hr bytes hl p (p + 1) (by omega) hp
      have cov : ∀ c, GoesOver S bytes p c ↔ p - S.maxLen ≤ c ∧ c < p ∧ ∃ n v, S.tryRead (bytes.drop c) = .ok (some (n, v)) ∧ p < c + S.len v :=
        fun c => ⟨fun ⟨h1, h2, h3⟩ => ⟨by omega, h1, h3⟩, fun ⟨h1, h2, h3⟩ => ⟨h2, by omega, h3⟩⟩
      by_cases hex : ∃ c, GoesOver S bytes p c
      · obtain ⟨c, hc, hmin⟩ : ∃ c, GoesOver S bytes p c ∧ ∀ d, GoesOver S bytes p d → c ≤ d := by
          obtain ⟨c, hc⟩ := hex
          induction c using Nat.strongRecOn with
          | ind c ih =>
            by_cases h : ∃ d, d < c ∧ GoesOver S bytes p d
            · obtain ⟨d, hd, hcd⟩ := h
              exact ih d hd hcd
            · exact ⟨c, hc, fun d hd => Nat.le_of_not_lt fun hlt => h ⟨d, hlt, hd⟩⟩
        obtain ⟨h1, h2, n, v, h3, h4⟩ := (cov c).1 hc
        refine ⟨some (c, v), (key (some (c, v))).2 ⟨h1, h2, ⟨n, h3⟩, by omega, fun d m u hd1 hd2 hd3 => ?_⟩, fun c' v' h => ?_, fun h => by cases h⟩
        · refine Nat.lt_of_not_ge fun hge => ?_
          have := hmin d ((cov d).2 ⟨hd1, by omega, m, u, hd3, by omega⟩)
          omega
        · cases h
          exact ⟨.inl ⟨hp, hc, hmin⟩, h2⟩
      · refine ⟨none, (key none).2 fun c n v h1 h2 h3 => ?_, fun c v h => (by cases h), fun _ => .inr ⟨fun _ d hd => hex ⟨d, hd⟩, rfl⟩⟩
        refine Nat.lt_of_not_ge fun hge => hex ⟨c, (cov c).2 ⟨h1, h2, n, v, h3, by omega⟩⟩
    · refine ⟨none, ?_, fun c v h => (by cases h), fun _ => .inr ⟨fun h => absurd h hp, rfl⟩⟩
      rw [containedByM, if_pos (.inr (.inl (by omega)))]
  have hloop : ∀ (k c0 : Nat), bytes.length - c0 = k → c0 ≤ bytes.length →
      ∃ rs, partitionLoopM S bytes (bytes.length / num) c0 (c0 + bytes.length / num) = .ok rs ∧
        CutsBy bytes.length (bytes.length / num) (CutAtFirst S bytes) c0 rs := by
    generalize bytes.length / num = size
    intro k
    induction k using Nat.strongRecOn with
    | ind k ih =>
      intro c0 hk h0
      rw [partitionLoopM]
      by_cases h1 : c0 + size > bytes.length
      · rw [if_pos (.inr h1)]
        exact ⟨[], rfl, .beyond (by omega)⟩
      · rw [if_neg (by omega)]
        obtain ⟨r, hq, hr1, hr2⟩ := hcut (c0 + size)
        rw [hq]
        have key : ∀ c, CutAtFirst S bytes (c0 + size) c → c ≤ c0 + size →
            ∃ rs, (if h0 : c0 ≥ c then Res.ok [] else if h1 : c + size / 4 ≥ bytes.length then
              match sliceFrom bytes c0 with | .panic => .panic | .ok _ => .ok [(c0, bytes.length)]
            else match slice bytes c0 c with
              | .panic => .panic
              | .ok _ => match partitionLoopM S bytes size c (c + size) with
                | .panic => .panic
                | .ok rest => .ok ((c0, c) :: rest)) = Res.ok rs ∧ CutsBy bytes.length size (CutAtFirst S bytes) c0 rs := by
          intro c hc hle
          by_cases h2 : c0 ≥ c
          · rw [dif_pos h2]
            exact ⟨_, rfl, .stuck (by omega) hc h2⟩
          · rw [dif_neg h2]
            by_cases h3 : c + size / 4 ≥ bytes.length
            · rw [dif_pos h3, sliceFrom_ok h0]
              exact ⟨_, rfl, .last (by omega) hc (by omega) h3⟩
            · rw [dif_neg h3]
              have hsl : slice bytes c0 c = .ok ((bytes.take c).drop c0) := by
                unfold slice
                rw [if_pos ⟨by omega, by omega⟩]
              obtain ⟨rest, h4, h5⟩ := ih (bytes.length - c) (by omega) c rfl (by omega)
              rw [hsl, h4]
              exact ⟨_, rfl, .cut (by omega) hc (by omega) (by omega) h5⟩
        rcases r with _ | ⟨c, v⟩
        · exact key _ (hr2 rfl) (Nat.le_refl _)
        · exact key _ (hr1 c v rfl).1 (Nat.le_of_lt (hr1 c v rfl).2)
  obtain ⟨rs', h1, h2⟩ := hloop _ 0 rfl (Nat.zero_le _)
  rw [Nat.zero_add] at h1
  have hpr : partitionRangesM S bytes num = partitionLoopM S bytes (bytes.length / num) 0 (bytes.length / num) := by
    unfold partitionRangesM; rw [if_neg hnum]
  rw [hpr, h1]
  constructor
  · intro h; cases h; exact h2
  · intro h
    have hu : ∀ p c c', CutAtFirst S bytes p c → CutAtFirst S bytes p c' → c = c' := fun _ _ _ => cutAtFirst_unique
    rw [cutsBy_unique hu h2 h]

end

/-! The cases: records of a length byte and that many bytes. -/

theorem records_harmless (bytes : Bytes) (hF : Fits bytes) : Harmless records bytes := by
  have hl := fits_le hF
  refine ⟨fun p _ h => by simp [records] at h, fun p v hp _ => ?_⟩
  have : v.toNat < 256 := v.toNat_lt
  show p + (v.toNat + 1) ≤ usizeMax
  unfold usizeMax
  omega

/-- Looking for the byte 2: the record at 0 contains it, but what is found are the bytes 1 to 3, which look like a record. -/
example : grepNextM records (literal [2]) [3, 2, 5, 5, 0] 0 = some (.ok (some (1, 2), 4)) := by
  refine ((C139_grep_next (S := records) rfl _ _ (by decide) (records_harmless _ (by decide)) 0).1 (1, 2) 4).2 ⟨⟨none, ?_⟩, rfl⟩
  refine .hit (s := 1) (e := 2) (g := none) (by decide) ⟨by decide, by decide, ?_⟩ ⟨3, by decide⟩
  rintro j e _ hj ⟨g, hg⟩
  have : j = 0 := by omega
  subst this
  exact absurd hg (by simp [literal])

/-- Looking for the byte 9 in a record at 0 that contains it: no record starts there, nothing is found. -/
example : CollectsD (grepNextM records (literal [9]) [1, 9, 0]) 0 [] := by
  refine (C139_grep (S := records) rfl _ _ (by decide) (records_harmless _ (by decide)) 0 []).2 (.done ?_)
  refine .skip (s := 1) (e := 2) (g := none) (by decide) ⟨by decide, by decide, ?_⟩ ?_ (.noMatch ?_)
  · rintro j e _ hj ⟨g, hg⟩
    have : j = 0 := by omega
    subst this
    exact absurd hg (by simp [literal])
  · rintro v ⟨n, hn⟩
    simp [records, recordRead] at hn
  · rintro s e hs ⟨g, hg⟩
    rcases Nat.lt_or_ge s 3 with h | h
    · have : s = 2 := by omega
      subst this
      exact absurd hg (by simp [literal])
    · have : List.drop s ([1, 9, 0] : Bytes) = [] := List.drop_of_length_le (by simpa using h)
      simp [literal, this] at hg

/-- The empty pattern on bytes without a record: `next` does not return. -/
example : grepNextM records (literal []) [9, 9] 0 = none :=
  (C139_grep_diverges_iff (S := records) rfl _ _ (by decide) (records_harmless _ (by decide)) 0).2
    ⟨0, .here 0, by decide, ⟨none, by decide⟩, fun v ⟨n, hn⟩ => by simp [records, recordRead] at hn⟩

/-- Eight bytes in two slices. The records are at 0 and 5; the cut aimed at 4 is moved to 0, because the bytes from there cover it, and there
is no slice at all. -/
example : partitionRangesM records [4, 0, 0, 0, 0, 2, 0, 0] 2 = .ok [] := by
  have hl : ∀ c n v, c ≤ 8 → records.tryRead (List.drop c [4, 0, 0, 0, 0, 2, 0, 0]) = .ok (some (n, v)) → c + records.len v ≤ usizeMax := by
    intro c n v hc _
    have : v.toNat < 256 := v.toNat_lt
    show c + (v.toNat + 1) ≤ usizeMax
    unfold usizeMax
    omega
  refine (C139_partition (S := records) rfl (fun _ => by simp [records]) [4, 0, 0, 0, 0, 2, 0, 0] hl 2 (by decide) _).2 ?_
  refine .stuck (c := 0) (by decide) (.inl ⟨by decide, ⟨by decide, by decide, 5, 4, by decide, by decide⟩, fun d _ => Nat.zero_le d⟩) (by decide)

end Verif
