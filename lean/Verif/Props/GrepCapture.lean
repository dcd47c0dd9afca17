import Verif.Lemmas.GrepCapture
import Verif.Props.Grep

/-! # C26 (limits), C27: `RegExMatcherIterator` -/

set_option linter.unusedSimpArgs false
set_option maxRecDepth 4000

namespace Verif
open Spec

/-- A message without optional fields and with payload `t`. -/
def textMsg (t : Bytes) : StorageEntry :=
  ⟨⟨⟨68, 76, 84, 1⟩, 0, 0, ⟨0, 0, 0, 0⟩⟩, ⟨⟨⟨0x20⟩, 0, (4 + t.length).toUInt16⟩, t⟩⟩

/-- `Hello World` -/
def helloWorldPattern : Bytes := [72, 101, 108, 108, 111, 32, 87, 111, 114, 108, 100]

/-- three messages, the first and last saying hello -/
def helloFile : List StorageEntry := [textMsg helloWorldPattern, textMsg [1, 2], textMsg (3 :: helloWorldPattern)]

theorem helloFile_wf : ∀ e ∈ helloFile, WF e := by decide

/-- `LastMarker` on a concrete file. -/
theorem lastMarker_of {bytes : Bytes} {s i : Nat} (h1 : i + 4 ≤ s) (h2 : dltMarker <+: bytes.drop i)
    (h3 : ∀ j, j < s → i < j → j + 4 ≤ s → ¬ dltMarker <+: bytes.drop j) : LastMarker dltStorage bytes s i := by
  have h4 : dltStorage.marker.length = 4 := rfl
  exact ⟨by omega, h2, fun j hj hj' => h3 j (by omega) hj (by omega)⟩

/-- A concrete file meeting the hypotheses of `C26_grep_complete_partial` and `C26_grep_literal_partial`, in
which two of the three messages are found. -/
example : Fits (packed helloFile) ∧ TopLevel (packed helloFile) (packedAt 0 helloFile) ∧
    MarkersAreMessages (packed helloFile) (packedAt 0 helloFile) ∧
    NonEmpty (literal helloWorldPattern) (packed helloFile) ∧
    NoHiding (literal helloWorldPattern) (packed helloFile) (packedAt 0 helloFile) ∧
    (∀ k, 0 < k → k < helloWorldPattern.length → ¬ helloWorldPattern.drop k <+: helloWorldPattern) ∧
    helloWorldPattern <:+: (encode (textMsg helloWorldPattern)).drop 4 := by
  have hb : ∀ k, 0 < k → k < helloWorldPattern.length → ¬ helloWorldPattern.drop k <+: helloWorldPattern := by
    have : ∀ k, k < helloWorldPattern.length → 0 < k → ¬ helloWorldPattern.drop k <+: helloWorldPattern := by decide
    exact fun k h1 h2 => this k h2 h1
  refine ⟨by decide, topLevel_packed helloFile_wf, ?_, ?_, literal_noHiding _ hb _ _, hb, by decide⟩
  · intro j hm
    have hlt := Spec.MarkerAt.lt (S := dltStorage) hm
    have key : ∀ j, j < 85 → dltMarker <+: (packed helloFile).drop j → j = 0 ∨ j = 31 ∨ j = 53 := by decide
    have h4 : dltStorage.marker.length = 4 := rfl
    have hl : (packed helloFile).length = 85 := rfl
    rcases key j (by omega) hm with rfl | rfl | rfl
    · exact ⟨textMsg helloWorldPattern, by decide⟩
    · exact ⟨textMsg [1, 2], by decide⟩
    · exact ⟨textMsg (3 :: helloWorldPattern), by decide⟩
  · rintro s e ⟨g, hg⟩
    simp only [literal] at hg
    split at hg
    · simp only [Option.some.injEq, Prod.mk.injEq] at hg
      have : helloWorldPattern.length = 11 := rfl
      omega
    · simp at hg

/-- The pattern `(?s-u)a.*b`: from an `a` to the last `b` of the file. -/
def aToB : Regex where
  matchAt bs s := if bs[s]? = some 97 then
      ((List.range bs.length).filter fun j => decide (s < j) && bs[j]? == some 98).getLast?.map fun j => (j + 1, none)
    else none
  law bs s e g h := by
    split at h
    · obtain ⟨j, hj, h⟩ := Option.map_eq_some_iff.1 h
      have hm := List.mem_of_getLast? hj
      rw [List.mem_filter, List.mem_range] at hm
      simp only [Prod.mk.injEq] at h
      obtain ⟨rfl, rfl⟩ := h
      have : s < j := by have := hm.2; simp at this; exact this.1
      exact ⟨by omega, by omega, fun a b h => by simp at h⟩
    · simp at h

/-- an `a` in the first message, `ab` in the second -/
def spanFile : List StorageEntry := [textMsg [97], textMsg [97, 98]]

/-- **C26 (violated)** a message containing a match is not found because an earlier match reaches from the
message before into it: the whole of that match is skipped. -/
theorem C26_spanning_match_hides_hit :
    TopLevel (packed spanFile) (packedAt 0 spanFile) ∧ MarkersAreMessages (packed spanFile) (packedAt 0 spanFile) ∧
    NonEmpty aToB (packed spanFile) ∧ (21, textMsg [97, 98]) ∈ packedAt 0 spanFile ∧
    ContainsMatch aToB (packed spanFile) (21, textMsg [97, 98]) ∧
    CollectsD (dltGrepNext aToB (packed spanFile)) 0 [] := by
  have hw : ∀ e ∈ spanFile, WF e := by decide
  have hF : Fits (packed spanFile) := by decide
  refine ⟨topLevel_packed hw, ?_, ?_, by decide, ?_, ?_⟩
  · intro j hm
    have hlt := Spec.MarkerAt.lt (S := dltStorage) hm
    have key : ∀ j, j < 43 → dltMarker <+: (packed spanFile).drop j → j = 0 ∨ j = 21 := by decide
    have h4 : dltStorage.marker.length = 4 := rfl
    have hl : (packed spanFile).length = 43 := rfl
    rcases key j (by omega) hm with rfl | rfl
    · exact ⟨textMsg [97], by decide⟩
    · exact ⟨textMsg [97, 98], by decide⟩
  · rintro s e ⟨g, hg⟩
    simp only [aToB] at hg
    split at hg
    · obtain ⟨j, hj, h⟩ := Option.map_eq_some_iff.1 hg
      have hm := List.mem_of_getLast? hj
      rw [List.mem_filter] at hm
      simp only [Prod.mk.injEq] at h
      have : s < j := by have := hm.2; simp at this; exact this.1
      omega
    · simp at hg
  · exact ⟨41, 43, ⟨none, by decide⟩, by decide, by decide⟩
  · have h1 : grepSearch dltStorage aToB (packed spanFile) 0 = some (.ok none) := by
      rw [grepSearch_skip dlt_lawful hF (s := 20) (e := 43) (i := 0) (g := none) (v := textMsg [97]) (by decide)
        (by decide) (by omega) (fun j _ h => by
          have key : ∀ j, j < 20 → aToB.matchAt (packed spanFile) j = none := by decide
          exact key j h) (lastMarker_of (by omega) (by decide) (by decide))
        (readableAt_iff_msgAt.2 ⟨by decide, [], encode (textMsg [97, 98]), by decide, rfl⟩) (by decide)]
      exact grepSearch_end (by decide)
    apply CollectsD.nil (off' := 0)
    unfold dltGrepNext grepNext
    rw [h1]

/-! ## C27 -/

/-- `RegExMatcherIterator<DltStorageEntry>`. -/
abbrev dltRegexNext (re : Regex) (bytes : Bytes) := regexNext dltStorage re bytes

/-- Capture group 1 of the match starting at `s`, ending at `e`, spans `a .. b`. -/
def Captures (re : Regex) (bytes : Bytes) (s e a b : Nat) : Prop := re.matchAt bytes s = some (e, some (a, b))

/-- **C27 (partial)** what holds: a call never panics; a result `(i, (a, b))` means that a complete message is
stored at `i`, and a match starting at or after the current offset lies in it, behind its marker, with group 1
at `a .. b`; afterwards the offset is `i + b` (sic). Missing, and false: that a message is reported once
(`C27_reported_twice`) and that none is skipped (`C27_message_skipped`). -/
theorem C27_regex_sound_partial (re : Regex) (bytes : Bytes) (hF : Fits bytes) (off : Nat) :
    dltRegexNext re bytes off ≠ some .panic ∧
    ∀ i a b off', dltRegexNext re bytes off = some (.ok (some (i, (a, b)), off')) →
      ∃ e s t, MsgAt bytes i e ∧ Captures re bytes s t a b ∧ off ≤ s ∧ i + 4 ≤ s ∧ s ≤ a ∧ a ≤ b ∧ b ≤ t ∧
        t ≤ i + (encode e).length ∧ off' = i + b := by
  rcases regexNext_cases dlt_lawful (re := re) hF off with ⟨_, h⟩ | ⟨_, h⟩ | ⟨i, a, b, hs, h⟩
  · unfold dltRegexNext; rw [h]; exact ⟨by simp, by simp⟩
  · unfold dltRegexNext; rw [h]; exact ⟨by simp, by simp⟩
  · unfold dltRegexNext; rw [h]
    refine ⟨by simp, ?_⟩
    intro i' a' b' off' heq
    simp only [Option.some.injEq, Res.ok.injEq, Prod.mk.injEq] at heq
    obtain ⟨⟨rfl, rfl, rfl⟩, rfl⟩ := heq
    obtain ⟨o, ho, hi⟩ := regexCapture_sound dlt_lawful hF off _ hs
    simp only [Res.ok.injEq] at ho
    obtain ⟨v, h1, s, t, h2, h3, h4, h5⟩ := hi i (a, b) ho.symm
    have hm := readableAt_iff_msgAt.1 h1
    have hl := encode_len v hm.1
    have hlw := (re.law _ _ _ _ h2).2.2 a b rfl
    have h6 := h4.1
    have hm4 : dltStorage.marker.length = 4 := rfl
    refine ⟨v, s, t, hm, h2, h3, by omega, hlw.1, hlw.2.1, hlw.2.2, ?_, rfl⟩
    rw [hl]; exact h5

/-- **C27 (partial)** for a pattern whose matches and whose group 1 are never empty, the iteration ends. -/
theorem C27_regex_terminates_partial (re : Regex) (bytes : Bytes) (hF : Fits bytes) (hne : NonEmpty re bytes)
    (hg : ∀ s e a b, Captures re bytes s e a b → a < b) (off : Nat) :
    ∃ items, CollectsD (dltRegexNext re bytes) off items := by
  generalize hk : bytes.length - off = k
  induction k using Nat.strongRecOn generalizing off with
  | ind k ih =>
    obtain ⟨r, hr⟩ := regexCapture_terminates dlt_lawful (re := re) hF (fun s e g h => hne s e ⟨g, h⟩) off
    rcases regexNext_cases dlt_lawful (re := re) hF off with ⟨h, _⟩ | ⟨_, h⟩ | ⟨i, a, b, hs, h⟩
    · rw [h] at hr; simp at hr
    · exact ⟨[], CollectsD.nil h⟩
    · obtain ⟨o, ho, hi⟩ := regexCapture_sound dlt_lawful hF off _ hs
      simp only [Res.ok.injEq] at ho
      obtain ⟨v, h1, s, t, h2, h3, _, h5⟩ := hi i (a, b) ho.symm
      have hab := hg s t a b h2
      have hlw := re.law _ _ _ _ h2
      have hlg := hlw.2.2 a b rfl
      obtain ⟨items, hit⟩ := ih (bytes.length - (i + b)) (by omega) (i + b) rfl
      exact ⟨_, CollectsD.cons h hit⟩

/-- The pattern `(x)`. -/
def groupX : Regex where
  matchAt bs s := if bs[s]? = some 120 then some (s + 1, some (s, s + 1)) else none
  law bs s e g h := by
    split at h
    · next hp =>
      obtain ⟨rfl, rfl⟩ : s + 1 = e ∧ some (s, s + 1) = g := by simpa using h
      have := (List.getElem?_eq_some_iff.1 hp).1
      refine ⟨by omega, by omega, ?_⟩
      intro a b hab
      simp only [Option.some.injEq, Prod.mk.injEq] at hab
      omega
    · simp at h

/-- The hypotheses of the termination theorem hold for `(x)`. -/
example (bytes : Bytes) : NonEmpty groupX bytes ∧ ∀ s e a b, Captures groupX bytes s e a b → a < b := by
  constructor
  · rintro s e ⟨g, hg⟩
    simp only [groupX] at hg
    split at hg
    · simp only [Option.some.injEq, Prod.mk.injEq] at hg; omega
    · simp at hg
  · intro s e a b h
    simp only [Captures, groupX] at h
    split at h
    · simp only [Option.some.injEq, Prod.mk.injEq] at h; omega
    · simp at h

theorem groupX_next {bytes : Bytes} (hF : Fits bytes) {off s i : Nat} {v : StorageEntry}
    (h0 : off < bytes.length) (hm : bytes[s]? = some 120) (hle : off ≤ s)
    (hno : ∀ j, j < s → off ≤ j → bytes[j]? ≠ some 120) (hlm : LastMarker dltStorage bytes s i)
    (hr : MsgAt bytes i v) (hin : s + 1 ≤ i + (encode v).length) :
    dltRegexNext groupX bytes off = some (.ok (some (i, (s, s + 1)), i + (s + 1))) := by
  have hc : regexCapture dltStorage groupX bytes off = some (.ok (some (i, (s, s + 1)))) := by
    rw [encode_len v hr.1] at hin
    rw [regexCapture_hit dlt_lawful hF (e := s + 1) (g := some (s, s + 1)) h0 (by simp only [groupX]; rw [if_pos hm])
      hle (fun j h1 h2 => by simp only [groupX]; rw [if_neg (hno j h2 h1)]) hlm (readableAt_iff_msgAt.2 hr) hin]
    rfl
  rcases regexNext_cases dlt_lawful (re := groupX) hF off with ⟨h, _⟩ | ⟨h, _⟩ | ⟨i', a, b, h, h'⟩
  · rw [hc] at h; simp at h
  · rw [hc] at h; simp at h
  · rw [hc] at h
    simp only [Option.some.injEq, Res.ok.injEq, Prod.mk.injEq] at h
    obtain ⟨rfl, rfl, rfl⟩ := h
    exact h'

theorem groupX_stop {bytes : Bytes} (hF : Fits bytes) {off : Nat} (h : ∀ j, off ≤ j → bytes[j]? ≠ some 120) :
    dltRegexNext groupX bytes off = some (.ok (none, off)) := by
  have := regexCapture_end (S := dltStorage) dlt_lawful (re := groupX) hF (off := off)
    (fun s hs => by simp only [groupX]; rw [if_neg (h s hs)])
  unfold dltRegexNext regexNext
  rw [this]

/-- **C27 (violated)** the message at offset 0 contains two `x`: it is reported twice. -/
theorem C27_reported_twice :
    TopLevel (packed [textMsg [120, 120]]) [(0, textMsg [120, 120])] ∧
    CollectsD (dltRegexNext groupX (packed [textMsg [120, 120]])) 0 [(0, (20, 21)), (0, (21, 22))] := by
  have hF : Fits (packed [textMsg [120, 120]]) := by decide
  refine ⟨topLevel_packed (es := [textMsg [120, 120]]) (by decide), ?_⟩
  have hmsg : MsgAt (packed [textMsg [120, 120]]) 0 (textMsg [120, 120]) := ⟨by decide, [], [], by decide, rfl⟩
  refine CollectsD.cons (groupX_next hF (by decide) (by decide) (by omega) (by decide)
    (lastMarker_of (by omega) (by decide) (by decide)) hmsg (by decide)) ?_
  refine CollectsD.cons (groupX_next hF (s := 21) (i := 0) (by decide) (by decide) (by omega) (by decide)
    (lastMarker_of (by omega) (by decide) (by decide)) hmsg (by decide)) ?_
  refine CollectsD.nil (groupX_stop hF fun j hj => ?_)
  rw [List.getElem?_eq_none (by
    have : (packed [textMsg [120, 120]]).length = 22 := rfl
    omega)]
  simp

/-- two empty messages, then two messages containing `x` -/
def skipFile : List StorageEntry := [textMsg [], textMsg [], textMsg [120], textMsg [120]]

/-- **C27 (violated)** the message at offset 61 contains the pattern, but after the hit at 40 (group 1 at
60 .. 61) the iterator goes on at 40 + 61 = 101, behind the end of the file: it is not reported. -/
theorem C27_message_skipped :
    TopLevel (packed skipFile) (packedAt 0 skipFile) ∧ (61, textMsg [120]) ∈ packedAt 0 skipFile ∧
    ContainsMatch groupX (packed skipFile) (61, textMsg [120]) ∧
    CollectsD (dltRegexNext groupX (packed skipFile)) 0 [(40, (60, 61))] := by
  have hF : Fits (packed skipFile) := by decide
  refine ⟨topLevel_packed (by decide), by decide, ⟨81, 82, ⟨some (81, 82), by decide⟩, by decide, by decide⟩, ?_⟩
  refine CollectsD.cons (groupX_next hF (s := 60) (i := 40) (v := textMsg [120]) (by decide) (by decide) (by omega)
    (by decide) (lastMarker_of (by omega) (by decide) (by decide))
    ⟨by decide, packed [textMsg [], textMsg []], packed [textMsg [120]], by decide, by decide⟩ (by decide)) ?_
  refine CollectsD.nil (groupX_stop hF fun j hj => ?_)
  rw [List.getElem?_eq_none (by
    have : (packed skipFile).length = 82 := rfl
    omega)]
  simp

/-- **C27 (violated)** a pattern without a capture group finds nothing at all as soon as its first match lies
in a message: the iterator ends there. -/
theorem C27_no_group_finds_nothing (re : Regex) (hre : ∀ bs s e g, re.matchAt bs s = some (e, g) → g = none)
    (bytes : Bytes) (hF : Fits bytes) (off : Nat) (items : List (Nat × (Nat × Nat)))
    (h : CollectsD (dltRegexNext re bytes) off items) : items = [] := by
  obtain ⟨f, hf⟩ := h
  cases f with
  | zero => simp [collectDN] at hf
  | succ f =>
    rw [collectDN] at hf
    rcases regexNext_cases dlt_lawful (re := re) hF off with ⟨_, h⟩ | ⟨_, h⟩ | ⟨i, a, b, hs, h⟩
    · unfold dltRegexNext at hf; rw [h] at hf; simp at hf
    · unfold dltRegexNext at hf; rw [h] at hf; simp at hf; exact hf
    · obtain ⟨o, ho, hi⟩ := regexCapture_sound dlt_lawful hF off _ hs
      simp only [Res.ok.injEq] at ho
      obtain ⟨v, h1, s, t, h2, _⟩ := hi i (a, b) ho.symm
      have := hre _ _ _ _ h2
      simp at this

end Verif
