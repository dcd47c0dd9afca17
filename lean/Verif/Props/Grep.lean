import Verif.Lemmas.Grep
import Verif.Spec.Grep
import Verif.Props.Contain

/-! # C23–C27: the grep iterators -/

set_option linter.unusedSimpArgs false

namespace Verif
open Spec

/-- `GrepIterator<DltStorageEntry>` = `DltGrepIterator` (rapiddlt/src/lib.rs:9). -/
abbrev dltGrepNext (re : Regex) (bytes : Bytes) := grepNext dltStorage re bytes

/-! ## C23 -/

/-- **C23** whatever the pattern: a call of `next` never panics, and if it yields `(i, e)`, then the complete
message `e` is stored at `i`, and a match of the pattern starting at or after the current offset lies behind
its marker and ends within the message. -/
theorem C23_grep_sound (re : Regex) (bytes : Bytes) (hF : Fits bytes) (off : Nat) :
    dltGrepNext re bytes off ≠ some .panic ∧
    ∀ i e off', dltGrepNext re bytes off = some (.ok (some (i, e), off')) →
      MsgAt bytes i e ∧ off' = i + (encode e).length ∧ ∃ s t, off ≤ s ∧ MatchIn re bytes (i, e) s t := by
  rcases grepNext_cases dlt_lawful (re := re) hF off with ⟨_, h⟩ | ⟨_, h⟩ | ⟨i, v, hs, h⟩
  · unfold dltGrepNext; rw [h]; exact ⟨by simp, by simp⟩
  · unfold dltGrepNext; rw [h]; exact ⟨by simp, by simp⟩
  · unfold dltGrepNext; rw [h]
    refine ⟨by simp, ?_⟩
    intro i' e' off' heq
    simp only [Option.some.injEq, Res.ok.injEq, Prod.mk.injEq] at heq
    obtain ⟨⟨rfl, rfl⟩, rfl⟩ := heq
    obtain ⟨o, ho, hi⟩ := grepSearch_sound dlt_lawful hF off _ hs
    simp only [Res.ok.injEq] at ho
    obtain ⟨h1, s, t, g, h2, h3, h4, h5⟩ := hi i v ho.symm
    have hm := readableAt_iff_msgAt.1 h1
    have hl := encode_len v hm.1
    refine ⟨hm, by rw [hl]; rfl, s, t, h3, ⟨g, h2⟩, h4.1, ?_⟩
    rw [hl]; exact h5

/-! ## C24 -/

theorem grep_increasing (re : Regex) (bytes : Bytes) (hF : Fits bytes) (hne : NonEmpty re bytes) :
    ∀ fuel off items, collectDN (dltGrepNext re bytes) fuel off = some (.ok items) →
      (∀ x ∈ items, ∀ i v, ReadableAt dltStorage bytes i v → i + dltStorage.len v ≤ off → i < x.1) ∧
      items.Pairwise (fun a b => a.1 < b.1) := by
  intro fuel
  induction fuel with
  | zero => intro off items h; simp [collectDN] at h
  | succ fuel ih =>
    intro off items h
    rw [collectDN] at h
    rcases grepNext_cases dlt_lawful (re := re) hF off with ⟨_, h1⟩ | ⟨_, h1⟩ | ⟨i, v, hs, h1⟩
    · unfold dltGrepNext at h; rw [h1] at h; simp at h
    · unfold dltGrepNext at h; rw [h1] at h; simp at h; subst h; simp
    · unfold dltGrepNext at h
      rw [h1] at h
      simp only at h
      cases hc : collectDN (grepNext dltStorage re bytes) fuel (i + dltStorage.len v) with
      | none => rw [hc] at h; simp at h
      | some q =>
        rw [hc] at h
        cases q with
        | panic => simp at h
        | ok as =>
          simp only [Option.some.injEq, Res.ok.injEq] at h
          subst h
          obtain ⟨ih1, ih2⟩ := ih (i + dltStorage.len v) as hc
          obtain ⟨o, ho, hi⟩ := grepSearch_sound dlt_lawful hF off _ hs
          simp only [Res.ok.injEq] at ho
          obtain ⟨hr, s, t, g, h2, h3, h4, h5⟩ := hi i v ho.symm
          have hhead : ∀ j w, ReadableAt dltStorage bytes j w → j + dltStorage.len w ≤ off → j < i := by
            intro j w hj hjl
            have hb := hj.bounds dlt_lawful
            have hst := hne s t ⟨g, h2⟩
            apply Nat.lt_of_le_of_ne
            · apply Nat.le_of_not_lt; intro hlt
              exact h4.2.2 j hlt (by omega) (hj.marker dlt_lawful)
            · rintro rfl
              have := hr.unique dlt_lawful hj
              subst this
              omega
          refine ⟨?_, List.pairwise_cons.2 ⟨fun x hx => ih1 x hx i v hr (Nat.le_refl _), ih2⟩⟩
          intro x hx j w hj hjl
          rcases List.mem_cons.1 hx with h' | h'
          · subst h'; exact hhead j w hj hjl
          · have := ih1 x h' i v hr (Nat.le_refl _)
            have := hhead j w hj hjl
            omega

/-- **C24** for a pattern without empty matches (as C24 says): the offsets yielded strictly increase, so no message
is reported twice. For patterns with empty matches this is false (`C24_repeats_forever`). -/
theorem C24_grep_increasing (re : Regex) (bytes : Bytes) (hF : Fits bytes) (hne : NonEmpty re bytes)
    (off : Nat) (items : List (Nat × StorageEntry)) (h : CollectsD (dltGrepNext re bytes) off items) :
    items.Pairwise fun a b => a.1 < b.1 := by
  obtain ⟨f, hf⟩ := h
  exact (grep_increasing re bytes hF hne f off items hf).2

/-- **C24** (any pattern) the match of a hit starts at or after the end of the message yielded before. -/
theorem C24_grep_resumes_behind (re : Regex) (bytes : Bytes) (hF : Fits bytes) (off off' off'' i j : Nat)
    (e e' : StorageEntry) (h1 : dltGrepNext re bytes off = some (.ok (some (i, e), off')))
    (h2 : dltGrepNext re bytes off' = some (.ok (some (j, e'), off''))) :
    ∃ s t, i + (encode e).length ≤ s ∧ MatchIn re bytes (j, e') s t := by
  obtain ⟨_, h3, _⟩ := (C23_grep_sound re bytes hF off).2 i e off' h1
  obtain ⟨_, _, h4⟩ := (C23_grep_sound re bytes hF off').2 j e' off'' h2
  subst h3; exact h4

/-- The pattern `(?m)$`: matches the empty string at every line end. -/
def eol : Regex where
  matchAt bs s := if s = bs.length ∨ bs[s]? = some 10 then some (s, none) else none
  law bs s e g h := by
    split at h
    · next hp =>
      obtain ⟨rfl, rfl⟩ : s = e ∧ (none : Option (Nat × Nat)) = g := by simpa using h
      refine ⟨Nat.le_refl _, ?_, fun a b h => by simp at h⟩
      rcases hp with h | h
      · omega
      · have := (List.getElem?_eq_some_iff.1 h).1; omega
    · simp at h

/-- **C24, C25 (violated)** the pattern `(?m)$` on a message followed by a newline: every call of `next`
returns that same message again; the iteration never ends. -/
theorem C24_repeats_forever :
    dltGrepNext eol (encode msg0 ++ [10]) 0 = some (.ok (some (0, msg0), 20)) ∧
    dltGrepNext eol (encode msg0 ++ [10]) 20 = some (.ok (some (0, msg0), 20)) ∧
    ∀ items, ¬ CollectsD (dltGrepNext eol (encode msg0 ++ [10])) 0 items := by
  have hF : Fits (encode msg0 ++ [10]) := by decide
  have hl : (encode msg0 ++ [10]).length = 21 := rfl
  have hr0 : ReadableAt dltStorage (encode msg0 ++ [10]) 0 msg0 :=
    readableAt_iff_msgAt.2 ⟨msg0_wf, [], [10], by simp, rfl⟩
  have hmk : ∀ j, j < 20 → 0 < j → ¬ dltMarker <+: (encode msg0 ++ [10]).drop j := by decide
  have hma : ∀ s, s < 20 → eol.matchAt (encode msg0 ++ [10]) s = none := by decide
  have step : ∀ off, off ≤ 20 → dltGrepNext eol (encode msg0 ++ [10]) off = some (.ok (some (0, msg0), 20)) := by
    intro off hoff
    have hs : grepSearch dltStorage eol (encode msg0 ++ [10]) off = some (.ok (some (0, msg0))) := by
      rw [grepSearch_unfold]
      rcases grepBody_cases dlt_lawful (re := eol) hF (grepSearch dltStorage eol (encode msg0 ++ [10])) off with
        ⟨h, _⟩ | ⟨_, s, e, g, hm, h1, h2, h3, h4, hc⟩
      · rcases h with h | h
        · omega
        · exact absurd (h 20 hoff) (by decide)
      · have hs : s = 20 := by
          apply Nat.le_antisymm
          · apply Nat.le_of_not_lt; intro hlt
            exact absurd (h4 20 hoff hlt) (by decide)
          · apply Nat.le_of_not_lt; intro hlt
            rw [hma s hlt] at hm; simp at hm
        subst hs
        have he : e = 20 := by
          have h20 : eol.matchAt (encode msg0 ++ [10]) 20 = some (20, none) := by decide
          rw [h20] at hm; simp at hm; exact hm.1.symm
        subst he
        have hlast : LastMarker dltStorage (encode msg0 ++ [10]) 20 0 := by
          refine ⟨by decide, hr0.marker dlt_lawful, fun j h5 h6 => ?_⟩
          have : dltStorage.marker.length = 4 := rfl
          exact hmk j (by omega) h5
        rcases hc with ⟨i, v, hrd, hlm, hc⟩ | ⟨hno, _⟩
        · have hi : i = 0 := by
            apply Classical.byContradiction; intro hne
            have h4 : dltStorage.marker.length = 4 := rfl
            exact hlast.2.2 i (by omega) hlm.1 hlm.2.1
          subst hi
          have := hrd.unique dlt_lawful hr0
          subst this
          have h20 : dltStorage.len msg0 = 20 := rfl
          rcases hc with ⟨h, _⟩ | ⟨_, h⟩
          · omega
          · exact h
        · exact absurd hr0 (hno 0 msg0 hlast)
    rcases grepNext_cases dlt_lawful (re := eol) hF off with ⟨h, _⟩ | ⟨h, _⟩ | ⟨i, v, h, h'⟩
    · rw [hs] at h; simp at h
    · rw [hs] at h; simp at h
    · rw [hs] at h
      simp only [Option.some.injEq, Res.ok.injEq, Prod.mk.injEq] at h
      obtain ⟨rfl, rfl⟩ := h
      exact h'
  refine ⟨step 0 (by omega), step 20 (by omega), ?_⟩
  rintro items ⟨f, hf⟩
  have key : ∀ f off, off ≤ 20 → collectDN (dltGrepNext eol (encode msg0 ++ [10])) f off = none := by
    intro f
    induction f with
    | zero => intro off _; rfl
    | succ f ih =>
      intro off hoff
      rw [collectDN, step off hoff]
      simp only [ih 20 (by omega)]
  rw [key f 0 (by omega)] at hf
  simp at hf

/-! ## C25 -/

/-- **C25 (partial)** for a pattern without empty matches the iteration ends, from any offset. Missing, and
false: patterns with empty matches (`C25_next_diverges`, `C24_repeats_forever`). -/
theorem C25_grep_terminates_partial (re : Regex) (bytes : Bytes) (hF : Fits bytes) (hne : NonEmpty re bytes)
    (off : Nat) : ∃ items, CollectsD (dltGrepNext re bytes) off items := by
  generalize hk : bytes.length - off = k
  induction k using Nat.strongRecOn generalizing off with
  | ind k ih =>
    obtain ⟨r, hr⟩ := grepSearch_terminates dlt_lawful (re := re) hF (fun s e g h => hne s e ⟨g, h⟩) off
    rcases grepNext_cases dlt_lawful (re := re) hF off with ⟨h, _⟩ | ⟨_, h⟩ | ⟨i, v, hs, h⟩
    · rw [h] at hr; simp at hr
    · exact ⟨[], CollectsD.nil h⟩
    · obtain ⟨o, ho, hi⟩ := grepSearch_sound dlt_lawful hF off _ hs
      simp only [Res.ok.injEq] at ho
      obtain ⟨h1, s, t, g, h2, h3, _, h5⟩ := hi i v ho.symm
      have hst := hne s t ⟨g, h2⟩
      have hb := h1.bounds dlt_lawful
      obtain ⟨items, hit⟩ := ih (bytes.length - (i + dltStorage.len v)) (by omega) (i + dltStorage.len v) rfl
      exact ⟨_, CollectsD.cons h hit⟩

/-- The pattern `x*`: matches a (possibly empty) run of `x` everywhere. Here only the empty case is needed:
the empty pattern. -/
def emptyPattern : Regex where
  matchAt bs s := if s ≤ bs.length then some (s, none) else none
  law bs s e g h := by
    split at h
    · next hp =>
      obtain ⟨rfl, rfl⟩ : s = e ∧ (none : Option (Nat × Nat)) = g := by simpa using h
      exact ⟨Nat.le_refl _, hp, fun a b h => by simp at h⟩
    · simp at h

/-- **C25 (violated)** a pattern that matches the empty string at the beginning of the file makes the first
call of `next` recurse for ever, on every non-empty file. -/
theorem C25_next_diverges (bytes : Bytes) (hF : Fits bytes) (hb : bytes ≠ []) :
    dltGrepNext emptyPattern bytes 0 = none := by
  have hlen : 0 < bytes.length := List.length_pos_iff.2 hb
  have hs : ∀ r, grepSearch dltStorage emptyPattern bytes 0 = some r → False := by
    intro r hr
    refine grepSearch.partial_correctness dltStorage emptyPattern bytes (fun off r => off = 0 → False) ?_ 0 r hr rfl
    intro f ih off r hr h0
    subst h0
    have hr' : grepBody dltStorage emptyPattern bytes f 0 = some r := hr
    rcases grepBody_cases dlt_lawful (re := emptyPattern) hF f 0 with ⟨h, _⟩ | ⟨_, s, e, g, hm, h1, h2, h3, h4, hc⟩
    · rcases h with h | h
      · omega
      · have := h 0 (Nat.le_refl _); simp [emptyPattern] at this
    · have hs0 : s = 0 := by
        apply Classical.byContradiction; intro hne
        have := h4 0 (Nat.le_refl _) (by omega); simp [emptyPattern] at this
      subst hs0
      have he : e = 0 := by simp [emptyPattern] at hm; exact hm.1.symm
      subst he
      rcases hc with ⟨i, v, hrd, hlm, hc⟩ | ⟨hno, ⟨h, _⟩ | ⟨_, h⟩⟩
      · have := hlm.1
        have h4 : dltStorage.marker.length = 4 := rfl
        omega
      · omega
      · rw [h] at hr'; exact ih 0 r hr' rfl
  rcases grepNext_cases dlt_lawful (re := emptyPattern) hF 0 with ⟨_, h⟩ | ⟨h, _⟩ | ⟨i, v, h, _⟩
  · exact h
  · exact absurd h (fun h => hs _ h)
  · exact absurd h (fun h => hs _ h)

/-! ## C26 -/

theorem topLevel_inside_disjoint {bytes : Bytes} {G : List (Nat × StorageEntry)} (hG : TopLevel bytes G)
    {x y : Nat × StorageEntry} (hx : x ∈ G) (hy : y ∈ G) (hlt : x.1 < y.1) :
    x.1 + (encode x.2).length ≤ y.1 := by
  have hd := Spec.Greedy.disjoint hG
  rw [(topLevel_wf hG x hx).2]
  have hbx := (topLevel_wf hG x hx).1.bounds
  have hby := (topLevel_wf hG y hy).1.bounds
  clear hG
  induction G with
  | nil => simp at hx
  | cons g G ih =>
    rw [List.pairwise_cons] at hd
    rcases List.mem_cons.1 hx with h1 | h1
    · subst h1
      rcases List.mem_cons.1 hy with h2 | h2
      · subst h2; omega
      · exact hd.1 y h2
    · rcases List.mem_cons.1 hy with h2 | h2
      · subst h2
        have : y.1 + y.2.len ≤ x.1 := hd.1 x h1
        omega
      · exact ih h1 h2 hd.2

theorem topLevel_same_start {bytes : Bytes} {G : List (Nat × StorageEntry)} (hG : TopLevel bytes G)
    {x y : Nat × StorageEntry} (hx : x ∈ G) (hy : y ∈ G) (h : x.1 = y.1) : x = y := by
  have h1 := (Spec.Greedy.readable hG x hx).1
  have h2 := (Spec.Greedy.readable hG y hy).1
  rw [h] at h1
  have := h1.unique dlt_lawful h2
  exact Prod.ext h this

/-- The messages with a match starting at or after `o`. -/
theorem grep_hits {re : Regex} {bytes : Bytes} (hF : Fits bytes) (hne : NonEmpty re bytes)
    {G : List (Nat × StorageEntry)} (hG : TopLevel bytes G) (hM : MarkersAreMessages bytes G)
    (hnh : NoHiding re bytes G) :
    ∀ (k off : Nat), bytes.length - off = k →
      (grepSearch dltStorage re bytes off = some (.ok none) ∧
        ∀ x ∈ G, ∀ s e, MatchIn re bytes x s e → s < off) ∨
      ∃ x ∈ G, grepSearch dltStorage re bytes off = some (.ok (some x)) ∧
        (∃ s e, off ≤ s ∧ MatchIn re bytes x s e) ∧
        ∀ y ∈ G, y.1 < x.1 → ∀ s e, MatchIn re bytes y s e → s < off := by
  intro k
  induction k using Nat.strongRecOn with
  | ind k ih =>
    intro off hk
    rw [grepSearch_unfold]
    have hm4 : dltStorage.marker.length = 4 := rfl
    rcases grepBody_cases dlt_lawful (re := re) hF (grepSearch dltStorage re bytes) off with
      ⟨h, h'⟩ | ⟨h0, s, e, g, hm, h1, h2, h3, h4, hc⟩
    · left; refine ⟨h', fun x hx s e hin => ?_⟩
      obtain ⟨⟨g, hg⟩, _, _⟩ := hin
      apply Nat.lt_of_not_le; intro hle
      rcases h with h | h
      · have hst := hne s e ⟨g, hg⟩
        have := re.law _ _ _ _ hg
        omega
      · rw [h s hle] at hg; simp at hg
    · have hse := hne s e ⟨g, hm⟩
      have hmat : Matches re bytes s e := ⟨g, hm⟩
      -- skipping to the end of a match that is in no message loses nothing
      have skip : (∀ x ∈ G, ¬ MatchIn re bytes x s e) → ∀ x ∈ G, ∀ s' e', MatchIn re bytes x s' e' → s' < e →
          s' < off := by
        intro hnot x hx s' e' hin hlt
        apply Nat.lt_of_not_le; intro hle
        obtain ⟨⟨g', hg'⟩, _, _⟩ := id hin
        rcases Nat.lt_trichotomy s' s with h | h | h
        · rw [h4 s' hle h] at hg'; simp at hg'
        · subst h
          rw [hm] at hg'
          simp only [Option.some.injEq, Prod.mk.injEq] at hg'
          obtain ⟨rfl, _⟩ := hg'
          exact hnot x hx hin
        · exact hnot x hx (hnh x hx s e s' e' hin hmat h hlt)
      have cont : (∀ x ∈ G, ¬ MatchIn re bytes x s e) →
          (grepSearch dltStorage re bytes e = some (.ok none) ∧
            ∀ x ∈ G, ∀ s e, MatchIn re bytes x s e → s < off) ∨
          ∃ x ∈ G, grepSearch dltStorage re bytes e = some (.ok (some x)) ∧
            (∃ s e, off ≤ s ∧ MatchIn re bytes x s e) ∧
            ∀ y ∈ G, y.1 < x.1 → ∀ s e, MatchIn re bytes y s e → s < off := by
        intro hnot
        rcases ih (bytes.length - e) (by omega) e rfl with ⟨h5, h6⟩ | ⟨x, hx, h5, ⟨s', e', h6, h7⟩, h8⟩
        · left; exact ⟨h5, fun x hx s' e' hin => skip hnot x hx s' e' hin (h6 x hx s' e' hin)⟩
        · right
          exact ⟨x, hx, h5, ⟨s', e', by omega, h7⟩,
            fun y hy hlt s' e' hin => skip hnot y hy s' e' hin (h8 y hy hlt s' e' hin)⟩
      rcases hc with ⟨i, v, hrd, hlm, hc⟩ | ⟨hno, hc⟩
      · obtain ⟨v', hiv⟩ := hM i hlm.2.1
        have hvv : v' = v := (Spec.Greedy.readable hG (i, v') hiv).1.unique dlt_lawful hrd
        subst hvv
        have hlen := (topLevel_wf hG _ hiv).2
        simp only at hlen
        have hl2 : dltStorage.len v' = v'.len := rfl
        rcases hc with ⟨he, h⟩ | ⟨he, h⟩
        · rw [h]
          apply cont
          intro x hx hin
          obtain ⟨_, hx1, hx2⟩ := hin
          rcases Nat.lt_trichotomy x.1 i with h' | h' | h'
          · have := topLevel_inside_disjoint hG hx hiv h'
            simp only at this; omega
          · have := topLevel_same_start hG hx hiv h'
            subst this
            simp only at hx2; omega
          · exact hlm.2.2 x.1 h' (by omega) ((Spec.Greedy.readable hG x hx).1.marker dlt_lawful)
        · right
          refine ⟨(i, v'), hiv, h, ⟨s, e, h1, hmat, hlm.1, by simp only; omega⟩, ?_⟩
          intro y hy hlt s' e' hin
          have := topLevel_inside_disjoint hG hy hiv hlt
          obtain ⟨hma', _, hy2⟩ := hin
          have := hne s' e' hma'
          apply Nat.lt_of_not_le; intro hle
          obtain ⟨g', hg'⟩ := hma'
          have h6 := hlm.1
          rw [h4 s' hle (by omega)] at hg'; simp at hg'
      · have hnot : ∀ x ∈ G, ¬ MatchIn re bytes x s e := by
          intro x hx hin
          -- the last marker before `s` would be a readable message
          have hrx := (Spec.Greedy.readable hG x hx).1
          have hex : ∃ i, LastMarker dltStorage bytes s i := by
            rcases revSearch_spec dlt_lawful.toReads s hF (by omega) with ⟨i, v, _, h6, h7, h8⟩ | ⟨_, h | ⟨i, h6, h7, _, h9⟩⟩
            · exact ⟨i, h6, h7.marker dlt_lawful, h8⟩
            · exact absurd (hrx.marker dlt_lawful) (h x.1 hin.2.1)
            · exact ⟨i, h6, h7, h9⟩
          obtain ⟨i, hi⟩ := hex
          obtain ⟨w, hw⟩ := hM i hi.2.1
          exact hno i w hi (Spec.Greedy.readable hG (i, w) hw).1
        rcases hc with ⟨he, h⟩ | ⟨_, h⟩
        · left
          refine ⟨h, fun x hx s' e' hin => ?_⟩
          apply skip hnot x hx s' e' hin
          obtain ⟨⟨g', hg'⟩, _, _⟩ := id hin
          have := hne s' e' ⟨g', hg'⟩
          have := re.law _ _ _ _ hg'
          omega
        · rw [h]; exact cont hnot

/-- **C26 (partial)** on a file in which the marker occurs only where a top-level message starts, and for a
pattern without empty matches whose matches inside messages are not overlapped from the left by matches
reaching across message boundaries: grep yields exactly the top-level messages that contain a match, in file
order. Missing, and false: files with markers inside payloads, and patterns whose matches reach across
messages (`C26_spanning_match_hides_hit`). -/
theorem C26_grep_complete_partial (re : Regex) (bytes : Bytes) (hF : Fits bytes) (hne : NonEmpty re bytes)
    (G : List (Nat × StorageEntry)) (hG : TopLevel bytes G) (hM : MarkersAreMessages bytes G)
    (hnh : NoHiding re bytes G) :
    ∃ items, CollectsD (dltGrepNext re bytes) 0 items ∧ (items.Pairwise fun a b => a.1 < b.1) ∧
      ∀ x, x ∈ items ↔ x ∈ G ∧ ContainsMatch re bytes x := by
  obtain ⟨items, hit⟩ := C25_grep_terminates_partial re bytes hF hne 0
  refine ⟨items, hit, C24_grep_increasing re bytes hF hne 0 items hit, ?_⟩
  obtain ⟨f, hf⟩ := hit
  have key : ∀ f off items, collectDN (dltGrepNext re bytes) f off = some (.ok items) →
      ∀ x, x ∈ items ↔ x ∈ G ∧ ∃ s e, off ≤ s ∧ MatchIn re bytes x s e := by
    intro f
    induction f with
    | zero => intro off items h; simp [collectDN] at h
    | succ f ih =>
      intro off items h x
      rw [collectDN] at h
      unfold dltGrepNext at h
      rcases grep_hits hF hne hG hM hnh _ off rfl with ⟨h1, h2⟩ | ⟨y, hy, h1, ⟨s1, e1, h2, h3⟩, h4⟩
      · rcases grepNext_cases dlt_lawful (re := re) hF off with ⟨h5, _⟩ | ⟨_, h5⟩ | ⟨i, v, h5, _⟩
        · rw [h1] at h5; simp at h5
        · rw [h5] at h; simp at h; subst h
          simp only [List.not_mem_nil, false_iff]
          rintro ⟨hx, s, e, h6, h7⟩
          have := h2 x hx s e h7; omega
        · rw [h1] at h5; simp at h5
      · rcases grepNext_cases dlt_lawful (re := re) hF off with ⟨h5, _⟩ | ⟨h5, _⟩ | ⟨i, v, h5, h6⟩
        · rw [h1] at h5; simp at h5
        · rw [h1] at h5; simp at h5
        · rw [h1] at h5
          simp only [Option.some.injEq, Res.ok.injEq] at h5
          subst h5
          rw [h6] at h
          simp only at h
          cases hc : collectDN (grepNext dltStorage re bytes) f (i + dltStorage.len v) with
          | none => rw [hc] at h; simp at h
          | some q =>
            rw [hc] at h
            cases q with
            | panic => simp at h
            | ok as =>
              simp only [Option.some.injEq, Res.ok.injEq] at h
              subst h
              have hlen := (topLevel_wf hG _ hy).2
              simp only at hlen
              have hl2 : dltStorage.len v = v.len := rfl
              rw [List.mem_cons, ih _ _ hc]
              have hiv := h3.2.2
              simp only at hiv
              have hse := hne s1 e1 h3.1
              constructor
              · rintro (rfl | ⟨hx, s, e, h7, h8⟩)
                · exact ⟨hy, s1, e1, h2, h3⟩
                · exact ⟨hx, s, e, by omega, h8⟩
              · rintro ⟨hx, s, e, h7, h8⟩
                rcases Nat.lt_trichotomy x.1 i with h' | h' | h'
                · have := h4 x hx h' s e h8; omega
                · left; exact topLevel_same_start hG hx hy h'
                · right
                  have := topLevel_inside_disjoint hG hy hx h'
                  have := h8.2.1
                  simp only at *
                  exact ⟨hx, s, e, by omega, h8⟩
  intro x
  rw [key f 0 items hf x]
  constructor
  · rintro ⟨hx, s, e, _, h⟩; exact ⟨hx, s, e, h⟩
  · rintro ⟨hx, s, e, h⟩; exact ⟨hx, s, e, Nat.zero_le _, h⟩

/-- Two occurrences of a byte string without a border never overlap. -/
theorem literal_noHiding (needle : Bytes) (hb : ∀ k, 0 < k → k < needle.length → ¬ needle.drop k <+: needle)
    (bytes : Bytes) (G : List (Nat × StorageEntry)) : NoHiding (literal needle) bytes G := by
  intro x hx s e s' e' hin hm h1 h2
  exfalso
  obtain ⟨⟨g', hg'⟩, _, _⟩ := hin
  obtain ⟨g, hg⟩ := hm
  simp only [literal] at hg hg'
  split at hg
  · next hp =>
    split at hg'
    · next hp' =>
      simp only [Option.some.injEq, Prod.mk.injEq] at hg
      have he : s' - s < needle.length := by omega
      apply hb (s' - s) (by omega) he
      obtain ⟨r, hr⟩ := hp.1
      have h3 : bytes.drop s' = needle.drop (s' - s) ++ r := by
        have : bytes.drop s' = (bytes.drop s).drop (s' - s) := by
          rw [List.drop_drop]; congr 1; omega
        rw [this, ← hr, List.drop_append_of_le_length (by omega)]
      have h4 := hp'.1
      rw [h3] at h4
      exact List.prefix_of_prefix_length_le (List.prefix_append _ _) h4 (by rw [List.length_drop]; omega)
    · simp at hg'
  · simp at hg

/-- **C26 (partial)** searching a byte string that does not overlap itself (such as `Hello World`) in a file in
which the marker occurs only where a top-level message starts: grep yields exactly the messages containing it. -/
theorem C26_grep_literal_partial (needle : Bytes) (hpos : needle ≠ [])
    (hb : ∀ k, 0 < k → k < needle.length → ¬ needle.drop k <+: needle) (bytes : Bytes) (hF : Fits bytes)
    (G : List (Nat × StorageEntry)) (hG : TopLevel bytes G) (hM : MarkersAreMessages bytes G) :
    ∃ items, CollectsD (dltGrepNext (literal needle) bytes) 0 items ∧
      (items.Pairwise fun a b => a.1 < b.1) ∧
      ∀ x, x ∈ items ↔ x ∈ G ∧ needle <:+: (encode x.2).drop 4 := by
  have hlen : 0 < needle.length := List.length_pos_iff.2 hpos
  obtain ⟨items, h1, h2, h3⟩ := C26_grep_complete_partial (literal needle) bytes hF (by
      rintro s e ⟨g, hg⟩
      simp only [literal] at hg
      split at hg
      · simp at hg; omega
      · simp at hg) G hG hM (literal_noHiding needle hb bytes G)
  refine ⟨items, h1, h2, fun x => ?_⟩
  rw [h3]
  have : ∀ hx : x ∈ G, ContainsMatch (literal needle) bytes x ↔ needle <:+: (encode x.2).drop 4 := by
    intro hx
    obtain ⟨⟨hwf, pre, post, hbytes, hpre⟩, _⟩ := topLevel_wf hG x hx
    have hel := encode_length x.2
    have hdrop : bytes.drop x.1 = encode x.2 ++ post := by
      rw [hbytes, ← hpre, List.append_assoc, List.drop_left]
    constructor
    · rintro ⟨s, e, ⟨g, hg⟩, h4, h5⟩
      simp only [literal] at hg
      split at hg
      · next hp =>
        simp only [Option.some.injEq, Prod.mk.injEq] at hg
        obtain ⟨k, rfl⟩ : ∃ k, s = x.1 + (4 + k) := ⟨s - x.1 - 4, by omega⟩
        have hp1 := hp.1
        rw [← List.drop_drop, hdrop, List.drop_append_of_le_length (by omega)] at hp1
        have hp2 := List.prefix_of_prefix_length_le hp1 (List.prefix_append _ _) (by
          rw [List.length_drop]; omega)
        rw [← List.drop_drop] at hp2
        exact hp2.isInfix.trans (List.drop_suffix _ _).isInfix
      · simp at hg
    · rintro ⟨a, c, hac⟩
      have hl := congrArg List.length hac
      simp only [List.length_append, List.length_drop] at hl
      refine ⟨x.1 + (4 + a.length), x.1 + (4 + a.length) + needle.length, ⟨none, ?_⟩, by omega, by omega⟩
      simp only [literal]
      rw [if_pos]
      refine ⟨?_, ?_⟩
      · rw [← List.drop_drop, hdrop, List.drop_append_of_le_length (by omega), ← List.drop_drop, ← hac,
          List.append_assoc, List.drop_left, List.append_assoc]
        exact List.prefix_append _ _
      · rw [hbytes]; simp only [List.length_append]; omega
  constructor
  · rintro ⟨hx, h⟩; exact ⟨hx, (this hx).1 h⟩
  · rintro ⟨hx, h⟩; exact ⟨hx, (this hx).2 h⟩

end Verif
