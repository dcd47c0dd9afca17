import Verif.Props.GrepExact
import Verif.Props.GrepCapture

/-! # C25, C27: exactly when the searches for a pattern end -/

set_option linter.unusedSimpArgs false

namespace Verif

open Spec

/-- The offsets grep gets to from `off`: behind the matches it skips and behind the messages it yields. -/
inductive Spec.GetsTo (re : Regex) (bytes : Bytes) : Nat → Nat → Prop where
  | here (off : Nat) : GetsTo re bytes off off
  | skip {off s e q : Nat} {g : Option (Nat × Nat)} : off < bytes.length → NextMatch re bytes off s e g →
      Outside bytes s e → GetsTo re bytes e q → GetsTo re bytes off q
  | hit {off s e q : Nat} {g : Option (Nat × Nat)} {x : Nat × StorageEntry} : off < bytes.length →
      NextMatch re bytes off s e g → Owner bytes s x → e ≤ x.1 + (encode x.2).length →
      GetsTo re bytes (x.1 + (encode x.2).length) q → GetsTo re bytes off q

/-- The offsets the capture iterator gets to from `off`: behind the matches it skips, and at the sum of the offset of a
message it yields and the end of group 1. -/
inductive Spec.CaptureGetsTo (re : Regex) (bytes : Bytes) : Nat → Nat → Prop where
  | here (off : Nat) : CaptureGetsTo re bytes off off
  | skip {off s e q : Nat} {g : Option (Nat × Nat)} : off < bytes.length → NextMatch re bytes off s e g →
      Outside bytes s e → CaptureGetsTo re bytes e q → CaptureGetsTo re bytes off q
  | hit {off s e a b q : Nat} {x : Nat × StorageEntry} : off < bytes.length →
      NextMatch re bytes off s e (some (a, b)) → Owner bytes s x → e ≤ x.1 + (encode x.2).length →
      CaptureGetsTo re bytes (x.1 + b) q → CaptureGetsTo re bytes off q

section
variable {re : Regex} {bytes : Bytes}

theorem search_skip {off s e : Nat} {g o} (h0 : off < bytes.length) (hn : NextMatch re bytes off s e g)
    (ho : Outside bytes s e) (h : Search re bytes off o) : Search re bytes e o := by
  cases h with
  | past => omega
  | noMatch h => exact absurd ⟨_, hn.2.1⟩ (h _ _ hn.1)
  | hit _ hn' hx he =>
    obtain ⟨rfl, rfl, rfl⟩ := hn.unique hn'
    have := ho _ hx; omega
  | skip _ hn' _ hs =>
    obtain ⟨rfl, rfl, rfl⟩ := hn.unique hn'
    exact hs

theorem search_hit {off s e : Nat} {g o} {x : Nat × StorageEntry} (h0 : off < bytes.length)
    (hn : NextMatch re bytes off s e g) (hx : Owner bytes s x) (he : e ≤ x.1 + (encode x.2).length)
    (h : Search re bytes off o) : o = some (x, g) := by
  cases h with
  | past => omega
  | noMatch h => exact absurd ⟨_, hn.2.1⟩ (h _ _ hn.1)
  | hit _ hn' hx' he' =>
    obtain ⟨rfl, rfl, rfl⟩ := hn.unique hn'
    rw [owner_unique hx hx']
  | skip _ hn' ho _ =>
    obtain ⟨rfl, rfl, rfl⟩ := hn.unique hn'
    have := ho _ hx; omega

theorem grepYields_gets {off q : Nat} (h : GetsTo re bytes off q) :
    ∀ {items}, GrepYields re bytes off items → ∃ items', GrepYields re bytes q items' := by
  induction h with
  | here => exact fun h => ⟨_, h⟩
  | skip h0 hn ho _ ih =>
    intro items hg
    cases hg with
    | done hs => exact ih (.done (search_skip h0 hn ho hs))
    | hit hs hg => exact ih (.hit (search_skip h0 hn ho hs) hg)
  | hit h0 hn hx he _ ih =>
    intro items hg
    cases hg with
    | done hs => cases search_hit h0 hn hx he hs
    | hit hs hg => cases search_hit h0 hn hx he hs; exact ih hg

theorem captureYields_gets {off q : Nat} (h : CaptureGetsTo re bytes off q) :
    ∀ {items}, CaptureYields re bytes off items → ∃ items', CaptureYields re bytes q items' := by
  induction h with
  | here => exact fun h => ⟨_, h⟩
  | skip h0 hn ho _ ih =>
    intro items hg
    cases hg with
    | done hs => exact ih (.done (search_skip h0 hn ho hs))
    | noGroup hs => exact ih (.noGroup (search_skip h0 hn ho hs))
    | hit hs hg => exact ih (.hit (search_skip h0 hn ho hs) hg)
  | hit h0 hn hx he _ ih =>
    intro items hg
    cases hg with
    | done hs => cases search_hit h0 hn hx he hs
    | noGroup hs => cases search_hit h0 hn hx he hs
    | hit hs hg => cases search_hit h0 hn hx he hs; exact ih hg

/-- From an offset at which the pattern matches the empty string, not in front of the end of the message that owns it, the
search finds nothing, or a message that ends there. -/
theorem stuck_search {q : Nat} (hq : q < bytes.length) {g} (hm : re.matchAt bytes q = some (q, g))
    (hb : ∀ x, Owner bytes q x → x.1 + (encode x.2).length ≤ q) {o} (h : Search re bytes q o) :
    ∃ x, o = some (x, g) ∧ Owner bytes q x ∧ x.1 + (encode x.2).length = q := by
  have hn : NextMatch re bytes q q q g := ⟨Nat.le_refl _, hm, fun j e' h1 h2 => by omega⟩
  generalize hp : q = p at h
  induction h with
  | past => omega
  | noMatch h => subst hp; exact absurd ⟨_, hn.2.1⟩ (h _ _ hn.1)
  | hit _ hn' hx he =>
    subst hp
    obtain ⟨rfl, rfl, rfl⟩ := hn.unique hn'
    have := hb _ hx
    exact ⟨_, rfl, hx, by omega⟩
  | skip _ hn' _ _ ih =>
    subst hp
    obtain ⟨rfl, rfl, rfl⟩ := hn.unique hn'
    exact ih rfl

theorem stuck_grep {q : Nat} (hq : q < bytes.length) (hm : Matches re bytes q q)
    (hb : ∀ x, Owner bytes q x → x.1 + (encode x.2).length ≤ q) {items} : ¬ GrepYields re bytes q items := by
  intro h
  obtain ⟨g, hm⟩ := hm
  generalize hp : q = p at h
  induction h with
  | done hs => subst hp; obtain ⟨x, h, -⟩ := stuck_search hq hm hb hs; cases h
  | hit hs _ ih =>
    subst hp
    obtain ⟨x, h, -, h2⟩ := stuck_search hq hm hb hs
    cases h
    exact ih h2.symm

/-- **C25** exactly when grep ends: for every pattern, file and offset, the iteration ends if and only if it does not get
to an offset in the file at which the pattern matches the empty string and which does not lie in the message its byte
is attributed to (it is at or behind the end of that message, or attributed to none). -/
theorem C25_terminates_iff (re : Regex) (bytes : Bytes) (hF : Fits bytes) (off : Nat) :
    (∃ items, CollectsD (dltGrepNext re bytes) off items) ↔
    ¬ ∃ q, GetsTo re bytes off q ∧ q < bytes.length ∧ Matches re bytes q q ∧
      ∀ x, Owner bytes q x → x.1 + (encode x.2).length ≤ q := by
  constructor
  · rintro ⟨items, h⟩ ⟨q, h1, h2, h3, h4⟩
    obtain ⟨items', h5⟩ := grepYields_gets h1 ((C81_grep_exact re bytes hF off items).1 h)
    exact stuck_grep h2 h3 h4 h5
  · intro hno
    suffices h : ∃ items, GrepYields re bytes off items by
      obtain ⟨items, h⟩ := h
      exact ⟨items, (C81_grep_exact re bytes hF off items).2 h⟩
    generalize hk : bytes.length - off = k
    induction k using Nat.strongRecOn generalizing off with
    | ind k ih =>
      rcases grepStep re hF (fun _ => none) off with
        ⟨h | h, _⟩ | ⟨s, e, g, h0, hn, h3, ⟨x, hx, he, -⟩ | ⟨ho, -⟩⟩
      · exact ⟨[], .done (.past h)⟩
      · exact ⟨[], .done (.noMatch h)⟩
      · have hlaw := re.law _ _ _ _ hn.2.1
        have h1 := hn.1
        by_cases hlt : off < x.1 + (encode x.2).length
        · obtain ⟨items, hi⟩ := ih (bytes.length - (x.1 + (encode x.2).length)) (by omega) (x.1 + (encode x.2).length)
            (fun ⟨q, h4, h5⟩ => hno ⟨q, .hit h0 hn hx he h4, h5⟩) rfl
          exact ⟨_, .hit (.hit h0 hn hx he) hi⟩
        · exfalso
          have e1 : s = off := by omega
          have e2 : e = off := by omega
          subst e1
          rw [e2] at hn
          exact hno ⟨s, .here _, h0, ⟨g, hn.2.1⟩, fun y hy => by rw [owner_unique hy hx]; omega⟩
      · have hlaw := re.law _ _ _ _ hn.2.1
        have h1 := hn.1
        by_cases hlt : off < e
        · obtain ⟨items, hi⟩ := ih (bytes.length - e) (by omega) e (fun ⟨q, h4, h5⟩ => hno ⟨q, .skip h0 hn ho h4, h5⟩) rfl
          cases hi with
          | done hs => exact ⟨_, .done (.skip h0 hn ho hs)⟩
          | hit hs hg => exact ⟨_, .hit (.skip h0 hn ho hs) hg⟩
        · exfalso
          have e1 : s = off := by omega
          have e2 : e = off := by omega
          subst e1
          rw [e2] at hn ho
          exact hno ⟨s, .here _, h0, ⟨g, hn.2.1⟩, fun y hy => by have := ho y hy; omega⟩

theorem stuck_capture {q : Nat} (hq : q < bytes.length) {e : Nat} {x : Nat × StorageEntry} (hx0 : x.1 = 0)
    (hm : re.matchAt bytes q = some (e, some (q, q))) (hx : Owner bytes q x) (he : e ≤ x.1 + (encode x.2).length)
    {items} : ¬ CaptureYields re bytes q items := by
  intro h
  have hn : NextMatch re bytes q q e (some (q, q)) := ⟨Nat.le_refl _, hm, fun j e' h1 h2 => by omega⟩
  generalize hp : q = p at h
  induction h with
  | done hs => subst hp; cases search_hit hq hn hx he hs
  | noGroup hs => subst hp; cases search_hit hq hn hx he hs
  | hit hs _ ih => subst hp; cases search_hit hq hn hx he hs; exact ih (by omega)

/-- **C27** exactly when the capture iterator ends: for every pattern, file and offset, if and only if it does not get to
an offset `q` in the file at which the pattern matches the empty string outside a message (`next` does not return), or
at which a match starts in a message at the beginning of the file with group 1 empty at `q` (the same result for ever). -/
theorem C27_terminates_iff (re : Regex) (bytes : Bytes) (hF : Fits bytes) (off : Nat) :
    (∃ items, CollectsD (dltRegexNext re bytes) off items) ↔
    ¬ ∃ q, CaptureGetsTo re bytes off q ∧ q < bytes.length ∧
      ((Matches re bytes q q ∧ Outside bytes q q) ∨
       ∃ e x, re.matchAt bytes q = some (e, some (q, q)) ∧ Owner bytes q x ∧ e ≤ x.1 + (encode x.2).length ∧ x.1 = 0) := by
  constructor
  · rintro ⟨items, h⟩ ⟨q, h1, h2, h3⟩
    obtain ⟨items', h5⟩ := captureYields_gets h1 ((C82_capture_exact re bytes hF off items).1 h)
    rcases h3 with ⟨⟨g, hm⟩, ho⟩ | ⟨e, x, hm, hx, he, hx0⟩
    · have key : ∀ o, ¬ Search re bytes q o := fun o hs => by
        obtain ⟨x, -, hx, hq⟩ := stuck_search h2 hm (fun x hx => Nat.le_of_lt (ho x hx)) hs
        have := ho x hx
        omega
      cases h5 with
      | done hs => exact key _ hs
      | noGroup hs => exact key _ hs
      | hit hs _ => exact key _ hs
    · exact stuck_capture h2 hx0 hm hx he h5
  · intro hno
    suffices h : ∃ items, CaptureYields re bytes off items by
      obtain ⟨items, h⟩ := h
      exact ⟨items, (C82_capture_exact re bytes hF off items).2 h⟩
    generalize hk : bytes.length - off = k
    induction k using Nat.strongRecOn generalizing off with
    | ind k ih =>
      rcases grepStep re hF (fun _ => none) off with
        ⟨h | h, _⟩ | ⟨s, e, g, h0, hn, h3, ⟨x, hx, he, -⟩ | ⟨ho, -⟩⟩
      · exact ⟨[], .done (.past h)⟩
      · exact ⟨[], .done (.noMatch h)⟩
      · have hlaw := re.law _ _ _ _ hn.2.1
        have h1 := hn.1
        cases g with
        | none => exact ⟨[], .noGroup (.hit h0 hn hx he)⟩
        | some r =>
          obtain ⟨a, b⟩ := r
          have hab := hlaw.2.2 a b rfl
          by_cases hlt : off < x.1 + b
          · obtain ⟨items, hi⟩ := ih (bytes.length - (x.1 + b)) (by omega) (x.1 + b)
              (fun ⟨q, h4, h5⟩ => hno ⟨q, .hit h0 hn hx he h4, h5⟩) rfl
            exact ⟨_, .hit (.hit h0 hn hx he) hi⟩
          · exfalso
            have e0 : x.1 = 0 := by omega
            have e1 : s = off := by omega
            have e2 : a = off := by omega
            have e3 : b = off := by omega
            subst e1
            rw [e2, e3] at hn
            exact hno ⟨s, .here _, h0, .inr ⟨e, x, hn.2.1, hx, he, e0⟩⟩
      · have hlaw := re.law _ _ _ _ hn.2.1
        have h1 := hn.1
        by_cases hlt : off < e
        · obtain ⟨items, hi⟩ := ih (bytes.length - e) (by omega) e (fun ⟨q, h4, h5⟩ => hno ⟨q, .skip h0 hn ho h4, h5⟩) rfl
          cases hi with
          | done hs => exact ⟨_, .done (.skip h0 hn ho hs)⟩
          | noGroup hs => exact ⟨_, .noGroup (.skip h0 hn ho hs)⟩
          | hit hs hg => exact ⟨_, .hit (.skip h0 hn ho hs) hg⟩
        · exfalso
          have e1 : s = off := by omega
          have e2 : e = off := by omega
          subst e1
          rw [e2] at hn ho
          exact hno ⟨s, .here _, h0, .inl ⟨⟨g, hn.2.1⟩, ho⟩⟩

end

/-- The pattern `(?m)$` matches the empty string, and grep ends on a file with one message and no newline; it does not if a
newline follows. -/
example : (∃ items, CollectsD (dltGrepNext eol (encode msg0)) 0 items) ∧
    ¬ ∃ items, CollectsD (dltGrepNext eol (encode msg0 ++ [10])) 0 items := by
  constructor
  · rw [C25_terminates_iff eol _ (by decide)]
    rintro ⟨q, -, h1, ⟨g, h2⟩, -⟩
    have : ∀ s, s < 20 → eol.matchAt (encode msg0) s = none := by decide
    rw [this q h1] at h2
    cases h2
  · rintro ⟨items, h⟩
    exact C24_repeats_forever.2.2 items h

/-- The pattern `(?m)($)`. -/
def eolGroup : Regex where
  matchAt bs s := if s = bs.length ∨ bs[s]? = some 10 then some (s, some (s, s)) else none
  law bs s e g h := by
    split at h
    · next hp =>
      obtain ⟨rfl, rfl⟩ : s = e ∧ some (s, s) = g := by simpa using h
      refine ⟨Nat.le_refl _, ?_, fun a b h => by simp at h; omega⟩
      rcases hp with h | h
      · omega
      · have := (List.getElem?_eq_some_iff.1 h).1; omega
    · simp at h

/-- **C27 (violated)** the pattern `(?m)($)` on one message with a newline in its payload: the iteration never ends. -/
theorem C27_line_end_never_ends : ∀ items, ¬ CollectsD (dltRegexNext eolGroup (encode (textMsg [97, 10]))) 0 items := by
  intro items h
  have hown : Owner (encode (textMsg [97, 10])) 21 (0, textMsg [97, 10]) := by
    refine ⟨by decide, ⟨⟨rfl, rfl⟩, [], [], by simp, rfl⟩, ?_⟩
    have key : ∀ j, j < 22 → 0 < j → ¬ dltMarker <+: (encode (textMsg [97, 10])).drop j := by decide
    exact fun j h1 h2 => key j (by omega) h1
  refine (C27_terminates_iff eolGroup _ (by decide) 0).1 ⟨items, h⟩ ⟨21, ?_, by decide, .inr ⟨21, (0, textMsg [97, 10]), ?_, ?_, ?_, rfl⟩⟩
  · refine .hit (s := 21) (e := 21) (a := 21) (b := 21) (x := (0, textMsg [97, 10])) (by decide) ⟨by decide, by decide, ?_⟩ ?_ (by decide) (.here _)
    · intro j e' _ hj ⟨g, hg⟩
      have : ∀ s, s < 21 → eolGroup.matchAt (encode (textMsg [97, 10])) s = none := by decide
      rw [this j hj] at hg
      cases hg
    · exact hown
  · decide
  · exact hown
  · decide

end Verif
