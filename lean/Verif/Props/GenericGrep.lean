import Verif.Spec.Generic
import Verif.Props.GrepExact

/-! # The grep iterators, exactly, for any lawful message type, any pattern and any byte sequence -/

set_option linter.unusedSimpArgs false

namespace Verif.Any

open Spec

section
variable {T : Type} {S : SearchableMarker T}

theorem owner_unique (L : Lawful S) {bytes : Bytes} {s : Nat} {x y : Nat × T} (hx : OwnerOf S bytes s x)
    (hy : OwnerOf S bytes s y) : x = y := by
  have h1 : x.1 = y.1 := by
    rcases Nat.lt_trichotomy x.1 y.1 with h | h | h
    · exact absurd (hy.2.1.marker L) (hx.2.2 y.1 h hy.1)
    · exact h
    · exact absurd (hx.2.1.marker L) (hy.2.2 x.1 h hx.1)
  have h2 := hx.2.1
  rw [h1] at h2
  exact Prod.ext h1 (h2.unique L hy.2.1)

theorem owner_of_lastMarker {bytes : Bytes} {s i : Nat} {v : T} (h : LastMarker S bytes s i)
    (hr : ReadableAt S bytes i v) : OwnerOf S bytes s (i, v) :=
  ⟨h.1, hr, h.2.2⟩

theorem lastMarker_of_owner (L : Lawful S) {bytes : Bytes} {s : Nat} {x : Nat × T} (h : OwnerOf S bytes s x) :
    LastMarker S bytes s x.1 ∧ ReadableAt S bytes x.1 x.2 :=
  ⟨⟨h.1, h.2.1.marker L, h.2.2⟩, h.2.1⟩

/-- The four cases of one step of `search`. -/
theorem grepStep (L : Lawful S) (re : Regex) {bytes : Bytes} (hF : Fits bytes) (f : Nat → Option (Res (Option (Nat × T))))
    (off : Nat) :
    ((bytes.length ≤ off ∨ ∀ s e, off ≤ s → ¬ Matches re bytes s e) ∧
      grepBody S re bytes f off = some (.ok none)) ∨
    ∃ s e g, off < bytes.length ∧ NextMatch re bytes off s e g ∧ e ≤ bytes.length ∧
      ((∃ x, OwnerOf S bytes s x ∧ e ≤ x.1 + S.len x.2 ∧
          grepBody S re bytes f off = some (.ok (some x))) ∨
       (OutsideOf S bytes s e ∧ (grepBody S re bytes f off = f e ∨
          (bytes.length ≤ e ∧ grepBody S re bytes f off = some (.ok none))))) := by
  rcases grepBody_cases L (re := re) hF f off with ⟨h, h'⟩ | ⟨h0, s, e, g, hm, h1, h2, h3, h4, hc⟩
  · left; refine ⟨?_, h'⟩
    rcases h with h | h
    · exact Or.inl h
    · right; rintro s e hs ⟨g, hg⟩; rw [h s hs] at hg; simp at hg
  · right
    refine ⟨s, e, g, h0, ⟨h1, hm, ?_⟩, h3, ?_⟩
    · rintro j e' hj hj' ⟨g', hg'⟩; rw [h4 j hj hj'] at hg'; simp at hg'
    · rcases hc with ⟨i, v, hrd, hlm, hc⟩ | ⟨hno, hc⟩
      · have ho := owner_of_lastMarker hlm hrd
        rcases hc with ⟨he, h⟩ | ⟨he, h⟩
        · right; refine ⟨fun x hx => ?_, Or.inl h⟩
          rw [owner_unique L hx ho]; simp only; omega
        · left; exact ⟨(i, v), ho, by simp only; omega, h⟩
      · right
        refine ⟨fun x hx => ?_, ?_⟩
        · obtain ⟨ha, hb⟩ := lastMarker_of_owner L hx
          exact absurd hb (hno x.1 x.2 ha)
        · rcases hc with ⟨he, h⟩ | ⟨_, h⟩
          · exact Or.inr ⟨he, h⟩
          · exact Or.inl h

theorem grepSearch_search (L : Lawful S) (re : Regex) {bytes : Bytes} (hF : Fits bytes) (off : Nat)
    (r : Res (Option (Nat × T))) (h : grepSearch S re bytes off = some r) :
    ∃ o, r = .ok (o.map Prod.fst) ∧ SearchOf S re bytes off o := by
  refine grepSearch.partial_correctness S re bytes
    (fun off r => ∃ o, r = .ok (o.map Prod.fst) ∧ SearchOf S re bytes off o) ?_ off r h
  intro f ih off r hr
  have hr' : grepBody S re bytes f off = some r := hr
  rcases grepStep L re hF f off with ⟨h, h'⟩ | ⟨s, e, g, h0, hn, h3, ⟨x, hx, he, h⟩ | ⟨ho, hc⟩⟩
  · rw [h'] at hr'; cases hr'
    rcases h with h | h
    · exact ⟨none, rfl, .past h⟩
    · exact ⟨none, rfl, .noMatch h⟩
  · rw [h] at hr'; cases hr'
    exact ⟨some (x, g), rfl, .hit h0 hn hx he⟩
  · rcases hc with h | ⟨hl, h⟩
    · rw [h] at hr'
      obtain ⟨o, ho', hs⟩ := ih e r hr'
      exact ⟨o, ho', .skip h0 hn ho hs⟩
    · rw [h] at hr'; cases hr'
      exact ⟨none, rfl, .skip h0 hn ho (.past hl)⟩

theorem search_grepSearch (L : Lawful S) (re : Regex) {bytes : Bytes} (hF : Fits bytes) {off : Nat} {o} (h : SearchOf S re bytes off o) :
    grepSearch S re bytes off = some (.ok (o.map Prod.fst)) := by
  induction h with
  | past h => exact grepSearch_end h
  | @noMatch off h =>
    rw [grepSearch_unfold]
    rcases grepStep L re hF (grepSearch S re bytes) off with ⟨_, h'⟩ | ⟨s, e, g, h0, hn, _⟩
    · exact h'
    · exact absurd ⟨g, hn.2.1⟩ (h s e hn.1)
  | @hit off s e g x h0 hn hx he =>
    rw [grepSearch_unfold]
    rcases grepStep L re hF (grepSearch S re bytes) off with
      ⟨h | h, _⟩ | ⟨s', e', g', _, hn', _, ⟨y, hy, _, h⟩ | ⟨ho, _⟩⟩
    · omega
    · exact absurd ⟨g, hn.2.1⟩ (h s e hn.1)
    · obtain ⟨rfl, rfl, rfl⟩ := hn.unique hn'
      rw [h, owner_unique L hy hx]; rfl
    · obtain ⟨rfl, rfl, rfl⟩ := hn.unique hn'
      have := ho x hx; omega
  | @skip off s e g o h0 hn ho _ ih =>
    rw [grepSearch_unfold]
    rcases grepStep L re hF (grepSearch S re bytes) off with
      ⟨h | h, _⟩ | ⟨s', e', g', _, hn', _, ⟨y, hy, hle, _⟩ | ⟨_, h | ⟨hl, h⟩⟩⟩
    · omega
    · exact absurd ⟨g, hn.2.1⟩ (h s e hn.1)
    · obtain ⟨rfl, rfl, rfl⟩ := hn.unique hn'
      have := ho y hy; omega
    · obtain ⟨rfl, rfl, rfl⟩ := hn.unique hn'
      rw [h]; exact ih
    · obtain ⟨rfl, rfl, rfl⟩ := hn.unique hn'
      rw [h, ← ih, grepSearch_end hl]

theorem search_unique (L : Lawful S) {re : Regex} {bytes : Bytes} {off : Nat} {o o'} (h : SearchOf S re bytes off o)
    (h' : SearchOf S re bytes off o') : o = o' := by
  induction h generalizing o' with
  | past h =>
    cases h' with
    | past => rfl
    | noMatch => rfl
    | hit h0 => omega
    | skip h0 => omega
  | noMatch h =>
    cases h' with
    | past => rfl
    | noMatch => rfl
    | hit h0 hn => exact absurd ⟨_, hn.2.1⟩ (h _ _ hn.1)
    | skip h0 hn => exact absurd ⟨_, hn.2.1⟩ (h _ _ hn.1)
  | hit h0 hn hx he =>
    cases h' with
    | past => omega
    | noMatch h => exact absurd ⟨_, hn.2.1⟩ (h _ _ hn.1)
    | hit _ hn' hx' he' =>
      obtain ⟨rfl, rfl, rfl⟩ := hn.unique hn'
      rw [owner_unique L hx hx']
    | skip _ hn' ho =>
      obtain ⟨rfl, rfl, rfl⟩ := hn.unique hn'
      have := ho _ hx; omega
  | skip h0 hn ho _ ih =>
    cases h' with
    | past => omega
    | noMatch h => exact absurd ⟨_, hn.2.1⟩ (h _ _ hn.1)
    | hit _ hn' hx' he' =>
      obtain ⟨rfl, rfl, rfl⟩ := hn.unique hn'
      have := ho _ hx'; omega
    | skip _ hn' _ hs =>
      obtain ⟨rfl, rfl, rfl⟩ := hn.unique hn'
      exact ih hs

/-- one call of `next`, exactly: it ends the iteration iff the search comes upon nothing; it yields the
message `x` (and goes on at its end) iff the search comes upon `x`; it never returns iff the search has no outcome;
it never panics. -/
theorem grep_next_exact (L : Lawful S) (re : Regex) (bytes : Bytes) (hF : Fits bytes) (off : Nat) :
    (∀ r, grepNext S re bytes off = some r ↔
      (SearchOf S re bytes off none ∧ r = .ok (none, off)) ∨
      (∃ x g, SearchOf S re bytes off (some (x, g)) ∧ r = .ok (some x, x.1 + S.len x.2))) ∧
    (grepNext S re bytes off = none ↔ ∀ o, ¬ SearchOf S re bytes off o) := by
  rcases grepNext_cases L (re := re) hF off with ⟨h1, h2⟩ | ⟨h1, h2⟩ | ⟨i, v, h1, h2⟩
  · have hno : ∀ o, ¬ SearchOf S re bytes off o := by
      intro o hs; rw [search_grepSearch L re hF hs] at h1; simp at h1
    rw [h2]
    refine ⟨fun r => ⟨fun h => by simp at h, ?_⟩, ⟨fun _ => hno, fun _ => rfl⟩⟩
    rintro (⟨h, _⟩ | ⟨x, g, h, _⟩) <;> exact absurd h (hno _)
  · obtain ⟨o, ho, hs⟩ := grepSearch_search L re hF off _ h1
    have hon : o = none := by cases o with | none => rfl | some y => simp at ho
    subst hon
    rw [h2]
    refine ⟨fun r => ⟨fun h => ?_, ?_⟩, ⟨fun h => by simp at h, fun h => absurd hs (h _)⟩⟩
    · simp only [Option.some.injEq] at h; exact Or.inl ⟨hs, h.symm⟩
    · rintro (⟨_, h⟩ | ⟨x, g, h, _⟩)
      · rw [h]
      · have := search_unique L hs h; simp at this
  · obtain ⟨o, ho, hs⟩ := grepSearch_search L re hF off _ h1
    cases o with
    | none => simp at ho
    | some y =>
      obtain ⟨x, g⟩ := y
      simp only [Option.map_some, Res.ok.injEq, Option.some.injEq] at ho
      subst ho
      rw [h2]
      refine ⟨fun r => ⟨fun h => ?_, ?_⟩, ⟨fun h => by simp at h, fun h => absurd hs (h _)⟩⟩
      · simp only [Option.some.injEq] at h
        exact Or.inr ⟨(i, v), g, hs, by rw [← h]⟩
      · rintro (⟨h, _⟩ | ⟨x', g', h, h'⟩)
        · have := search_unique L hs h; simp at this
        · have := search_unique L hs h
          simp only [Option.some.injEq, Prod.mk.injEq] at this
          obtain ⟨rfl, rfl⟩ := this
          rw [h']

/-- draining grep from any offset ends iff the specification has a finite outcome there, and then it yields
exactly that. -/
theorem grep_exact (L : Lawful S) (re : Regex) (bytes : Bytes) (hF : Fits bytes) (off : Nat) (items : List (Nat × T)) :
    CollectsD (grepNext S re bytes) off items ↔ GrepYieldsOf S re bytes off items := by
  constructor
  · rintro ⟨f, hf⟩
    induction f generalizing off items with
    | zero => simp [collectDN] at hf
    | succ f ih =>
      rw [collectDN] at hf
      cases hn : grepNext S re bytes off with
      | none => rw [hn] at hf; simp at hf
      | some r =>
        rcases ((grep_next_exact L re bytes hF off).1 r).1 hn with ⟨hs, rfl⟩ | ⟨x, g, hs, rfl⟩
        · rw [hn] at hf; simp at hf; subst hf; exact .done hs
        · rw [hn] at hf
          simp only at hf
          cases hc : collectDN (grepNext S re bytes) f (x.1 + S.len x.2) with
          | none => rw [hc] at hf; simp at hf
          | some q =>
            rw [hc] at hf
            cases q with
            | panic => simp at hf
            | ok as =>
              simp only [Option.some.injEq, Res.ok.injEq] at hf
              subst hf
              exact .hit hs (ih _ _ hc)
  · intro h
    induction h with
    | done hs => exact CollectsD.nil (((grep_next_exact L re bytes hF _).1 _).2 (Or.inl ⟨hs, rfl⟩))
    | hit hs _ ih => exact CollectsD.cons (((grep_next_exact L re bytes hF _).1 _).2 (Or.inr ⟨_, _, hs, rfl⟩)) ih

theorem skips_no_search {re : Regex} {bytes : Bytes} {off q : Nat} (h : SkipsOf S re bytes off q)
    (hq : ∀ o, ¬ SearchOf S re bytes q o) : ∀ o, ¬ SearchOf S re bytes off o := by
  induction h with
  | here => exact hq
  | skip h0 hn ho _ ih =>
    intro o hs
    cases hs with
    | past => omega
    | noMatch h => exact absurd ⟨_, hn.2.1⟩ (h _ _ hn.1)
    | hit _ hn' hx he =>
      obtain ⟨rfl, rfl, rfl⟩ := hn.unique hn'
      have := ho _ hx; omega
    | skip _ hn' _ hs =>
      obtain ⟨rfl, rfl, rfl⟩ := hn.unique hn'
      exact ih hq _ hs

/-- when a call of `next` never returns: exactly if, skipping matches, it gets to an offset before the end of
the file where the pattern matches the empty string outside a message. -/
theorem grep_diverges_iff (L : Lawful S) (re : Regex) (bytes : Bytes) (hF : Fits bytes) (off : Nat) :
    grepNext S re bytes off = none ↔
      ∃ q, SkipsOf S re bytes off q ∧ q < bytes.length ∧ Matches re bytes q q ∧ OutsideOf S bytes q q := by
  rw [(grep_next_exact L re bytes hF off).2]
  constructor
  · intro hno
    generalize hk : bytes.length - off = k
    induction k using Nat.strongRecOn generalizing off with
    | ind k ih =>
      rcases grepStep L re hF (fun _ => none) off with
        ⟨h | h, _⟩ | ⟨s, e, g, h0, hn, h3, ⟨x, hx, he, h⟩ | ⟨ho, hc⟩⟩
      · exact absurd (SearchOf.past h) (hno _)
      · exact absurd (SearchOf.noMatch h) (hno _)
      · exact absurd (SearchOf.hit h0 hn hx he) (hno _)
      · have hlaw := re.law _ _ _ _ hn.2.1
        have hno' : ∀ o, ¬ SearchOf S re bytes e o := fun o hs => hno o (.skip h0 hn ho hs)
        by_cases he : off < e
        · obtain ⟨q, h1, h2⟩ := ih (bytes.length - e) (by omega) e hno' rfl
          exact ⟨q, .skip h0 hn ho h1, h2⟩
        · have h1 := hn.1
          have hso : s = off := by omega
          have heo : e = off := by omega
          rw [hso, heo] at ho hn
          exact ⟨off, .here _, h0, ⟨g, hn.2.1⟩, ho⟩
  · rintro ⟨q, hsk, hq, ⟨g, hm⟩, ho⟩
    apply skips_no_search hsk
    have hn : NextMatch re bytes q q q g := ⟨Nat.le_refl _, hm, fun j e' h1 h2 => by omega⟩
    intro o hs
    generalize hp : q = p at hs
    induction hs with
    | past => omega
    | noMatch h => subst hp; exact absurd ⟨_, hn.2.1⟩ (h _ _ hn.1)
    | hit _ hn' hx he =>
      subst hp
      obtain ⟨rfl, rfl, rfl⟩ := hn.unique hn'
      have := ho _ hx; omega
    | skip _ hn' _ _ ih =>
      subst hp
      obtain ⟨rfl, rfl, rfl⟩ := hn.unique hn'
      exact ih rfl

theorem regexStep (L : Lawful S) (re : Regex) {bytes : Bytes} (hF : Fits bytes)
    (f : Nat → Option (Res (Option (Nat × (Nat × Nat))))) (off : Nat) :
    ((bytes.length ≤ off ∨ ∀ s e, off ≤ s → ¬ Matches re bytes s e) ∧
      regexBody S re bytes f off = some (.ok none)) ∨
    ∃ s e g, off < bytes.length ∧ NextMatch re bytes off s e g ∧ e ≤ bytes.length ∧
      ((∃ x, OwnerOf S bytes s x ∧ e ≤ x.1 + S.len x.2 ∧
          regexBody S re bytes f off = some (.ok (g.map fun r => (x.1, r)))) ∨
       (OutsideOf S bytes s e ∧ (regexBody S re bytes f off = f e ∨
          (bytes.length ≤ e ∧ regexBody S re bytes f off = some (.ok none))))) := by
  rcases regexBody_cases L (re := re) hF f off with ⟨h, h'⟩ | ⟨h0, s, e, g, hm, h1, h2, h3, h4, hc⟩
  · left; refine ⟨?_, h'⟩
    rcases h with h | h
    · exact Or.inl h
    · right; rintro s e hs ⟨g, hg⟩; rw [h s hs] at hg; simp at hg
  · right
    refine ⟨s, e, g, h0, ⟨h1, hm, ?_⟩, h3, ?_⟩
    · rintro j e' hj hj' ⟨g', hg'⟩; rw [h4 j hj hj'] at hg'; simp at hg'
    · rcases hc with ⟨i, v, hrd, hlm, hc⟩ | ⟨hno, hc⟩
      · have ho := owner_of_lastMarker hlm hrd
        rcases hc with ⟨he, h⟩ | ⟨he, h⟩
        · right; refine ⟨fun x hx => ?_, Or.inl h⟩
          rw [owner_unique L hx ho]; simp only; omega
        · left; exact ⟨(i, v), ho, by simp only; omega, h⟩
      · right
        refine ⟨fun x hx => ?_, ?_⟩
        · obtain ⟨ha, hb⟩ := lastMarker_of_owner L hx
          exact absurd hb (hno x.1 x.2 ha)
        · rcases hc with ⟨he, h⟩ | ⟨_, h⟩
          · exact Or.inr ⟨he, h⟩
          · exact Or.inl h

/-- What the capture iterator makes of the outcome of a search. -/
def captureOf (o : Option ((Nat × T) × Option (Nat × Nat))) : Option (Nat × (Nat × Nat)) :=
  o.bind fun p => p.2.map fun r => (p.1.1, r)

theorem regexCapture_past {re : Regex} {bytes : Bytes} {off : Nat} (h : bytes.length ≤ off) :
    regexCapture S re bytes off = some (.ok none) := by
  rw [regexCapture_unfold]; unfold regexBody; rw [if_pos h]

theorem regexCapture_search (L : Lawful S) (re : Regex) {bytes : Bytes} (hF : Fits bytes) (off : Nat)
    (r : Res (Option (Nat × (Nat × Nat)))) (h : regexCapture S re bytes off = some r) :
    ∃ o, r = .ok (captureOf o) ∧ SearchOf S re bytes off o := by
  refine regexCapture.partial_correctness S re bytes
    (fun off r => ∃ o, r = .ok (captureOf o) ∧ SearchOf S re bytes off o) ?_ off r h
  intro f ih off r hr
  have hr' : regexBody S re bytes f off = some r := hr
  rcases regexStep L re hF f off with ⟨h, h'⟩ | ⟨s, e, g, h0, hn, h3, ⟨x, hx, he, h⟩ | ⟨ho, hc⟩⟩
  · rw [h'] at hr'; cases hr'
    rcases h with h | h
    · exact ⟨none, rfl, .past h⟩
    · exact ⟨none, rfl, .noMatch h⟩
  · rw [h] at hr'; cases hr'
    exact ⟨some (x, g), rfl, .hit h0 hn hx he⟩
  · rcases hc with h | ⟨hl, h⟩
    · rw [h] at hr'
      obtain ⟨o, ho', hs⟩ := ih e r hr'
      exact ⟨o, ho', .skip h0 hn ho hs⟩
    · rw [h] at hr'; cases hr'
      exact ⟨none, rfl, .skip h0 hn ho (.past hl)⟩

theorem search_regexCapture (L : Lawful S) (re : Regex) {bytes : Bytes} (hF : Fits bytes) {off : Nat} {o} (h : SearchOf S re bytes off o) :
    regexCapture S re bytes off = some (.ok (captureOf o)) := by
  induction h with
  | past h => exact regexCapture_past h
  | @noMatch off h =>
    rw [regexCapture_unfold]
    rcases regexStep L re hF (regexCapture S re bytes) off with ⟨_, h'⟩ | ⟨s, e, g, h0, hn, _⟩
    · exact h'
    · exact absurd ⟨g, hn.2.1⟩ (h s e hn.1)
  | @hit off s e g x h0 hn hx he =>
    rw [regexCapture_unfold]
    rcases regexStep L re hF (regexCapture S re bytes) off with
      ⟨h | h, _⟩ | ⟨s', e', g', _, hn', _, ⟨y, hy, _, h⟩ | ⟨ho, _⟩⟩
    · omega
    · exact absurd ⟨g, hn.2.1⟩ (h s e hn.1)
    · obtain ⟨rfl, rfl, rfl⟩ := hn.unique hn'
      rw [h, owner_unique L hy hx]; rfl
    · obtain ⟨rfl, rfl, rfl⟩ := hn.unique hn'
      have := ho x hx; omega
  | @skip off s e g o h0 hn ho _ ih =>
    rw [regexCapture_unfold]
    rcases regexStep L re hF (regexCapture S re bytes) off with
      ⟨h | h, _⟩ | ⟨s', e', g', _, hn', _, ⟨y, hy, hle, _⟩ | ⟨_, h | ⟨hl, h⟩⟩⟩
    · omega
    · exact absurd ⟨g, hn.2.1⟩ (h s e hn.1)
    · obtain ⟨rfl, rfl, rfl⟩ := hn.unique hn'
      have := ho y hy; omega
    · obtain ⟨rfl, rfl, rfl⟩ := hn.unique hn'
      rw [h]; exact ih
    · obtain ⟨rfl, rfl, rfl⟩ := hn.unique hn'
      rw [h, ← ih, regexCapture_past hl]

/-- one call of `next` of the capture iterator, exactly: it ends the iteration iff the search comes upon
nothing or upon a match without group 1; it yields the offset of the message and the group iff the search comes upon
them, and goes on at the sum of the two; it never returns iff the search has no outcome; it never panics. -/
theorem capture_next_exact (L : Lawful S) (re : Regex) (bytes : Bytes) (hF : Fits bytes) (off : Nat) :
    (∀ r, regexNext S re bytes off = some r ↔
      ((SearchOf S re bytes off none ∨ ∃ x, SearchOf S re bytes off (some (x, none))) ∧ r = .ok (none, off)) ∨
      (∃ x a b, SearchOf S re bytes off (some (x, some (a, b))) ∧ r = .ok (some (x.1, (a, b)), x.1 + b))) ∧
    (regexNext S re bytes off = none ↔ ∀ o, ¬ SearchOf S re bytes off o) := by
  rcases regexNext_cases L (re := re) hF off with ⟨h1, h2⟩ | ⟨h1, h2⟩ | ⟨i, a, b, h1, h2⟩
  · have hno : ∀ o, ¬ SearchOf S re bytes off o := by
      intro o hs; rw [search_regexCapture L re hF hs] at h1; simp at h1
    rw [h2]
    refine ⟨fun r => ⟨fun h => by simp at h, ?_⟩, ⟨fun _ => hno, fun _ => rfl⟩⟩
    rintro (⟨h | ⟨x, h⟩, _⟩ | ⟨x, a, b, h, _⟩) <;> exact absurd h (hno _)
  · obtain ⟨o, ho, hs⟩ := regexCapture_search L re hF off _ h1
    have hon : SearchOf S re bytes off none ∨ ∃ x, SearchOf S re bytes off (some (x, none)) := by
      cases o with
      | none => exact Or.inl hs
      | some y =>
        obtain ⟨x, g⟩ := y
        cases g with
        | none => exact Or.inr ⟨x, hs⟩
        | some p => simp [captureOf] at ho
    rw [h2]
    refine ⟨fun r => ⟨fun h => ?_, ?_⟩, ⟨fun h => by simp at h, fun h => absurd hs (h _)⟩⟩
    · simp only [Option.some.injEq] at h; exact Or.inl ⟨hon, h.symm⟩
    · rintro (⟨_, h⟩ | ⟨x, a, b, h, _⟩)
      · rw [h]
      · have := search_unique L hs h; subst this; simp [captureOf] at ho
  · obtain ⟨o, ho, hs⟩ := regexCapture_search L re hF off _ h1
    have hox : ∃ x, o = some (x, some (a, b)) ∧ x.1 = i := by
      cases o with
      | none => simp [captureOf] at ho
      | some y =>
        obtain ⟨x, g⟩ := y
        cases g with
        | none => simp [captureOf] at ho
        | some p =>
          simp only [captureOf, Option.bind_some, Option.map_some, Res.ok.injEq, Option.some.injEq,
            Prod.mk.injEq] at ho
          obtain ⟨h1, h2⟩ := ho
          exact ⟨x, by rw [← h2], h1.symm⟩
    obtain ⟨x, rfl, rfl⟩ := hox
    rw [h2]
    refine ⟨fun r => ⟨fun h => ?_, ?_⟩, ⟨fun h => by simp at h, fun h => absurd hs (h _)⟩⟩
    · simp only [Option.some.injEq] at h; exact Or.inr ⟨x, a, b, hs, h.symm⟩
    · rintro (⟨h | ⟨y, h⟩, _⟩ | ⟨y, a', b', h, h'⟩)
      · have := search_unique L hs h; simp at this
      · have := search_unique L hs h; simp at this
      · have := search_unique L hs h
        simp only [Option.some.injEq, Prod.mk.injEq] at this
        obtain ⟨rfl, rfl, rfl⟩ := this
        rw [h']

/-- draining the capture iterator from any offset ends iff the specification has a finite outcome there, and
then it yields exactly that. -/
theorem capture_exact (L : Lawful S) (re : Regex) (bytes : Bytes) (hF : Fits bytes) (off : Nat)
    (items : List (Nat × (Nat × Nat))) :
    CollectsD (regexNext S re bytes) off items ↔ CaptureYieldsOf S re bytes off items := by
  constructor
  · rintro ⟨f, hf⟩
    induction f generalizing off items with
    | zero => simp [collectDN] at hf
    | succ f ih =>
      rw [collectDN] at hf
      cases hn : regexNext S re bytes off with
      | none => rw [hn] at hf; simp at hf
      | some r =>
        rcases ((capture_next_exact L re bytes hF off).1 r).1 hn with ⟨hs | ⟨x, hs⟩, rfl⟩ | ⟨x, a, b, hs, rfl⟩
        · rw [hn] at hf; simp at hf; subst hf; exact .done hs
        · rw [hn] at hf; simp at hf; subst hf; exact .noGroup hs
        · rw [hn] at hf
          simp only at hf
          cases hc : collectDN (regexNext S re bytes) f (x.1 + b) with
          | none => rw [hc] at hf; simp at hf
          | some q =>
            rw [hc] at hf
            cases q with
            | panic => simp at hf
            | ok as =>
              simp only [Option.some.injEq, Res.ok.injEq] at hf
              subst hf
              exact .hit hs (ih _ _ hc)
  · intro h
    induction h with
    | done hs => exact CollectsD.nil (((capture_next_exact L re bytes hF _).1 _).2 (Or.inl ⟨Or.inl hs, rfl⟩))
    | noGroup hs => exact CollectsD.nil (((capture_next_exact L re bytes hF _).1 _).2 (Or.inl ⟨Or.inr ⟨_, hs⟩, rfl⟩))
    | hit hs _ ih =>
      exact CollectsD.cons (((capture_next_exact L re bytes hF _).1 _).2 (Or.inr ⟨_, _, _, hs, rfl⟩)) ih

end

end Verif.Any
