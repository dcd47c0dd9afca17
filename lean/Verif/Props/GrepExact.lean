import Verif.Spec.GrepExact
import Verif.Props.GrepCapture

/-! # C81, C82: what the grep iterators yield, exactly, for every pattern and every byte sequence -/

set_option linter.unusedSimpArgs false
set_option maxRecDepth 4000

namespace Verif
open Spec

/-! ## The search is a function -/

theorem Spec.NextMatch.unique {re : Regex} {bytes : Bytes} {off s e s' e' : Nat} {g g'}
    (h : NextMatch re bytes off s e g) (h' : NextMatch re bytes off s' e' g') : s = s' ∧ e = e' ∧ g = g' := by
  have hs : s = s' := by
    rcases Nat.lt_trichotomy s s' with hl | hl | hl
    · exact absurd ⟨g, h.2.1⟩ (h'.2.2 s e h.1 hl)
    · exact hl
    · exact absurd ⟨g', h'.2.1⟩ (h.2.2 s' e' h'.1 hl)
  subst hs
  have := h.2.1.symm.trans h'.2.1
  simp only [Option.some.injEq, Prod.mk.injEq] at this
  exact ⟨rfl, this.1, this.2⟩

theorem msgAt_marker {bytes : Bytes} {i : Nat} {e : StorageEntry} (h : MsgAt bytes i e) : dltMarker <+: bytes.drop i :=
  (readableAt_iff_msgAt.2 h).marker dlt_lawful

theorem owner_unique {bytes : Bytes} {s : Nat} {x y : Nat × StorageEntry} (hx : Owner bytes s x)
    (hy : Owner bytes s y) : x = y := by
  have h1 : x.1 = y.1 := by
    rcases Nat.lt_trichotomy x.1 y.1 with h | h | h
    · exact absurd (msgAt_marker hy.2.1) (hx.2.2 y.1 h hy.1)
    · exact h
    · exact absurd (msgAt_marker hx.2.1) (hy.2.2 x.1 h hx.1)
  have h2 := readableAt_iff_msgAt.2 hx.2.1
  rw [h1] at h2
  exact Prod.ext h1 (h2.unique dlt_lawful (readableAt_iff_msgAt.2 hy.2.1))

theorem owner_of_lastMarker {bytes : Bytes} {s i : Nat} {v : StorageEntry} (h : LastMarker dltStorage bytes s i)
    (hr : ReadableAt dltStorage bytes i v) : Owner bytes s (i, v) :=
  ⟨h.1, readableAt_iff_msgAt.1 hr, h.2.2⟩

theorem lastMarker_of_owner {bytes : Bytes} {s : Nat} {x : Nat × StorageEntry} (h : Owner bytes s x) :
    LastMarker dltStorage bytes s x.1 ∧ ReadableAt dltStorage bytes x.1 x.2 :=
  ⟨⟨h.1, msgAt_marker h.2.1, h.2.2⟩, readableAt_iff_msgAt.2 h.2.1⟩

/-- The four cases of one step of `search`. -/
theorem grepStep (re : Regex) {bytes : Bytes} (hF : Fits bytes) (f : Nat → Option (Res (Option (Nat × StorageEntry))))
    (off : Nat) :
    ((bytes.length ≤ off ∨ ∀ s e, off ≤ s → ¬ Matches re bytes s e) ∧
      grepBody dltStorage re bytes f off = some (.ok none)) ∨
    ∃ s e g, off < bytes.length ∧ NextMatch re bytes off s e g ∧ e ≤ bytes.length ∧
      ((∃ x, Owner bytes s x ∧ e ≤ x.1 + (encode x.2).length ∧
          grepBody dltStorage re bytes f off = some (.ok (some x))) ∨
       (Outside bytes s e ∧ (grepBody dltStorage re bytes f off = f e ∨
          (bytes.length ≤ e ∧ grepBody dltStorage re bytes f off = some (.ok none))))) := by
  rcases grepBody_cases dlt_lawful (re := re) hF f off with ⟨h, h'⟩ | ⟨h0, s, e, g, hm, h1, h2, h3, h4, hc⟩
  · left; refine ⟨?_, h'⟩
    rcases h with h | h
    · exact Or.inl h
    · right; rintro s e hs ⟨g, hg⟩; rw [h s hs] at hg; simp at hg
  · right
    refine ⟨s, e, g, h0, ⟨h1, hm, ?_⟩, h3, ?_⟩
    · rintro j e' hj hj' ⟨g', hg'⟩; rw [h4 j hj hj'] at hg'; simp at hg'
    · rcases hc with ⟨i, v, hrd, hlm, hc⟩ | ⟨hno, hc⟩
      · have hl := encode_len v (readableAt_iff_msgAt.1 hrd).1
        have hl2 : dltStorage.len v = v.len := rfl
        have ho := owner_of_lastMarker hlm hrd
        rcases hc with ⟨he, h⟩ | ⟨he, h⟩
        · right; refine ⟨fun x hx => ?_, Or.inl h⟩
          rw [owner_unique hx ho]; simp only; omega
        · left; exact ⟨(i, v), ho, by simp only; omega, h⟩
      · right
        refine ⟨fun x hx => ?_, ?_⟩
        · obtain ⟨ha, hb⟩ := lastMarker_of_owner hx
          exact absurd hb (hno x.1 x.2 ha)
        · rcases hc with ⟨he, h⟩ | ⟨_, h⟩
          · exact Or.inr ⟨he, h⟩
          · exact Or.inl h

theorem grepSearch_search (re : Regex) {bytes : Bytes} (hF : Fits bytes) (off : Nat)
    (r : Res (Option (Nat × StorageEntry))) (h : grepSearch dltStorage re bytes off = some r) :
    ∃ o, r = .ok (o.map Prod.fst) ∧ Search re bytes off o := by
  refine grepSearch.partial_correctness dltStorage re bytes
    (fun off r => ∃ o, r = .ok (o.map Prod.fst) ∧ Search re bytes off o) ?_ off r h
  intro f ih off r hr
  have hr' : grepBody dltStorage re bytes f off = some r := hr
  rcases grepStep re hF f off with ⟨h, h'⟩ | ⟨s, e, g, h0, hn, h3, ⟨x, hx, he, h⟩ | ⟨ho, hc⟩⟩
  · rw [h'] at hr'; cases hr'
    rcases h with h | h
    · exact ⟨none, rfl, .past h⟩
    · exact ⟨none, rfl, .noMatch h⟩
  · rw [h] at hr'; cases hr'
    exact ⟨some (x, g), rfl, .hit h0 hn hx he⟩
  · rcases hc with h | ⟨hl, h⟩
    · rw [h] at hr'
      obtain ⟨o, ho', hs⟩ := ih e r hr'
      exact ⟨o, ho', .skip h0 hn ho hs⟩
    · rw [h] at hr'; cases hr'
      exact ⟨none, rfl, .skip h0 hn ho (.past hl)⟩

theorem search_grepSearch (re : Regex) {bytes : Bytes} (hF : Fits bytes) {off : Nat} {o} (h : Search re bytes off o) :
    grepSearch dltStorage re bytes off = some (.ok (o.map Prod.fst)) := by
  induction h with
  | past h => exact grepSearch_end h
  | @noMatch off h =>
    rw [grepSearch_unfold]
    rcases grepStep re hF (grepSearch dltStorage re bytes) off with ⟨_, h'⟩ | ⟨s, e, g, h0, hn, _⟩
    · exact h'
    · exact absurd ⟨g, hn.2.1⟩ (h s e hn.1)
  | @hit off s e g x h0 hn hx he =>
    rw [grepSearch_unfold]
    rcases grepStep re hF (grepSearch dltStorage re bytes) off with
      ⟨h | h, _⟩ | ⟨s', e', g', _, hn', _, ⟨y, hy, _, h⟩ | ⟨ho, _⟩⟩
    · omega
    · exact absurd ⟨g, hn.2.1⟩ (h s e hn.1)
    · obtain ⟨rfl, rfl, rfl⟩ := hn.unique hn'
      rw [h, owner_unique hy hx]; rfl
    · obtain ⟨rfl, rfl, rfl⟩ := hn.unique hn'
      have := ho x hx; omega
  | @skip off s e g o h0 hn ho _ ih =>
    rw [grepSearch_unfold]
    rcases grepStep re hF (grepSearch dltStorage re bytes) off with
      ⟨h | h, _⟩ | ⟨s', e', g', _, hn', _, ⟨y, hy, hle, _⟩ | ⟨_, h | ⟨hl, h⟩⟩⟩
    · omega
    · exact absurd ⟨g, hn.2.1⟩ (h s e hn.1)
    · obtain ⟨rfl, rfl, rfl⟩ := hn.unique hn'
      have := ho y hy; omega
    · obtain ⟨rfl, rfl, rfl⟩ := hn.unique hn'
      rw [h]; exact ih
    · obtain ⟨rfl, rfl, rfl⟩ := hn.unique hn'
      rw [h, ← ih, grepSearch_end hl]

theorem search_unique {re : Regex} {bytes : Bytes} {off : Nat} {o o'} (h : Search re bytes off o)
    (h' : Search re bytes off o') : o = o' := by
  induction h generalizing o' with
  | past h =>
    cases h' with
    | past => rfl
    | noMatch => rfl
    | hit h0 => omega
    | skip h0 => omega
  | noMatch h =>
    cases h' with
    | past => rfl
    | noMatch => rfl
    | hit h0 hn => exact absurd ⟨_, hn.2.1⟩ (h _ _ hn.1)
    | skip h0 hn => exact absurd ⟨_, hn.2.1⟩ (h _ _ hn.1)
  | hit h0 hn hx he =>
    cases h' with
    | past => omega
    | noMatch h => exact absurd ⟨_, hn.2.1⟩ (h _ _ hn.1)
    | hit _ hn' hx' he' =>
      obtain ⟨rfl, rfl, rfl⟩ := hn.unique hn'
      rw [owner_unique hx hx']
    | skip _ hn' ho =>
      obtain ⟨rfl, rfl, rfl⟩ := hn.unique hn'
      have := ho _ hx; omega
  | skip h0 hn ho _ ih =>
    cases h' with
    | past => omega
    | noMatch h => exact absurd ⟨_, hn.2.1⟩ (h _ _ hn.1)
    | hit _ hn' hx' he' =>
      obtain ⟨rfl, rfl, rfl⟩ := hn.unique hn'
      have := ho _ hx'; omega
    | skip _ hn' _ hs =>
      obtain ⟨rfl, rfl, rfl⟩ := hn.unique hn'
      exact ih hs

/-! ## C81 -/

/-- **C81** one call of `next`, exactly: it ends the iteration iff the search comes upon nothing; it yields the
message `x` (and goes on at its end) iff the search comes upon `x`; it never returns iff the search has no outcome;
it never panics. -/
theorem C81_next_exact (re : Regex) (bytes : Bytes) (hF : Fits bytes) (off : Nat) :
    (∀ r, dltGrepNext re bytes off = some r ↔
      (Search re bytes off none ∧ r = .ok (none, off)) ∨
      (∃ x g, Search re bytes off (some (x, g)) ∧ r = .ok (some x, x.1 + (encode x.2).length))) ∧
    (dltGrepNext re bytes off = none ↔ ∀ o, ¬ Search re bytes off o) := by
  have hlen : ∀ {x : Nat × StorageEntry} {g}, Search re bytes off (some (x, g)) →
      (encode x.2).length = dltStorage.len x.2 := by
    intro x g h
    have hw : WF x.2 := by
      generalize ho : some (x, g) = o at h
      induction h with
      | past => cases ho
      | noMatch => cases ho
      | hit _ _ hx => cases ho; exact hx.2.1.1
      | skip _ _ _ _ ih => exact ih ho
    exact encode_len _ hw
  rcases grepNext_cases dlt_lawful (re := re) hF off with ⟨h1, h2⟩ | ⟨h1, h2⟩ | ⟨i, v, h1, h2⟩
  · have hno : ∀ o, ¬ Search re bytes off o := by
      intro o hs; rw [search_grepSearch re hF hs] at h1; simp at h1
    unfold dltGrepNext; rw [h2]
    refine ⟨fun r => ⟨fun h => by simp at h, ?_⟩, ⟨fun _ => hno, fun _ => rfl⟩⟩
    rintro (⟨h, _⟩ | ⟨x, g, h, _⟩) <;> exact absurd h (hno _)
  · obtain ⟨o, ho, hs⟩ := grepSearch_search re hF off _ h1
    have hon : o = none := by cases o with | none => rfl | some y => simp at ho
    subst hon
    unfold dltGrepNext; rw [h2]
    refine ⟨fun r => ⟨fun h => ?_, ?_⟩, ⟨fun h => by simp at h, fun h => absurd hs (h _)⟩⟩
    · simp only [Option.some.injEq] at h; exact Or.inl ⟨hs, h.symm⟩
    · rintro (⟨_, h⟩ | ⟨x, g, h, _⟩)
      · rw [h]
      · have := search_unique hs h; simp at this
  · obtain ⟨o, ho, hs⟩ := grepSearch_search re hF off _ h1
    cases o with
    | none => simp at ho
    | some y =>
      obtain ⟨x, g⟩ := y
      simp only [Option.map_some, Res.ok.injEq, Option.some.injEq] at ho
      subst ho
      unfold dltGrepNext; rw [h2]
      refine ⟨fun r => ⟨fun h => ?_, ?_⟩, ⟨fun h => by simp at h, fun h => absurd hs (h _)⟩⟩
      · simp only [Option.some.injEq] at h
        exact Or.inr ⟨(i, v), g, hs, by rw [← h, hlen hs]⟩
      · rintro (⟨h, _⟩ | ⟨x', g', h, h'⟩)
        · have := search_unique hs h; simp at this
        · have := search_unique hs h
          simp only [Option.some.injEq, Prod.mk.injEq] at this
          obtain ⟨rfl, rfl⟩ := this
          rw [h', hlen hs]

/-- **C81** draining grep from any offset ends iff the specification has a finite outcome there, and then it yields
exactly that. -/
theorem C81_grep_exact (re : Regex) (bytes : Bytes) (hF : Fits bytes) (off : Nat) (items : List (Nat × StorageEntry)) :
    CollectsD (dltGrepNext re bytes) off items ↔ GrepYields re bytes off items := by
  constructor
  · rintro ⟨f, hf⟩
    induction f generalizing off items with
    | zero => simp [collectDN] at hf
    | succ f ih =>
      rw [collectDN] at hf
      cases hn : dltGrepNext re bytes off with
      | none => rw [hn] at hf; simp at hf
      | some r =>
        rcases ((C81_next_exact re bytes hF off).1 r).1 hn with ⟨hs, rfl⟩ | ⟨x, g, hs, rfl⟩
        · rw [hn] at hf; simp at hf; subst hf; exact .done hs
        · rw [hn] at hf
          simp only at hf
          cases hc : collectDN (dltGrepNext re bytes) f (x.1 + (encode x.2).length) with
          | none => rw [hc] at hf; simp at hf
          | some q =>
            rw [hc] at hf
            cases q with
            | panic => simp at hf
            | ok as =>
              simp only [Option.some.injEq, Res.ok.injEq] at hf
              subst hf
              exact .hit hs (ih _ _ hc)
  · intro h
    induction h with
    | done hs => exact CollectsD.nil (((C81_next_exact re bytes hF _).1 _).2 (Or.inl ⟨hs, rfl⟩))
    | hit hs _ ih => exact CollectsD.cons (((C81_next_exact re bytes hF _).1 _).2 (Or.inr ⟨_, _, hs, rfl⟩)) ih

theorem skips_no_search {re : Regex} {bytes : Bytes} {off q : Nat} (h : Skips re bytes off q)
    (hq : ∀ o, ¬ Search re bytes q o) : ∀ o, ¬ Search re bytes off o := by
  induction h with
  | here => exact hq
  | skip h0 hn ho _ ih =>
    intro o hs
    cases hs with
    | past => omega
    | noMatch h => exact absurd ⟨_, hn.2.1⟩ (h _ _ hn.1)
    | hit _ hn' hx he =>
      obtain ⟨rfl, rfl, rfl⟩ := hn.unique hn'
      have := ho _ hx; omega
    | skip _ hn' _ hs =>
      obtain ⟨rfl, rfl, rfl⟩ := hn.unique hn'
      exact ih hq _ hs

/-- **C81** when a call of `next` never returns: exactly if, skipping matches, it gets to an offset before the end of
the file where the pattern matches the empty string outside a message. -/
theorem C81_diverges_iff (re : Regex) (bytes : Bytes) (hF : Fits bytes) (off : Nat) :
    dltGrepNext re bytes off = none ↔
      ∃ q, Skips re bytes off q ∧ q < bytes.length ∧ Matches re bytes q q ∧ Outside bytes q q := by
  rw [(C81_next_exact re bytes hF off).2]
  constructor
  · intro hno
    generalize hk : bytes.length - off = k
    induction k using Nat.strongRecOn generalizing off with
    | ind k ih =>
      rcases grepStep re hF (fun _ => none) off with
        ⟨h | h, _⟩ | ⟨s, e, g, h0, hn, h3, ⟨x, hx, he, h⟩ | ⟨ho, hc⟩⟩
      · exact absurd (Search.past h) (hno _)
      · exact absurd (Search.noMatch h) (hno _)
      · exact absurd (Search.hit h0 hn hx he) (hno _)
      · have hlaw := re.law _ _ _ _ hn.2.1
        have hno' : ∀ o, ¬ Search re bytes e o := fun o hs => hno o (.skip h0 hn ho hs)
        by_cases he : off < e
        · obtain ⟨q, h1, h2⟩ := ih (bytes.length - e) (by omega) e hno' rfl
          exact ⟨q, .skip h0 hn ho h1, h2⟩
        · have h1 := hn.1
          have hso : s = off := by omega
          have heo : e = off := by omega
          rw [hso, heo] at ho hn
          exact ⟨off, .here _, h0, ⟨g, hn.2.1⟩, ho⟩
  · rintro ⟨q, hsk, hq, ⟨g, hm⟩, ho⟩
    apply skips_no_search hsk
    have hn : NextMatch re bytes q q q g := ⟨Nat.le_refl _, hm, fun j e' h1 h2 => by omega⟩
    intro o hs
    generalize hp : q = p at hs
    induction hs with
    | past => omega
    | noMatch h => subst hp; exact absurd ⟨_, hn.2.1⟩ (h _ _ hn.1)
    | hit _ hn' hx he =>
      subst hp
      obtain ⟨rfl, rfl, rfl⟩ := hn.unique hn'
      have := ho _ hx; omega
    | skip _ hn' _ _ ih =>
      subst hp
      obtain ⟨rfl, rfl, rfl⟩ := hn.unique hn'
      exact ih rfl

/-! ## C82 -/

theorem regexStep (re : Regex) {bytes : Bytes} (hF : Fits bytes)
    (f : Nat → Option (Res (Option (Nat × (Nat × Nat))))) (off : Nat) :
    ((bytes.length ≤ off ∨ ∀ s e, off ≤ s → ¬ Matches re bytes s e) ∧
      regexBody dltStorage re bytes f off = some (.ok none)) ∨
    ∃ s e g, off < bytes.length ∧ NextMatch re bytes off s e g ∧ e ≤ bytes.length ∧
      ((∃ x, Owner bytes s x ∧ e ≤ x.1 + (encode x.2).length ∧
          regexBody dltStorage re bytes f off = some (.ok (g.map fun r => (x.1, r)))) ∨
       (Outside bytes s e ∧ (regexBody dltStorage re bytes f off = f e ∨
          (bytes.length ≤ e ∧ regexBody dltStorage re bytes f off = some (.ok none))))) := by
  rcases regexBody_cases dlt_lawful (re := re) hF f off with ⟨h, h'⟩ | ⟨h0, s, e, g, hm, h1, h2, h3, h4, hc⟩
  · left; refine ⟨?_, h'⟩
    rcases h with h | h
    · exact Or.inl h
    · right; rintro s e hs ⟨g, hg⟩; rw [h s hs] at hg; simp at hg
  · right
    refine ⟨s, e, g, h0, ⟨h1, hm, ?_⟩, h3, ?_⟩
    · rintro j e' hj hj' ⟨g', hg'⟩; rw [h4 j hj hj'] at hg'; simp at hg'
    · rcases hc with ⟨i, v, hrd, hlm, hc⟩ | ⟨hno, hc⟩
      · have hl := encode_len v (readableAt_iff_msgAt.1 hrd).1
        have hl2 : dltStorage.len v = v.len := rfl
        have ho := owner_of_lastMarker hlm hrd
        rcases hc with ⟨he, h⟩ | ⟨he, h⟩
        · right; refine ⟨fun x hx => ?_, Or.inl h⟩
          rw [owner_unique hx ho]; simp only; omega
        · left; exact ⟨(i, v), ho, by simp only; omega, h⟩
      · right
        refine ⟨fun x hx => ?_, ?_⟩
        · obtain ⟨ha, hb⟩ := lastMarker_of_owner hx
          exact absurd hb (hno x.1 x.2 ha)
        · rcases hc with ⟨he, h⟩ | ⟨_, h⟩
          · exact Or.inr ⟨he, h⟩
          · exact Or.inl h

/-- What the capture iterator makes of the outcome of a search. -/
def captureOf (o : Option ((Nat × StorageEntry) × Option (Nat × Nat))) : Option (Nat × (Nat × Nat)) :=
  o.bind fun p => p.2.map fun r => (p.1.1, r)

theorem regexCapture_past {re : Regex} {bytes : Bytes} {off : Nat} (h : bytes.length ≤ off) :
    regexCapture dltStorage re bytes off = some (.ok none) := by
  rw [regexCapture_unfold]; unfold regexBody; rw [if_pos h]

theorem regexCapture_search (re : Regex) {bytes : Bytes} (hF : Fits bytes) (off : Nat)
    (r : Res (Option (Nat × (Nat × Nat)))) (h : regexCapture dltStorage re bytes off = some r) :
    ∃ o, r = .ok (captureOf o) ∧ Search re bytes off o := by
  refine regexCapture.partial_correctness dltStorage re bytes
    (fun off r => ∃ o, r = .ok (captureOf o) ∧ Search re bytes off o) ?_ off r h
  intro f ih off r hr
  have hr' : regexBody dltStorage re bytes f off = some r := hr
  rcases regexStep re hF f off with ⟨h, h'⟩ | ⟨s, e, g, h0, hn, h3, ⟨x, hx, he, h⟩ | ⟨ho, hc⟩⟩
  · rw [h'] at hr'; cases hr'
    rcases h with h | h
    · exact ⟨none, rfl, .past h⟩
    · exact ⟨none, rfl, .noMatch h⟩
  · rw [h] at hr'; cases hr'
    exact ⟨some (x, g), rfl, .hit h0 hn hx he⟩
  · rcases hc with h | ⟨hl, h⟩
    · rw [h] at hr'
      obtain ⟨o, ho', hs⟩ := ih e r hr'
      exact ⟨o, ho', .skip h0 hn ho hs⟩
    · rw [h] at hr'; cases hr'
      exact ⟨none, rfl, .skip h0 hn ho (.past hl)⟩

theorem search_regexCapture (re : Regex) {bytes : Bytes} (hF : Fits bytes) {off : Nat} {o} (h : Search re bytes off o) :
    regexCapture dltStorage re bytes off = some (.ok (captureOf o)) := by
  induction h with
  | past h => exact regexCapture_past h
  | @noMatch off h =>
    rw [regexCapture_unfold]
    rcases regexStep re hF (regexCapture dltStorage re bytes) off with ⟨_, h'⟩ | ⟨s, e, g, h0, hn, _⟩
    · exact h'
    · exact absurd ⟨g, hn.2.1⟩ (h s e hn.1)
  | @hit off s e g x h0 hn hx he =>
    rw [regexCapture_unfold]
    rcases regexStep re hF (regexCapture dltStorage re bytes) off with
      ⟨h | h, _⟩ | ⟨s', e', g', _, hn', _, ⟨y, hy, _, h⟩ | ⟨ho, _⟩⟩
    · omega
    · exact absurd ⟨g, hn.2.1⟩ (h s e hn.1)
    · obtain ⟨rfl, rfl, rfl⟩ := hn.unique hn'
      rw [h, owner_unique hy hx]; rfl
    · obtain ⟨rfl, rfl, rfl⟩ := hn.unique hn'
      have := ho x hx; omega
  | @skip off s e g o h0 hn ho _ ih =>
    rw [regexCapture_unfold]
    rcases regexStep re hF (regexCapture dltStorage re bytes) off with
      ⟨h | h, _⟩ | ⟨s', e', g', _, hn', _, ⟨y, hy, hle, _⟩ | ⟨_, h | ⟨hl, h⟩⟩⟩
    · omega
    · exact absurd ⟨g, hn.2.1⟩ (h s e hn.1)
    · obtain ⟨rfl, rfl, rfl⟩ := hn.unique hn'
      have := ho y hy; omega
    · obtain ⟨rfl, rfl, rfl⟩ := hn.unique hn'
      rw [h]; exact ih
    · obtain ⟨rfl, rfl, rfl⟩ := hn.unique hn'
      rw [h, ← ih, regexCapture_past hl]

/-- **C82** one call of `next` of the capture iterator, exactly: it ends the iteration iff the search comes upon
nothing or upon a match without group 1; it yields the offset of the message and the group iff the search comes upon
them, and goes on at the sum of the two; it never returns iff the search has no outcome; it never panics. -/
theorem C82_next_exact (re : Regex) (bytes : Bytes) (hF : Fits bytes) (off : Nat) :
    (∀ r, dltRegexNext re bytes off = some r ↔
      ((Search re bytes off none ∨ ∃ x, Search re bytes off (some (x, none))) ∧ r = .ok (none, off)) ∨
      (∃ x a b, Search re bytes off (some (x, some (a, b))) ∧ r = .ok (some (x.1, (a, b)), x.1 + b))) ∧
    (dltRegexNext re bytes off = none ↔ ∀ o, ¬ Search re bytes off o) := by
  rcases regexNext_cases dlt_lawful (re := re) hF off with ⟨h1, h2⟩ | ⟨h1, h2⟩ | ⟨i, a, b, h1, h2⟩
  · have hno : ∀ o, ¬ Search re bytes off o := by
      intro o hs; rw [search_regexCapture re hF hs] at h1; simp at h1
    unfold dltRegexNext; rw [h2]
    refine ⟨fun r => ⟨fun h => by simp at h, ?_⟩, ⟨fun _ => hno, fun _ => rfl⟩⟩
    rintro (⟨h | ⟨x, h⟩, _⟩ | ⟨x, a, b, h, _⟩) <;> exact absurd h (hno _)
  · obtain ⟨o, ho, hs⟩ := regexCapture_search re hF off _ h1
    have hon : Search re bytes off none ∨ ∃ x, Search re bytes off (some (x, none)) := by
      cases o with
      | none => exact Or.inl hs
      | some y =>
        obtain ⟨x, g⟩ := y
        cases g with
        | none => exact Or.inr ⟨x, hs⟩
        | some p => simp [captureOf] at ho
    unfold dltRegexNext; rw [h2]
    refine ⟨fun r => ⟨fun h => ?_, ?_⟩, ⟨fun h => by simp at h, fun h => absurd hs (h _)⟩⟩
    · simp only [Option.some.injEq] at h; exact Or.inl ⟨hon, h.symm⟩
    · rintro (⟨_, h⟩ | ⟨x, a, b, h, _⟩)
      · rw [h]
      · have := search_unique hs h; subst this; simp [captureOf] at ho
  · obtain ⟨o, ho, hs⟩ := regexCapture_search re hF off _ h1
    have hox : ∃ x, o = some (x, some (a, b)) ∧ x.1 = i := by
      cases o with
      | none => simp [captureOf] at ho
      | some y =>
        obtain ⟨x, g⟩ := y
        cases g with
        | none => simp [captureOf] at ho
        | some p =>
          simp only [captureOf, Option.bind_some, Option.map_some, Res.ok.injEq, Option.some.injEq,
            Prod.mk.injEq] at ho
          obtain ⟨h1, h2⟩ := ho
          exact ⟨x, by rw [← h2], h1.symm⟩
    obtain ⟨x, rfl, rfl⟩ := hox
    unfold dltRegexNext; rw [h2]
    refine ⟨fun r => ⟨fun h => ?_, ?_⟩, ⟨fun h => by simp at h, fun h => absurd hs (h _)⟩⟩
    · simp only [Option.some.injEq] at h; exact Or.inr ⟨x, a, b, hs, h.symm⟩
    · rintro (⟨h | ⟨y, h⟩, _⟩ | ⟨y, a', b', h, h'⟩)
      · have := search_unique hs h; simp at this
      · have := search_unique hs h; simp at this
      · have := search_unique hs h
        simp only [Option.some.injEq, Prod.mk.injEq] at this
        obtain ⟨rfl, rfl, rfl⟩ := this
        rw [h']

/-- **C82** draining the capture iterator from any offset ends iff the specification has a finite outcome there, and
then it yields exactly that. -/
theorem C82_capture_exact (re : Regex) (bytes : Bytes) (hF : Fits bytes) (off : Nat)
    (items : List (Nat × (Nat × Nat))) :
    CollectsD (dltRegexNext re bytes) off items ↔ CaptureYields re bytes off items := by
  constructor
  · rintro ⟨f, hf⟩
    induction f generalizing off items with
    | zero => simp [collectDN] at hf
    | succ f ih =>
      rw [collectDN] at hf
      cases hn : dltRegexNext re bytes off with
      | none => rw [hn] at hf; simp at hf
      | some r =>
        rcases ((C82_next_exact re bytes hF off).1 r).1 hn with ⟨hs | ⟨x, hs⟩, rfl⟩ | ⟨x, a, b, hs, rfl⟩
        · rw [hn] at hf; simp at hf; subst hf; exact .done hs
        · rw [hn] at hf; simp at hf; subst hf; exact .noGroup hs
        · rw [hn] at hf
          simp only at hf
          cases hc : collectDN (dltRegexNext re bytes) f (x.1 + b) with
          | none => rw [hc] at hf; simp at hf
          | some q =>
            rw [hc] at hf
            cases q with
            | panic => simp at hf
            | ok as =>
              simp only [Option.some.injEq, Res.ok.injEq] at hf
              subst hf
              exact .hit hs (ih _ _ hc)
  · intro h
    induction h with
    | done hs => exact CollectsD.nil (((C82_next_exact re bytes hF _).1 _).2 (Or.inl ⟨Or.inl hs, rfl⟩))
    | noGroup hs => exact CollectsD.nil (((C82_next_exact re bytes hF _).1 _).2 (Or.inl ⟨Or.inr ⟨_, hs⟩, rfl⟩))
    | hit hs _ ih =>
      exact CollectsD.cons (((C82_next_exact re bytes hF _).1 _).2 (Or.inr ⟨_, _, _, hs, rfl⟩)) ih

/-! ## Concrete cases -/

/-- The file of `C26_spanning_match_hides_hit`: the match `a..b` from the first message into the second is skipped,
so nothing is found. -/
example : Fits (packed spanFile) ∧ GrepYields aToB (packed spanFile) 0 [] ∧ ¬ Search aToB (packed spanFile) 0 (some ((0, textMsg [97]), none)) := by
  have hF : Fits (packed spanFile) := by decide
  have h := (C81_grep_exact aToB (packed spanFile) hF 0 []).1 C26_spanning_match_hides_hit.2.2.2.2.2
  refine ⟨hF, h, fun hs => ?_⟩
  cases h with
  | done h => have := search_unique h hs; simp at this

/-- Two captures in one message. -/
example : CaptureYields groupX (packed [textMsg [120, 120]]) 0 [(0, (20, 21)), (0, (21, 22))] :=
  (C82_capture_exact groupX _ (by decide) 0 _).1 C27_reported_twice.2

/-- The empty pattern on a non-empty file: the search at offset 0 skips for ever. -/
example : ∃ q, Skips emptyPattern (encode msg0) 0 q ∧ q < (encode msg0).length ∧ Matches emptyPattern (encode msg0) q q ∧
    Outside (encode msg0) q q :=
  (C81_diverges_iff emptyPattern (encode msg0) (by decide) 0).1 (C25_next_diverges _ (by decide) (by decide))

end Verif
