import Verif.Spec.Pattern
import Verif.Lemmas.Hello

/-! # Lemmas about patterns -/

set_option linter.unusedSimpArgs false

namespace Verif
open Spec Pat

theorem Spec.Scalar.length {c : Bytes} (h : Scalar c) : 1 ≤ c.length := List.length_pos_iff.2 h.2.1

theorem scalarLen_scalar {bs : Bytes} {k : Nat} (h : scalarLen bs = some k) : Scalar (bs.take k) := by
  obtain ⟨h1, h2, h3, h4⟩ := scalarLen_some h
  refine ⟨h3, fun hn => ?_, fun x y hxy hx hy => ?_⟩
  · have := congrArg List.length hn
    rw [List.length_take, List.length_nil] at this
    omega
  · rcases x with _ | ⟨a, x⟩
    · exact .inl rfl
    · right
      have hl := congrArg List.length hxy
      rw [List.length_take, List.length_append] at hl
      have h5 : bs.take (a :: x).length = a :: x := by
        have := congrArg (List.take (a :: x).length) hxy
        rw [List.take_left, List.take_take, Nat.min_eq_left (by omega)] at this
        exact this
      have := h4 (a :: x).length (by simp) (by omega) (by rw [h5]; exact hx)
      exact List.eq_nil_of_length_eq_zero (by omega)

theorem scalarLen_of {bs c : Bytes} (hc : Scalar c) (h : c <+: bs) : scalarLen bs = some c.length := by
  obtain ⟨r, rfl⟩ := h
  have ht : (c ++ r).take c.length = c := List.take_left
  have hl : c.length ≤ (c ++ r).length := by rw [List.length_append]; omega
  rcases hs : scalarLen (c ++ r) with _ | k
  · have := scalarLen_none hs c.length hl (by rw [ht]; exact hc.1)
    have := hc.length
    omega
  · obtain ⟨h1, h2, h3, h4⟩ := scalarLen_some hs
    have hkc : k ≤ c.length := h4 c.length hc.length hl (by rw [ht]; exact hc.1)
    have hx : (c ++ r).take k = c.take k := List.take_append_of_le_length hkc
    rw [hx] at h3
    have := hc.2.2 (c.take k) (c.drop k) (List.take_append_drop k c).symm h3 (h3.rest (by rw [List.take_append_drop]; exact hc.1))
    rcases this with h | h
    · have := congrArg List.length h
      rw [List.length_take, List.length_nil] at this
      omega
    · have := congrArg List.length h
      rw [List.length_drop, List.length_nil] at this
      rw [show k = c.length by omega]

/-- What `repeatRuns` reaches is reached by turns that get further. -/
inductive Turns (step : St → List St) : St → St → Prop where
  | stop (st : St) : Turns step st st
  | more (st y x : St) : y ∈ step st → st.1 < y.1 → Turns step y x → Turns step st x

theorem mem_repeatRuns_succ {greedy : Bool} {step : St → List St} {n : Nat} {st x : St} :
    x ∈ repeatRuns greedy step (n + 1) st ↔ x = st ∨ ∃ y ∈ step st, st.1 < y.1 ∧ x ∈ repeatRuns greedy step n y := by
  rw [repeatRuns]
  split
  · rw [List.mem_append, List.mem_flatMap, List.mem_singleton]
    constructor
    · rintro (⟨y, hy, hx⟩ | hx)
      · obtain ⟨h1, h2⟩ := List.mem_filter.1 hy
        exact .inr ⟨y, h1, by simpa using h2, hx⟩
      · exact .inl hx
    · rintro (hx | ⟨y, h1, h2, hx⟩)
      · exact .inr hx
      · exact .inl ⟨y, List.mem_filter.2 ⟨h1, by simpa using h2⟩, hx⟩
  · rw [List.mem_cons, List.mem_flatMap]
    constructor
    · rintro (hx | ⟨y, hy, hx⟩)
      · exact .inl hx
      · obtain ⟨h1, h2⟩ := List.mem_filter.1 hy
        exact .inr ⟨y, h1, by simpa using h2, hx⟩
    · rintro (hx | ⟨y, h1, h2, hx⟩)
      · exact .inl hx
      · exact .inr ⟨y, List.mem_filter.2 ⟨h1, by simpa using h2⟩, hx⟩

theorem repeatRuns_turns {greedy : Bool} {step : St → List St} : ∀ {n : Nat} {st x : St},
    x ∈ repeatRuns greedy step n st → Turns step st x
  | 0, st, x, h => by
    rw [repeatRuns, List.mem_singleton] at h; subst h; exact .stop _
  | n + 1, st, x, h => by
    rcases mem_repeatRuns_succ.1 h with rfl | ⟨y, h1, h2, h3⟩
    · exact .stop _
    · exact .more _ y _ h1 h2 (repeatRuns_turns h3)

theorem turns_repeatRuns {greedy : Bool} {step : St → List St} {len : Nat}
    (hf : ∀ st, st.1 ≤ len → ∀ y ∈ step st, y.1 ≤ len) {st x : St} (h : Turns step st x) :
    st.1 ≤ len → ∀ n, len - st.1 ≤ n → x ∈ repeatRuns greedy step n st := by
  induction h with
  | stop st =>
    intro _ n _
    cases n with
    | zero => rw [repeatRuns]; exact List.mem_singleton.2 rfl
    | succ n => exact mem_repeatRuns_succ.2 (.inl rfl)
  | more st y x h1 h2 h3 ih =>
    intro hl n hn
    have hy := hf st hl y h1
    cases n with
    | zero => omega
    | succ n => exact mem_repeatRuns_succ.2 (.inr ⟨y, h1, h2, ih hy n (by omega)⟩)

theorem runs_le {bs : Bytes} {p : Pat} {st x : St} (hs : st.1 ≤ bs.length) (h : x ∈ runs bs p st) :
    st.1 ≤ x.1 ∧ x.1 ≤ bs.length := by
  have := runs_forward bs 0 p st (Nat.zero_le _) hs x h
  exact ⟨this.1, this.2.1⟩

/-- The engine only finds matches. -/
theorem runs_sound {bs : Bytes} : ∀ {p : Pat} {st x : St}, st.1 ≤ bs.length → x ∈ runs bs p st → Span bs p st.1 x.1
  | empty, st, x, hs, h => by rw [runs, List.mem_singleton] at h; subst h; exact .empty
  | byte q, st, x, hs, h => by
    rw [runs] at h
    split at h
    · next b hb =>
      split at h
      · next hq => rw [List.mem_singleton] at h; subst h; exact .byte hb hq
      · cases h
    · cases h
  | char q, st, x, hs, h => by
    rw [runs] at h
    split at h
    · next k hk =>
      split at h
      · next hq =>
        rw [List.mem_singleton] at h; subst h
        have hl : ((bs.drop st.1).take k).length = k := by
          rw [List.length_take]; have := scalarLen_le hk; omega
        have := Span.char (bs := bs) (s := st.1) (scalarLen_scalar hk) (List.take_prefix _ _) hq
        rwa [hl] at this
      · cases h
    · cases h
  | look q, st, x, hs, h => by
    rw [runs] at h
    split at h
    · next hq => rw [List.mem_singleton] at h; subst h; exact .look hq
    · cases h
  | seq a b, st, x, hs, h => by
    rw [runs, List.mem_flatMap] at h
    obtain ⟨y, hy, hx⟩ := h
    exact .seq (runs_sound hs hy) (runs_sound (runs_le hs hy).2 hx)
  | alt a b, st, x, hs, h => by
    rw [runs, List.mem_append] at h
    rcases h with h | h
    · exact .left (runs_sound hs h)
    · exact .right (runs_sound hs h)
  | star g a, st, x, hs, h => by
    rw [runs] at h
    have ht := repeatRuns_turns h
    clear h
    induction ht with
    | stop st => exact .stop
    | more st y x h1 h2 h3 ih => exact .more (runs_sound hs h1) (ih (runs_le hs h1).2)
  | group n a, st, x, hs, h => by
    rw [runs, List.mem_map] at h
    obtain ⟨y, hy, rfl⟩ := h
    have := runs_sound hs hy
    exact .group this

theorem Spec.Span.le {bs : Bytes} {p : Pat} {s e : Nat} (h : Span bs p s e) : s ≤ e ∧ (s ≤ bs.length → e ≤ bs.length) := by
  induction h with
  | empty => exact ⟨Nat.le_refl _, id⟩
  | byte hb _ => have := (List.getElem?_eq_some_iff.1 hb).1; exact ⟨by omega, fun _ => by omega⟩
  | char _ hp _ =>
    have := hp.length_le
    rw [List.length_drop] at this
    exact ⟨by omega, fun _ => by omega⟩
  | look _ => exact ⟨Nat.le_refl _, id⟩
  | seq _ _ h1 h2 => exact ⟨by omega, fun h => h2.2 (h1.2 h)⟩
  | left _ h => exact h
  | right _ h => exact h
  | stop => exact ⟨Nat.le_refl _, id⟩
  | more _ _ h1 h2 => exact ⟨by omega, fun h => h2.2 (h1.2 h)⟩
  | group _ h => exact h

/-- The engine finds every match. -/
theorem runs_complete {bs : Bytes} {p : Pat} {s e : Nat} (h : Span bs p s e) :
    s ≤ bs.length → ∀ g, ∃ g', (e, g') ∈ runs bs p (s, g) := by
  induction h with
  | empty => exact fun _ g => ⟨g, by rw [runs]; exact List.mem_singleton.2 rfl⟩
  | byte hb hq =>
    refine fun _ g => ⟨g, ?_⟩
    rw [runs]
    dsimp only
    rw [hb]
    dsimp only
    rw [if_pos hq]
    exact List.mem_singleton.2 rfl
  | @char q c s hc hp hq =>
    refine fun _ g => ⟨g, ?_⟩
    rw [runs]
    dsimp only
    rw [scalarLen_of hc hp]
    dsimp only
    have : (bs.drop s).take c.length = c := (List.prefix_iff_eq_take.1 hp).symm
    rw [this, if_pos hq]
    exact List.mem_singleton.2 rfl
  | look hq =>
    refine fun _ g => ⟨g, ?_⟩
    rw [runs]
    dsimp only
    rw [if_pos hq]
    exact List.mem_singleton.2 rfl
  | seq h1 _ ih1 ih2 =>
    intro hs g
    obtain ⟨g1, hg1⟩ := ih1 hs g
    obtain ⟨g2, hg2⟩ := ih2 (h1.le.2 hs) g1
    exact ⟨g2, by rw [runs]; exact List.mem_flatMap.2 ⟨_, hg1, hg2⟩⟩
  | left _ ih =>
    intro hs g
    obtain ⟨g1, hg1⟩ := ih hs g
    exact ⟨g1, by rw [runs]; exact List.mem_append.2 (.inl hg1)⟩
  | right _ ih =>
    intro hs g
    obtain ⟨g1, hg1⟩ := ih hs g
    exact ⟨g1, by rw [runs]; exact List.mem_append.2 (.inr hg1)⟩
  | stop =>
    intro hs g
    refine ⟨g, ?_⟩
    rw [runs]
    exact turns_repeatRuns (len := bs.length) (fun st hl y hy => (runs_le hl hy).2) (.stop _) hs _ (Nat.le_refl _)
  | @more gr a s m e h1 h2 ih1 ih2 =>
    intro hs g
    obtain ⟨g1, hg1⟩ := ih1 hs g
    rcases Nat.lt_or_ge s m with hlt | hge
    · obtain ⟨g2, hg2⟩ := ih2 (h1.le.2 hs) g1
      rw [runs] at hg2
      refine ⟨g2, ?_⟩
      rw [runs]
      exact turns_repeatRuns (len := bs.length) (fun st hl y hy => (runs_le hl hy).2)
        (.more _ _ _ hg1 hlt (repeatRuns_turns hg2)) hs _ (Nat.le_refl _)
    · have : s = m := by have := h1.le.1; omega
      subst this
      exact ih2 hs g
  | group _ ih =>
    intro hs g
    obtain ⟨g1, hg1⟩ := ih hs g
    rw [runs]
    exact ⟨_, List.mem_map.2 ⟨_, hg1, rfl⟩⟩

/-- What a compiled pattern finds at a position. -/
theorem compile_some {p : Pat} {bs : Bytes} {s e : Nat} {g : Option (Nat × Nat)} (h : (compile p).matchAt bs s = some (e, g)) :
    s ≤ bs.length ∧ Span bs p s e := by
  have h1 : (if s ≤ bs.length then (runs bs p (s, none)).head? else none) = some (e, g) := h
  split at h1
  · next hs => exact ⟨hs, runs_sound (st := (s, none)) (x := (e, g)) hs (List.mem_of_head? h1)⟩
  · cases h1

theorem compile_isSome {p : Pat} {bs : Bytes} {s : Nat} :
    (∃ m, (compile p).matchAt bs s = some m) ↔ s ≤ bs.length ∧ ∃ e, Span bs p s e := by
  constructor
  · rintro ⟨⟨e, g⟩, h⟩
    exact ⟨(compile_some h).1, e, (compile_some h).2⟩
  · rintro ⟨hs, e, h⟩
    obtain ⟨g, hg⟩ := runs_complete h hs none
    have h1 : (compile p).matchAt bs s = (runs bs p (s, none)).head? := if_pos hs
    rw [h1]
    rcases hr : runs bs p (s, none) with _ | ⟨m, l⟩
    · rw [hr] at hg; cases hg
    · exact ⟨m, rfl⟩

theorem append_prefix_drop {bs x y : Bytes} {s : Nat} : x ++ y <+: bs.drop s ↔ x <+: bs.drop s ∧ y <+: bs.drop (s + x.length) := by
  constructor
  · rintro ⟨r, hr⟩
    refine ⟨⟨y ++ r, by rw [← hr, List.append_assoc]⟩, r, ?_⟩
    rw [← List.drop_drop, ← hr, List.append_assoc, List.drop_left]
  · rintro ⟨⟨r, hr⟩, r', hr'⟩
    refine ⟨r', ?_⟩
    rw [← List.drop_drop, ← hr, List.drop_left] at hr'
    rw [← hr, ← hr', List.append_assoc]

/-- Without assertions the surroundings of a match do not matter. -/
theorem span_text {bs : Bytes} {p : Pat} {s e : Nat} (hl : LookFree p) :
    Span bs p s e ↔ ∃ t, Text p t ∧ t <+: bs.drop s ∧ e = s + t.length := by
  constructor
  · intro h
    induction h with
    | empty => exact ⟨[], .empty, List.nil_prefix, rfl⟩
    | @byte q b s hb hq =>
      refine ⟨[b], .byte hq, ?_, rfl⟩
      obtain ⟨h1, h2⟩ := List.getElem?_eq_some_iff.1 hb
      rw [List.drop_eq_getElem_cons h1, h2]
      exact ⟨_, rfl⟩
    | char hc hp hq => exact ⟨_, .char hc hq, hp, rfl⟩
    | look => exact hl.elim
    | seq _ _ ih1 ih2 =>
      obtain ⟨x, h1, h2, rfl⟩ := ih1 hl.1
      obtain ⟨y, h3, h4, rfl⟩ := ih2 hl.2
      exact ⟨x ++ y, .seq h1 h3, append_prefix_drop.2 ⟨h2, h4⟩, by rw [List.length_append]; omega⟩
    | left _ ih => obtain ⟨x, h1, h2⟩ := ih hl.1; exact ⟨x, .left h1, h2⟩
    | right _ ih => obtain ⟨x, h1, h2⟩ := ih hl.2; exact ⟨x, .right h1, h2⟩
    | stop => exact ⟨[], .stop, List.nil_prefix, rfl⟩
    | more _ _ ih1 ih2 =>
      obtain ⟨x, h1, h2, rfl⟩ := ih1 hl
      obtain ⟨y, h3, h4, rfl⟩ := ih2 hl
      exact ⟨x ++ y, .more h1 h3, append_prefix_drop.2 ⟨h2, h4⟩, by rw [List.length_append]; omega⟩
    | group _ ih => obtain ⟨x, h1, h2⟩ := ih hl; exact ⟨x, .group h1, h2⟩
  · rintro ⟨t, ht, hp, rfl⟩
    clear hl
    induction ht generalizing s with
    | empty => exact .empty
    | @byte q b hq =>
      obtain ⟨r, hr⟩ := hp
      refine .byte (b := b) ?_ hq
      have := congrArg (·[0]?) hr
      simpa [List.getElem?_drop] using this.symm
    | char hc hq => exact .char hc hp hq
    | @seq a b x y _ _ ih1 ih2 =>
      obtain ⟨h1, h2⟩ := append_prefix_drop.1 hp
      rw [List.length_append, ← Nat.add_assoc]
      exact .seq (ih1 h1) (ih2 h2)
    | left _ ih => exact .left (ih hp)
    | right _ ih => exact .right (ih hp)
    | stop => exact .stop
    | more _ _ ih1 ih2 =>
      obtain ⟨h1, h2⟩ := append_prefix_drop.1 hp
      rw [List.length_append, ← Nat.add_assoc]
      exact .more (ih1 h1) (ih2 h2)
    | group _ ih => exact .group (ih hp)

/-- `nullable` is about the empty text. -/
theorem text_nil {p : Pat} (hl : LookFree p) : Text p [] ↔ nullable p = true := by
  constructor
  · intro h
    generalize ht : ([] : Bytes) = t at h
    induction h with
    | empty => rfl
    | byte => cases ht
    | char hc => exact absurd ht.symm hc.2.1
    | seq _ _ ih1 ih2 =>
      obtain ⟨h1, h2⟩ := List.append_eq_nil_iff.1 ht.symm
      simp only [nullable, Bool.and_eq_true]
      exact ⟨ih1 hl.1 h1.symm, ih2 hl.2 h2.symm⟩
    | left _ ih => simp only [nullable, Bool.or_eq_true]; exact .inl (ih hl.1 ht)
    | right _ ih => simp only [nullable, Bool.or_eq_true]; exact .inr (ih hl.2 ht)
    | stop => rfl
    | more => rfl
    | group _ ih => exact ih hl ht
  · intro h
    induction p with
    | empty => exact .empty
    | byte => cases h
    | char => cases h
    | look => exact hl.elim
    | seq a b ih1 ih2 =>
      simp only [nullable, Bool.and_eq_true] at h
      exact .seq (x := []) (y := []) (ih1 hl.1 h.1) (ih2 hl.2 h.2)
    | alt a b ih1 ih2 =>
      simp only [nullable, Bool.or_eq_true] at h
      rcases h with h | h
      · exact .left (ih1 hl.1 h)
      · exact .right (ih2 hl.2 h)
    | star => exact .stop
    | group n a ih => exact .group (ih hl h)

/-- A pattern that is not `nullable` has no empty match, whatever its assertions. -/
theorem span_pos {bs : Bytes} {p : Pat} {s e : Nat} (h : Span bs p s e) (hn : nullable p = false) : s < e := by
  induction h with
  | empty => cases hn
  | byte => omega
  | char hc => have := hc.length; omega
  | look => cases hn
  | seq h1 h2 ih1 ih2 =>
    simp only [nullable, Bool.and_eq_false_iff] at hn
    have := h1.le.1; have := h2.le.1
    rcases hn with h | h
    · have := ih1 h; omega
    · have := ih2 h; omega
  | left _ ih => simp only [nullable, Bool.or_eq_false_iff] at hn; exact ih hn.1
  | right _ ih => simp only [nullable, Bool.or_eq_false_iff] at hn; exact ih hn.2
  | stop => cases hn
  | more => cases hn
  | group _ ih => exact ih hn

end Verif
