import Verif.Lemmas.Pattern
import Verif.Props.GrepCapture
import Verif.Props.GrepEnds
import Verif.Props.Hello

/-!
# C118: searching with a pattern as a user writes it

`compile` is the matcher of a parsed pattern. Here: which matches it finds, from which patterns the searches end on every
file, and for which patterns the search finds exactly the messages that contain a text of the pattern.
-/

set_option linter.unusedSimpArgs false

namespace Verif
open Spec Pat

/-- **C118** the matcher finds a match at a position if and only if there is one there, and what it finds is one. -/
theorem C118_matches (p : Pat) (bytes : Bytes) (s : Nat) :
    ((∃ e, Matches (compile p) bytes s e) ↔ s ≤ bytes.length ∧ ∃ e, Span bytes p s e) ∧
    ∀ e, Matches (compile p) bytes s e → Span bytes p s e := by
  refine ⟨?_, fun e ⟨g, h⟩ => (compile_some h).2⟩
  rw [← compile_isSome]
  constructor
  · rintro ⟨e, g, h⟩; exact ⟨_, h⟩
  · rintro ⟨⟨e, g⟩, h⟩; exact ⟨e, g, h⟩

/-- **C118** for patterns without assertions: matches are occurrences of the texts of the pattern. -/
theorem C118_texts (p : Pat) (hl : LookFree p) (bytes : Bytes) (s : Nat) :
    ((∃ e, Matches (compile p) bytes s e) ↔ s ≤ bytes.length ∧ ∃ t, Text p t ∧ t <+: bytes.drop s) ∧
    ∀ e, Matches (compile p) bytes s e → ∃ t, Text p t ∧ t <+: bytes.drop s ∧ e = s + t.length := by
  obtain ⟨h1, h2⟩ := C118_matches p bytes s
  refine ⟨?_, fun e h => (span_text hl).1 (h2 e h)⟩
  rw [h1]
  constructor
  · rintro ⟨hs, e, h⟩
    obtain ⟨t, h3, h4, -⟩ := (span_text hl).1 h
    exact ⟨hs, t, h3, h4⟩
  · rintro ⟨hs, t, h3, h4⟩
    exact ⟨hs, _, (span_text hl).2 ⟨t, h3, h4, rfl⟩⟩

theorem compile_nonEmpty {p : Pat} (hn : nullable p = false) (bytes : Bytes) : NonEmpty (compile p) bytes := by
  rintro s e ⟨g, h⟩
  exact span_pos (compile_some h).2 hn

/-- **C118** a pattern that cannot match the empty text: the search ends on every file from every offset, without panic,
and yields the messages in ascending order. -/
theorem C118_ends (p : Pat) (hn : nullable p = false) (bytes : Bytes) (hF : Fits bytes) (off : Nat) :
    ∃ items, CollectsD (dltGrepNext (compile p) bytes) off items ∧ items.Pairwise fun a b => a.1 < b.1 := by
  obtain ⟨items, h⟩ := C25_grep_terminates_partial (compile p) bytes hF (compile_nonEmpty hn bytes) off
  exact ⟨items, h, C24_grep_increasing _ bytes hF (compile_nonEmpty hn bytes) off items h⟩

/-- **C118** and without assertions that is a matter of the language alone. -/
theorem C118_nullable (p : Pat) (hl : LookFree p) : nullable p = true ↔ Text p [] := (text_nil hl).symm

/-! ## Groups -/

theorem turns_group {bs : Bytes} {a : Pat} {st x : St} (h : Turns (runs bs a) st x) (hs : st.1 ≤ bs.length)
    (P : Nat → Nat → Prop) (hstep : ∀ st, st.1 ≤ bs.length → ∀ y ∈ runs bs a st, ∀ i j, y.2 = some (i, j) → st.2 = some (i, j) ∨ P i j) :
    ∀ i j, x.2 = some (i, j) → st.2 = some (i, j) ∨ P i j := by
  induction h with
  | stop st => exact fun i j h => .inl h
  | more st y x h1 h2 h3 ih =>
    intro i j hx
    rcases ih (runs_le hs h1).2 i j hx with h | h
    · exact hstep st hs y h1 i j h
    · exact .inr h

theorem runs_group (bs : Bytes) : ∀ (p : Pat) (st : St), st.1 ≤ bs.length → ∀ x ∈ runs bs p st, ∀ i j, x.2 = some (i, j) →
    st.2 = some (i, j) ∨ ∃ b ∈ groupBodies p, Span bs b i j
  | empty, st, hs, x, hx, i, j, h => by
    rw [runs, List.mem_singleton] at hx; subst hx; exact .inl h
  | byte q, st, hs, x, hx, i, j, h => by
    rw [runs] at hx
    split at hx
    · split at hx
      · rw [List.mem_singleton] at hx; subst hx; exact .inl h
      · cases hx
    · cases hx
  | char q, st, hs, x, hx, i, j, h => by
    rw [runs] at hx
    split at hx
    · split at hx
      · rw [List.mem_singleton] at hx; subst hx; exact .inl h
      · cases hx
    · cases hx
  | look q, st, hs, x, hx, i, j, h => by
    rw [runs] at hx
    split at hx
    · rw [List.mem_singleton] at hx; subst hx; exact .inl h
    · cases hx
  | seq a b, st, hs, x, hx, i, j, h => by
    rw [runs, List.mem_flatMap] at hx
    obtain ⟨y, hy, hx⟩ := hx
    rcases runs_group bs b y (runs_le hs hy).2 x hx i j h with h | ⟨c, hc, h⟩
    · rcases runs_group bs a st hs y hy i j h with h | ⟨c, hc, h⟩
      · exact .inl h
      · exact .inr ⟨c, List.mem_append.2 (.inl hc), h⟩
    · exact .inr ⟨c, List.mem_append.2 (.inr hc), h⟩
  | alt a b, st, hs, x, hx, i, j, h => by
    rw [runs, List.mem_append] at hx
    rcases hx with hx | hx
    · rcases runs_group bs a st hs x hx i j h with h | ⟨c, hc, h⟩
      · exact .inl h
      · exact .inr ⟨c, List.mem_append.2 (.inl hc), h⟩
    · rcases runs_group bs b st hs x hx i j h with h | ⟨c, hc, h⟩
      · exact .inl h
      · exact .inr ⟨c, List.mem_append.2 (.inr hc), h⟩
  | star g a, st, hs, x, hx, i, j, h => by
    rw [runs] at hx
    exact turns_group (repeatRuns_turns hx) hs (fun i j => ∃ b ∈ groupBodies a, Span bs b i j)
      (fun st hs y hy => runs_group bs a st hs y hy) i j h
  | group n a, st, hs, x, hx, i, j, h => by
    rw [runs, List.mem_map] at hx
    obtain ⟨y, hy, rfl⟩ := hx
    dsimp only at h
    split at h
    · next hn =>
      cases h
      refine .inr ⟨a, ?_, runs_sound hs hy⟩
      unfold groupBodies
      rw [if_pos hn]
      exact List.mem_append.2 (.inl (List.mem_singleton.2 rfl))
    · rcases runs_group bs a st hs y hy i j h with h | ⟨c, hc, h⟩
      · exact .inl h
      · exact .inr ⟨c, List.mem_append.2 (.inr hc), h⟩

theorem turns_some {bs : Bytes} {a : Pat} {st x : St} (h : Turns (runs bs a) st x)
    (hstep : ∀ st, st.2 ≠ none → ∀ y ∈ runs bs a st, y.2 ≠ none) : st.2 ≠ none → x.2 ≠ none := by
  induction h with
  | stop st => exact id
  | more st y x h1 h2 h3 ih => exact fun h => ih (hstep st h y h1)

theorem runs_some (bs : Bytes) : ∀ (p : Pat) (st : St), (st.2 ≠ none ∨ hasGroup p = true) → ∀ x ∈ runs bs p st, x.2 ≠ none
  | empty, st, h, x, hx => by
    rw [runs, List.mem_singleton] at hx; subst hx; exact h.resolve_right (by simp [hasGroup])
  | byte q, st, h, x, hx => by
    rw [runs] at hx
    split at hx
    · split at hx
      · rw [List.mem_singleton] at hx; subst hx; exact h.resolve_right (by simp [hasGroup])
      · cases hx
    · cases hx
  | char q, st, h, x, hx => by
    rw [runs] at hx
    split at hx
    · split at hx
      · rw [List.mem_singleton] at hx; subst hx; exact h.resolve_right (by simp [hasGroup])
      · cases hx
    · cases hx
  | look q, st, h, x, hx => by
    rw [runs] at hx
    split at hx
    · rw [List.mem_singleton] at hx; subst hx; exact h.resolve_right (by simp [hasGroup])
    · cases hx
  | seq a b, st, h, x, hx => by
    rw [runs, List.mem_flatMap] at hx
    obtain ⟨y, hy, hx⟩ := hx
    simp only [hasGroup, Bool.or_eq_true] at h
    rcases h with h | h | h
    · exact runs_some bs b y (.inl (runs_some bs a st (.inl h) y hy)) x hx
    · exact runs_some bs b y (.inl (runs_some bs a st (.inr h) y hy)) x hx
    · exact runs_some bs b y (.inr h) x hx
  | alt a b, st, h, x, hx => by
    rw [runs, List.mem_append] at hx
    simp only [hasGroup, Bool.and_eq_true] at h
    rcases hx with hx | hx
    · exact runs_some bs a st (h.imp id (·.1)) x hx
    · exact runs_some bs b st (h.imp id (·.2)) x hx
  | star g a, st, h, x, hx => by
    rw [runs] at hx
    exact turns_some (repeatRuns_turns hx) (fun st h y hy => runs_some bs a st (.inl h) y hy)
      (h.resolve_right (by simp [hasGroup]))
  | group n a, st, h, x, hx => by
    rw [runs, List.mem_map] at hx
    obtain ⟨y, hy, rfl⟩ := hx
    dsimp only
    split
    · simp
    · next hn =>
      refine runs_some bs a st (h.imp id fun h => ?_) y hy
      simp only [hasGroup, Bool.or_eq_true, beq_iff_eq] at h
      exact h.resolve_left hn

/-- **C118** the range reported for group 1 is a match of the pattern in that group; and if each way through the pattern
passes the group, every match has it. -/
theorem C118_group (p : Pat) (bytes : Bytes) (s e : Nat) :
    (∀ a b, Captures (compile p) bytes s e a b → ∃ q ∈ groupBodies p, Span bytes q a b) ∧
    (hasGroup p = true → Matches (compile p) bytes s e → ∃ a b, Captures (compile p) bytes s e a b) := by
  constructor
  · intro a b h
    have h1 : (if s ≤ bytes.length then (runs bytes p (s, none)).head? else none) = some (e, some (a, b)) := h
    split at h1
    · next hs =>
      rcases runs_group bytes p (s, none) hs _ (List.mem_of_head? h1) a b rfl with h | h
      · cases h
      · exact h
    · cases h1
  · rintro hg ⟨g, h⟩
    have h1 : (if s ≤ bytes.length then (runs bytes p (s, none)).head? else none) = some (e, g) := h
    split at h1
    · next hs =>
      rcases g with _ | ⟨a, b⟩
      · exact absurd rfl (runs_some bytes p (s, none) (.inr hg) _ (List.mem_of_head? h1))
      · exact ⟨a, b, h⟩
    · cases h1

/-- **C118** capturing ends on every file if neither the pattern nor the patterns in its group can match the empty text. -/
theorem C118_capture_ends (p : Pat) (hn : nullable p = false) (hg : ∀ q ∈ groupBodies p, nullable q = false) (bytes : Bytes)
    (hF : Fits bytes) (off : Nat) : ∃ items, CollectsD (dltRegexNext (compile p) bytes) off items := by
  refine C27_regex_terminates_partial (compile p) bytes hF (compile_nonEmpty hn bytes) (fun s e a b h => ?_) off
  obtain ⟨q, hq, h⟩ := (C118_group p bytes s e).1 a b h
  exact span_pos h (hg q hq)

/-! ## Finding every message -/

namespace Spec

/-- The texts of the pattern can only lie inside of messages of a packed log: they contain no byte 1 (the last byte of the
start marker) and do not end with the beginning of a marker. -/
def StaysInside (p : Pat) : Prop :=
  ∀ t, Text p t → 1 ∉ t ∧ ¬ [68] <:+ t ∧ ¬ [68, 76] <:+ t ∧ ¬ [68, 76, 84] <:+ t

end Spec

theorem stays_before {t bytes : Bytes} {s m : Nat} (ht : t <+: bytes.drop s) (h1 : 1 ∉ t) (hm : bytes[m + 3]? = some 1)
    (he : m + 3 < s + t.length) : m + 4 ≤ s := by
  apply Classical.byContradiction
  intro hlt
  apply h1
  obtain ⟨r, hr⟩ := ht
  have h2 : (bytes.drop s)[m + 3 - s]? = some 1 := by
    rw [List.getElem?_drop]
    rw [show s + (m + 3 - s) = m + 3 by omega]
    exact hm
  rw [← hr, List.getElem?_append_left (by omega)] at h2
  exact List.mem_of_getElem? h2

theorem marker_last {bytes : Bytes} {m : Nat} (h : dltMarker <+: bytes.drop m) : bytes[m + 3]? = some 1 := by
  obtain ⟨r, hr⟩ := h
  have : (bytes.drop m)[3]? = some 1 := by rw [← hr]; rfl
  rwa [List.getElem?_drop] at this

theorem stays_within {t bytes : Bytes} {s m : Nat} (ht : t <+: bytes.drop s) (h : 1 ∉ t ∧ ¬ [68] <:+ t ∧ ¬ [68, 76] <:+ t ∧ ¬ [68, 76, 84] <:+ t)
    (hs : s < m) (hm : dltMarker <+: bytes.drop m) : s + t.length ≤ m := by
  apply Classical.byContradiction
  intro hlt
  obtain ⟨h1, h2, h3, h4⟩ := h
  rcases Nat.lt_or_ge (m + 3) (s + t.length) with h5 | h5
  · have := stays_before ht h1 (marker_last hm) h5
    omega
  · have hd : t.drop (m - s) <+: bytes.drop m := by
      obtain ⟨r, hr⟩ := ht
      refine ⟨r, ?_⟩
      rw [show m = s + (m - s) by omega, ← List.drop_drop, ← hr, show s + (m - s) - s = m - s by omega,
        List.drop_append_of_le_length (by omega)]
    have hp := List.prefix_of_prefix_length_le hd hm (by
      rw [List.length_drop]; show _ ≤ 4; omega)
    have hsuf : t.drop (m - s) <:+ t := List.drop_suffix _ _
    have hlen : (t.drop (m - s)).length = t.length - (m - s) := List.length_drop
    have hk : t.length - (m - s) = 1 ∨ t.length - (m - s) = 2 ∨ t.length - (m - s) = 3 := by omega
    have heq := List.prefix_iff_eq_take.1 hp
    rw [hlen] at heq
    rcases hk with hk | hk | hk <;> rw [hk] at heq <;> rw [heq] at hsuf
    · exact h2 hsuf
    · exact h3 hsuf
    · exact h4 hsuf

/-- **C118** a pattern without assertions whose texts are not empty and stay inside of messages, on a log of messages one
behind the other in which the start marker occurs at the starts of the messages only: the search yields exactly the messages that
contain a text of the pattern, once each, in order. -/
theorem C118_finds (p : Pat) (hl : LookFree p) (hne : ¬ Text p []) (hin : StaysInside p) (es : List StorageEntry)
    (hw : ∀ e ∈ es, WF e) (hF : Fits (packed es)) (hM : MarkersAreMessages (packed es) (packedAt 0 es)) :
    ∃ items, CollectsD (dltGrepNext (compile p) (packed es)) 0 items ∧ (items.Pairwise fun a b => a.1 < b.1) ∧
      ∀ x, x ∈ items ↔ x ∈ packedAt 0 es ∧ ∃ t, Text p t ∧ t <:+: (encode x.2).drop 4 := by
  have hG := topLevel_packed hw
  have hadj : ∀ x ∈ packedAt 0 es, x.1 + (encode x.2).length = (packed es).length ∨
      dltMarker <+: (packed es).drop (x.1 + (encode x.2).length) := by simpa using packed_adjacent es [] hw
  generalize hb : packed es = bytes at *
  have hn : nullable p = false := by
    rcases h : nullable p with _ | _
    · rfl
    · exact absurd ((text_nil hl).2 h) hne
  have hNE := compile_nonEmpty hn bytes
  -- what starts in a message behind its marker ends in it
  have hwithin : ∀ x ∈ packedAt 0 es, ∀ s t, Text p t → t <+: bytes.drop s → s < x.1 + (encode x.2).length →
      s + t.length ≤ x.1 + (encode x.2).length := by
    intro x hx s t ht hp hs
    rcases hadj x hx with h | h
    · have := hp.length_le
      rw [List.length_drop] at this
      omega
    · exact stays_within hp (hin t ht) hs h
  have hnh : NoHiding (compile p) bytes (packedAt 0 es) := by
    intro x hx s e s' e' hin' hm h1 h2
    obtain ⟨t, ht, hp, rfl⟩ := (C118_texts p hl bytes s).2 e hm
    have hmk : dltMarker <+: bytes.drop x.1 := (readableAt_iff_msgAt.2 (topLevel_wf hG x hx).1).marker dlt_lawful
    have hpos := hNE _ _ hin'.1
    have h3 := hin'.2
    refine ⟨hm, stays_before hp (hin t ht).1 (marker_last hmk) (by omega), hwithin x hx s t ht hp (by omega)⟩
  obtain ⟨items, h1, h2, h3⟩ := C26_grep_complete_partial (compile p) bytes hF hNE _ hG hM hnh
  refine ⟨items, h1, h2, fun x => ?_⟩
  rw [h3]
  refine and_congr_right fun hx => ?_
  obtain ⟨⟨hwf, pre, post, hbytes, hpre⟩, _⟩ := topLevel_wf hG x hx
  have hel := encode_length x.2
  have hdrop : bytes.drop x.1 = encode x.2 ++ post := by
    rw [hbytes, ← hpre, List.append_assoc, List.drop_left]
  constructor
  · rintro ⟨s, e, hm, h4, h5⟩
    obtain ⟨t, ht, hp, rfl⟩ := (C118_texts p hl bytes s).2 e hm
    refine ⟨t, ht, ?_⟩
    obtain ⟨k, rfl⟩ : ∃ k, s = x.1 + (4 + k) := ⟨s - x.1 - 4, by omega⟩
    rw [← List.drop_drop, hdrop, List.drop_append_of_le_length (by omega)] at hp
    have hp2 := List.prefix_of_prefix_length_le hp (List.prefix_append _ _) (by rw [List.length_drop]; omega)
    rw [← List.drop_drop] at hp2
    exact hp2.isInfix.trans (List.drop_suffix _ _).isInfix
  · rintro ⟨t, ht, a, c, hac⟩
    have hl' := congrArg List.length hac
    simp only [List.length_append, List.length_drop] at hl'
    have htp : 0 < t.length := List.length_pos_iff.2 fun h => hne (h ▸ ht)
    have hp : t <+: bytes.drop (x.1 + (4 + a.length)) := by
      rw [← List.drop_drop, hdrop, List.drop_append_of_le_length (by omega), ← List.drop_drop, ← hac,
        List.append_assoc, List.drop_left, List.append_assoc]
      exact List.prefix_append _ _
    have hle : x.1 + (4 + a.length) ≤ bytes.length := by rw [hbytes]; simp only [List.length_append]; omega
    obtain ⟨e, he⟩ := (C118_texts p hl bytes (x.1 + (4 + a.length))).1.2 ⟨hle, t, ht, hp⟩
    obtain ⟨t', ht', hp', rfl⟩ := (C118_texts p hl bytes _).2 e he
    exact ⟨_, _, he, by omega, hwithin x hx _ t' ht' hp' (by omega)⟩

end Verif
