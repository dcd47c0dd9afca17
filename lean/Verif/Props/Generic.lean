import Verif.Props.GenericContain
import Verif.Props.GenericGrep
import Verif.Props.Search

/-!
# C85 to C87: the generic library `matchit`, for every message type that satisfies the laws

`Lawful` (Spec/Scan.lean) is what an implementor of `SearchableMarkerTrait` must guarantee. The DLT message type does
(`dlt_lawful`), and so does the second, made-up type below.
-/

set_option linter.unusedSimpArgs false

namespace Verif

open Spec

/-! ## A second message type

Not part of the repository: two marker bytes, one length byte, as many payload bytes. -/

/-- A made-up frame. -/
structure Frame where
  payload : Bytes
  deriving DecidableEq, Repr

/-- Reads a frame whose marker has been checked. -/
def Frame.read (bs : Bytes) : Option (Nat × Frame) :=
  match bs.drop 2 with
  | [] => none
  | n :: t => if n.toNat ≤ t.length then some (3 + n.toNat, ⟨t.take n.toNat⟩) else none

/-- The frame type as an implementor of the traits. -/
def frames : SearchableMarker Frame where
  tryRead bs := if [0xAA, 0x55] <+: bs then .ok (Frame.read bs) else .ok none
  len f := 3 + f.payload.length
  maxLen := 258
  marker := [0xAA, 0x55]
  marker_pos := by decide
  tryReadValidMarker bs := .ok (Frame.read bs)

theorem frame_read_some {bs : Bytes} {n : Nat} {v : Frame} (h : Frame.read bs = some (n, v)) :
    ∃ l t, bs.drop 2 = l :: t ∧ l.toNat ≤ t.length ∧ n = 3 + l.toNat ∧ v = ⟨t.take l.toNat⟩ := by
  unfold Frame.read at h
  cases hd : bs.drop 2 with
  | nil => rw [hd] at h; simp at h
  | cons l t =>
    rw [hd] at h
    by_cases hl : l.toNat ≤ t.length
    · simp only [if_pos hl, Option.some.injEq, Prod.mk.injEq] at h
      exact ⟨l, t, rfl, hl, h.1.symm, h.2.symm⟩
    · simp [if_neg hl] at h

theorem frames_lawful : Lawful frames where
  total bs := ⟨_, rfl⟩
  tryRead_eq bs := rfl
  size bs n v h := by
    simp only [frames, Res.ok.injEq] at h
    obtain ⟨l, t, hd, hl, rfl, rfl⟩ := frame_read_some h
    have h1 := congrArg List.length hd
    rw [List.length_drop, List.length_cons] at h1
    refine ⟨?_, ?_, ?_⟩
    · simp only [frames, List.length_take]; omega
    · simp only [frames, List.length_cons, List.length_nil]; omega
    · omega
  prefix_only bs bs' n v h heq := by
    simp only [frames, Res.ok.injEq] at h ⊢
    obtain ⟨l, t, hd, hl, rfl, rfl⟩ := frame_read_some h
    have h1 : (bs'.drop 2).take (1 + l.toNat) = l :: t.take l.toNat := by
      have := congrArg (List.drop 2) heq
      rw [List.drop_take, List.drop_take, hd] at this
      rw [show 3 + l.toNat - 2 = l.toNat + 1 by omega] at this
      rw [Nat.add_comm, this]; rfl
    unfold Frame.read
    cases hd' : bs'.drop 2 with
    | nil => rw [hd'] at h1; simp at h1
    | cons l' t' =>
      rw [hd', Nat.add_comm, List.take_succ_cons] at h1
      simp only [List.cons.injEq] at h1
      obtain ⟨rfl, h2⟩ := h1
      have h3 := congrArg List.length h2
      rw [List.length_take, List.length_take] at h3
      have h4 : l'.toNat ≤ t'.length := by omega
      simp only [if_pos h4, h2]
  borderless k h0 hk := by
    have hk2 : k < 2 := hk
    obtain rfl : k = 1 := by omega
    decide

/-- Two frames, the second of which contains a third one, and a broken frame at the end. -/
def framesFile : Bytes := [7, 0xAA, 0x55, 1, 42, 0xAA, 0x55, 4, 0xAA, 0x55, 1, 43, 0xAA, 0x55, 9]

/-! ## C85 -/

/-- **C85** whatever the message type: the reading iterator started at any offset inside the slice yields exactly the
values a reader yields that goes from marker to marker, jumps over each value, and gives up at the first marker that
starts nothing readable. -/
theorem C85_reader {T : Type} (S : SearchableMarker T) (L : Reads S) (hm : S.marker.length < 2 ^ 62) (bytes : Bytes)
    (hF : Fits bytes) (off : Nat) (hoff : off ≤ bytes.length) (items : List (Nat × T)) :
    Collects (readFallbackNext S bytes) off items ↔ Scan S bytes off items := by
  obtain ⟨xs, hc, hg⟩ := readFallback_collects L hF off hoff hm
  constructor
  · intro h; rw [h.unique hc]; exact hg
  · intro h; rw [h.unique L hg]; exact hc

/-- **C85** the searching iterator yields exactly the leftmost-greedy sequence of readable values. -/
theorem C85_search {T : Type} (S : SearchableMarker T) (L : Searches S) (hm : S.marker.length < 2 ^ 62) (bytes : Bytes)
    (hF : Fits bytes) (off : Nat) (hoff : off ≤ bytes.length) (items : List (Nat × T)) :
    Collects (searchNext S bytes) off items ↔ Greedy S bytes off items :=
  C18_search_generic S L hm bytes hF off hoff items

theorem sorted_mem_unique {T : Type} : ∀ {xs ys : List (Nat × T)}, (xs.Pairwise fun a b => b.1 < a.1) →
    (ys.Pairwise fun a b => b.1 < a.1) → (∀ x, x ∈ xs ↔ x ∈ ys) → xs = ys
  | [], [], _, _, _ => rfl
  | [], y :: ys, _, _, h => absurd ((h y).2 List.mem_cons_self) (by simp)
  | x :: xs, [], _, _, h => absurd ((h x).1 List.mem_cons_self) (by simp)
  | x :: xs, y :: ys, hx, hy, h => by
    rw [List.pairwise_cons] at hx hy
    have hxy : x = y := by
      rcases List.mem_cons.1 ((h x).1 List.mem_cons_self) with h1 | h1
      · exact h1
      · rcases List.mem_cons.1 ((h y).2 List.mem_cons_self) with h2 | h2
        · exact h2.symm
        · have := hy.1 x h1; have := hx.1 y h2; omega
    subst hxy
    congr 1
    refine sorted_mem_unique hx.2 hy.2 fun z => ?_
    constructor
    · intro hz
      rcases List.mem_cons.1 ((h z).1 (List.mem_cons_of_mem _ hz)) with h1 | h1
      · subst h1; have := hx.1 z hz; omega
      · exact h1
    · intro hz
      rcases List.mem_cons.1 ((h z).2 (List.mem_cons_of_mem _ hz)) with h1 | h1
      · subst h1; have := hy.1 z hz; omega
      · exact h1

/-- **C85** the reverse iterator yields exactly the readable values whose marker ends at or before the start, in
descending order. -/
theorem C85_rev_search {T : Type} (S : SearchableMarker T) (L : Searches S) (bytes : Bytes)
    (hF : Fits bytes) (off : Nat) (hoff : off ≤ bytes.length) (items : List (Nat × T)) :
    Collects (revNext S bytes) off items ↔
      (items.Pairwise fun a b => b.1 < a.1) ∧
      ∀ x, x ∈ items ↔ ReadableAt S bytes x.1 x.2 ∧ x.1 + S.marker.length ≤ off := by
  obtain ⟨xs, hc, hp, hg⟩ := rev_collects L hF off hoff
  constructor
  · intro h; rw [h.unique hc]; exact ⟨hp, fun x => hg x.1 x.2⟩
  · rintro ⟨h1, h2⟩
    rw [sorted_mem_unique h1 hp fun x => (h2 x).trans (hg x.1 x.2).symm]; exact hc

/-- **C85** all three end, from every offset inside the slice, and none of them panics. -/
theorem C85_ends {T : Type} (S : SearchableMarker T) (L : Searches S) (hm : S.marker.length < 2 ^ 62) (bytes : Bytes)
    (hF : Fits bytes) (off : Nat) (hoff : off ≤ bytes.length) :
    (∃ items, Collects (readFallbackNext S bytes) off items) ∧ (∃ items, Collects (searchNext S bytes) off items) ∧
    ∃ items, Collects (revNext S bytes) off items := by
  obtain ⟨xs, hc, _⟩ := readFallback_collects L.toReads hF off hoff hm
  obtain ⟨ys, hd, _⟩ := search_collects L hF hm off hoff
  obtain ⟨zs, he, _⟩ := rev_collects L hF off hoff
  exact ⟨⟨xs, hc⟩, ⟨ys, hd⟩, ⟨zs, he⟩⟩

/-- The three iterators on the file of frames. -/
example : Lawful frames ∧ frames.marker.length < 2 ^ 62 ∧ Fits framesFile ∧
    Scan frames framesFile 0 [(1, ⟨[42]⟩), (5, ⟨[0xAA, 0x55, 1, 43]⟩)] ∧
    Greedy frames framesFile 6 [(8, ⟨[43]⟩)] ∧
    Collects (revNext frames framesFile) 15 [(8, ⟨[43]⟩), (5, ⟨[0xAA, 0x55, 1, 43]⟩), (1, ⟨[42]⟩)] :=
  ⟨frames_lawful, by decide, by decide,
    (C85_reader frames frames_lawful (by decide) framesFile (by decide) 0 (by decide) _).1 ⟨3, by decide +kernel⟩,
    (C85_search frames frames_lawful (by decide) framesFile (by decide) 6 (by decide) _).1 ⟨3, by decide +kernel⟩,
    ⟨4, by decide +kernel⟩⟩

/-! ## C86 -/

/-- **C86** whatever the message type: there is exactly one set of free values, and `contained_by` returns the first
free value that starts in the `max_len()` bytes before the range and reaches its end. -/
theorem C86_contained_by_exact {T : Type} (S : SearchableMarker T) (L : Lawful S) (bytes : Bytes) (hF : Fits bytes) :
    (∃ free, IsFreeOf S bytes free ∧ ∀ g, IsFreeOf S bytes g → g = free) ∧
    ∀ free, IsFreeOf S bytes free → ∀ p0 p1, ∃ r, containedBy S bytes p0 p1 = .ok r ∧
      ∀ x, r = some x ↔ p0 < p1 ∧ p1 < bytes.length ∧ FirstReachingOf S bytes free p0 p1 x := by
  obtain ⟨⟨free, h1⟩, h2⟩ := Any.contained_by_exact L bytes hF
  exact ⟨⟨free, h1, fun g hg => Any.free_unique bytes g free hg h1⟩, h2⟩

/-- **C86** the slices are exactly those one gets by aiming every `len / num` bytes and moving back to the start of the
first free value that reaches behind the aim. -/
theorem C86_partition_exact {T : Type} (S : SearchableMarker T) (L : Lawful S) (bytes : Bytes) (hF : Fits bytes)
    (free : Nat → Prop) (hfree : IsFreeOf S bytes free) (num : Nat) (hnum : num ≠ 0) (rs : List (Nat × Nat)) :
    partitionRanges S bytes num = .ok rs ↔
      CutsBy bytes.length (bytes.length / num) (CutAtOf S bytes free) 0 rs :=
  Any.partition_exact L bytes hF free hfree num hnum rs

/-- **C86** no cut goes through a free value that is at most `max_len()` bytes long: in particular, if `max_len()` is
really an upper bound, through no free value at all (a cut next to the last byte of the file excepted). -/
theorem C86_no_free_value_cut {T : Type} (S : SearchableMarker T) (bytes : Bytes)
    (free : Nat → Prop) (p c d : Nat) (w : T) (hcut : CutAtOf S bytes free p c) (hd : free d)
    (hw : ReadableAt S bytes d w) (hlen : S.len w ≤ S.maxLen) (hp : p + 1 < bytes.length)
    (hin : d < p) (hend : p < d + S.len w) : c ≤ d := by
  have hr : ReachesOf S bytes free p (p + 1) (d, w) := ⟨hd, hw, hin, by simp only; omega, by simp only; omega⟩
  rcases hcut with ⟨_, x, hx, rfl⟩ | ⟨hno, rfl⟩
  · exact hx.2 _ hr
  · exact absurd hr (hno hp _)

theorem framesFile_readable {p : Nat} {v : Frame} : ReadableAt frames framesFile p v ↔
    (p, v) ∈ [(8, (⟨[43]⟩ : Frame)), (5, ⟨[0xAA, 0x55, 1, 43]⟩), (1, ⟨[42]⟩)] := by
  have h := ((C85_rev_search frames frames_lawful framesFile (by decide) 15 (by decide) _).1
    (⟨4, by decide +kernel⟩ : Collects (revNext frames framesFile) 15
      [(8, ⟨[43]⟩), (5, ⟨[0xAA, 0x55, 1, 43]⟩), (1, ⟨[42]⟩)])).2 (p, v)
  rw [h]
  constructor
  · intro hr
    refine ⟨hr, ?_⟩
    have := (hr.bounds frames_lawful)
    have h2 : framesFile.length = 15 := rfl
    simp only; omega
  · exact fun h => h.1

/-- The frame inside the second one is not free. -/
theorem framesFile_free : IsFreeOf frames framesFile (fun c => c = 1 ∨ c = 5) := by
  intro c
  constructor
  · rintro (rfl | rfl)
    · refine ⟨⟨_, framesFile_readable.2 (by simp; rfl)⟩, fun d w hd hw h => ?_⟩
      omega
    · refine ⟨⟨_, framesFile_readable.2 (by simp; rfl)⟩, fun d w hd hw h _ => ?_⟩
      have := framesFile_readable.1 hw
      obtain rfl : d = 1 := by omega
      simp at this
      subst this
      decide
  · rintro ⟨⟨v, hv⟩, h⟩
    have hv' := framesFile_readable.1 hv
    simp only [List.mem_cons, Prod.mk.injEq, List.not_mem_nil, or_false] at hv'
    rcases hv' with ⟨rfl, _⟩ | ⟨rfl, _⟩ | ⟨rfl, _⟩
    · have := h 5 ⟨[0xAA, 0x55, 1, 43]⟩ (.inr rfl) (framesFile_readable.2 (by simp)) (by decide) (by decide)
      exact absurd this (by decide)
    · exact .inr rfl
    · exact .inl rfl

/-- At work on the file of frames: aiming at byte 7 moves back to byte 5, where the second frame starts; the frame
inside it does not count. The broken frame at the end is lost. -/
example : partitionRanges frames framesFile 2 = .ok [(0, 5), (5, 12)] := by
  refine (C86_partition_exact frames frames_lawful framesFile (by decide) _ framesFile_free 2 (by decide) _).2
    (.cut (c := 5) (by decide) (.inl ⟨by decide, (5, ⟨[0xAA, 0x55, 1, 43]⟩), ⟨⟨.inr rfl, framesFile_readable.2 (by simp),
        by decide, by decide, by decide⟩, ?_⟩, rfl⟩) (by decide) (by decide)
      (.cut (c := 12) (by decide) (.inr ⟨fun _ => ?_, rfl⟩) (by decide) (by decide) (.beyond (by decide))))
  · rintro ⟨d, w⟩ ⟨hd, hw, _, _, h⟩
    rcases hd with rfl | rfl
    · have := framesFile_readable.1 hw
      simp at this
      subst this
      exact absurd h (by decide)
    · exact Nat.le_refl _
  · rintro ⟨d, w⟩ ⟨hd, hw, _, _, h⟩
    have := framesFile_readable.1 hw
    rcases hd with rfl | rfl <;> simp at this <;> subst this <;> exact absurd h (by decide)

/-! ## C87 -/

/-- **C87** whatever the message type and the pattern: one call of `next` of the grep iterator ends the iteration iff
the search comes upon nothing, yields `x` and goes on at its end iff it comes upon `x`, never returns iff the search has
no outcome, and never panics. -/
theorem C87_next_exact {T : Type} (S : SearchableMarker T) (L : Lawful S) (re : Regex) (bytes : Bytes) (hF : Fits bytes)
    (off : Nat) :
    (∀ r, grepNext S re bytes off = some r ↔
      (SearchOf S re bytes off none ∧ r = .ok (none, off)) ∨
      (∃ x g, SearchOf S re bytes off (some (x, g)) ∧ r = .ok (some x, x.1 + S.len x.2))) ∧
    (grepNext S re bytes off = none ↔ ∀ o, ¬ SearchOf S re bytes off o) :=
  Any.grep_next_exact L re bytes hF off

/-- **C87** draining grep from any offset ends iff the specification has a finite outcome there, and then it yields
exactly that. -/
theorem C87_grep_exact {T : Type} (S : SearchableMarker T) (L : Lawful S) (re : Regex) (bytes : Bytes) (hF : Fits bytes)
    (off : Nat) (items : List (Nat × T)) :
    CollectsD (grepNext S re bytes) off items ↔ GrepYieldsOf S re bytes off items :=
  Any.grep_exact L re bytes hF off items

/-- **C87** when a call of `next` never returns: exactly if, skipping matches, it gets to an offset before the end of
the file where the pattern matches the empty string outside a value. -/
theorem C87_diverges_iff {T : Type} (S : SearchableMarker T) (L : Lawful S) (re : Regex) (bytes : Bytes) (hF : Fits bytes)
    (off : Nat) :
    grepNext S re bytes off = none ↔
      ∃ q, SkipsOf S re bytes off q ∧ q < bytes.length ∧ Matches re bytes q q ∧ OutsideOf S bytes q q :=
  Any.grep_diverges_iff L re bytes hF off

/-- **C87** the same for the capture iterator. -/
theorem C87_capture_exact {T : Type} (S : SearchableMarker T) (L : Lawful S) (re : Regex) (bytes : Bytes) (hF : Fits bytes)
    (off : Nat) (items : List (Nat × (Nat × Nat))) :
    CollectsD (regexNext S re bytes) off items ↔ CaptureYieldsOf S re bytes off items :=
  Any.capture_exact L re bytes hF off items

theorem literal43_matches {s e : Nat} : Matches (literal [43]) framesFile s e ↔ s = 11 ∧ e = 12 := by
  have hlen : framesFile.length = 15 := rfl
  constructor
  · rintro ⟨g, hg⟩
    unfold literal at hg
    simp only at hg
    split at hg
    · next hp =>
      simp only [List.length_cons, List.length_nil, Option.some.injEq, Prod.mk.injEq] at hg
      have hs : s = 11 := by
        have hle := hp.2
        have h1 := hp.1
        have hall : ∀ s : Fin 16, [43] <+: framesFile.drop s.val → s.val = 11 := by decide
        exact hall ⟨s, by omega⟩ h1
      omega
    · simp at hg
  · rintro ⟨rfl, rfl⟩
    exact ⟨none, by decide⟩

/-- At work on the file of frames: the byte 43 is attributed to the frame inside the second one (the last marker before
it), which is all that grep yields. -/
example : GrepYieldsOf frames (literal [43]) framesFile 0 [(8, ⟨[43]⟩)] ∧
    CollectsD (grepNext frames (literal [43]) framesFile) 0 [(8, ⟨[43]⟩)] := by
  have h : GrepYieldsOf frames (literal [43]) framesFile 0 [(8, ⟨[43]⟩)] := by
    refine .hit (g := none) (.hit (s := 11) (e := 12) (by decide)
      ⟨by decide, by decide, fun j e' _ hj hm => ?_⟩ ⟨by decide, framesFile_readable.2 (by simp), fun j h1 h2 => ?_⟩
      (by decide)) (.done (.noMatch fun s e hs hm => ?_))
    · have := (literal43_matches.1 hm).1; omega
    · have hj : j = 9 := by
        have : j + 2 ≤ 11 := h2
        simp only at h1; omega
      subst hj
      unfold MarkerAt; decide
    · have := (literal43_matches.1 hm).1
      have : 12 ≤ s := hs
      omega
  exact ⟨h, (C87_grep_exact frames frames_lawful _ _ (by decide) _ _).2 h⟩

/-- The empty pattern on the file of frames: the first call of `next` never returns. -/
example : grepNext frames (literal []) framesFile 0 = none :=
  (C87_diverges_iff frames frames_lawful _ _ (by decide) 0).2
    ⟨0, .here 0, by decide, ⟨none, by decide⟩, fun x hx => absurd hx.1 (by show ¬ (x.1 + 2 ≤ 0); omega)⟩

end Verif
