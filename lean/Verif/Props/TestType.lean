import Verif.Props.Contract
import Verif.Lemmas.Parse

/-!
# C110, C15: the repository's test type; `dltit` stays exhausted

`test_matchit` implements the traits for a type of its own. Here: what this implementation reads, where it breaks the
contract of the traits, and that the iterators which do not use the broken function work with it.
-/

set_option linter.unusedSimpArgs false

namespace Verif

open Spec TestStruct

namespace Spec

/-- The eight bytes of a value of the test type: the pattern and the value, most significant byte first. -/
def encodeTest (v : TestStruct) : Bytes :=
  [v.pattern.b0, v.pattern.b1, v.pattern.b2, v.pattern.b3,
   digit v.val.toNat 3, digit v.val.toNat 2, digit v.val.toNat 1, digit v.val.toNat 0]

end Spec

theorem digits_be32 (a b c d : UInt8) : digit (be32 ⟨a, b, c, d⟩).toNat 3 = a ∧ digit (be32 ⟨a, b, c, d⟩).toNat 2 = b ∧
    digit (be32 ⟨a, b, c, d⟩).toNat 1 = c ∧ digit (be32 ⟨a, b, c, d⟩).toNat 0 = d := by
  have := a.toNat_lt; have := b.toNat_lt; have := c.toNat_lt; have := d.toNat_lt
  rw [be32_toNat]
  refine ⟨UInt8.toNat_inj.1 ?_, UInt8.toNat_inj.1 ?_, UInt8.toNat_inj.1 ?_, UInt8.toNat_inj.1 ?_⟩ <;>
    rw [digit_toNat] <;> dsimp only <;> omega

theorem readPrefix_iff (bs : Bytes) (n : Nat) (v : TestStruct) :
    readPrefix bs = some (n, v) ↔ n = 8 ∧ encodeTest v <+: bs := by
  constructor
  · intro h
    unfold readPrefix at h
    split at h
    · next hl =>
      rcases bs with _ | ⟨a, _ | ⟨b, _ | ⟨c, _ | ⟨d, _ | ⟨e, _ | ⟨f, _ | ⟨g, _ | ⟨i, rest⟩⟩⟩⟩⟩⟩⟩⟩ <;>
        simp only [List.length_nil, List.length_cons] at hl <;> try omega
      simp only [Option.some.injEq, Prod.mk.injEq] at h
      obtain ⟨rfl, rfl⟩ := h
      refine ⟨rfl, rest, ?_⟩
      obtain ⟨h1, h2, h3, h4⟩ := digits_be32 e f g i
      show _ :: _ :: _ :: _ :: digit (be32 ⟨e, f, g, i⟩).toNat 3 :: digit (be32 ⟨e, f, g, i⟩).toNat 2 ::
        digit (be32 ⟨e, f, g, i⟩).toNat 1 :: digit (be32 ⟨e, f, g, i⟩).toNat 0 :: rest = _
      rw [h1, h2, h3, h4]
      rfl
    · cases h
  · rintro ⟨rfl, rest, rfl⟩
    unfold readPrefix
    rw [if_pos (by rw [List.length_append]; exact Nat.le_add_right 8 _)]
    have : be32 (b4At (encodeTest v ++ rest) 4) = v.val := be32_digit v.val
    rw [this]
    rfl

/-- **C110** what the test type reads. Behind a valid marker it reads eight bytes at the marker (pattern and value). Its
`try_read` panics on slices shorter than the marker, and otherwise reads the eight bytes *behind* the marker. -/
theorem C110_test_type_reads (bs : Bytes) (n : Nat) (v : TestStruct) :
    (searchable.tryReadValidMarker bs = .ok (some (n, v)) ↔ n = 8 ∧ encodeTest v <+: bs) ∧
    (searchable.tryRead bs = .panic ↔ bs.length < 4) ∧
    (searchable.tryRead bs = .ok (some (n, v)) ↔ n = 8 ∧ [1, 2, 3, 4] ++ encodeTest v <+: bs) := by
  refine ⟨?_, ?_, ?_⟩
  · show Res.ok (readPrefix bs) = _ ↔ _
    rw [Res.ok.injEq, readPrefix_iff]
  · show (match slice bs 0 4 with | .panic => Res.panic | .ok s => _) = _ ↔ _
    unfold slice sliceFrom
    by_cases h : 4 ≤ bs.length
    · rw [if_pos ⟨by omega, h⟩, if_pos h]
      dsimp only
      constructor
      · intro h1; split at h1 <;> cases h1
      · omega
    · rw [if_neg (by omega)]
      exact ⟨fun _ => by omega, fun _ => rfl⟩
  · show (match slice bs 0 4 with | .panic => Res.panic | .ok s => _) = _ ↔ _
    unfold slice sliceFrom
    by_cases h : 4 ≤ bs.length
    · rw [if_pos ⟨by omega, h⟩, if_pos h]
      dsimp only
      rw [List.drop_zero]
      by_cases hm : bs.take 4 = [1, 2, 3, 4]
      · rw [if_neg (by simpa using hm)]
        have heq : bs = [1, 2, 3, 4] ++ bs.drop 4 := by
          rw [← hm, List.take_append_drop]
        rw [Res.ok.injEq, readPrefix_iff]
        constructor
        · rintro ⟨h1, h2⟩
          refine ⟨h1, ?_⟩
          rw [heq]
          exact (List.prefix_append_right_inj _).2 h2
        · rintro ⟨h1, h2⟩
          refine ⟨h1, ?_⟩
          rw [heq] at h2
          exact (List.prefix_append_right_inj _).1 h2
      · rw [if_pos (by simpa using hm)]
        constructor
        · intro h1; cases h1
        · rintro ⟨-, r, rfl⟩
          exact absurd rfl hm
    · rw [if_neg (by omega)]
      constructor
      · intro h1; cases h1
      · rintro ⟨-, h1⟩
        have := h1.length_le
        rw [List.length_append] at this
        have h4 : ([1, 2, 3, 4] : Bytes).length = 4 := rfl
        omega

/-- **C110** so the test type breaks the contract: a value that is in the file is not read by `try_read`. -/
theorem C110_test_type_breaks_contract : ¬ Reads searchable ∧
    ∃ bs v, searchable.tryReadValidMarker bs = .ok (some (8, v)) ∧ searchable.marker <+: bs ∧ searchable.tryRead bs = .ok none := by
  have h : ∃ bs v, searchable.tryReadValidMarker bs = .ok (some (8, v)) ∧ searchable.marker <+: bs ∧
      searchable.tryRead bs = .ok none := ⟨[1, 2, 3, 4, 0, 0, 0, 1], ⟨⟨1, 2, 3, 4⟩, 1⟩, by decide, by decide, by decide⟩
  refine ⟨fun L => ?_, h⟩
  obtain ⟨bs, v, h1, h2, h3⟩ := h
  rw [L.tryRead_eq, if_pos h2, h1] at h3
  cases h3

/-- The test type with the `try_read` the contract asks for. -/
def testFixed : SearchableMarker TestStruct :=
  { searchable with tryRead := fun bs => if [1, 2, 3, 4] <+: bs then searchable.tryReadValidMarker bs else .ok none }

theorem testFixed_lawful : Lawful testFixed where
  total bs := ⟨readPrefix bs, rfl⟩
  tryRead_eq bs := rfl
  size bs n v h := by
    have h1 : Res.ok (readPrefix bs) = _ := h
    rw [Res.ok.injEq] at h1
    obtain ⟨h2, h3⟩ := (readPrefix_iff bs n v).1 h1
    subst h2
    exact ⟨rfl, by decide, h3.length_le⟩
  borderless := by
    intro k h1 h2
    have h2 : k < 4 := h2
    have : k = 1 ∨ k = 2 ∨ k = 3 := by omega
    rcases this with rfl | rfl | rfl <;> decide
  prefix_only bs bs' n v h ht := by
    have h : Res.ok (readPrefix bs) = _ := h
    rw [Res.ok.injEq] at h
    obtain ⟨rfl, r, rfl⟩ := (readPrefix_iff bs n v).1 h
    show Res.ok (readPrefix bs') = _
    rw [Res.ok.injEq]
    refine (readPrefix_iff _ _ _).2 ⟨rfl, ?_⟩
    have h8 : (encodeTest v ++ r).take 8 = encodeTest v := List.take_left (l₁ := encodeTest v)
    rw [h8] at ht
    rw [← ht]
    exact List.take_prefix _ _

theorem testFixed_readable {bytes : Bytes} {i : Nat} {v : TestStruct} :
    ReadableAt testFixed bytes i v ↔ v.pattern = ⟨1, 2, 3, 4⟩ ∧ encodeTest v <+: bytes.drop i := by
  rw [readableAt_iff testFixed_lawful.toReads]
  show _ ∧ Res.ok (readPrefix _) = _ ↔ _
  rw [Res.ok.injEq, readPrefix_iff]
  constructor
  · rintro ⟨hm, -, h⟩
    refine ⟨?_, h⟩
    have h1 : [1, 2, 3, 4] <+: bytes.drop i := hm
    have h2 : [v.pattern.b0, v.pattern.b1, v.pattern.b2, v.pattern.b3] <+: bytes.drop i := List.IsPrefix.trans ⟨_, rfl⟩ h
    have h3 := (List.prefix_of_prefix_length_le h2 h1 (Nat.le_refl _)).eq_of_length rfl
    obtain ⟨⟨a, b, c, d⟩, w⟩ := v
    simp only [List.cons.injEq, and_true] at h3
    obtain ⟨rfl, rfl, rfl, rfl⟩ := h3
    rfl
  · rintro ⟨hp, h⟩
    refine ⟨?_, rfl, h⟩
    obtain ⟨p, w⟩ := v
    obtain rfl : p = _ := hp
    exact List.IsPrefix.trans ⟨_, rfl⟩ h

/-- A value of the test type is stored at offset `i`. -/
def Spec.TestAt (bytes : Bytes) (i : Nat) (v : TestStruct) : Prop := v.pattern = ⟨1, 2, 3, 4⟩ ∧ encodeTest v <+: bytes.drop i

section
variable {T : Type} (S : SearchableMarker T) (f : Bytes → Res (Option (Nat × T))) (bytes : Bytes)

theorem searchMarker_tryRead (t : Bytes) : searchMarker { S with tryRead := f } t = searchMarker S t := rfl

theorem searchSearch_tryRead (o : Nat) : searchSearch { S with tryRead := f } bytes o = searchSearch S bytes o := rfl

theorem revSearch_tryRead (o : Nat) : revSearch { S with tryRead := f } bytes o = revSearch S bytes o := rfl

/-- Neither the reader nor the searches use `try_read`. -/
theorem readFallbackNext_tryRead (o : Nat) :
    readFallbackNext { S with tryRead := f } bytes o = readFallbackNext S bytes o := by
  fun_induction readFallbackNext S bytes o <;> rw [readFallbackNext] <;> (try split) <;> simp_all [searchMarker_tryRead]
  all_goals first
    | rw [if_neg (by omega)]
    | skip
  all_goals (split <;> simp_all)

theorem searchNext_tryRead (o : Nat) : searchNext { S with tryRead := f } bytes o = searchNext S bytes o := by
  fun_induction searchNext S bytes o <;> rw [searchNext] <;> simp_all [searchSearch_tryRead]
  all_goals (split <;> simp_all)
  all_goals omega

theorem revNext_tryRead (o : Nat) : revNext { S with tryRead := f } bytes o = revNext S bytes o := by
  fun_induction revNext S bytes o <;> rw [revNext] <;> simp_all +zetaDelta [revSearch_tryRead]
  all_goals (intros; omega)

end

/-- **C110** and yet the reader and the searches, which do not call `try_read`, find the values of the test type in every
slice: the backward search yields exactly the stored values, from the last to the first; the forward search the
leftmost-greedy sequence; the reader goes from marker to marker. -/
theorem C110_test_type_iterators (bytes : Bytes) (hF : Fits bytes) (off : Nat) (hoff : off ≤ bytes.length)
    (items : List (Nat × TestStruct)) :
    (∀ i v, ReadableAt testFixed bytes i v ↔ TestAt bytes i v) ∧
    (Collects (readFallbackNext searchable bytes) off items ↔ Scan testFixed bytes off items) ∧
    (Collects (searchNext searchable bytes) off items ↔ Greedy testFixed bytes off items) ∧
    (Collects (revNext searchable bytes) off items ↔
      (items.Pairwise fun a b => b.1 < a.1) ∧ ∀ x, x ∈ items ↔ TestAt bytes x.1 x.2 ∧ x.1 + 4 ≤ off) := by
  have e1 : readFallbackNext searchable bytes = readFallbackNext testFixed bytes :=
    funext fun o => (readFallbackNext_tryRead searchable _ bytes o).symm
  have e2 : searchNext searchable bytes = searchNext testFixed bytes :=
    funext fun o => (searchNext_tryRead searchable _ bytes o).symm
  have e3 : revNext searchable bytes = revNext testFixed bytes :=
    funext fun o => (revNext_tryRead searchable _ bytes o).symm
  rw [e1, e2, e3]
  refine ⟨fun i v => testFixed_readable, C85_reader testFixed testFixed_lawful.toReads (by decide) bytes hF off hoff items,
    C85_search testFixed testFixed_lawful.toSearches (by decide) bytes hF off hoff items, ?_⟩
  rw [C85_rev_search testFixed testFixed_lawful.toSearches bytes hF off hoff items]
  constructor
  · rintro ⟨h1, h2⟩
    exact ⟨h1, fun x => by rw [h2, testFixed_readable]; rfl⟩
  · rintro ⟨h1, h2⟩
    exact ⟨h1, fun x => by rw [h2, testFixed_readable]; rfl⟩

/-- Two values, garbage between them: found forwards and backwards although `try_read` reads neither. -/
example : Collects (searchNext searchable ([9] ++ encodeTest ⟨⟨1, 2, 3, 4⟩, 7⟩ ++ [1, 2] ++ encodeTest ⟨⟨1, 2, 3, 4⟩, 8⟩)) 0
      [(1, ⟨⟨1, 2, 3, 4⟩, 7⟩), (11, ⟨⟨1, 2, 3, 4⟩, 8⟩)] ∧
    Collects (revNext searchable ([9] ++ encodeTest ⟨⟨1, 2, 3, 4⟩, 7⟩ ++ [1, 2] ++ encodeTest ⟨⟨1, 2, 3, 4⟩, 8⟩)) 19
      [(11, ⟨⟨1, 2, 3, 4⟩, 8⟩), (1, ⟨⟨1, 2, 3, 4⟩, 7⟩)] ∧
    TestAt ([9] ++ encodeTest ⟨⟨1, 2, 3, 4⟩, 7⟩) 1 ⟨⟨1, 2, 3, 4⟩, 7⟩ :=
  ⟨⟨3, by decide +kernel⟩, ⟨3, by decide +kernel⟩, by unfold Spec.TestAt; decide⟩

theorem nextTimes_noOffset {T : Type} (inner : NextFn (Nat × T)) (n o : Nat) (rs : List (Option (Nat × T)))
    (h : nextTimes inner n o = .ok rs) : nextTimes (noOffsetNext inner) n o = .ok (rs.map (Option.map (·.2))) := by
  induction n generalizing o rs with
  | zero => cases h; rfl
  | succ n ih =>
    unfold nextTimes at h ⊢
    unfold noOffsetNext
    rcases hi : inner o with ⟨_ | ⟨i, v⟩, o'⟩ | _
    · rw [hi] at h
      dsimp only at h ⊢
      rcases hn : nextTimes inner n o' with rs' | _
      · rw [hn] at h
        cases h
        have := ih o' rs' hn
        unfold noOffsetNext at this
        rw [this]
        rfl
      · rw [hn] at h; cases h
    · rw [hi] at h
      dsimp only at h ⊢
      rcases hn : nextTimes inner n o' with rs' | _
      · rw [hn] at h
        cases h
        have := ih o' rs' hn
        unfold noOffsetNext at this
        rw [this]
        rfl
      · rw [hn] at h; cases h
    · rw [hi] at h; cases h

/-- **C15** the same for `dltit`, which leaves out the offsets. -/
theorem C15_dltit_no_offset_fused (bytes : Bytes) (hF : Fits bytes) (off off' : Nat) (hoff : off ≤ bytes.length)
    (h : dltitNext bytes off = .ok (none, off')) (n : Nat) :
    nextTimes (dltitNext bytes) n off' = .ok (List.replicate n none) := by
  have h1 : dltitOffsetNext bytes off = .ok (none, off') := by
    unfold dltitNext noOffsetNext at h
    rcases hi : dltitOffsetNext bytes off with ⟨_ | ⟨i, v⟩, o'⟩ | _
    · rw [hi] at h; cases h; rfl
    · rw [hi] at h; cases h
    · rw [hi] at h; cases h
  have h2 := nextTimes_noOffset _ n off' _ (C15_dltit_fused bytes hF off off' hoff h1 n)
  rw [List.map_replicate] at h2
  exact h2

example : nextTimes (dltitNext (encode msg0 ++ [1])) 3 0 = .ok [some msg0, none, none] := by decide +kernel

end Verif
