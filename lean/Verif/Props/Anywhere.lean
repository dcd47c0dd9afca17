import Verif.Props.RevAgain
import Verif.Props.Generic

/-! # C108, C109: iterators started anywhere, and how their results relate -/

set_option linter.unusedSimpArgs false

namespace Verif

open Spec

/-! ## C108: starting inside the slice -/

theorem split_at (bytes : Bytes) (o : Nat) (ho : o ≤ bytes.length) :
    bytes.take o ++ bytes.drop o = bytes ∧ (bytes.take o).length = o :=
  ⟨List.take_append_drop _ _, by rw [List.length_take]; omega⟩

theorem fits_drop {bytes : Bytes} (hF : Fits bytes) (o : Nat) : Fits (bytes.drop o) := by
  unfold Fits at *; rw [List.length_drop]; omega

/-- **C108** `ReadFallbackIterator` started at an offset inside the slice yields what it yields on the rest of the slice, with
the offset added. -/
theorem C108_reader {T : Type} (S : SearchableMarker T) (L : Reads S) (hm : S.marker.length < 2 ^ 62) (bytes : Bytes)
    (hF : Fits bytes) (o : Nat) (ho : o ≤ bytes.length) (items : List (Nat × T)) :
    Collects (readFallbackNext S bytes) o items ↔
      ∃ ys, Collects (readFallbackNext S (bytes.drop o)) 0 ys ∧ items = shift o ys := by
  obtain ⟨ys, h1, h2⟩ := readFallback_collects L (fits_drop hF o) 0 (Nat.zero_le _) hm
  obtain ⟨ha, hb⟩ := split_at bytes o ho
  have h3 := h2.shift (a := bytes.take o)
  rw [ha, hb, Nat.add_zero] at h3
  have h4 := (C85_reader S L hm bytes hF o ho _).2 h3
  constructor
  · intro h; exact ⟨ys, h1, h.unique h4⟩
  · rintro ⟨zs, h5, rfl⟩; rw [h5.unique h1]; exact h4

/-- **C108** the same for `SearchIterator`. -/
theorem C108_search {T : Type} (S : SearchableMarker T) (L : Searches S) (hm : S.marker.length < 2 ^ 62) (bytes : Bytes)
    (hF : Fits bytes) (o : Nat) (ho : o ≤ bytes.length) (items : List (Nat × T)) :
    Collects (searchNext S bytes) o items ↔
      ∃ ys, Collects (searchNext S (bytes.drop o)) 0 ys ∧ items = shift o ys := by
  obtain ⟨ys, h1, h2⟩ := search_collects L (fits_drop hF o) hm 0 (Nat.zero_le _)
  obtain ⟨ha, hb⟩ := split_at bytes o ho
  have h3 := h2.shift (a := bytes.take o)
  rw [ha, hb, Nat.add_zero] at h3
  have h4 := (C85_search S L hm bytes hF o ho _).2 h3
  constructor
  · intro h; exact ⟨ys, h1, h.unique h4⟩
  · rintro ⟨zs, h5, rfl⟩; rw [h5.unique h1]; exact h4

theorem readNext_shift {T : Type} (S : FromBytesReadable T) (hs : ∀ bs n v, S.tryRead bs = .ok (some (n, v)) → n ≤ bs.length)
    (bytes : Bytes) (hF : Fits bytes) (o k : Nat) (hk : o + k ≤ bytes.length) :
    (∃ k', readNext S (bytes.drop o) k = .ok (none, k') ∧ readNext S bytes (o + k) = .ok (none, o + k')) ∨
    (readNext S (bytes.drop o) k = .panic ∧ readNext S bytes (o + k) = .panic) ∨
    (∃ j v k', readNext S (bytes.drop o) k = .ok (some (j, v), k') ∧ o + k' ≤ bytes.length ∧
      readNext S bytes (o + k) = .ok (some (o + j, v), o + k')) := by
  have hl := fits_le hF
  have hd : (bytes.drop o).length = bytes.length - o := List.length_drop
  unfold readNext
  by_cases hge : k ≥ (bytes.drop o).length
  · left
    exact ⟨k, by rw [if_pos hge], by rw [if_pos (by omega)]⟩
  · rw [if_neg hge, if_neg (show ¬ o + k ≥ bytes.length by omega), sliceFrom_ok (by omega), sliceFrom_ok hk, List.drop_drop]
    dsimp only
    rcases hr : S.tryRead (bytes.drop (o + k)) with r | _
    · rcases r with _ | ⟨n, v⟩
      · left; exact ⟨k, rfl, rfl⟩
      · right; right
        have hn := hs _ _ _ hr
        rw [List.length_drop] at hn
        dsimp only
        rw [uadd_ok (show k + n ≤ usizeMax by unfold usizeMax; omega),
          uadd_ok (show o + k + n ≤ usizeMax by unfold usizeMax; omega)]
        refine ⟨k, v, k + n, rfl, by omega, ?_⟩
        rw [Nat.add_assoc]
    · right; left; exact ⟨rfl, rfl⟩

/-- **C108** the same for `ReadIterator`, for every type whose `try_read` reports a size inside the slice. -/
theorem C108_read {T : Type} (S : FromBytesReadable T) (hs : ∀ bs n v, S.tryRead bs = .ok (some (n, v)) → n ≤ bs.length)
    (bytes : Bytes) (hF : Fits bytes) (o : Nat) (ho : o ≤ bytes.length) (items : List (Nat × T)) :
    Collects (readNext S bytes) o items ↔ ∃ ys, Collects (readNext S (bytes.drop o)) 0 ys ∧ items = shift o ys := by
  have key : ∀ f k, o + k ≤ bytes.length → collectN (readNext S bytes) f (o + k) =
      (collectN (readNext S (bytes.drop o)) f k).map fun r => match r with | .ok ys => .ok (shift o ys) | .panic => .panic := by
    intro f
    induction f with
    | zero => intro k _; rfl
    | succ f ih =>
      intro k hk
      rcases readNext_shift S hs bytes hF o k hk with ⟨k', h1, h2⟩ | ⟨h1, h2⟩ | ⟨j, v, k', h1, h3, h2⟩
      · simp only [collectN, h1, h2]; rfl
      · simp only [collectN, h1, h2]; rfl
      · simp only [collectN, h1, h2]
        rw [ih k' h3]
        rcases collectN (readNext S (bytes.drop o)) f k' with _ | r
        · rfl
        · cases r <;> rfl
  have key0 := fun f => key f 0 (by omega)
  rw [Nat.add_zero] at key0
  constructor
  · rintro ⟨f, hf⟩
    rw [key0] at hf
    rcases hr : collectN (readNext S (bytes.drop o)) f 0 with _ | r
    · rw [hr] at hf; cases hf
    · rw [hr] at hf
      cases r with
      | panic => simp at hf
      | ok ys =>
        simp only [Option.map_some, Option.some.injEq, Res.ok.injEq] at hf
        exact ⟨ys, ⟨f, hr⟩, hf.symm⟩
  · rintro ⟨ys, ⟨f, hf⟩, rfl⟩
    exact ⟨f, by rw [key0, hf]; rfl⟩

/-! ## C108: starting beyond the end -/

/-- **C108** started at or beyond the end of the slice, the iterators yield nothing; the two that add the length of the marker
to their offset first panic (with overflow checks) exactly for the last four offsets a `usize` can hold. -/
theorem C108_beyond (bytes : Bytes) (o : Nat) (ho : bytes.length ≤ o) :
    readNext dltStorage.toFromBytesReadable bytes o = .ok (none, o) ∧
    dltitOffsetNext bytes o = (if o + 4 ≤ usizeMax then .ok (none, o) else .panic) ∧
    searchNext dltStorage bytes o = (if o + 4 ≤ usizeMax then .ok (none, o + 4) else .panic) := by
  have hl : dltStorage.marker.length = 4 := rfl
  refine ⟨?_, ?_, ?_⟩
  · unfold readNext; rw [if_pos ho]
  · unfold dltitOffsetNext
    by_cases h : o + 4 ≤ usizeMax
    · rw [if_pos h, readFallbackNext_unfold (by rw [hl]; exact h), if_pos (by rw [hl]; omega)]
    · rw [if_neg h, readFallbackNext]
      have hu : uadd o dltStorage.marker.length = .panic := by unfold uadd; rw [hl, if_neg h]
      split
      · rfl
      · rename_i e he; rw [hu] at he; cases he
  · have hs : searchSearch dltStorage bytes o = .ok none := by unfold searchSearch; rw [if_pos ho]
    by_cases h : o + 4 ≤ usizeMax
    · rw [if_pos h, searchNext_unfold hs (uadd_ok (by rw [hl]; exact h)), if_pos (by rw [hl]; omega)]; rfl
    · rw [if_neg h, searchNext]
      have hu : uadd o dltStorage.marker.length = .panic := by unfold uadd; rw [hl, if_neg h]
      simp only [hs]
      split
      · rfl
      · rename_i e he; rw [hu] at he; cases he

/-- **C108** `RevSearchIterator` started anywhere beyond the end yields what it yields from the end. -/
theorem C108_rev_beyond (bytes : Bytes) (hF : Fits bytes) (o : Nat) (ho : bytes.length ≤ o) (hm : o ≤ usizeMax) :
    revNext dltStorage bytes o = revNext dltStorage bytes bytes.length := by
  have hF' := fits_le hF
  have hl : dltStorage.marker.length = 4 := rfl
  -- the walk down ends at `p`
  obtain ⟨p, k, h1, h2, h3⟩ : ∃ p k, o = p + 4 * k ∧ bytes.length < p + 4 ∧ (p ≤ bytes.length ∨ p < 4) := by
    by_cases h : bytes.length < 4 ∧ bytes.length < o % 4
    · exact ⟨o % 4, o / 4, by omega, by omega, by omega⟩
    · exact ⟨o - 4 * ((o - bytes.length + 3) / 4), (o - bytes.length + 3) / 4, by omega, by omega, by omega⟩
  have hw := (revNextW_walk bytes p k h2 (by omega)).1
  rw [← h1, revNextW_erase, revNextW_erase] at hw
  rw [hw]
  have hend : ∀ j e, bytes.length < j + 20 → ¬ ReadableAt dltStorage bytes j e := fun j e hj hr => by
    have := (readableAt_iff_msgAt.1 hr).bounds; omega
  by_cases hp : p ≤ bytes.length
  · rcases revNext_spec dlt_lawful.toSearches hF p hp with ⟨a1, a2⟩ | ⟨i, v, a1, a2, a3, a4⟩ <;>
      rcases revNext_spec dlt_lawful.toSearches hF bytes.length (Nat.le_refl _) with ⟨b1, b2⟩ | ⟨i', v', b1, b2, b3, b4⟩
    · rw [a1, b1]
    · refine absurd b3 ?_
      by_cases h : i' + 4 ≤ p
      · exact a2 _ _ h
      · exact hend _ _ (by omega)
    · exact absurd a3 (b2 _ _ (by omega))
    · have hi : i = i' := by
        rcases Nat.lt_trichotomy i i' with h | h | h
        · refine absurd b3 ?_
          by_cases h' : i' + 4 ≤ p
          · exact a4 _ _ h h'
          · exact hend _ _ (by omega)
        · exact h
        · exact absurd a3 (b4 _ _ h (by omega))
      subst hi
      rw [a1, b1, b3.unique dlt_lawful a3]
  · have hs : revSearch dltStorage bytes p = .ok none := by unfold revSearch; rw [if_pos (Or.inl (by omega))]
    rw [revNext]
    simp only [hs, hl]
    rw [dif_neg (by omega)]
    rcases revNext_spec dlt_lawful.toSearches hF bytes.length (Nat.le_refl _) with ⟨b1, b2⟩ | ⟨i', v', b1, b2, b3, b4⟩
    · rw [b1]
    · exact absurd b3 (hend _ _ (by omega))

/-! ## C108: going on behind a message -/

/-- **C108** an iterator started behind any of the messages another one has yielded goes on with the messages that follow. -/
theorem C108_resume {T : Type} (S : SearchableMarker T) (L : Searches S) (hm : S.marker.length < 2 ^ 62) (bytes : Bytes)
    (hF : Fits bytes) (o : Nat) (ho : o ≤ bytes.length) (xs ys : List (Nat × T)) :
    (Collects (readFallbackNext S bytes) o (xs ++ ys) → Collects (readFallbackNext S bytes) (endOf S.len o xs) ys) ∧
    (Collects (searchNext S bytes) o (xs ++ ys) → Collects (searchNext S bytes) (endOf S.len o xs) ys) := by
  have hF' := fits_le hF
  constructor
  · intro h
    have hs := (C85_reader S L hm bytes hF o ho _).1 h
    refine (?_ : ∀ xs o, o ≤ bytes.length → Scan S bytes o (xs ++ ys) → Collects (readFallbackNext S bytes) (endOf S.len o xs) ys) xs o ho hs
    intro xs
    induction xs with
    | nil => intro o ho h; exact (C85_reader S L hm bytes hF o ho _).2 h
    | cons x xs ih =>
      intro o ho h
      cases h with
      | msg _ i v _ _ hr h => exact ih (i + S.len v) (hr.bounds L).2 h
  · intro h
    have hs := (C85_search S L hm bytes hF o ho _).1 h
    refine (?_ : ∀ xs o, o ≤ bytes.length → Greedy S bytes o (xs ++ ys) → Collects (searchNext S bytes) (endOf S.len o xs) ys) xs o ho hs
    intro xs
    induction xs with
    | nil => intro o ho h; exact (C85_search S L hm bytes hF o ho _).2 h
    | cons x xs ih =>
      intro o ho h
      cases h with
      | msg _ i v _ _ hr _ h => exact ih (i + S.len v) (hr.bounds L).2 h

/-- The messages of a file, and the iterator started inside the first of them, behind it and beyond the end. -/
example : Collects (dltitOffsetNext (encode msg0 ++ encode msg0)) 0 [(0, msg0), (20, msg0)] ∧
    Collects (dltitOffsetNext (encode msg0 ++ encode msg0)) 1 [(20, msg0)] ∧
    Collects (dltitOffsetNext (encode msg0 ++ encode msg0)) 20 [(20, msg0)] ∧
    revNext dltStorage (encode msg0 ++ encode msg0) 1000 = .ok (some (20, msg0), 20) ∧
    dltitOffsetNext (encode msg0 ++ encode msg0) usizeMax = .panic := by
  have hF : Fits (encode msg0 ++ encode msg0) := by decide
  have h0 : Collects (dltitOffsetNext (encode msg0 ++ encode msg0)) 0 [(0, msg0), (20, msg0)] := ⟨3, by decide +kernel⟩
  refine ⟨h0, ⟨2, by decide +kernel⟩, ?_, ?_, ?_⟩
  · exact (C108_resume dltStorage dlt_lawful (by decide) _ hF 0 (Nat.zero_le _) [(0, msg0)] [(20, msg0)]).1 h0
  · rw [C108_rev_beyond _ hF 1000 (by decide) (by decide)]
    decide +kernel
  · rw [(C108_beyond (encode msg0 ++ encode msg0) usizeMax (by decide)).2.1]
    decide

/-! ## C109: how the results of the iterators relate -/

theorem sublist_of_sorted {T : Type} : ∀ {xs ys : List (Nat × T)}, (xs.Pairwise fun a b => a.1 < b.1) →
    (ys.Pairwise fun a b => a.1 < b.1) → (∀ x ∈ xs, x ∈ ys) → xs.Sublist ys
  | [], ys, _, _, _ => List.nil_sublist _
  | x :: xs, [], _, _, h => absurd (h x List.mem_cons_self) (by simp)
  | x :: xs, y :: ys, hx, hy, h => by
    rw [List.pairwise_cons] at hx hy
    rcases List.mem_cons.1 (h x List.mem_cons_self) with rfl | hm
    · refine (sublist_of_sorted hx.2 hy.2 fun z hz => ?_).cons_cons _
      rcases List.mem_cons.1 (h z (List.mem_cons_of_mem _ hz)) with rfl | hz'
      · exact absurd (hx.1 _ hz) (Nat.lt_irrefl _)
      · exact hz'
    · refine (sublist_of_sorted (List.pairwise_cons.2 hx) hy.2 fun z hz => ?_).cons _
      rcases List.mem_cons.1 (h z hz) with rfl | hz'
      · have h1 := hy.1 _ hm
        rcases List.mem_cons.1 hz with rfl | hz
        · exact hm
        · have := hx.1 _ hz; omega
      · exact hz'

theorem le_endOf {T : Type} {len : T → Nat} : ∀ {xs : List (Nat × T)} {s : Nat}, (xs.Pairwise fun a b => a.1 + len a.2 ≤ b.1) →
    (∀ x ∈ xs, s ≤ x.1) → s ≤ endOf len s xs ∧ ∀ x ∈ xs, x.1 + len x.2 ≤ endOf len s xs
  | [], s, _, _ => ⟨Nat.le_refl _, by simp⟩
  | x :: xs, s, h, hs => by
    rw [List.pairwise_cons] at h
    have h1 := hs x List.mem_cons_self
    obtain ⟨h2, h3⟩ := le_endOf (s := x.1 + len x.2) h.2 h.1
    have he : endOf len s (x :: xs) = endOf len (x.1 + len x.2) xs := rfl
    rw [he]
    refine ⟨by omega, fun y hy => ?_⟩
    rcases List.mem_cons.1 hy with rfl | hy
    · exact h2
    · exact h3 y hy

theorem endOf_le {T : Type} {len : T → Nat} : ∀ {xs : List (Nat × T)} {z : Nat × T} {zs : List (Nat × T)} {s : Nat},
    ((xs ++ z :: zs).Pairwise fun a b => a.1 + len a.2 ≤ b.1) → s ≤ z.1 → endOf len s xs ≤ z.1
  | [], _, _, _, _, h => h
  | x :: xs, z, zs, s, h, _ => by
    rw [List.cons_append, List.pairwise_cons] at h
    exact endOf_le (xs := xs) (s := x.1 + len x.2) h.2 (h.1 z (by simp))

theorem sorted_of_disjoint {xs : List (Nat × StorageEntry)} (h : xs.Pairwise fun a b => a.1 + a.2.len ≤ b.1) :
    xs.Pairwise fun a b => a.1 < b.1 :=
  h.imp fun {a b} hab => by have : a.2.len = a.2.dlt.header.len + 16 := rfl; omega

/-- **C109** `dltit` yields a front part of what `SearchIterator` yields, and all of it exactly if no message starts at or
behind the end of the last one `dltit` yields. -/
theorem C109_dltit_search (bytes : Bytes) (hF : Fits bytes) (xs ys : List (Nat × StorageEntry))
    (hx : Collects (dltitOffsetNext bytes) 0 xs) (hy : Collects (searchNext dltStorage bytes) 0 ys) :
    xs <+: ys ∧ (xs = ys ↔ ∀ i e, MsgAt bytes i e → i < endOf StorageEntry.len 0 xs) := by
  have hp := C19_search_extends_dltit bytes hF xs ys hx hy
  refine ⟨hp, ?_⟩
  obtain ⟨ys', hc, h1, h2, h3⟩ := C18_search bytes hF 0 (Nat.zero_le _)
  have hyy := hc.unique hy; subst hyy
  constructor
  · rintro rfl i e hm
    have hend := (le_endOf (s := 0) h2 fun x _ => Nat.zero_le _).2
    rcases h3 i e (Nat.zero_le _) hm with h | ⟨x, hx', h4, h5⟩
    · have h6 : i + e.len ≤ endOf StorageEntry.len 0 xs := hend _ h
      have := hm.bounds
      omega
    · have := hend _ hx'
      omega
  · intro h
    obtain ⟨zs, rfl⟩ := hp
    cases zs with
    | nil => rw [List.append_nil]
    | cons z zs =>
      have hz := h1 z (by simp)
      have h4 := h z.1 z.2 hz.1
      have h5 := endOf_le h2 (Nat.zero_le z.1)
      omega

/-- **C109** `SearchIterator` yields some of what `RevSearchIterator` yields from the end, in the opposite order; it yields all
of it exactly if no message starts inside another one. -/
theorem C109_search_rev (bytes : Bytes) (hF : Fits bytes) (xs ys : List (Nat × StorageEntry))
    (hx : Collects (searchNext dltStorage bytes) 0 xs) (hy : Collects (revNext dltStorage bytes) bytes.length ys) :
    xs.Sublist ys.reverse ∧
      (xs = ys.reverse ↔ ∀ i e j f, MsgAt bytes i e → MsgAt bytes j f → i < j → i + e.len ≤ j) := by
  obtain ⟨xs', hc, h1, h2, h3⟩ := C18_search bytes hF 0 (Nat.zero_le _)
  have h := hc.unique hx; subst h
  obtain ⟨ys', hd, k1, k2⟩ := C20_rev_search bytes hF bytes.length (Nat.le_refl _)
  have h := hd.unique hy; subst h
  have hmem : ∀ x, x ∈ ys'.reverse ↔ MsgAt bytes x.1 x.2 := fun x => by
    rw [List.mem_reverse, k2 x.1 x.2]
    exact ⟨fun h => h.1, fun h => ⟨h, by have := h.bounds; omega⟩⟩
  have hsort : ys'.reverse.Pairwise fun a b => a.1 < b.1 := List.pairwise_reverse.2 k1
  have hsub : xs'.Sublist ys'.reverse :=
    sublist_of_sorted (sorted_of_disjoint h2) hsort fun x hx => (hmem x).2 (h1 x hx).1
  refine ⟨hsub, ?_, ?_⟩
  · intro he i e j f hi hj hij
    have hi' : (i, e) ∈ xs' := by rw [he]; exact (hmem (i, e)).2 hi
    have hj' : (j, f) ∈ xs' := by rw [he]; exact (hmem (j, f)).2 hj
    obtain ⟨as, bs, hab⟩ := List.append_of_mem hi'
    rw [hab] at h2 hj'
    rw [List.pairwise_append, List.pairwise_cons] at h2
    rcases List.mem_append.1 hj' with h | h
    · have := h2.2.2 _ h (i, e) List.mem_cons_self
      dsimp only at this
      have := hj.bounds
      omega
    · rcases List.mem_cons.1 h with h | h
      · cases h; omega
      · exact h2.2.1.1 _ h
  · intro hno
    have hsub' : ys'.reverse.Sublist xs' := sublist_of_sorted hsort (sorted_of_disjoint h2) fun y hy => by
      have hm := (hmem y).1 hy
      rcases h3 y.1 y.2 (Nat.zero_le _) hm with h | ⟨x, hx', h4, h5⟩
      · exact h
      · have := hno x.1 x.2 y.1 y.2 (h1 x hx').1 hm h4
        omega
    exact hsub.eq_of_length_le hsub'.length_le

/-- A message inside the payload of another one: only the reverse search finds it. -/
example : ∃ outer, Collects (searchNext dltStorage (encode outer)) 0 [(0, outer)] ∧
    Collects (revNext dltStorage (encode outer)) (encode outer).length [(20, msg0), (0, outer)] := by
  refine ⟨⟨msg0.storageHeader, ⟨⟨msg0.dlt.header.headerType, 0, 24⟩, encode msg0⟩⟩, ⟨2, by decide +kernel⟩, ⟨3, by decide +kernel⟩⟩

/-- Two messages one behind the other: all three agree. -/
example : Collects (searchNext dltStorage (encode msg0 ++ encode msg0)) 0 [(0, msg0), (20, msg0)] ∧
    Collects (dltitOffsetNext (encode msg0 ++ encode msg0)) 0 [(0, msg0), (20, msg0)] ∧
    Collects (revNext dltStorage (encode msg0 ++ encode msg0)) 40 [(20, msg0), (0, msg0)] :=
  ⟨⟨3, by decide +kernel⟩, ⟨3, by decide +kernel⟩, ⟨3, by decide +kernel⟩⟩

/-- A message that claims more bytes than there are, in front of a complete one: `dltit` ends, the search goes on. -/
example : ∃ junk : Bytes, Collects (dltitOffsetNext (junk ++ encode msg0)) 0 [] ∧
    Collects (searchNext dltStorage (junk ++ encode msg0)) 0 [(20, msg0)] :=
  ⟨[0x44, 0x4C, 0x54, 0x01, 0, 0, 0, 0, 0, 0, 0, 0, 0, 0, 0, 0, 0, 0, 0xFF, 0xFF], ⟨1, by decide +kernel⟩, ⟨2, by decide +kernel⟩⟩

end Verif
