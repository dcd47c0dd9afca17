import Verif.Props.Generic
import Verif.Props.Stats

/-!
# C91: a file that breaks off, or grows

The logging process may die, or a reader may look at the file, after any number of bytes.
-/

set_option linter.unusedSimpArgs false

namespace Verif

open Spec

section
variable {T : Type} {S : SearchableMarker T}

/-- Reading the front part of a file: exactly the messages that end in it. -/
theorem Spec.Scan.front (L : Lawful S) {a b : Bytes} {s : Nat} {xs : List (Nat × T)} (h : Scan S (a ++ b) s xs) :
    Scan S a s (xs.filter fun x => x.1 + S.len x.2 ≤ a.length) := by
  induction h with
  | done s hno => exact .done _ fun j hj hm => hno j hj (MarkerAt_append_left hm)
  | bad s i hf hno =>
    by_cases hm : MarkerAt S a i
    · exact .bad _ i ⟨hf.1, hm, fun j h1 h2 hj => hf.2.2 j h1 h2 (MarkerAt_append_left hj)⟩
        fun v hv => hno v (ReadableAt_append_left L hv)
    · refine .done _ fun j hj hj' => ?_
      have h1 := MarkerAt_append_left (b := b) hj'
      have h2 := hj'.lt
      rcases Nat.lt_trichotomy j i with hlt | rfl | hgt
      · exact hf.2.2 j hj hlt h1
      · exact hm hj'
      · exact hm (MarkerAt_of_append hf.2.1 (by omega))
  | msg s i v rest hf hr hrest ih =>
    by_cases hle : i + S.len v ≤ a.length
    · rw [List.filter_cons_of_pos (by simpa using hle)]
      have hb := hr.bounds L
      exact .msg _ i v _ ⟨hf.1, MarkerAt_of_append hf.2.1 (by omega),
        fun j h1 h2 hj => hf.2.2 j h1 h2 (MarkerAt_append_left hj)⟩ (ReadableAt_of_append L hr hle) ih
    · rw [List.filter_cons_of_neg (by simpa using hle)]
      have hnil : rest.filter (fun x => decide (x.1 + S.len x.2 ≤ a.length)) = [] := by
        rw [List.filter_eq_nil_iff]
        intro x hx
        have := hrest.disjoint.2 x hx
        simp only [decide_eq_true_eq]; omega
      rw [hnil]
      by_cases hm : MarkerAt S a i
      · refine .bad _ i ⟨hf.1, hm, fun j h1 h2 hj => hf.2.2 j h1 h2 (MarkerAt_append_left hj)⟩ fun w hw => ?_
        have := ReadableAt_append_left L (b := b) hw
        obtain rfl := this.unique L hr
        have := hw.bounds L
        omega
      · refine .done _ fun j hj hj' => ?_
        have h1 := MarkerAt_append_left (b := b) hj'
        have h2 := hj'.lt
        rcases Nat.lt_trichotomy j i with hlt | rfl | hgt
        · exact hf.2.2 j hj hlt h1
        · exact hm hj'
        · exact hm (MarkerAt_of_append hf.2.1 (by omega))

/-- Searching the front part of a file: the messages found in the whole file that end in the front part, and possibly
further ones, all inside the first message that does not. -/
theorem Spec.Greedy.front (L : Lawful S) {a b : Bytes} {s : Nat} {xs ys : List (Nat × T)} (h : Greedy S (a ++ b) s xs)
    (hy : Greedy S a s ys) : ∃ more, ys = xs.filter (fun x => x.1 + S.len x.2 ≤ a.length) ++ more ∧
      ∀ y ∈ more, ∃ x ∈ xs, a.length < x.1 + S.len x.2 ∧ x.1 < y.1 ∧ y.1 + S.len y.2 < x.1 + S.len x.2 := by
  induction h generalizing ys with
  | done s hno =>
    cases hy with
    | done _ _ => exact ⟨[], rfl, by simp⟩
    | msg _ i v rest hle hr => exact absurd (ReadableAt_append_left L hr) (hno i v hle)
  | msg s i v rest hle hr hbef hrest ih =>
    by_cases hend : i + S.len v ≤ a.length
    · rw [List.filter_cons_of_pos (by simpa using hend)]
      have hra := ReadableAt_of_append L hr hend
      have hg : ∃ ys', ys = (i, v) :: ys' ∧ Greedy S a (i + S.len v) ys' := by
        cases hy with
        | done _ hno => exact absurd hra (hno i v hle)
        | msg _ j w ys' hj hw hbefj hys' =>
          have hw' := ReadableAt_append_left L (b := b) hw
          rcases Nat.lt_trichotomy j i with h1 | h1 | h1
          · exact absurd hw' (hbef j w hj h1)
          · subst h1
            obtain rfl := hw.unique L hra
            exact ⟨ys', rfl, hys'⟩
          · exact absurd hra (hbefj i v hle h1)
      obtain ⟨ys', rfl, hys'⟩ := hg
      obtain ⟨more, rfl, h2⟩ := ih hys'
      refine ⟨more, rfl, fun y hy => ?_⟩
      obtain ⟨x, hx, h3⟩ := h2 y hy
      exact ⟨x, List.mem_cons_of_mem _ hx, h3⟩
    · rw [List.filter_cons_of_neg (by simpa using hend)]
      have hnil : rest.filter (fun x => decide (x.1 + S.len x.2 ≤ a.length)) = [] := by
        rw [List.filter_eq_nil_iff]
        intro x hx
        have := (hrest.readable x hx).2
        simp only [decide_eq_true_eq]; omega
      rw [hnil]
      refine ⟨ys, rfl, fun y hym => ⟨(i, v), List.mem_cons_self, by simp only; omega, ?_⟩⟩
      have h1 := (hy.readable y hym).2
      have h2 := (hy.readable y hym).1
      have h3 := ReadableAt_append_left L (b := b) h2
      have h4 := h2.bounds L
      have h5 : i ≤ y.1 := by
        rcases Nat.lt_or_ge y.1 i with hlt | hge
        · exact absurd h3 (hbef y.1 y.2 h1 hlt)
        · exact hge
      have h6 : y.1 ≠ i := by
        intro he
        rw [he] at h3
        have := h3.unique L hr
        rw [this] at h4
        omega
      simp only
      omega

/-- What can be read in the front part of a file. -/
theorem ReadableAt_append_iff (L : Lawful S) {a b : Bytes} {i : Nat} {v : T} :
    ReadableAt S a i v ↔ ReadableAt S (a ++ b) i v ∧ i + S.len v ≤ a.length :=
  ⟨fun h => ⟨ReadableAt_append_left L h, (h.bounds L).2⟩, fun h => ReadableAt_of_append L h.1 h.2⟩

/-- Messages in the file end before its end, so that cutting behind the end changes nothing. -/
theorem filter_cut {bytes : Bytes} {items : List (Nat × T)} (hb : ∀ x ∈ items, x.1 + S.len x.2 ≤ bytes.length) (k : Nat) :
    items.filter (fun x => x.1 + S.len x.2 ≤ (bytes.take k).length) = items.filter (fun x => x.1 + S.len x.2 ≤ k) := by
  apply List.filter_congr
  intro x hx
  have := hb x hx
  rw [List.length_take]
  congr 1
  apply propext
  omega

end

theorem fits_take {bytes : Bytes} (h : Fits bytes) (k : Nat) : Fits (bytes.take k) := by
  have := fits_le h
  unfold Fits
  rw [List.length_take]
  omega

/-- **C91** a file that breaks off after any number `k` of bytes: the reader yields exactly the messages of the whole
file that end at or before byte `k`, in the same order at the same offsets. -/
theorem C91_cut (bytes : Bytes) (hF : Fits bytes) (k : Nat) (items : List (Nat × StorageEntry))
    (h : Collects (dltitOffsetNext bytes) 0 items) :
    Collects (dltitOffsetNext (bytes.take k)) 0 (items.filter fun x => x.1 + x.2.len ≤ k) := by
  have hs := dltit_scan hF h
  have h1 := filter_cut (S := dltStorage) (bytes := bytes) (items := items)
    (fun x hx => ((hs.readable x hx).bounds dlt_lawful).2) k
  have h2 : Scan dltStorage (bytes.take k ++ bytes.drop k) 0 items := by rw [List.take_append_drop]; exact hs
  have h3 := h2.front dlt_lawful
  rw [h1] at h3
  exact scan_dltit (fits_take hF k) h3

/-- **C91** a file that grows: what has been read stays, in front of what is new, and every new message ends behind
the old end. -/
theorem C91_grows (a b : Bytes) (hF : Fits (a ++ b)) (xs ys : List (Nat × StorageEntry))
    (ha : Collects (dltitOffsetNext a) 0 xs) (hab : Collects (dltitOffsetNext (a ++ b)) 0 ys) :
    ∃ new, ys = xs ++ new ∧ ∀ x ∈ new, a.length < x.1 + x.2.len := by
  have h1 := C91_cut (a ++ b) hF a.length ys hab
  rw [List.take_left] at h1
  have hd := (dltit_scan hF hab).disjoint.1
  obtain rfl := ha.unique h1
  have key : ∀ l : List (Nat × StorageEntry), (l.Pairwise fun x y => x.1 + dltStorage.len x.2 ≤ y.1) →
      ∃ new, l = l.filter (fun x => x.1 + x.2.len ≤ a.length) ++ new ∧ ∀ x ∈ new, a.length < x.1 + x.2.len := by
    intro l
    induction l with
    | nil => exact fun _ => ⟨[], rfl, by simp⟩
    | cons x l ih =>
      intro hp
      rw [List.pairwise_cons] at hp
      by_cases hx : x.1 + x.2.len ≤ a.length
      · obtain ⟨new, h2, h3⟩ := ih hp.2
        rw [List.filter_cons_of_pos (by simpa using hx)]
        exact ⟨new, by rw [List.cons_append, ← h2], h3⟩
      · have hall : ∀ y ∈ x :: l, a.length < y.1 + y.2.len := by
          intro y hy
          rcases List.mem_cons.1 hy with rfl | hy
          · omega
          · have := hp.1 y hy
            rw [dltStorage_len] at this
            omega
        refine ⟨x :: l, ?_, hall⟩
        rw [List.filter_eq_nil_iff.2]
        · rfl
        · intro y hy
          have := hall y hy
          simp only [decide_eq_true_eq]; omega
  exact key ys hd

/-- **C91** so `count` never falls while the file grows, and on a file that breaks off it counts the complete messages. -/
theorem C91_count (bytes : Bytes) (hF : Fits bytes) (k : Nat) (items : List (Nat × StorageEntry))
    (h : Collects (dltitOffsetNext bytes) 0 items) :
    ripCount bytes = some (.ok items.length) ∧
    ripCount (bytes.take k) = some (.ok (items.filter fun x => x.1 + x.2.len ≤ k).length) := by
  constructor
  · rw [C45_count bytes hF _ ⟨items, dltit_scan hF h, rfl⟩, List.length_map]
  · rw [C45_count _ (fits_take hF k) _ ⟨_, dltit_scan (fits_take hF k) (C91_cut bytes hF k items h), rfl⟩,
      List.length_map]

/-- **C91** the search iterator on a file that breaks off: the messages it finds in the whole file that are complete,
and behind them possibly messages embedded in the first one that is not. -/
theorem C91_search_cut (bytes : Bytes) (hF : Fits bytes) (k : Nat) (xs ys : List (Nat × StorageEntry))
    (h : Collects (searchNext dltStorage bytes) 0 xs) (hy : Collects (searchNext dltStorage (bytes.take k)) 0 ys) :
    ∃ more, ys = xs.filter (fun x => x.1 + x.2.len ≤ k) ++ more ∧
      ∀ y ∈ more, ∃ x ∈ xs, k < x.1 + x.2.len ∧ x.1 < y.1 ∧ y.1 + y.2.len < x.1 + x.2.len := by
  have hs := (C18_search_generic dltStorage dlt_lawful (by decide) bytes hF 0 (Nat.zero_le _) xs).1 h
  have hs' := (C18_search_generic dltStorage dlt_lawful (by decide) _ (fits_take hF k) 0 (Nat.zero_le _) ys).1 hy
  have hb : ∀ x ∈ xs, x.1 + dltStorage.len x.2 ≤ bytes.length := fun x hx =>
    ((hs.readable x hx).1.bounds dlt_lawful).2
  have h2 : Greedy dltStorage (bytes.take k ++ bytes.drop k) 0 xs := by rw [List.take_append_drop]; exact hs
  obtain ⟨more, h3, h4⟩ := h2.front dlt_lawful hs'
  rw [filter_cut hb] at h3
  refine ⟨more, h3, fun y hy => ?_⟩
  obtain ⟨x, hx, h5, h6⟩ := h4 y hy
  have := hb x hx
  rw [List.length_take] at h5
  exact ⟨x, hx, by rw [dltStorage_len] at *; omega, h6⟩

/-- A message whose payload is a complete message and one more byte. -/
def msgNested1 : StorageEntry :=
  ⟨⟨⟨68, 76, 84, 1⟩, 1, 2, ⟨0, 0, 0, 0⟩⟩, ⟨⟨⟨0x20⟩, 3, 25⟩, encode msg0 ++ [7]⟩⟩

/-- **C91** that does happen: cutting one byte off a message that contains another one makes the inner one appear. -/
theorem C91_search_finds_inner : ∃ bytes k inner outer, Fits bytes ∧ k < bytes.length ∧
    Collects (searchNext dltStorage bytes) 0 [outer] ∧ Collects (searchNext dltStorage (bytes.take k)) 0 [inner] ∧
    inner ≠ outer := by
  refine ⟨encode msgNested1, (encode msgNested1).length - 1, (20, msg0), (0, msgNested1), by decide, by decide,
    ⟨2, by decide +kernel⟩, ⟨2, by decide +kernel⟩, by decide⟩

/-- **C91** the reverse search from the end of a file that breaks off: the same filter. -/
theorem C91_rev_cut (bytes : Bytes) (hF : Fits bytes) (k : Nat) (hk : k ≤ bytes.length)
    (xs : List (Nat × StorageEntry)) (h : Collects (revNext dltStorage bytes) bytes.length xs) :
    Collects (revNext dltStorage (bytes.take k)) k (xs.filter fun x => x.1 + x.2.len ≤ k) := by
  obtain ⟨h1, h2⟩ := (C85_rev_search dltStorage dlt_lawful bytes hF _ (Nat.le_refl _) xs).1 h
  have hl : (bytes.take k).length = k := by rw [List.length_take]; omega
  refine (C85_rev_search dltStorage dlt_lawful _ (fits_take hF k) k (by omega) _).2 ⟨h1.sublist List.filter_sublist, fun x => ?_⟩
  have h3 : ReadableAt dltStorage (bytes.take k) x.1 x.2 ↔ ReadableAt dltStorage bytes x.1 x.2 ∧ x.1 + x.2.len ≤ k := by
    have := ReadableAt_append_iff dlt_lawful (a := bytes.take k) (b := bytes.drop k) (i := x.1) (v := x.2)
    rw [List.take_append_drop, hl, dltStorage_len] at this
    exact this
  rw [List.mem_filter, h2, h3, decide_eq_true_eq]
  constructor
  · rintro ⟨⟨h4, _⟩, h5⟩
    have := h4.bounds dlt_lawful
    rw [dltStorage_len] at this
    exact ⟨⟨h4, h5⟩, by omega⟩
  · rintro ⟨⟨h4, h5⟩, _⟩
    have := h4.bounds dlt_lawful
    rw [dltStorage_len] at this
    exact ⟨⟨h4, by omega⟩, h5⟩

/-- At work: a file of three messages that breaks off in the third one (inside its header) and in the second one
(behind the complete message inside it). -/
example : let file := fileOf [([9], msg0), ([], msgNested1), ([], msg1)] []
    Collects (dltitOffsetNext file) 0 [(1, msg0), (21, msgNested1), (62, msg1)] ∧
    Collects (dltitOffsetNext (file.take 70)) 0 [(1, msg0), (21, msgNested1)] ∧
    Collects (dltitOffsetNext (file.take 61)) 0 [(1, msg0)] ∧
    Collects (searchNext dltStorage (file.take 61)) 0 [(1, msg0), (41, msg0)] :=
  ⟨⟨4, by decide +kernel⟩, ⟨3, by decide +kernel⟩, ⟨2, by decide +kernel⟩, ⟨3, by decide +kernel⟩⟩

end Verif
