import Verif.Props.Truncate
import Verif.Props.Anywhere

/-!
# C116: following a log that grows

A program that follows a log remembers where the last message it has seen ends; each time the file has grown it starts an
iterator there (`DltIterator::new(bytes, offset)`), takes all messages and remembers the new end.
-/

set_option linter.unusedSimpArgs false

namespace Verif

namespace Spec

/-- Following a file: it consists of `file` by now, the follower stands at offset `o`, the pieces `cs` get appended, the
follower looking after each of them, and it sees `items` in total. `visit bytes o xs`: an iterator over `bytes` started at
offset `o` yields `xs`. -/
inductive Follow {T : Type} (len : T → Nat) (visit : Bytes → Nat → List (Nat × T) → Prop) :
    Bytes → Nat → List Bytes → List (Nat × T) → Prop where
  | stop (file : Bytes) (o : Nat) : Follow len visit file o [] []
  | grow (file : Bytes) (o : Nat) (c : Bytes) (cs : List Bytes) (xs ys : List (Nat × T)) : visit (file ++ c) o xs →
      Follow len visit (file ++ c) (endOf len o xs) cs ys → Follow len visit file o (c :: cs) (xs ++ ys)

end Spec

open Spec

variable {T : Type} {S : SearchableMarker T}

theorem fits_front {a b : Bytes} (h : Fits (a ++ b)) : Fits a := by
  have := fits_le h
  rw [List.length_append] at this
  unfold Fits; omega

theorem Spec.Scan.endOf_le (L : Reads S) {bytes : Bytes} {s : Nat} {xs : List (Nat × T)} (h : Scan S bytes s xs)
    (hs : s ≤ bytes.length) : s ≤ endOf S.len s xs ∧ endOf S.len s xs ≤ bytes.length := by
  induction h with
  | done | bad => exact ⟨Nat.le_refl _, hs⟩
  | msg s i v rest hf hr _ ih =>
    have h1 := hr.bounds L
    have h2 := ih h1.2
    have h3 := hf.1
    exact ⟨by simp only [endOf]; omega, h2.2⟩

theorem Spec.Greedy.endOf_le (L : Reads S) {bytes : Bytes} {s : Nat} {xs : List (Nat × T)} (h : Greedy S bytes s xs)
    (hs : s ≤ bytes.length) : s ≤ endOf S.len s xs ∧ endOf S.len s xs ≤ bytes.length := by
  induction h with
  | done => exact ⟨Nat.le_refl _, hs⟩
  | msg s i v rest hle hr _ _ ih =>
    have h1 := hr.bounds L
    have h2 := ih h1.2
    exact ⟨by simp only [endOf]; omega, h2.2⟩

/-- Scanning a longer file: what was found stays, and the scan goes on where it stood. -/
theorem Spec.Scan.resume (L : Lawful S) {a b : Bytes} {s : Nat} {xs ys : List (Nat × T)} (h : Scan S a s xs)
    (hy : Scan S (a ++ b) (endOf S.len s xs) ys) : Scan S (a ++ b) s (xs ++ ys) := by
  induction h with
  | done | bad => exact hy
  | msg s i v rest hf hr _ ih =>
    exact .msg _ i v _ ⟨hf.1, MarkerAt_append_left hf.2.1, fun j h1 h2 hj => hf.2.2 j h1 h2
      (MarkerAt_of_append hj (by have := hr.bounds L; omega))⟩ (ReadableAt_append_left L hr) (ih hy)

/-- What the reader sees in total while it follows. -/
theorem follow_scan (L : Lawful S) (hm : S.marker.length < 2 ^ 62) {o : Nat} {file : Bytes} {cs : List Bytes}
    {ys : List (Nat × T)} (h : Follow S.len (fun bytes o xs => Collects (readFallbackNext S bytes) o xs) file o cs ys)
    (hF : Fits (file ++ cs.flatten)) {xs : List (Nat × T)} (hx : Scan S file 0 xs) (ho : endOf S.len 0 xs = o) :
    Scan S (file ++ cs.flatten) 0 (xs ++ ys) ∨ cs = [] := by
  induction h generalizing xs with
  | stop => exact .inr rfl
  | grow file o c cs zs ys hv hfol ih =>
    left
    rw [List.flatten_cons, ← List.append_assoc] at hF ⊢
    have hF1 : Fits (file ++ c) := fits_front hF
    have ho' : o ≤ file.length := by rw [← ho]; exact (hx.endOf_le L (Nat.zero_le _)).2
    have hz := (C85_reader S L hm _ hF1 o (by rw [List.length_append]; omega) zs).1 hv
    have h1 : Scan S (file ++ c) 0 (xs ++ zs) := hx.resume L (by rw [ho]; exact hz)
    have h2 : endOf S.len 0 (xs ++ zs) = endOf S.len o zs := by rw [endOf_append, ho]
    rcases ih hF h1 h2 with h3 | h3
    · rw [← List.append_assoc]; exact h3
    · subst h3
      cases hfol
      simpa using h1

/-- **C116** for every message type that keeps the contract of the traits: following a file through any history of
growth shows exactly the messages that reading the final file in one go shows, at the same offsets in the same order. -/
theorem C116_follow {T : Type} (S : SearchableMarker T) (L : Lawful S) (hm : S.marker.length < 2 ^ 62) (cs : List Bytes)
    (hF : Fits cs.flatten) (items : List (Nat × T)) :
    Follow S.len (fun bytes o xs => Collects (readFallbackNext S bytes) o xs) [] 0 cs items ↔
      Collects (readFallbackNext S cs.flatten) 0 items := by
  have hnil : Scan S [] 0 [] := .done 0 fun j _ hj => by
    have := hj.lt; have := S.marker_pos; simp only [List.length_nil] at *; omega
  have fwd : ∀ items, Follow S.len (fun bytes o xs => Collects (readFallbackNext S bytes) o xs) [] 0 cs items →
      Collects (readFallbackNext S cs.flatten) 0 items := by
    intro items h
    refine (C85_reader S L hm _ hF 0 (Nat.zero_le _) items).2 ?_
    rcases follow_scan L hm h (by simpa using hF) hnil rfl with h1 | rfl
    · simpa using h1
    · cases h; exact hnil
  refine ⟨fwd items, fun h => ?_⟩
  have ex : ∀ (cs : List Bytes) (file : Bytes) (o : Nat), o ≤ file.length → Fits (file ++ cs.flatten) →
      ∃ ys, Follow S.len (fun bytes o xs => Collects (readFallbackNext S bytes) o xs) file o cs ys := by
    intro cs
    induction cs with
    | nil => exact fun file o _ _ => ⟨[], .stop _ _⟩
    | cons c cs ih =>
      intro file o ho hF
      rw [List.flatten_cons, ← List.append_assoc] at hF
      have hF1 := fits_front hF
      have ho' : o ≤ (file ++ c).length := by rw [List.length_append]; omega
      obtain ⟨xs, h1, h2⟩ := readFallback_collects L.toReads hF1 o ho' hm
      obtain ⟨ys, h3⟩ := ih (file ++ c) (endOf S.len o xs) (h2.endOf_le L ho').2 hF
      exact ⟨xs ++ ys, .grow _ _ _ _ _ _ h1 h3⟩
  obtain ⟨ys, hy⟩ := ex cs [] 0 (Nat.zero_le _) (by simpa using hF)
  rw [h.unique (fwd ys hy)]
  exact hy

/-- **C116** for DLT files and `dltit`. -/
theorem C116_follow_dlt (cs : List Bytes) (hF : Fits cs.flatten) (items : List (Nat × StorageEntry)) :
    Follow StorageEntry.len (fun bytes o xs => Collects (dltitOffsetNext bytes) o xs) [] 0 cs items ↔
      Collects (dltitOffsetNext cs.flatten) 0 items :=
  C116_follow dltStorage dlt_lawful (by decide) cs hF items

/-- A log in three pieces: the first breaks off in the second message, the second piece ends inside the third message's
start marker. -/
example : let file := fileOf [([9], msg0), ([], msgNested1), ([], msg1)] []
    Follow StorageEntry.len (fun bytes o xs => Collects (dltitOffsetNext bytes) o xs) [] 0
      [file.take 61, (file.take 64).drop 61, file.drop 64] [(1, msg0), (21, msgNested1), (62, msg1)] := by
  have h : [(1, msg0), (21, msgNested1), (62, msg1)] = [(1, msg0)] ++ ([(21, msgNested1)] ++ ([(62, msg1)] ++ [])) := rfl
  rw [h]
  exact .grow _ _ _ _ _ _ ⟨2, by decide +kernel⟩ (.grow _ _ _ _ _ _ ⟨2, by decide +kernel⟩
    (.grow _ _ _ _ _ _ ⟨2, by decide +kernel⟩ (.stop _ _)))

/-! ## The search iterator -/

/-- **C116** following with the search iterator is different: it can take a message embedded in one that is not complete
yet, and then misses the outer one, although reading the final file in one go finds it. -/
theorem C116_search_differs : ∃ (cs : List Bytes) (inner outer : Nat × StorageEntry), Fits cs.flatten ∧
    Follow StorageEntry.len (fun bytes o xs => Collects (searchNext dltStorage bytes) o xs) [] 0 cs [inner] ∧
    Collects (searchNext dltStorage cs.flatten) 0 [outer] ∧ inner ≠ outer := by
  let file := encode msgNested1
  refine ⟨[file.take 40, file.drop 40], (20, msg0), (0, msgNested1), by decide, ?_, ⟨2, by decide +kernel⟩, by decide⟩
  exact .grow _ _ _ _ [(20, msg0)] [] ⟨2, by decide +kernel⟩
    (.grow _ _ _ _ [] [] ⟨1, by decide +kernel⟩ (.stop _ _))

/-- The messages of a longer file that start in the part searched. -/
theorem Spec.Greedy.covers_longer (L : Lawful S) {g r : Bytes} {o : Nat} {zs : List (Nat × T)} (h : Greedy S g o zs) :
    ∀ i v, ReadableAt S (g ++ r) i v → o ≤ i → i < endOf S.len o zs → ∃ y ∈ zs, (y.1 ≤ i ∧ i < y.1 + S.len y.2) ∨
      (i < y.1 ∧ y.1 + S.len y.2 < i + S.len v) := by
  induction h with
  | done s hno => intro i v hr h1 h2; simp only [endOf] at h2; omega
  | msg s j w rest hle hr hbef hrest ih =>
    intro i v hi h1 h2
    rcases Nat.lt_or_ge i j with hlt | hge
    · refine ⟨(j, w), List.mem_cons_self, .inr ⟨hlt, ?_⟩⟩
      have h3 := hr.bounds L
      rcases Nat.lt_or_ge g.length (i + S.len v) with h4 | h4
      · simp only; omega
      · exact absurd (ReadableAt_of_append L hi h4) (hbef i v h1 hlt)
    · rcases Nat.lt_or_ge i (j + S.len w) with hlt | hge'
      · exact ⟨(j, w), List.mem_cons_self, .inl ⟨hge, hlt⟩⟩
      · obtain ⟨y, hy, h5⟩ := ih i v hi hge' h2
        exact ⟨y, List.mem_cons_of_mem _ hy, h5⟩

/-- Nothing readable is left behind the end of a search. -/
theorem Spec.Greedy.none_left {g : Bytes} {o : Nat} {zs : List (Nat × T)} (h : Greedy S g o zs) :
    ∀ i v, endOf S.len o zs ≤ i → ¬ ReadableAt S g i v := by
  induction h with
  | done s hno => exact fun i v h1 => hno i v h1
  | msg s j w rest hle hr hbef hrest ih => exact ih

theorem Spec.Greedy.apart {g : Bytes} {o : Nat} {zs : List (Nat × T)} (h : Greedy S g o zs) :
    (zs.Pairwise fun a b => a.1 + S.len a.2 ≤ b.1) ∧ ∀ x ∈ zs, x.1 + S.len x.2 ≤ endOf S.len o zs := by
  induction h with
  | done s hno => exact ⟨.nil, by simp⟩
  | msg s j w rest hle hr hbef hrest ih =>
    have hge : j + S.len w ≤ endOf S.len (j + S.len w) rest := by
      cases hrest with
      | done => exact Nat.le_refl _
      | msg _ i v rest' h1 h2 h3 h4 =>
        have := ih.2 (i, v) List.mem_cons_self
        simp only [endOf] at this ⊢; omega
    refine ⟨List.pairwise_cons.2 ⟨fun x hx => (hrest.readable x hx).2, ih.1⟩, fun x hx => ?_⟩
    rcases List.mem_cons.1 hx with rfl | hx
    · exact hge
    · exact ih.2 x hx

/-- What a follower with the search iterator sees, from the middle of the history. -/
theorem follow_greedy (L : Lawful S) (hm : S.marker.length < 2 ^ 62) {o : Nat} {file : Bytes} {cs : List Bytes}
    {ys : List (Nat × T)} (h : Follow S.len (fun bytes o xs => Collects (searchNext S bytes) o xs) file o cs ys)
    (hF : Fits (file ++ cs.flatten)) (ho : o ≤ file.length) (hnone : ∀ i v, o ≤ i → ¬ ReadableAt S file i v) :
    (∀ x ∈ ys, ReadableAt S (file ++ cs.flatten) x.1 x.2 ∧ o ≤ x.1) ∧ (ys.Pairwise fun a b => a.1 + S.len a.2 ≤ b.1) ∧
    ∀ i v, o ≤ i → ReadableAt S (file ++ cs.flatten) i v → ∃ y ∈ ys, (y.1 ≤ i ∧ i < y.1 + S.len y.2) ∨
      (i < y.1 ∧ y.1 + S.len y.2 < i + S.len v) := by
  induction h with
  | stop file o =>
    simp only [List.flatten_nil, List.append_nil]
    exact ⟨by simp, .nil, fun i v h1 h2 => absurd h2 (hnone i v h1)⟩
  | grow file o c cs zs ys hv hfol ih =>
    rw [List.flatten_cons, ← List.append_assoc] at hF ⊢
    have hF1 : Fits (file ++ c) := fits_front hF
    have ho' : o ≤ (file ++ c).length := by rw [List.length_append]; omega
    have hz := (C85_search S L hm _ hF1 o ho' zs).1 hv
    have he := hz.endOf_le L ho'
    obtain ⟨h1, h2, h3⟩ := ih hF he.2 hz.none_left
    have hap := hz.apart
    refine ⟨?_, ?_, ?_⟩
    · intro x hx
      rcases List.mem_append.1 hx with hx | hx
      · exact ⟨ReadableAt_append_left L (hz.readable x hx).1, (hz.readable x hx).2⟩
      · exact ⟨(h1 x hx).1, Nat.le_trans he.1 (h1 x hx).2⟩
    · refine List.pairwise_append.2 ⟨hap.1, h2, fun x hx y hy => ?_⟩
      exact Nat.le_trans (hap.2 x hx) (h1 y hy).2
    · intro i v hi hr
      rcases Nat.lt_or_ge i (endOf S.len o zs) with hlt | hge
      · obtain ⟨y, hy, h4⟩ := hz.covers_longer L i v hr hi hlt
        exact ⟨y, List.mem_append.2 (.inl hy), h4⟩
      · obtain ⟨y, hy, h4⟩ := h3 i v hge hr
        exact ⟨y, List.mem_append.2 (.inr hy), h4⟩

/-- **C116** but it misses no message altogether: every message of the final file is covered by one that was seen, or
contains one that was seen. All that was seen is in the final file, in order and without overlap. -/
theorem C116_search_covers {T : Type} (S : SearchableMarker T) (L : Lawful S) (hm : S.marker.length < 2 ^ 62) (cs : List Bytes)
    (hF : Fits cs.flatten) (items : List (Nat × T))
    (h : Follow S.len (fun bytes o xs => Collects (searchNext S bytes) o xs) [] 0 cs items) :
    (∀ x ∈ items, ReadableAt S cs.flatten x.1 x.2) ∧ (items.Pairwise fun a b => a.1 + S.len a.2 ≤ b.1) ∧
    ∀ i v, ReadableAt S cs.flatten i v → ∃ y ∈ items, (y.1 ≤ i ∧ i < y.1 + S.len y.2) ∨
      (i < y.1 ∧ y.1 + S.len y.2 < i + S.len v) := by
  have hnone : ∀ i v, 0 ≤ i → ¬ ReadableAt S [] i v := fun i v _ hr => by
    have := hr.bounds L.toReads; simp only [List.length_nil] at this; omega
  obtain ⟨h1, h2, h3⟩ := follow_greedy L hm h (by simpa using hF) (Nat.zero_le _) hnone
  simp only [List.nil_append] at h1 h3
  exact ⟨fun x hx => (h1 x hx).1, h2, fun i v hr => h3 i v (Nat.zero_le _) hr⟩

end Verif
