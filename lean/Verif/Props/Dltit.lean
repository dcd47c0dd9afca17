import Verif.Lemmas.Scan
import Verif.Lemmas.DltLaws

/-! # C11–C17: the message reader `dltit` / `dltit_offset` -/

set_option linter.unusedSimpArgs false

namespace Verif
open Spec

/-! ## C11 -/

/-- **C11** on every byte slice the reader comes to an end without a panic, after at most `len / 20` items;
`dltit` yields the same messages without the offsets. -/
theorem C11_dltit_terminates (bytes : Bytes) (hF : Fits bytes) :
    ∃ items, Collects (dltitOffsetNext bytes) 0 items ∧
      Collects (dltitNext bytes) 0 (items.map (·.2)) ∧ items.length ≤ bytes.length / 20 := by
  obtain ⟨items, hc, hs⟩ := dltit_collects bytes hF
  refine ⟨items, hc, collects_noOffset hc, ?_⟩
  have hb : ∀ x ∈ items, 20 ≤ x.2.len ∧ x.1 + x.2.len ≤ bytes.length := fun x hx =>
    (readableAt_iff_msgAt.1 (hs.readable x hx)).bounds
  have hd := hs.disjoint
  have h1 := disjoint_sum (len := StorageEntry.len) (n := bytes.length) (s := 0)
    (fun x hx => ⟨Nat.zero_le _, (hb x hx).2⟩) hd.1 (Nat.zero_le _)
  have h2 := length_mul_le_sum (len := StorageEntry.len) (k := 20) fun x hx => (hb x hx).1
  omega

/-- `next()` never panics from any state the reader can be in (any offset up to the end). -/
theorem C11_next_never_panics (bytes : Bytes) (hF : Fits bytes) (off : Nat) (hoff : off ≤ bytes.length) :
    ∃ r off', dltitOffsetNext bytes off = .ok (r, off') := by
  have := fits_le hF
  rcases readFallbackNext_spec dlt_lawful.toReads hF off (by
    have : dltStorage.marker.length = 4 := rfl
    unfold usizeMax; omega) with ⟨off', h, _⟩ | ⟨i, v, h, _⟩
  · exact ⟨_, _, h⟩
  · exact ⟨_, _, h⟩

/-! ## C12 -/

/-- **C12** every message yielded is a complete message stored at the reported offset. -/
theorem C12_dltit_sound (bytes : Bytes) (hF : Fits bytes) (items : List (Nat × StorageEntry))
    (h : Collects (dltitOffsetNext bytes) 0 items) :
    ∀ x ∈ items, MsgAt bytes x.1 x.2 := fun x hx =>
  readableAt_iff_msgAt.1 ((dltit_scan hF h).readable x hx)

/-! ## C13 -/

/-- **C13** file order, no overlap, and between the end of one yielded message (or the start of the file)
and the start of the next there is no start marker. -/
theorem C13_dltit_order_and_gaps (bytes : Bytes) (hF : Fits bytes) (items : List (Nat × StorageEntry))
    (h : Collects (dltitOffsetNext bytes) 0 items) :
    (items.Pairwise fun a b => a.1 + a.2.len ≤ b.1 ∧ a.1 < b.1) ∧
    (∀ pre i e post, items = pre ++ (i, e) :: post →
      endOf StorageEntry.len 0 pre ≤ i ∧
      ∀ j, endOf StorageEntry.len 0 pre ≤ j → j < i → ¬ dltMarker <+: bytes.drop j) := by
  have hs := dltit_scan hF h
  constructor
  · have hd := hs.disjoint.1
    refine List.Pairwise.imp_of_mem ?_ hd
    intro a b ha hb hab
    have := (readableAt_iff_msgAt.1 (hs.readable a ha)).bounds
    have hab' : a.1 + a.2.len ≤ b.1 := hab
    omega
  · intro pre i e post heq
    obtain ⟨h1, -, h3⟩ := hs.gaps pre i e post heq
    exact ⟨h1, h3⟩

/-- **C13** exactly why the reader stops: behind the last message either no marker is left, or the next
marker does not start a complete message. -/
theorem C13_dltit_stop (bytes : Bytes) (hF : Fits bytes) (items : List (Nat × StorageEntry))
    (h : Collects (dltitOffsetNext bytes) 0 items) :
    (∀ j, endOf StorageEntry.len 0 items ≤ j → ¬ dltMarker <+: bytes.drop j) ∨
    (∃ i, endOf StorageEntry.len 0 items ≤ i ∧ dltMarker <+: bytes.drop i ∧
      (∀ j, endOf StorageEntry.len 0 items ≤ j → j < i → ¬ dltMarker <+: bytes.drop j) ∧
      ∀ e, ¬ MsgAt bytes i e) := by
  have hs := dltit_scan hF h
  clear h
  generalize 0 = s at hs
  induction hs with
  | done s hno => exact Or.inl hno
  | bad s i hf hno =>
    exact Or.inr ⟨i, hf.1, hf.2.1, hf.2.2, fun e he => hno e (readableAt_iff_msgAt.2 he)⟩
  | msg s i v rest hf hr _ ih => exact ih

/-! ## C14 -/

theorem endOf_messagesAt : ∀ (segs : List (Bytes × StorageEntry)) (o : Nat), (∀ s ∈ segs, WF s.2) →
    endOf dltStorage.len o (messagesAt o segs) = o + (fileOf segs []).length := by
  intro segs
  induction segs with
  | nil => intro o _; simp [messagesAt, endOf, fileOf]
  | cons s segs ih =>
    intro o hw
    obtain ⟨g, e⟩ := s
    have hwf := hw (g, e) List.mem_cons_self
    simp only [messagesAt, endOf]
    rw [show dltStorage.len e = (encode e).length from (encode_len e hwf).symm,
      ih _ fun s hs => hw s (List.mem_cons_of_mem _ hs)]
    simp [fileOf]; omega

theorem scan_fileOf (pre : Bytes) (segs : List (Bytes × StorageEntry)) (trailing : Bytes)
    (hc : Clean segs trailing) :
    Scan dltStorage (pre ++ fileOf segs trailing) pre.length (messagesAt pre.length segs) := by
  induction segs generalizing pre with
  | nil =>
    refine Scan.done _ fun j hj hm => hc.2 ?_
    simp only [fileOf, List.map_nil, List.flatten_nil, List.nil_append] at hm
    obtain ⟨k, rfl⟩ : ∃ k, j = pre.length + k := ⟨j - pre.length, by omega⟩
    have hm := markerAt_shift.1 hm
    exact hm.isInfix.trans (List.drop_suffix _ _).isInfix
  | cons s segs ih =>
    obtain ⟨g, e⟩ := s
    obtain ⟨hg, hwf⟩ := hc.1 (g, e) List.mem_cons_self
    simp only at hg hwf
    have hcl : Clean segs trailing := ⟨fun s hs => hc.1 s (List.mem_cons_of_mem _ hs), hc.2⟩
    have hfile : pre ++ fileOf ((g, e) :: segs) trailing = (pre ++ g) ++ (encode e ++ fileOf segs trailing) := by
      simp [fileOf]
    have hfile2 : pre ++ fileOf ((g, e) :: segs) trailing = (pre ++ g ++ encode e) ++ fileOf segs trailing := by
      simp [fileOf]
    have hr : ReadableAt dltStorage (pre ++ fileOf ((g, e) :: segs) trailing) (pre.length + g.length) e := by
      rw [hfile]
      have := (readableAt_shift (S := dltStorage) (a := pre ++ g) (b := encode e ++ fileOf segs trailing)
        (j := 0) (v := e)).2 ⟨_, by rw [List.drop_zero]; exact C02_round_trip e hwf _⟩
      simpa using this
    have hm := hr.marker dlt_lawful
    have hfirst : FirstMarker dltStorage (pre ++ fileOf ((g, e) :: segs) trailing) pre.length
        (pre.length + g.length) := by
      refine ⟨by omega, hm, fun j h1 h2 hmj => hg ?_⟩
      have hap := dlt_lawful.apart hmj hm h2
      obtain ⟨k, rfl⟩ : ∃ k, j = pre.length + k := ⟨j - pre.length, by omega⟩
      have hmk := markerAt_shift.1 hmj
      have hfg : fileOf ((g, e) :: segs) trailing = g ++ (encode e ++ fileOf segs trailing) := by
        simp [fileOf]
      rw [hfg] at hmk
      have hmk := MarkerAt_of_append hmk (by omega)
      exact hmk.isInfix.trans (List.drop_suffix _ _).isInfix
    refine Scan.msg _ _ e _ hfirst hr ?_
    have := ih (pre ++ g ++ encode e) hcl
    rw [← hfile2] at this
    simp only [List.length_append] at this
    rw [show dltStorage.len e = (encode e).length from (encode_len e hwf).symm]
    exact this

/-- **C14** a file made of well-formed messages with marker-free bytes before, between and behind them is
read back exactly: these messages, in this order, at these offsets. Payloads are arbitrary; they may
contain markers and whole messages. -/
theorem C14_dltit_round_trip (segs : List (Bytes × StorageEntry)) (trailing : Bytes)
    (hc : Clean segs trailing) (hF : Fits (fileOf segs trailing)) :
    Collects (dltitOffsetNext (fileOf segs trailing)) 0 (messagesAt 0 segs) ∧
    Collects (dltitNext (fileOf segs trailing)) 0 (segs.map (·.2)) := by
  have h := scan_fileOf [] segs trailing hc
  have h1 := scan_dltit (bytes := fileOf segs trailing) hF (by simpa using h)
  refine ⟨h1, ?_⟩
  have h2 := collects_noOffset h1
  have : ∀ o, (messagesAt o segs).map (·.2) = segs.map (·.2) := by
    intro o
    clear h h1 h2 hF hc
    induction segs generalizing o with
    | nil => rfl
    | cons s segs ih => obtain ⟨g, e⟩ := s; simp [messagesAt, ih]
  rw [this] at h2
  exact h2

/-- A message whose payload is itself a complete message. -/
def msgNested : StorageEntry :=
  ⟨⟨⟨68, 76, 84, 1⟩, 1, 2, ⟨0, 0, 0, 0⟩⟩, ⟨⟨⟨0x20⟩, 3, 24⟩, encode msg0⟩⟩

example : Clean [([1, 2, 68, 76], msgNested), ([], msg1), ([68], msg0)] [9] ∧
    Fits (fileOf [([1, 2, 68, 76], msgNested), ([], msg1), ([68], msg0)] [9]) := by
  refine ⟨⟨?_, by decide⟩, by decide⟩
  intro s hs
  simp only [List.mem_cons, List.not_mem_nil, or_false] at hs
  rcases hs with rfl | rfl | rfl <;> decide

/-! ## C15 -/

/-- Calling `next` `n` more times. -/
def nextTimes {α : Type} (next : NextFn α) : Nat → Nat → Res (List (Option α))
  | 0, _ => .ok []
  | n + 1, off =>
    match next off with
    | .panic => .panic
    | .ok (r, off') =>
      match nextTimes next n off' with
      | .panic => .panic
      | .ok rs => .ok (r :: rs)

/-- **C15** once `next()` has returned `None`, every further call returns `None`. -/
theorem C15_dltit_fused (bytes : Bytes) (hF : Fits bytes) (off off' : Nat) (hoff : off ≤ bytes.length)
    (h : dltitOffsetNext bytes off = .ok (none, off')) (n : Nat) :
    nextTimes (dltitOffsetNext bytes) n off' = .ok (List.replicate n none) := by
  have hl := fits_le hF
  rcases readFallbackNext_spec dlt_lawful.toReads hF off (by
    have : dltStorage.marker.length = 4 := rfl
    unfold usizeMax; omega) with ⟨o, h1, h2, _⟩ | ⟨i, v, h1, _⟩
  · have : o = off' := by
      unfold dltitOffsetNext at h; rw [h1] at h; simpa using h
    subst this
    induction n with
    | zero => rfl
    | succ n ih =>
      unfold nextTimes
      have h2' : dltitOffsetNext bytes o = .ok (none, o) := h2
      rw [h2']; simp only; rw [ih]; rfl
  · unfold dltitOffsetNext at h; rw [h1] at h; simp at h

example : dltitOffsetNext [1, 2, 3] 0 = .ok (none, 0) := by
  unfold dltitOffsetNext; rw [readFallbackNext_unfold (by show 0 + 4 ≤ usizeMax; unfold usizeMax; omega)]
  rfl

/-! ## C16 -/

/-- The bytes of a message whose length field has been destroyed (set to 0). -/
def corrupted : Bytes := [68, 76, 84, 1, 0, 0, 0, 0, 0, 0, 0, 0, 0, 0, 0, 0, 0x20, 0, 0, 0]

theorem corrupted_no_msg (rest : Bytes) (e : StorageEntry) : ¬ MsgAt (corrupted ++ rest) 0 e := by
  intro h
  obtain ⟨n, hr⟩ := readableAt_iff_msgAt.2 h
  rw [List.drop_zero] at hr
  have hd : ∀ bs, dltStorage.tryRead bs = StorageEntry.tryRead bs := fun _ => rfl
  rw [hd, tryRead_eq, tryReadRaw_eq] at hr
  have hb : be16 (byteAt (corrupted ++ rest) 18) (byteAt (corrupted ++ rest) 19) = 0 := by
    have h1 : byteAt (corrupted ++ rest) 18 = 0 := rfl
    have h2 : byteAt (corrupted ++ rest) 19 = 0 := rfl
    rw [h1, h2]; decide
  rw [hb] at hr
  have h0 : (0 : UInt16).toNat = 0 := rfl
  rw [h0] at hr
  have hmk : dltMarker <+: corrupted ++ rest := ⟨corrupted.drop 4 ++ rest, rfl⟩
  rw [if_pos hmk, if_neg (by omega)] at hr
  simp at hr

/-- **C16 (violated)** a corrupted message that still has its marker ends the reading: whatever follows it —
even a file full of intact messages — nothing is returned. -/
theorem C16_corruption_hides_the_rest (rest : Bytes) (hF : Fits (corrupted ++ rest)) :
    Collects (dltitOffsetNext (corrupted ++ rest)) 0 [] := by
  apply scan_dltit hF
  refine Scan.bad 0 0 ⟨Nat.le_refl _, ⟨corrupted.drop 4 ++ rest, rfl⟩, fun j _ h => by omega⟩ ?_
  intro v hv
  exact corrupted_no_msg rest v (readableAt_iff_msgAt.1 hv)

/-- **C16 (violated)** in particular the claim "a valid message behind a corrupted one is returned" is false. -/
theorem C16_no_recovery : ∃ bytes i e, Fits bytes ∧ MsgAt bytes i e ∧
    (∀ j e', MsgAt bytes j e' → j = i) ∧ Collects (dltitOffsetNext bytes) 0 [] := by
  have hF : Fits (corrupted ++ encode msg0) := by decide
  refine ⟨corrupted ++ encode msg0, 20, msg0, hF, ⟨msg0_wf, corrupted, [], by simp, rfl⟩, ?_, 
    C16_corruption_hides_the_rest _ hF⟩
  intro j e' h
  have hb := h.bounds
  have hl : (corrupted ++ encode msg0).length = 40 := rfl
  have hm := (readableAt_iff_msgAt.2 h).marker dlt_lawful
  have key : ∀ j, j ≤ 20 → j ≠ 0 → j ≠ 20 → ¬ dltMarker <+: (corrupted ++ encode msg0).drop j := by decide
  by_cases h0 : j = 0
  · subst h0; exact absurd h (corrupted_no_msg _ _)
  · apply Classical.byContradiction; intro hne
    exact key j (by omega) h0 hne hm

/-- **C16 (partial)** what does hold: recovery over bytes without a marker. Everything the reader returned for
the messages in front is unaffected, and reading goes on with the first marker behind the garbage, if that
one starts a complete message. -/
theorem C16_recovers_over_markerless_bytes_partial (front : List (Bytes × StorageEntry)) (g : Bytes)
    (e : StorageEntry) (rest : Bytes) (hc : Clean (front ++ [(g, e)]) [])
    (hF : Fits (fileOf (front ++ [(g, e)]) [] ++ rest)) :
    ∃ more, Collects (dltitOffsetNext (fileOf (front ++ [(g, e)]) [] ++ rest)) 0
      (messagesAt 0 (front ++ [(g, e)]) ++ more) := by
  have h := scan_fileOf [] _ [] hc
  simp only [List.nil_append, List.length_nil] at h
  obtain ⟨ys, -, hy⟩ := dltit_collects rest (by
    unfold Fits at hF ⊢; rw [List.length_append] at hF; omega)
  refine ⟨shift (fileOf (front ++ [(g, e)]) []).length ys, scan_dltit hF (h.append dlt_lawful ?_ hy)⟩
  rw [endOf_messagesAt _ _ fun s hs => (hc.1 s hs).2]
  simp

example : Clean ([([], msg1)] ++ [([1, 2, 3], msg0)]) [] := by
  refine ⟨?_, by decide⟩
  intro s hs
  simp only [List.mem_append, List.mem_cons, List.not_mem_nil, or_false] at hs
  rcases hs with rfl | rfl <;> decide

/-! ## C17 -/

/-- **C17** if the reader consumes `a` to its last byte, reading `a ++ b` yields the messages of `a` and then
those of `b`, with their offsets moved by `a.len()`. -/
theorem C17_concat (a b : Bytes) (hF : Fits (a ++ b)) (xs ys : List (Nat × StorageEntry))
    (ha : Collects (dltitOffsetNext a) 0 xs) (hend : endOf StorageEntry.len 0 xs = a.length)
    (hb : Collects (dltitOffsetNext b) 0 ys) :
    Collects (dltitOffsetNext (a ++ b)) 0 (xs ++ shift a.length ys) := by
  have hl : a.length + b.length < 2 ^ 63 := by
    have := fits_le hF; rwa [List.length_append] at this
  have hFa : Fits a := by unfold Fits; omega
  have hFb : Fits b := by unfold Fits; omega
  exact scan_dltit hF ((dltit_scan hFa ha).append dlt_lawful hend (dltit_scan hFb hb))

example : ∃ xs, Collects (dltitOffsetNext (fileOf [([], msg0), ([], msg1)] [])) 0 xs ∧
    endOf StorageEntry.len 0 xs = (fileOf [([], msg0), ([], msg1)] []).length := by
  refine ⟨messagesAt 0 [([], msg0), ([], msg1)], (C14_dltit_round_trip _ _ ⟨?_, by decide⟩ (by decide)).1, rfl⟩
  intro s hs
  simp only [List.mem_cons, List.not_mem_nil, or_false] at hs
  rcases hs with rfl | rfl <;> decide

end Verif
