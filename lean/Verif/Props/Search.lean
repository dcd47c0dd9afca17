import Verif.Props.Dltit

/-! # C18–C22: the searching and the plain reading iterators -/

set_option linter.unusedSimpArgs false

namespace Verif
open Spec

/-! ## C18 -/

/-- **C18** `SearchIterator` from any offset in the slice: ends, never panics, and yields exactly the
leftmost-greedy messages — present, in order, disjoint, and hiding no message except inside a yielded one. -/
theorem C18_search (bytes : Bytes) (hF : Fits bytes) (off : Nat) (hoff : off ≤ bytes.length) :
    ∃ items, Collects (searchNext dltStorage bytes) off items ∧
      (∀ x ∈ items, MsgAt bytes x.1 x.2 ∧ off ≤ x.1) ∧
      (items.Pairwise fun a b => a.1 + a.2.len ≤ b.1) ∧
      (∀ j e, off ≤ j → MsgAt bytes j e →
        (j, e) ∈ items ∨ ∃ x ∈ items, x.1 < j ∧ j < x.1 + x.2.len) := by
  obtain ⟨items, hc, hg⟩ := search_collects dlt_lawful.toSearches hF (by decide) off hoff
  refine ⟨items, hc, fun x hx => ⟨readableAt_iff_msgAt.1 (hg.readable x hx).1, (hg.readable x hx).2⟩,
    hg.disjoint, fun j e hj he => hg.covers dlt_lawful j e hj (readableAt_iff_msgAt.2 he)⟩

/-- **C18** for every type obeying the reading laws, `SearchIterator` yields the greedy sequence. -/
theorem C18_search_generic {T : Type} (S : SearchableMarker T) (L : Searches S) (hm : S.marker.length < 2 ^ 62)
    (bytes : Bytes) (hF : Fits bytes) (off : Nat) (hoff : off ≤ bytes.length) (items : List (Nat × T)) :
    Collects (searchNext S bytes) off items ↔ Greedy S bytes off items := by
  obtain ⟨xs, hc, hg⟩ := search_collects L hF hm off hoff
  constructor
  · intro h; rw [h.unique hc]; exact hg
  · intro h; rw [h.unique L hg]; exact hc

/-- **C18** starting beyond the end yields nothing (as long as `offset + 8` does not overflow `usize`). -/
theorem C18_search_beyond (bytes : Bytes) (hF : Fits bytes) (off : Nat) (hoff : bytes.length ≤ off)
    (hmax : off + 8 ≤ usizeMax) : Collects (searchNext dltStorage bytes) off [] := by
  rcases searchNext_spec dlt_lawful.toSearches hF (by decide) off hmax with ⟨off', h, _⟩ | ⟨i, v, _, h2, h3, _⟩
  · exact Collects.nil h
  · have := h3.bounds dlt_lawful
    have h4 : dltStorage.marker.length = 4 := rfl
    omega

/-- **C18** after `None` it keeps returning `None` (until `usize` is exhausted). -/
theorem C18_search_fused (bytes : Bytes) (hF : Fits bytes) (off : Nat) (hoff : bytes.length ≤ off) (n : Nat)
    (hmax : off + 4 * (n + 1) ≤ usizeMax) :
    nextTimes (searchNext dltStorage bytes) n off = .ok (List.replicate n none) := by
  induction n generalizing off with
  | zero => rfl
  | succ n ih =>
    rcases searchNext_spec dlt_lawful.toSearches hF (by decide) off (by
      have : dltStorage.marker.length = 4 := rfl
      omega) with ⟨off', h, h2, h3, _⟩ | ⟨i, v, _, h2, h3, _⟩
    · have h4 : dltStorage.marker.length = 4 := rfl
      unfold nextTimes
      rw [h]
      simp only
      rw [ih off' h2 (by omega)]
      rfl
    · have := h3.bounds dlt_lawful
      have h4 : dltStorage.marker.length = 4 := rfl
      omega

/-- **C18** the `None` that ends the iteration leaves the offset at or behind the end of the slice. -/
theorem C18_search_none_offset (bytes : Bytes) (hF : Fits bytes) (off off' : Nat) (hoff : off ≤ bytes.length)
    (h : searchNext dltStorage bytes off = .ok (none, off')) :
    bytes.length ≤ off' ∧ off' ≤ bytes.length + 4 := by
  have hl := fits_le hF
  have h4 : dltStorage.marker.length = 4 := rfl
  rcases searchNext_spec dlt_lawful.toSearches hF (by decide) off (by unfold usizeMax; omega) with
    ⟨o, h1, h2, h3, _⟩ | ⟨i, v, h1, _⟩
  · rw [h1] at h
    simp only [Res.ok.injEq, Prod.mk.injEq, true_and] at h
    subst h; omega
  · rw [h1] at h; simp at h

/-- A corrupted message does not stop `SearchIterator` (compare C16). -/
theorem C18_search_recovers (e : StorageEntry) (hwf : WF e) (hF : Fits (corrupted ++ encode e)) :
    ∃ items, Collects (searchNext dltStorage (corrupted ++ encode e)) 0 items ∧
      ∃ x ∈ items, x.1 ≤ 20 ∧ 20 < x.1 + x.2.len := by
  obtain ⟨items, hc, h1, h2, h3⟩ := C18_search _ hF 0 (Nat.zero_le _)
  refine ⟨items, hc, ?_⟩
  have he : MsgAt (corrupted ++ encode e) 20 e := ⟨hwf, corrupted, [], by simp, rfl⟩
  have := he.bounds
  rcases h3 20 e (Nat.zero_le _) he with h | ⟨x, hx, h4, h5⟩
  · exact ⟨_, h, by simp; omega⟩
  · exact ⟨x, hx, by omega, h5⟩

/-! ## C19 -/

/-- **C19** everything `dltit_offset` yields, `SearchIterator` yields too, first and in the same order. -/
theorem C19_search_extends_dltit (bytes : Bytes) (hF : Fits bytes) (xs ys : List (Nat × StorageEntry))
    (hx : Collects (dltitOffsetNext bytes) 0 xs) (hy : Collects (searchNext dltStorage bytes) 0 ys) :
    xs <+: ys :=
  (dltit_scan hF hx).prefix_greedy dlt_lawful
    ((C18_search_generic dltStorage dlt_lawful (by decide) bytes hF 0 (Nat.zero_le _) ys).1 hy)

theorem scan_toGreedy {T : Type} {S : SearchableMarker T} (L : Lawful S) {bytes : Bytes} {s : Nat}
    {xs : List (Nat × T)} (h : Scan S bytes s xs)
    (hno : ∀ j, endOf S.len s xs ≤ j → ¬ MarkerAt S bytes j) : Greedy S bytes s xs := by
  induction h with
  | done s h => exact Greedy.done _ fun j v hj hr => h j hj (hr.marker L)
  | bad s i hf _ => exact absurd hf.2.1 (hno i hf.1)
  | msg s i v rest hf hr _ ih =>
    exact Greedy.msg _ i v _ hf.1 hr (fun j w h1 h2 hw => hf.2.2 j h1 h2 (hw.marker L)) (ih hno)

/-- The top-level messages of a clean file are the messages it was made of. -/
theorem greedy_fileOf (segs : List (Bytes × StorageEntry)) (trailing : Bytes) (hc : Clean segs trailing) :
    Greedy dltStorage (fileOf segs trailing) 0 (messagesAt 0 segs) := by
  have hs := scan_fileOf [] segs trailing hc
  simp only [List.nil_append, List.length_nil] at hs
  refine scan_toGreedy dlt_lawful hs ?_
  intro j hj hm
  rw [endOf_messagesAt _ _ fun s hs => (hc.1 s hs).2] at hj
  have hf : fileOf segs trailing = fileOf segs [] ++ trailing := by simp [fileOf]
  obtain ⟨k, rfl⟩ : ∃ k, j = (fileOf segs []).length + k := ⟨j - (fileOf segs []).length, by omega⟩
  rw [hf] at hm
  exact hc.2 ((markerAt_shift.1 hm).isInfix.trans (List.drop_suffix _ _).isInfix)

/-- **C19** on a clean file both yield the messages of the file. -/
theorem C19_agree_on_clean (segs : List (Bytes × StorageEntry)) (trailing : Bytes) (hc : Clean segs trailing)
    (hF : Fits (fileOf segs trailing)) :
    Collects (searchNext dltStorage (fileOf segs trailing)) 0 (messagesAt 0 segs) ∧
    Collects (dltitOffsetNext (fileOf segs trailing)) 0 (messagesAt 0 segs) :=
  ⟨(C18_search_generic dltStorage dlt_lawful (by decide) _ hF 0 (Nat.zero_le _) _).2
    (greedy_fileOf segs trailing hc), (C14_dltit_round_trip segs trailing hc hF).1⟩

/-! ## C20 -/

/-- **C20** `RevSearchIterator` started at `off` yields, in strictly descending order, exactly the positions
`p` with `p + 4 ≤ off` at which a complete message is stored (embedded messages included). -/
theorem C20_rev_search (bytes : Bytes) (hF : Fits bytes) (off : Nat) (hoff : off ≤ bytes.length) :
    ∃ items, Collects (revNext dltStorage bytes) off items ∧
      (items.Pairwise fun a b => b.1 < a.1) ∧
      ∀ p e, (p, e) ∈ items ↔ MsgAt bytes p e ∧ p + 4 ≤ off := by
  obtain ⟨items, h1, h2, h3⟩ := rev_collects dlt_lawful.toSearches hF off hoff
  refine ⟨items, h1, h2, fun p e => ?_⟩
  rw [h3, readableAt_iff_msgAt]
  rfl

example : MsgAt (fileOf [([], msgNested)] []) 20 msg0 ∧ MsgAt (fileOf [([], msgNested)] []) 0 msgNested := by
  refine ⟨⟨msg0_wf, (encode msgNested).take 20, [], by decide, by decide⟩,
    ⟨by decide, [], [], by simp [fileOf], rfl⟩⟩

/-! ## C21 -/

theorem revNext_down (bytes : Bytes) (off : Nat) (h : bytes.length < off) (k : Nat) :
    off + 4 * k ≤ usizeMax → revNext dltStorage bytes (off + 4 * k) = revNext dltStorage bytes off := by
  intro hk
  induction k with
  | zero => rfl
  | succ k ih =>
    rw [← ih (by omega), revNext]
    have hs : revSearch dltStorage bytes (off + 4 * (k + 1)) = .ok none := by
      unfold revSearch; rw [if_pos (by left; omega)]
    have h4 : dltStorage.marker.length = 4 := rfl
    simp only [hs, h4]
    rw [dif_pos (by omega)]
    have : off + 4 * (k + 1) - 4 = off + 4 * k := by omega
    rw [this, if_neg (by omega)]

/-- **C21 (violated)** `RevSearchIterator` is not fused: the `None` that ends the iteration leaves the offset
at `usize::MAX`, and the next call starts over from there and (after walking down in steps of 4) returns a
message again. -/
theorem C21_rev_search_not_fused :
    revNext dltStorage (encode msg0) 0 = .ok (none, usizeMax) ∧
    revNext dltStorage (encode msg0) usizeMax = .ok (some (0, msg0), 0) := by
  have hF : Fits (encode msg0) := by decide
  have h4 : dltStorage.marker.length = 4 := rfl
  have hr0 : ReadableAt dltStorage (encode msg0) 0 msg0 :=
    readableAt_iff_msgAt.2 ⟨msg0_wf, [], [], by simp, rfl⟩
  constructor
  · rcases revNext_spec dlt_lawful.toSearches hF 0 (Nat.zero_le _) with ⟨h, _⟩ | ⟨i, v, _, h, _⟩
    · exact h
    · omega
  · have hlen : (encode msg0).length = 20 := rfl
    have hd := revNext_down (encode msg0) 23 (by omega) ((usizeMax - 23) / 4)
      (by unfold usizeMax; omega)
    have he : 23 + 4 * ((usizeMax - 23) / 4) = usizeMax := by unfold usizeMax; omega
    rw [he] at hd
    rw [hd]
    have hstep : revNext dltStorage (encode msg0) 23 = revNext dltStorage (encode msg0) 19 := by
      rw [revNext]
      have hs : revSearch dltStorage (encode msg0) 23 = .ok none := by
        unfold revSearch; rw [if_pos (by left; omega)]
      simp only [hs, h4]
      rw [dif_pos (by omega), if_neg (by unfold usizeMax; omega)]
    rw [hstep]
    rcases revNext_spec dlt_lawful.toSearches hF 19 (by omega) with ⟨_, h⟩ | ⟨i, v, h1, h2, h3, _⟩
    · exact absurd hr0 (h 0 msg0 (by omega))
    · have hb := (readableAt_iff_msgAt.1 h3).bounds
      have : i = 0 := by omega
      subst this
      have := h3.unique dlt_lawful hr0
      subst this
      exact h1

/-- **C21 (violated)** stated as the property: it fails. -/
theorem C21_not_fused : ¬ ∀ (bytes : Bytes) (off off' : Nat), Fits bytes → off ≤ bytes.length →
    revNext dltStorage bytes off = .ok (none, off') →
    ∃ off'', revNext dltStorage bytes off' = .ok (none, off'') := by
  intro h
  obtain ⟨h1, h2⟩ := C21_rev_search_not_fused
  obtain ⟨o, ho⟩ := h (encode msg0) 0 _ (by decide) (Nat.zero_le _) h1
  rw [h2] at ho; simp at ho

/-! ## C22 -/

/-- Back-to-back values: `v₁` at `off`, `v₂` right behind it, ... -/
def backToBack {T : Type} (len : T → Nat) (off : Nat) : List T → List (Nat × T)
  | [] => []
  | v :: vs => (off, v) :: backToBack len (off + len v) vs

theorem read_collects {T : Type} (S : FromBytesReadable T) (enc : T → Bytes) (wf : T → Prop)
    (hread : ∀ bs, ∃ r, S.tryRead bs = .ok r)
    (hiff : ∀ bs n v, S.tryRead bs = .ok (some (n, v)) ↔ wf v ∧ n = (enc v).length ∧ enc v <+: bs)
    (hpos : ∀ v, wf v → 0 < (enc v).length ∧ S.len v = (enc v).length)
    (bytes : Bytes) (hF : Fits bytes) (off : Nat) (hoff : off ≤ bytes.length) :
    ∃ vs rest, Collects (readNext S bytes) off (backToBack S.len off vs) ∧
      (∀ v ∈ vs, wf v) ∧ bytes.drop off = (vs.map enc).flatten ++ rest ∧
      (∀ v, wf v → ¬ enc v <+: rest) := by
  have hl := fits_le hF
  generalize hk : bytes.length - off = k
  induction k using Nat.strongRecOn generalizing off with
  | ind k ih =>
    by_cases hge : off ≥ bytes.length
    · refine ⟨[], [], Collects.nil (off' := off) ?_, by simp, ?_, ?_⟩
      · unfold readNext; rw [if_pos hge]
      · simp; omega
      · intro v hv hp
        have h1 := hp.length_le
        have h2 := (hpos v hv).1
        rw [List.length_nil] at h1; omega
    · obtain ⟨r, hr⟩ := hread (bytes.drop off)
      rcases r with _ | ⟨n, v⟩
      · refine ⟨[], bytes.drop off, Collects.nil (off' := off) ?_, by simp, by simp, ?_⟩
        · unfold readNext; rw [if_neg hge]
          simp only [sliceFrom_ok (show off ≤ bytes.length by omega), hr]
        · intro v hv hp
          have := (hiff (bytes.drop off) _ v).2 ⟨hv, rfl, hp⟩
          rw [hr] at this; simp at this
      · obtain ⟨hwf, hn, rest', hp⟩ := (hiff _ _ _).1 hr
        have hpv := hpos v hwf
        have hlen := congrArg List.length hp
        rw [List.length_append, List.length_drop] at hlen
        have hu : uadd off n = .ok (off + S.len v) := by
          rw [uadd_ok (by unfold usizeMax; omega)]; congr 1; omega
        obtain ⟨vs, rest, h1, h2, h3, h4⟩ := ih (bytes.length - (off + S.len v)) (by omega) (off + S.len v)
          (by omega) rfl
        refine ⟨v :: vs, rest, Collects.cons (off' := off + S.len v) ?_ h1, ?_, ?_, h4⟩
        · unfold readNext; rw [if_neg hge]
          simp only [sliceFrom_ok (show off ≤ bytes.length by omega), hr, hu]
        · intro w hw
          rcases List.mem_cons.1 hw with rfl | hw
          · exact hwf
          · exact h2 w hw
        · have hd : bytes.drop (off + S.len v) = rest' := by
            rw [← List.drop_drop, ← hp, hpv.2, List.drop_left]
          rw [← hp, ← hd, h3]; simp

/-- **C22** `ReadIterator<DltStorageEntry>` and `ReadIterator<DltEntry>` from any offset in the slice: never
panic, end, and yield a list of values, each at exactly the end of the one before, the first at the given
offset, such that the remaining bytes are the serialisations of the values followed by bytes that do not start
with a readable value. -/
theorem C22_read_iterator (bytes : Bytes) (hF : Fits bytes) (off : Nat) (hoff : off ≤ bytes.length) :
    (∃ vs rest, Collects (readNext dltStorage.toFromBytesReadable bytes) off
        (backToBack StorageEntry.len off vs) ∧
      (∀ v ∈ vs, WF v) ∧ bytes.drop off = (vs.map encode).flatten ++ rest ∧
      (∀ v, WF v → ¬ encode v <+: rest)) ∧
    (∃ vs rest, Collects (readNext dltEntryReadable bytes) off (backToBack DltEntry.len off vs) ∧
      (∀ v ∈ vs, WFDlt v) ∧ bytes.drop off = (vs.map encodeDlt).flatten ++ rest ∧
      (∀ v, WFDlt v → ¬ encodeDlt v <+: rest)) := by
  constructor
  · refine read_collects dltStorage.toFromBytesReadable encode WF (fun bs => (C01_read_never_panics bs).1)
      C02_read_iff (fun v hv => ⟨?_, ?_⟩) bytes hF off hoff
    · have := encode_length v; omega
    · exact (encode_len v hv).symm
  · refine read_collects dltEntryReadable encodeDlt WFDlt (fun bs => (C01_read_never_panics bs).2.2)
      C02_dlt_entry_read_iff (fun v hv => ⟨?_, ?_⟩) bytes hF off hoff
    · simp [encodeDlt]
    · unfold WFDlt at hv
      have : dltEntryReadable.len v = v.header.length.toNat := rfl
      simp [encodeDlt]; omega

/-- **C22** it stays exhausted. -/
theorem C22_read_iterator_fused {T : Type} (S : FromBytesReadable T) (bytes : Bytes) (off off' : Nat)
    (h : readNext S bytes off = .ok (none, off')) (n : Nat) :
    nextTimes (readNext S bytes) n off' = .ok (List.replicate n none) := by
  have hoff : off' = off := by
    unfold readNext at h
    split at h
    · simp at h; exact h.symm
    · split at h
      · simp at h
      · split at h
        · simp at h
        · split at h <;> simp at h
        · simp at h; exact h.symm
  subst hoff
  induction n with
  | zero => rfl
  | succ n ih => unfold nextTimes; rw [h]; simp only; rw [ih]; rfl

example : Fits (encode msg1 ++ encode msg0 ++ [1, 2, 3]) := by decide

end Verif
