import Verif.Model.Mapped
import Verif.Spec.Mapped
import Verif.Lemmas.DltLaws

/-! # Reading a mapped file that changes: lemmas -/

set_option linter.unusedSimpArgs false

namespace Verif
open Spec

variable {T : Type} {S : SearchableMarker T}

/-- Unfolding one step, below the `usize` limit. -/
theorem readFallbackNextOn_unfold {n : Nat} {w : Nat → Bytes} {a off : Nat} (hl : ∀ a, (w a).length = n)
    (hoff : off + S.marker.length ≤ usizeMax) :
    readFallbackNextOn S n w a off =
      if off + S.marker.length ≥ n then .ok (none, off)
      else if ((w a).drop off).take S.marker.length = S.marker then
        match S.tryReadValidMarker ((w (a + 1)).drop off) with
        | .panic => .panic
        | .ok (some (bytesRead, val)) =>
          match uadd off bytesRead with
          | .panic => .panic
          | .ok offset' => .ok (some (off, val), offset')
        | .ok none => .ok (none, off)
      else
        match find S.marker ((w (a + 1)).drop off) with
        | some position =>
          if position = 0 then .ok (none, off)
          else
            match uadd off position with
            | .panic => .panic
            | .ok offset' => readFallbackNextOn S n w (a + 2) offset'
        | none => .ok (none, off) := by
  have h0 := hl a
  have h1 := hl (a + 1)
  rw [readFallbackNextOn]
  split
  · next h => rw [uadd_ok hoff] at h; cases h
  · next e h =>
    rw [uadd_ok hoff] at h
    cases h
    by_cases hge : off + S.marker.length ≥ n
    · rw [dif_pos hge, if_pos hge]
    · rw [dif_neg hge, if_neg hge]
      simp only [slice_eq_marker (bs := w a) (a := off) (m := S.marker) (by omega),
        sliceFrom_ok (show off ≤ (w (a + 1)).length by omega), searchMarker]
      split
      · rfl
      · cases find S.marker ((w (a + 1)).drop off) with
        | none => rfl
        | some p =>
          by_cases hp : p = 0
          · simp only [hp, dif_pos, if_true]
          · simp only [hp, dif_neg, not_false_iff, if_false]
            split
            · next h => rw [h]
            · next h => rw [h]

theorem find_zero {n h : Bytes} (hp : n <+: h) : find n h = some 0 := by
  cases hf : find n h with
  | none => exact absurd (by rw [List.drop_zero]; exact hp) (find_none hf 0)
  | some i =>
    obtain ⟨-, -, h3⟩ := find_some hf
    rcases Nat.eq_zero_or_pos i with rfl | hi
    · rfl
    · exact absurd (by rw [List.drop_zero]; exact hp) (h3 0 hi)

theorem find_none_of_notMem {n h : Bytes} {x : UInt8} (hx : x ∈ n) (hn : x ∉ h) : find n h = none := by
  cases hf : find n h with
  | none => rfl
  | some i =>
    obtain ⟨-, h2, -⟩ := find_some hf
    exact absurd (List.mem_of_mem_drop (h2.subset hx)) hn

/-- A run of calls whose offsets and answers are known. -/
theorem pollFrom_of {α : Type} {next : Nat → NextFn α} (off : Nat → Nat) (r : Nat → Option α)
    (h : ∀ c, next c (off c) = .ok (r c, off (c + 1))) (k c : Nat) :
    pollFrom next k c (off c) = .ok ((List.range' c k).map r) := by
  induction k generalizing c with
  | zero => rfl
  | succ k ih => simp only [pollFrom, h c, ih (c + 1), List.range'_succ, List.map_cons]

/-! ## The file while it is written -/

theorem startOf_succ {es : List StorageEntry} {j : Nat} {e : StorageEntry} (h : es[j]? = some e) :
    startOf es (j + 1) = startOf es j + (encode e).length := by
  simp [startOf, backToBack, List.take_add_one, h]

theorem backToBack_split (es : List StorageEntry) (j : Nat) :
    backToBack es = backToBack (es.take j) ++ backToBack (es.drop j) := by
  simp only [backToBack, ← List.flatten_append, ← List.map_append, List.take_append_drop]

theorem backToBack_drop {es : List StorageEntry} {j : Nat} {e : StorageEntry} (h : es[j]? = some e) :
    (backToBack es).drop (startOf es j) = encode e ++ backToBack (es.drop (j + 1)) := by
  rw [backToBack_split es j, startOf, List.drop_left]
  obtain ⟨hj, rfl⟩ := List.getElem?_eq_some_iff.1 h
  rw [List.drop_eq_getElem_cons hj]
  simp only [backToBack, List.map_cons, List.flatten_cons]

theorem startOf_le (es : List StorageEntry) (j : Nat) : startOf es j ≤ (backToBack es).length := by
  rw [backToBack_split es j, List.length_append]; unfold startOf; omega

theorem startOf_mono (es : List StorageEntry) {i j : Nat} (h : i ≤ j) : startOf es i ≤ startOf es j := by
  have : es.take i = (es.take j).take i := by rw [List.take_take, Nat.min_eq_left h]
  have h2 := startOf_le (es.take j) i
  unfold startOf at *
  rw [← this] at h2; exact h2

theorem half_encode (e : StorageEntry) {r : Nat} (hr : 20 ≤ r) :
    encode (half e r) = (encode e).take r ++ List.replicate ((encode e).length - r) 0 := by
  obtain ⟨k, rfl⟩ : ∃ k, r = 20 + k := ⟨r - 20, by omega⟩
  have h1 : (encode e).length - (20 + k) = e.dlt.tail.length - k := by rw [encode_length]; omega
  rw [h1]
  have h2 : 20 + k - 20 = k := by omega
  unfold encode half
  simp only [h2, List.take_append, List.append_assoc]
  congr 1
  · simp [List.take_of_length_le]
  · congr 2
    show k = 20 + k - 20
    omega

theorem half_wf {e : StorageEntry} (h : WF e) (r : Nat) : WF (half e r) := by
  refine ⟨h.1, ?_⟩
  have := h.2
  simp only [half, List.length_append, List.length_take, List.length_replicate]
  omega

theorem half_whole {e : StorageEntry} {r : Nat} (h : (encode e).length ≤ r) : half e r = e := by
  rw [encode_length] at h
  have h1 : e.dlt.tail.length - (r - 20) = 0 := by omega
  unfold half
  rw [List.take_of_length_le (by omega), h1]
  simp

theorem half_length (e : StorageEntry) (r : Nat) : (encode (half e r)).length = (encode e).length := by
  rw [encode_length, encode_length]
  simp only [half, List.length_append, List.length_take, List.length_replicate]
  omega

theorem written_length {n w : Nat} {es : List StorageEntry} (hn : (backToBack es).length ≤ n) :
    (written n es w).length = n := by
  simp only [written, List.length_append, List.length_take, List.length_replicate]; omega

/-- What is behind the start of a message: some of its bytes, or all of them and more. -/
theorem written_drop {n w j : Nat} {es : List StorageEntry} (hn : (backToBack es).length ≤ n) (hw : w ≤ (backToBack es).length) :
    (written n es w).drop (startOf es j) =
      ((backToBack es).drop (startOf es j)).take (w - startOf es j) ++
        List.replicate (n - (startOf es j + (w - startOf es j))) 0 := by
  have h0 := startOf_le es j
  unfold written
  rw [List.drop_append, List.drop_take]
  congr 1
  rw [List.length_take, Nat.min_eq_left hw, List.drop_replicate]
  congr 1
  omega

theorem written_front {n w j : Nat} {es : List StorageEntry} {e : StorageEntry} (hn : (backToBack es).length ≤ n)
    (hw : w ≤ (backToBack es).length) (he : es[j]? = some e) :
    ∃ rest, (written n es w).drop (startOf es j) =
      ((encode e).take (w - startOf es j) ++ List.replicate ((encode e).length - (w - startOf es j)) 0) ++ rest := by
  have h0 := startOf_le es (j + 1)
  rw [startOf_succ he] at h0
  rw [written_drop hn hw, backToBack_drop he]
  by_cases h : (encode e).length ≤ w - startOf es j
  · refine ⟨(backToBack (es.drop (j + 1))).take (w - startOf es j - (encode e).length) ++
      List.replicate (n - (startOf es j + (w - startOf es j))) 0, ?_⟩
    rw [List.take_append, List.take_of_length_le h, show (encode e).length - (w - startOf es j) = 0 by omega]
    simp
  · refine ⟨List.replicate (n - (startOf es j + (w - startOf es j)) - ((encode e).length - (w - startOf es j))) 0, ?_⟩
    rw [List.take_append_of_le_length (by omega), List.append_assoc, List.replicate_append_replicate]
    congr 2
    omega

theorem startOf_all {es : List StorageEntry} {j : Nat} (h : es.length ≤ j) : startOf es j = (backToBack es).length := by
  unfold startOf; rw [List.take_of_length_le h]

/-- Less than the marker is there: part of the marker and zeros. -/
theorem written_start {n w j : Nat} {es : List StorageEntry} (hw : ∀ e ∈ es, WF e) (hn : (backToBack es).length ≤ n)
    (hm : w ≤ (backToBack es).length) (hr : w - startOf es j < 4) :
    ∃ k, (written n es w).drop (startOf es j) = dltMarker.take (w - startOf es j) ++ List.replicate k 0 := by
  refine ⟨n - (startOf es j + (w - startOf es j)), ?_⟩
  rw [written_drop hn hm]
  congr 1
  by_cases hj : j < es.length
  · have he : es[j]? = some es[j] := List.getElem?_eq_getElem hj
    rw [backToBack_drop he]
    obtain ⟨t, ht⟩ := wf_marker_prefix (hw _ (List.getElem_mem hj)) (backToBack (es.drop (j + 1)))
    rw [← ht, List.take_append_of_le_length]
    have : dltMarker.length = 4 := rfl
    omega
  · rw [startOf_all (by omega), Nat.sub_eq_zero_of_le hm]
    simp

theorem mem_start {r k : Nat} (hr : r < 4) : (1 : UInt8) ∉ dltMarker.take r ++ List.replicate k 0 := by
  intro h
  rw [List.mem_append] at h
  rcases h with h | h
  · have : r = 0 ∨ r = 1 ∨ r = 2 ∨ r = 3 := by omega
    rcases this with rfl | rfl | rfl | rfl <;> revert h <;> decide
  · exact absurd (List.eq_of_mem_replicate h) (by decide)

theorem byteAt_zeros {a z rest : Bytes} {i : Nat} (h : a.length ≤ i) (h2 : i < (a ++ z).length) (hz : ∀ x ∈ z, x = 0) :
    byteAt (a ++ z ++ rest) i = 0 := by
  rw [byteAt_append_left _ _ _ h2]
  unfold byteAt
  rw [List.getD_eq_getElem?_getD, List.getElem?_append_right h]
  rw [List.length_append] at h2
  rw [List.getElem?_eq_getElem (by omega)]
  exact hz _ (List.getElem_mem _)

/-- One call of `next` of a reader that stands at the start of message `j`, while the file is being written. -/
theorem call_written {n : Nat} {es : List StorageEntry} {w : Nat → Bytes} {m : Nat → Nat} (hF : n < 2 ^ 63)
    (hw : ∀ e ∈ es, WF e) (hn : (backToBack es).length ≤ n) (hv : ∀ a, w a = written n es (m a))
    (hm : ∀ a, m a ≤ (backToBack es).length) (j : Nat)
    (h19 : ∀ e, es[j]? = some e → m 1 = startOf es j + 19 → e.dlt.header.length.toNat < 256) :
    readFallbackNextOn dltStorage n w 0 (startOf es j) =
      if startOf es j + 4 ≤ m 0 ∧ startOf es j + 20 ≤ m 1 then
        .ok ((es[j]?).map fun e => (startOf es j, half e (m 1 - startOf es j)), startOf es (j + 1))
      else .ok (none, startOf es j) := by
  have hl : ∀ a, (w a).length = n := fun a => by rw [hv a]; exact written_length hn
  have hml : dltStorage.marker.length = 4 := rfl
  have ho := startOf_le es j
  rw [readFallbackNextOn_unfold hl (by rw [hml]; unfold usizeMax; omega), hml]
  by_cases hr0 : startOf es j + 4 ≤ m 0
  · have hj : j < es.length := by
      apply Nat.lt_of_not_le; intro h
      have := startOf_all h; have := hm 0; omega
    have he : es[j]? = some es[j] := List.getElem?_eq_getElem hj
    have hwf := hw _ (List.getElem_mem hj)
    have hs := startOf_succ he
    have hs2 := startOf_le es (j + 1)
    have hel := encode_length es[j]
    rw [if_neg (by omega)]
    obtain ⟨rest0, h0⟩ := written_front hn (hm 0) he
    obtain ⟨rest1, h1⟩ := written_front hn (hm 1) he
    have hmk : ((w 0).drop (startOf es j)).take 4 = dltStorage.marker := by
      have hp : dltMarker <+: (w 0).drop (startOf es j) := by
        rw [hv 0, h0, List.append_assoc]
        refine List.IsPrefix.trans ?_ (List.prefix_append _ _)
        refine List.prefix_take_iff.2 ⟨by simpa using wf_marker_prefix hwf [], ?_⟩
        have : dltMarker.length = 4 := rfl
        omega
      exact take_eq_iff_prefix.2 hp
    rw [if_pos hmk, Nat.zero_add, hv 1, h1]
    by_cases hr1 : startOf es j + 20 ≤ m 1
    · rw [if_pos ⟨hr0, hr1⟩, ← half_encode _ (by omega)]
      have hrd : dltStorage.tryReadValidMarker (encode (half es[j] (m 1 - startOf es j)) ++ rest1) =
          .ok (some ((encode (half es[j] (m 1 - startOf es j))).length, half es[j] (m 1 - startOf es j))) :=
        tryReadRaw_encode _ _ (half_wf hwf _).2
      rw [hrd, half_length]
      simp only [uadd_ok (show startOf es j + (encode es[j]).length ≤ usizeMax by unfold usizeMax; omega), he, hs,
        Option.map_some]
    · rw [if_neg (fun h => hr1 h.2)]
      have hb : ∀ i, m 1 - startOf es j ≤ i → i < 20 →
          byteAt (((encode es[j]).take (m 1 - startOf es j) ++
            List.replicate ((encode es[j]).length - (m 1 - startOf es j)) 0) ++ rest1) i = 0 := by
        intro i h1 h2
        refine byteAt_zeros ?_ ?_ fun x hx => List.eq_of_mem_replicate hx
        · rw [List.length_take]; omega
        · rw [List.length_append, List.length_take, List.length_replicate]; omega
      have h19' : byteAt (((encode es[j]).take (m 1 - startOf es j) ++
            List.replicate ((encode es[j]).length - (m 1 - startOf es j)) 0) ++ rest1) 19 = 0 := hb 19 (by omega) (by omega)
      have h18' : byteAt (((encode es[j]).take (m 1 - startOf es j) ++
            List.replicate ((encode es[j]).length - (m 1 - startOf es j)) 0) ++ rest1) 18 = 0 := by
        by_cases h : m 1 - startOf es j ≤ 18
        · exact hb 18 h (by omega)
        · have hlt := h19 _ he (by omega)
          have hd : byteAt (encode es[j]) 18 = 0 := by
            show digit es[j].dlt.header.length.toNat 1 = 0
            exact digit_eq _ _ _ (by
              show es[j].dlt.header.length.toNat / 256 ^ 1 % 256 = 0
              omega)
          rw [byteAt_append_left _ _ _ (by
            rw [List.length_append, List.length_take, List.length_replicate]; omega),
            byteAt_append_left _ _ _ (by rw [List.length_take]; omega), ← hd]
          unfold byteAt
          simp only [List.getD_eq_getElem?_getD]
          rw [List.getElem?_take_of_lt (by omega)]
      have hrd : dltStorage.tryReadValidMarker (((encode es[j]).take (m 1 - startOf es j) ++
            List.replicate ((encode es[j]).length - (m 1 - startOf es j)) 0) ++ rest1) = .ok none := by
        show StorageEntry.tryReadRaw _ = _
        rw [tryReadRaw_eq, h18', h19', if_neg]
        rw [be16_toNat]
        rintro ⟨-, h, -⟩
        exact absurd h (by decide)
      rw [hrd]
  · rw [if_neg (show ¬ (startOf es j + 4 ≤ m 0 ∧ startOf es j + 20 ≤ m 1) from fun h => hr0 h.1)]
    by_cases hge : startOf es j + 4 ≥ n
    · rw [if_pos hge]
    · rw [if_neg hge]
      obtain ⟨k0, h0⟩ := written_start (j := j) hw hn (hm 0) (by omega)
      have hne : ¬ ((w 0).drop (startOf es j)).take 4 = dltStorage.marker := by
        intro h
        rw [hv 0, h0] at h
        have h1 : (1 : UInt8) ∈ (dltMarker.take (m 0 - startOf es j) ++ List.replicate k0 0).take 4 := by rw [h]; decide
        exact mem_start (by omega) (List.mem_of_mem_take h1)
      rw [if_neg hne, Nat.zero_add, hv 1]
      by_cases hr1 : startOf es j + 4 ≤ m 1
      · have hj : j < es.length := by
          apply Nat.lt_of_not_le; intro h
          have := startOf_all h; have := hm 1; omega
        have he : es[j]? = some es[j] := List.getElem?_eq_getElem hj
        obtain ⟨rest1, h1⟩ := written_front hn (hm 1) he
        have hp : dltMarker <+: (written n es (m 1)).drop (startOf es j) := by
          rw [h1, List.append_assoc]
          refine List.IsPrefix.trans ?_ (List.prefix_append _ _)
          refine List.prefix_take_iff.2 ⟨by simpa using wf_marker_prefix (hw _ (List.getElem_mem hj)) [], ?_⟩
          have : dltMarker.length = 4 := rfl
          omega
        simp only [find_zero (show dltStorage.marker <+: _ from hp), if_true]
      · obtain ⟨k1, h1⟩ := written_start (j := j) hw hn (hm 1) (by omega)
        have hf : find dltStorage.marker ((written n es (m 1)).drop (startOf es j)) = none := by
          refine find_none_of_notMem (x := 1) (by decide) ?_
          rw [h1]; exact mem_start (by omega)
        simp only [hf]

end Verif
