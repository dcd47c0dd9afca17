import Verif.Props.Mapped

/-!
# C147: searching a mapped log while it is being written
-/

set_option linter.unusedSimpArgs false

namespace Verif
open Spec

theorem searchNextOn_unfold {n : Nat} {w : Nat → Bytes} {a off off' : Nat} (h : searchSearchOn n w a off = .ok none)
    (hu : uadd off 4 = .ok off') :
    searchNextOn n w a off = if off' ≥ n then .ok (none, off') else searchNextOn n w (a + 3) off' := by
  rw [searchNextOn]
  simp only [h]
  have hu' : uadd off StorageEntry.marker.length = .ok off' := hu
  split
  · next h' => rw [hu'] at h'; cases h'
  · next h' => rw [hu'] at h'; cases h'; rfl

theorem lenAgain_bounds (bytes : Bytes) (i : Nat) : 16 ≤ lenAgain bytes i ∧ lenAgain bytes i < 65552 := by
  unfold lenAgain
  have := (be16 (byteAt bytes (i + 18)) (byteAt bytes (i + 19))).toNat_lt
  omega

/-- One search: either nothing, or something that was seen inside the mapping. -/
theorem searchSearchOn_spec {n : Nat} {w : Nat → Bytes} (hn : n < 2 ^ 63) (hl : ∀ a, (w a).length = n) (a off : Nat) :
    searchSearchOn n w a off = .ok none ∨
    ∃ i x, searchSearchOn n w a off = .ok (some (i, x)) ∧ off ≤ i ∧ i + x.len ≤ n ∧ 20 ≤ x.len ∧
      x.len = (encode x).length ∧ dltMarker <+: (w a).drop i ∧ encode x <+: (w (a + 1)).drop i := by
  unfold searchSearchOn
  have h0 := hl a
  have h1 := hl (a + 1)
  by_cases hge : off ≥ n
  · rw [if_pos hge]; exact Or.inl rfl
  · rw [if_neg hge]
    simp only [sliceFrom_ok (show off ≤ (w a).length by omega)]
    cases hf : find StorageEntry.marker ((w a).drop off) with
    | none => exact Or.inl rfl
    | some p =>
      obtain ⟨hp, hm, -⟩ := find_some hf
      rw [List.length_drop] at hp
      rw [List.drop_drop] at hm
      have hu : uadd p off = .ok (off + p) := by rw [uadd_ok (by unfold usizeMax; omega)]; congr 1; omega
      simp only [hu, sliceFrom_ok (show off + p ≤ (w (a + 1)).length by omega)]
      obtain ⟨r, hr⟩ := dlt_lawful.total ((w (a + 1)).drop (off + p))
      have hr' : StorageEntry.tryReadValidMarker ((w (a + 1)).drop (off + p)) = .ok r := hr
      rw [hr']
      rcases r with _ | ⟨q, x⟩
      · exact Or.inl rfl
      · obtain ⟨h3, h4, h5⟩ := dlt_lawful.size _ _ _ hr
        obtain ⟨hq, ⟨rest, hb⟩, hlen⟩ := tryReadRaw_some _ _ _ hr
        have hel := encode_length x
        rw [List.length_drop] at h5
        have h3' : q = x.len := h3
        exact Or.inr ⟨off + p, x, rfl, by omega, by omega, by omega, by omega, hm, ⟨rest, hb.symm⟩⟩

/-- **C147** one call of the searching iterator on a mapping that changes in any way: no panic as long as offsets can be
counted, it moves on, and what is returned lies inside the mapping and was seen there during the call. (But the next call
goes on where the length field points when it is read once more: messages returned can overlap.) -/
theorem C147_search_safe (n : Nat) (w : Nat → Bytes) (hn : n < 2 ^ 63) (hl : ∀ a, (w a).length = n) (a off : Nat)
    (hoff : off < 2 ^ 63 + 2 ^ 62) :
    (∃ off', searchNextOn n w a off = .ok (none, off') ∧ off + 4 ≤ off' ∧ n ≤ off') ∨
    (∃ i x off', searchNextOn n w a off = .ok (some (i, x), off') ∧ off ≤ i ∧ i + 16 ≤ off' ∧ off' < n + 65552 ∧
      i + x.len ≤ n ∧ x.len = (encode x).length ∧
      ∃ b, dltMarker <+: (w b).drop i ∧ encode x <+: (w (b + 1)).drop i) := by
  generalize hk : n - off = k
  induction k using Nat.strongRecOn generalizing a off with
  | ind k ih =>
    rcases searchSearchOn_spec hn hl a off with h1 | ⟨i, x, h1, h2, h3, h3', h4, h5, h6⟩
    · have hu : uadd off 4 = .ok (off + 4) := uadd_ok (by unfold usizeMax; omega)
      rw [searchNextOn_unfold h1 hu]
      by_cases hge : off + 4 ≥ n
      · rw [if_pos hge]; exact Or.inl ⟨_, rfl, Nat.le_refl _, hge⟩
      · rw [if_neg hge]
        rcases ih (n - (off + 4)) (by omega) (a + 3) (off + 4) (by omega) rfl with
          ⟨o, g1, g2, g3⟩ | ⟨i, x, o, g1, g2, g3⟩
        · exact Or.inl ⟨o, g1, by omega, g3⟩
        · exact Or.inr ⟨i, x, o, g1, by omega, g3⟩
    · have hb := lenAgain_bounds (w (a + 2)) i
      refine Or.inr ⟨i, x, i + lenAgain (w (a + 2)) i, ?_, h2, by omega, by omega, h3, h4, a, h5, h6⟩
      rw [searchNextOn]
      simp only [h1, uadd_ok (show i + lenAgain (w (a + 2)) i ≤ usizeMax by unfold usizeMax; omega)]

theorem lenAgain_encode {bytes : Bytes} {i : Nat} {x : StorageEntry} (h : encode x <+: bytes.drop i)
    (hi : i + (encode x).length ≤ bytes.length) : lenAgain bytes i = x.len := by
  obtain ⟨t, ht⟩ := h
  have hd : ∀ k, byteAt bytes (i + k) = byteAt (bytes.drop i) k := by
    intro k; simp [byteAt, List.getD_eq_getElem?_getD]
  unfold lenAgain
  rw [hd, hd, ← ht]
  have h18 : be16 (byteAt (encode x ++ t) 18) (byteAt (encode x ++ t) 19) = x.dlt.header.length := by
    rw [← be16_digit x.dlt.header.length]; rfl
  rw [h18]; rfl

/-- **C147** on a file none of whose versions differs from `bytes` behind the offset, a call of the searching iterator is the
call on `bytes`. -/
theorem C147_search_unchanged (bytes : Bytes) (w : Nat → Bytes) (hF : Fits bytes) (hl : ∀ a, (w a).length = bytes.length)
    (a off : Nat) (hoff : off < 2 ^ 63 + 2 ^ 62) (h : ∀ a, (w a).drop off = bytes.drop off) :
    searchNextOn bytes.length w a off = searchNext dltStorage bytes off := by
  have hF' := fits_le hF
  generalize hk : bytes.length - off = k
  induction k using Nat.strongRecOn generalizing a off with
  | ind k ih =>
    have hdeep : ∀ a i, off ≤ i → (w a).drop i = bytes.drop i := by
      intro a i hi
      rw [show i = off + (i - off) by omega, ← List.drop_drop, ← List.drop_drop, h a]
    have hs : searchSearchOn bytes.length w a off = searchSearch dltStorage bytes off := by
      unfold searchSearchOn searchSearch
      by_cases hge : off ≥ bytes.length
      · rw [if_pos hge, if_pos hge]
      · rw [if_neg hge, if_neg hge]
        have h0 := hl a
        have h1 := hl (a + 1)
        simp only [sliceFrom_ok (show off ≤ (w a).length by omega), sliceFrom_ok (show off ≤ bytes.length by omega), h a]
        show (match find dltMarker (bytes.drop off) with | none => _ | some c => _) =
          match find dltMarker (bytes.drop off) with | none => _ | some c => _
        cases hf : find dltMarker (bytes.drop off) with
        | none => rfl
        | some p =>
          obtain ⟨hp, -, -⟩ := find_some hf
          rw [List.length_drop] at hp
          have hu : uadd p off = .ok (off + p) := by rw [uadd_ok (by unfold usizeMax; omega)]; congr 1; omega
          simp only [hu, sliceFrom_ok (show off + p ≤ (w (a + 1)).length by omega),
            sliceFrom_ok (show off + p ≤ bytes.length by omega), hdeep (a + 1) (off + p) (by omega),
            show dltStorage.tryReadValidMarker = StorageEntry.tryReadValidMarker from rfl]
          generalize StorageEntry.tryReadValidMarker (bytes.drop (off + p)) = r
          rcases r with (_ | ⟨_, _⟩) | _ <;> rfl
    rcases searchSearchOn_spec hF' hl a off with h1 | ⟨i, x, h1, h2, h3, h3', h4, h5, h6⟩
    · have hu : uadd off 4 = .ok (off + 4) := uadd_ok (by unfold usizeMax; omega)
      rw [searchNextOn_unfold h1 hu, searchNext_unfold (by rw [← hs]; exact h1) hu]
      by_cases hge : off + 4 ≥ bytes.length
      · rw [if_pos hge, if_pos hge]
      · rw [if_neg hge, if_neg hge]
        exact ih (bytes.length - (off + 4)) (by omega) (a + 3) (off + 4) (by omega)
          (fun a => hdeep a (off + 4) (by omega)) rfl
    · have hla : lenAgain (w (a + 2)) i = x.len := by
        refine lenAgain_encode ?_ (by rw [hl]; omega)
        rw [hdeep (a + 2) i h2, ← hdeep (a + 1) i h2]; exact h6
      rw [searchNextOn, searchNext, ← hs]
      simp only [h1, hla]
      rfl

/-- **C147** the searching iterator is not fit for following a log, even if that is written message by message: while it
searches behind the messages, in steps of four bytes, a message can appear at a place it has passed. It is skipped, and the
one behind it is returned. -/
theorem C147_search_skips : ∃ (n : Nat) (es : List StorageEntry) (p : Nat → Nat → Nat), (∀ e ∈ es, WF e) ∧
    (∀ c a, p c a ≤ p c (a + 1) ∧ p c a ≤ p (c + 1) 0 ∧ p c a ≤ es.length) ∧ es.length = 3 ∧
    pollFrom (searchMapped n fun c a => filled n es (p c a)) 2 0 0 =
      .ok [(placed es)[0]?, (placed es)[2]?] := by
  refine ⟨81, [msg0, msg1, msg0], fun c a => if c = 0 then 1 else if c = 1 ∧ a < 3 then 1 else 3, by decide, ?_, rfl,
    by decide +kernel⟩
  intro c a
  show (if c = 0 then 1 else if c = 1 ∧ a < 3 then 1 else 3) ≤ (if c = 0 then 1 else if c = 1 ∧ a + 1 < 3 then 1 else 3) ∧
    (if c = 0 then 1 else if c = 1 ∧ a < 3 then 1 else 3) ≤ (if c + 1 = 0 then 1 else if c + 1 = 1 ∧ 0 < 3 then 1 else 3) ∧
    (if c = 0 then 1 else if c = 1 ∧ a < 3 then 1 else 3) ≤ 3
  refine ⟨?_, ?_, ?_⟩
  · split <;> (try split) <;> (try split) <;> omega
  · split <;> (try split) <;> (try split) <;> (try split) <;> omega
  · split <;> (try split) <;> omega

/-- **C147** nor does it keep apart the messages it returns when messages are overwritten: the length that it moves on by is
read once more after the message has been read. -/
theorem C147_search_overlap : ∃ (n : Nat) (v : Nat → Nat → Bytes) (i j : Nat) (x y : StorageEntry), Mapped n v ∧
    pollFrom (searchMapped n v) 2 0 0 = .ok [some (i, x), some (j, y)] ∧ i < j ∧ j < i + x.len := by
  refine ⟨40, fun c a => if c = 0 ∧ a < 2 then encode msgNested else encode msg0 ++ encode msg0,
    0, 20, msgNested, msg0, ⟨by decide, ?_⟩, ?_, by decide, by decide⟩
  · intro c a
    show (if c = 0 ∧ a < 2 then encode msgNested else encode msg0 ++ encode msg0).length = 40
    split <;> decide
  · decide +kernel

end Verif
