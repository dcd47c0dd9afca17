import Verif.Lemmas.Contain
import Verif.Spec.Top
import Verif.Props.Search

/-! # C28, C29: `contained_by` -/

set_option linter.unusedSimpArgs false

namespace Verif
open Spec

/-! ## C28 -/

/-- **C28** `contained_by` returns on every slice and every range, without a panic, and a container it
returns is a complete message that starts before the range, reaches to its end, and starts at most `max_len`
bytes before the range. -/
theorem C28_contained_by_sound (bytes : Bytes) (hF : Fits bytes) (p0 p1 : Nat) :
    ∃ r, containedBy dltStorage bytes p0 p1 = .ok r ∧
      ∀ s e, r = some (s, e) → MsgAt bytes s e ∧ s < p0 ∧ p1 ≤ s + (encode e).length ∧ p0 ≤ s + 65535 := by
  obtain ⟨r, h1, h2⟩ := containedBy_sound dlt_lawful hF p0 p1
  refine ⟨r, h1, fun s e he => ?_⟩
  obtain ⟨h3, h4, h5, h6, _⟩ := h2 s e he
  have hm := readableAt_iff_msgAt.1 h3
  rw [encode_len e hm.1]
  exact ⟨hm, h4, h5, h6⟩

/-- **C28** for every type obeying the reading laws. -/
theorem C28_contained_by_sound_generic {T : Type} (S : SearchableMarker T) (L : Lawful S) (bytes : Bytes)
    (hF : Fits bytes) (p0 p1 : Nat) :
    ∃ r, containedBy S bytes p0 p1 = .ok r ∧
      ∀ s v, r = some (s, v) → ReadableAt S bytes s v ∧ s < p0 ∧ p1 ≤ s + S.len v ∧ p0 ≤ s + S.maxLen := by
  obtain ⟨r, h1, h2⟩ := containedBy_sound L hF p0 p1
  exact ⟨r, h1, fun s v h => ⟨(h2 s v h).1, (h2 s v h).2.1, (h2 s v h).2.2.1, (h2 s v h).2.2.2.1⟩⟩

/-! ## C29 -/

theorem topLevel_wf {bytes : Bytes} {G : List (Nat × StorageEntry)} (hG : TopLevel bytes G) :
    ∀ x ∈ G, MsgAt bytes x.1 x.2 ∧ (encode x.2).length = x.2.len := fun x hx =>
  have h := readableAt_iff_msgAt.1 (Spec.Greedy.readable hG x hx).1
  ⟨h, encode_len _ h.1⟩

theorem inside_iff {bytes : Bytes} {G : List (Nat × StorageEntry)} (hG : TopLevel bytes G) {p : Nat}
    {x : Nat × StorageEntry} : Inside dltStorage G p x ↔ x ∈ G ∧ StrictlyInside p x := by
  unfold Inside StrictlyInside
  constructor
  · rintro ⟨h1, h2, h3⟩
    rw [(topLevel_wf hG x h1).2]; exact ⟨h1, h2, h3⟩
  · rintro ⟨h1, h2, h3⟩
    rw [(topLevel_wf hG x h1).2] at h3; exact ⟨h1, h2, h3⟩

theorem noStraddleG {bytes : Bytes} {G : List (Nat × StorageEntry)} (hG : TopLevel bytes G)
    (h : NoStraddle bytes G) : NoStraddleG dltStorage bytes G := by
  intro x hx j w hr h1 h2
  have hlen := (topLevel_wf hG x hx).2
  have := h x hx j w (readableAt_iff_msgAt.1 hr) ⟨h1, by rw [hlen]; exact h2⟩
  rw [hlen] at this; exact this

/-- **C29 (partial)** for a position `p` (not the last byte of the file) `contained_by(bytes, (p, p+1))`
returns exactly the top-level message with `p` strictly inside, and `None` if there is none, whatever is
embedded in payloads. Missing, and false: top-level messages longer than 65536 bytes
(`C29_oversized_not_found`), and messages whose marker straddles the end of a top-level message
(`C29_straddling_message_found`). -/
theorem C29_contained_by_outermost_partial (bytes : Bytes) (hF : Fits bytes) (G : List (Nat × StorageEntry))
    (hG : TopLevel bytes G) (hmax : AtMost 65536 G) (hns : NoStraddle bytes G) (p : Nat)
    (hp : p + 1 < bytes.length) :
    ∃ r, containedBy dltStorage bytes p (p + 1) = .ok r ∧
      ∀ x, r = some x ↔ x ∈ G ∧ StrictlyInside p x := by
  obtain ⟨r, h1, h2⟩ := containedBy_top dlt_lawful hF (G := G) hG
    (fun x hx => by rw [show dltStorage.len x.2 = x.2.len from rfl, ← (topLevel_wf hG x hx).2]; exact hmax x hx)
    (noStraddleG hG hns) p (p + 1) (by omega) hp
    (fun x hx => by have := hx.2.2; omega)
  refine ⟨r, h1, fun x => ?_⟩
  rw [h2, inside_iff hG]

/-- Straddling is impossible when something starting with a marker, or the end of the file, follows each
top-level message directly. -/
theorem noStraddle_of_adjacent {bytes : Bytes} {G : List (Nat × StorageEntry)} 
    (h : ∀ x ∈ G, x.1 + (encode x.2).length = bytes.length ∨
      dltMarker <+: bytes.drop (x.1 + (encode x.2).length)) : NoStraddle bytes G := by
  intro x hx j e he hin
  have hb := he.bounds
  obtain ⟨h1, h2⟩ := hin
  rcases h x hx with h | h
  · omega
  · exact dlt_lawful.apart ((readableAt_iff_msgAt.2 he).marker dlt_lawful) h h2

/-! ### A concrete file -/

theorem topLevel_fileOf (segs : List (Bytes × StorageEntry)) (trailing : Bytes) (hc : Clean segs trailing) :
    TopLevel (fileOf segs trailing) (messagesAt 0 segs) := greedy_fileOf segs trailing hc

/-- Back-to-back well-formed messages. -/
def packed (es : List StorageEntry) : Bytes := (es.map encode).flatten

theorem fileOf_packed (es : List StorageEntry) : fileOf (es.map fun e => ([], e)) [] = packed es := by
  unfold fileOf packed
  rw [List.append_nil, List.map_map]
  rfl

theorem clean_packed {es : List StorageEntry} (hw : ∀ e ∈ es, WF e) : Clean (es.map fun e => ([], e)) [] := by
  refine ⟨?_, by decide⟩
  intro s hs
  obtain ⟨e, he, rfl⟩ := List.mem_map.1 hs
  exact ⟨by show ¬ dltMarker <:+: []; decide, hw e he⟩

/-- The offsets of back-to-back messages. -/
def packedAt (o : Nat) : List StorageEntry → List (Nat × StorageEntry)
  | [] => []
  | e :: es => (o, e) :: packedAt (o + (encode e).length) es

theorem messagesAt_packed (es : List StorageEntry) (o : Nat) :
    messagesAt o (es.map fun e => ([], e)) = packedAt o es := by
  induction es generalizing o with
  | nil => rfl
  | cons e es ih => simp [messagesAt, packedAt, ih]

theorem topLevel_packed {es : List StorageEntry} (hw : ∀ e ∈ es, WF e) :
    TopLevel (packed es) (packedAt 0 es) := by
  have := topLevel_fileOf _ _ (clean_packed hw)
  rwa [fileOf_packed, messagesAt_packed] at this

theorem packed_adjacent : ∀ (es : List StorageEntry) (pre : Bytes), (∀ e ∈ es, WF e) →
    ∀ x ∈ packedAt pre.length es, x.1 + (encode x.2).length = (pre ++ packed es).length ∨
      dltMarker <+: (pre ++ packed es).drop (x.1 + (encode x.2).length) := by
  intro es
  induction es with
  | nil => intro pre _ x hx; simp [packedAt] at hx
  | cons e es ih =>
    intro pre hw x hx
    have hfile : pre ++ packed (e :: es) = (pre ++ encode e) ++ packed es := by simp [packed]
    rcases List.mem_cons.1 hx with hxe | hx'
    · subst hxe
      cases es with
      | nil => left; simp [packed]
      | cons e' es =>
        right
        rw [hfile, show (pre.length, e).1 + (encode (pre.length, e).2).length = (pre ++ encode e).length by simp,
          List.drop_left]
        have : packed (e' :: es) = encode e' ++ packed es := by simp [packed]
        rw [this]
        exact wf_marker_prefix (hw e' (by simp)) _
    · rw [hfile]
      apply ih (pre ++ encode e) (fun e he => hw e (List.mem_cons_of_mem _ he))
      rw [List.length_append]; exact hx'

theorem noStraddle_packed {es : List StorageEntry} (hw : ∀ e ∈ es, WF e) :
    NoStraddle (packed es) (packedAt 0 es) := by
  apply noStraddle_of_adjacent
  simpa using packed_adjacent es [] hw

/-- A concrete file meeting the hypotheses, with a message embedded in a payload. -/
example : Fits (packed [msg1, msgNested, msg0]) ∧
    TopLevel (packed [msg1, msgNested, msg0]) (packedAt 0 [msg1, msgNested, msg0]) ∧
    AtMost 65536 (packedAt 0 [msg1, msgNested, msg0]) ∧
    NoStraddle (packed [msg1, msgNested, msg0]) (packedAt 0 [msg1, msgNested, msg0]) := by
  have hw : ∀ e ∈ [msg1, msgNested, msg0], WF e := by
    intro e he
    simp only [List.mem_cons, List.not_mem_nil, or_false] at he
    rcases he with rfl | rfl | rfl <;> decide
  refine ⟨by decide, topLevel_packed hw, ?_, noStraddle_packed hw⟩
  intro x hx
  simp only [packedAt, List.mem_cons, List.not_mem_nil, or_false] at hx
  rcases hx with rfl | rfl | rfl <;> simp [encode_length, msg1, msgNested, msg0, encode]

/-! ### The two exceptions -/

theorem msgMax_length : (encode msgMax).length = 65551 := by
  rw [encode_length, show msgMax.dlt.tail = List.replicate 65531 0 from rfl, List.length_replicate]

theorem markerless_zeros (pre : Bytes) (n j : Nat) (post : Bytes) (h1 : pre.length ≤ j) (h2 : j < pre.length + n) :
    ¬ dltMarker <+: (pre ++ List.replicate n 0 ++ post).drop j := by
  rintro ⟨r, hr⟩
  have h3 : (pre ++ List.replicate n 0 ++ post)[j]? = some 0 := by
    rw [List.append_assoc, List.getElem?_append_right h1, List.getElem?_append_left (by rw [List.length_replicate]; omega),
      List.getElem?_replicate, if_pos (by omega)]
  have h4 : ((pre ++ List.replicate n 0 ++ post).drop j)[0]? = some 0 := by
    rw [List.getElem?_drop]; simpa using h3
  rw [← hr] at h4
  simp [dltMarker] at h4

/-- The part of a message in front of its tail. -/
def headOf (e : StorageEntry) : Bytes := (encode e).take 20

theorem encode_head (e : StorageEntry) : encode e = headOf e ++ e.dlt.tail ∧ (headOf e).length = 20 := by
  constructor
  · rfl
  · rfl

theorem no_msg_in_msgMax (rest : Bytes) (j : Nat) (h1 : 0 < j) (h2 : j < 65551) :
    ¬ dltMarker <+: (encode msgMax ++ rest).drop j := by
  by_cases h : 20 ≤ j
  · have := markerless_zeros (headOf msgMax) 65531 j rest h (by show j < 20 + 65531; omega)
    exact this
  · intro hm
    have h4 : (headOf msgMax ++ List.replicate 65531 0 ++ rest).drop j =
        (headOf msgMax ++ [0, 0, 0, 0]).drop j ++ (List.replicate 65527 0 ++ rest) := by
      have : List.replicate 65531 (0 : UInt8) = [0, 0, 0, 0] ++ List.replicate 65527 0 := by
        rw [show (65531 : Nat) = 4 + 65527 from rfl, ← List.replicate_append_replicate]; rfl
      rw [this, ← List.drop_append_of_le_length (by show j ≤ 24; omega)]
      simp only [List.append_assoc]
    have hm' : dltMarker <+: (headOf msgMax ++ [0, 0, 0, 0]).drop j ++ (List.replicate 65527 0 ++ rest) := by
      rw [← h4]; exact hm
    have h5 : dltMarker <+: (headOf msgMax ++ [0, 0, 0, 0]).drop j :=
      List.prefix_of_prefix_length_le hm' (List.prefix_append _ _) (by
        rw [List.length_drop]; show 4 ≤ 24 - j; omega)
    have key : ∀ j, j < 20 → 0 < j → ¬ dltMarker <+: (headOf msgMax ++ [0, 0, 0, 0]).drop j := by decide
    exact key j (by omega) h1 h5

/-- **C29 (violated)** a position far inside a message of 65551 bytes is not recognised: `contained_by` looks
back only `max_len` = 65535 bytes (compare C04). -/
theorem C29_oversized_not_found :
    TopLevel (packed [msgMax, msg0]) (packedAt 0 [msgMax, msg0]) ∧
    StrictlyInside 65540 (0, msgMax) ∧
    containedBy dltStorage (packed [msgMax, msg0]) 65540 65541 = .ok none := by
  have hw : ∀ e ∈ [msgMax, msg0], WF e := by
    intro e he
    simp only [List.mem_cons, List.not_mem_nil, or_false] at he
    rcases he with rfl | rfl
    · exact msgMax_wf
    · exact msg0_wf
  refine ⟨topLevel_packed hw, ⟨by decide, by rw [msgMax_length]; decide⟩, ?_⟩
  have hp : packed [msgMax, msg0] = encode msgMax ++ encode msg0 := by simp [packed]
  obtain ⟨r, h1, h2⟩ := C28_contained_by_sound (packed [msgMax, msg0]) (by
    unfold Fits; rw [hp, List.length_append, msgMax_length]; decide) 65540 65541
  cases r with
  | none => exact h1
  | some x =>
    obtain ⟨s, e⟩ := x
    obtain ⟨h3, h4, h5, h6⟩ := h2 s e rfl
    exfalso
    have hm := (readableAt_iff_msgAt.2 h3).marker dlt_lawful
    rw [hp] at hm
    exact no_msg_in_msgMax (encode msg0) s (by omega) (by omega) hm

/-- A message of 22 bytes that ends with the first two bytes of the marker, followed by the rest of a
complete message. -/
def straddle : Bytes :=
  [68, 76, 84, 1, 0, 0, 0, 0, 0, 0, 0, 0, 0, 0, 0, 0, 0x20, 0, 0, 6, 68, 76] ++
  ([84, 1, 0, 0, 0, 0, 0, 0, 0, 0, 0, 0, 0, 0, 0x20, 0, 0, 40] ++ List.replicate 36 0)

/-- Its first message. -/
def straddleOuter : StorageEntry := ⟨⟨⟨68, 76, 84, 1⟩, 0, 0, ⟨0, 0, 0, 0⟩⟩, ⟨⟨⟨0x20⟩, 0, 6⟩, [68, 76]⟩⟩
/-- The message overlapping it. -/
def straddleInner : StorageEntry := ⟨⟨⟨68, 76, 84, 1⟩, 0, 0, ⟨0, 0, 0, 0⟩⟩, ⟨⟨⟨0x20⟩, 0, 40⟩, List.replicate 36 0⟩⟩

theorem straddle_markers (j : Nat) (hm : dltMarker <+: straddle.drop j) : j = 0 ∨ j = 20 := by
  have hlt := Spec.MarkerAt.lt (S := dltStorage) hm
  have h4 : dltStorage.marker.length = 4 := rfl
  have hl : straddle.length = 76 := rfl
  have key : ∀ j, j < 73 → dltMarker <+: straddle.drop j → j = 0 ∨ j = 20 := by decide
  exact key j (by omega) hm

theorem straddle_top : TopLevel straddle [(0, straddleOuter)] := by
  refine Greedy.msg 0 0 straddleOuter [] (Nat.le_refl _) ?_ (fun j w _ h => by omega) ?_
  · exact readableAt_iff_msgAt.2 ⟨by decide, [], straddle.drop 22, by decide, rfl⟩
  · refine Greedy.done _ fun j v hj hr => ?_
    have := straddle_markers j (hr.marker dlt_lawful)
    have h22 : dltStorage.len straddleOuter = 22 := rfl
    omega

/-- **C29 (violated)** a message overlapping the end of a top-level message with a straddling marker is
reported although it is not a top-level message. -/
theorem C29_straddling_message_found :
    TopLevel straddle [(0, straddleOuter)] ∧ ¬ StrictlyInside 38 (0, straddleOuter) ∧
    containedBy dltStorage straddle 38 39 = .ok (some (20, straddleInner)) := by
  refine ⟨straddle_top, by decide, ?_⟩
  have hF : Fits straddle := by decide
  have hl : straddle.length = 76 := rfl
  have hmx : dltStorage.maxLen = 65535 := rfl
  have h0 : ReadableAt dltStorage straddle 0 straddleOuter :=
    readableAt_iff_msgAt.2 ⟨by decide, [], straddle.drop 22, by decide, rfl⟩
  have h20 : ReadableAt dltStorage straddle 20 straddleInner :=
    readableAt_iff_msgAt.2 ⟨by decide, straddle.take 20, [], by decide, rfl⟩
  have hfi : findIter dltStorage.marker straddle = [0, 20] := by decide
  have l0 : dltStorage.len straddleOuter = 22 := rfl
  have l20 : dltStorage.len straddleInner = 56 := rfl
  have hm4 : dltStorage.marker.length = 4 := rfl
  have step0 : ∀ p0 p1, 22 < p1 → 0 < p0 → p0 < 76 →
      containedByLoop dltStorage straddle p0 p1 [0, 20] = containedByLoop dltStorage straddle p0 p1 [20] := by
    intro p0 p1 h1 h2 h3
    rcases containedByLoop_cons dlt_lawful hF (p0 := p0) (p1 := p1) (cs := [20]) (c := 0) (by omega) h2 with
      ⟨hno, _⟩ | ⟨v, hr, h⟩
    · exact absurd h0 (hno _)
    · have := hr.unique dlt_lawful h0; subst this
      rw [h, if_neg (by omega)]
  have hinner : containedBy dltStorage straddle 20 24 = .ok none := by
    rw [containedBy_unfold, if_neg (by omega), hmx, show 20 - 65535 = 0 from rfl, List.drop_zero, hfi]
    show containedByLoop dltStorage straddle 20 24 [0, 20] = _
    rw [step0 _ _ (by omega) (by omega) (by omega), containedByLoop, dif_pos (by omega)]
  rw [containedBy_unfold, if_neg (by omega), hmx, show 38 - 65535 = 0 from rfl, List.drop_zero, hfi]
  show containedByLoop dltStorage straddle 38 39 [0, 20] = _
  rw [step0 _ _ (by omega) (by omega) (by omega)]
  rcases containedByLoop_cons dlt_lawful hF (p0 := 38) (p1 := 39) (cs := []) (c := 20) (by omega) (by omega) with
    ⟨hno, _⟩ | ⟨v, hr, h⟩
  · exact absurd h20 (hno _)
  · have := hr.unique dlt_lawful h20; subst this
    rw [h, if_pos (by omega), hm4, show 20 + 4 = 24 from rfl, hinner]

end Verif
