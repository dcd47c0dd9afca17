import Verif.Props.Lifecycle
import Verif.Lemmas.Contain

/-!
# C49, C50, C56: payload text, message types, payload sizes, printing ECU ids
-/

set_option linter.unusedSimpArgs false

namespace Verif

open Spec

theorem payload_payloadOf (e : StorageEntry) : e.dlt.payload =
    if flag e.dlt 0 = true ∧ e.dlt.tail.length < optLen e.dlt then .panic else .ok (payloadOf e) := by
  rw [payload_eq]
  unfold payloadOf preLen
  split
  · rfl
  · generalize optLen e.dlt + (if flag e.dlt 0 then 10 else 0) = k
    by_cases h : k ≤ e.dlt.tail.length
    · rw [if_pos h, if_pos h]
    · rw [if_neg h, if_neg h]

/-! ## C49 -/

theorem findIter_isSome (n hay : Bytes) : (findIter n hay).head?.isSome = true ↔ n <:+: hay := by
  have key : ∀ (hay : Bytes) (pos : Nat), (findIterAux n 0 pos hay).head?.isSome = true ↔ n <:+: hay := by
    intro hay
    induction hay with
    | nil =>
      intro pos
      rw [findIterAux]
      cases n with
      | nil => simp
      | cons a n => simp
    | cons b bs ih =>
      intro pos
      rw [findIterAux]
      by_cases h : n.isPrefixOf (b :: bs) = true
      · rw [if_pos h]
        simp only [List.head?_cons, Option.isSome_some, true_iff]
        exact (List.isPrefixOf_iff_prefix.1 h).isInfix
      · rw [if_neg h, ih, List.infix_cons_iff]
        constructor
        · exact Or.inr
        · rintro (h' | h')
          · exact absurd (List.isPrefixOf_iff_prefix.2 h') h
          · exact h'
  exact key hay 0

/-- The predicate of `count_hello_world`, on a message with a payload. -/
theorem helloPredicate_ok {e : StorageEntry} {p : Bytes} (h : payloadOf e = some p) :
    helloPredicate e = .ok (findIter helloWorld p).head?.isSome := by
  unfold helloPredicate
  rw [payload_payloadOf, h]
  have hn : ¬ (flag e.dlt 0 = true ∧ e.dlt.tail.length < optLen e.dlt) := by
    rintro ⟨h1, h2⟩
    unfold payloadOf preLen at h
    rw [if_neg (by rw [if_pos h1]; omega)] at h
    simp at h
  rw [if_neg hn]
  rfl

theorem helloPredicate_panic {e : StorageEntry} (h : payloadOf e = none) : helloPredicate e = .panic := by
  unfold helloPredicate
  rw [payload_payloadOf, h]
  split <;> rfl

/-- **C49** the text the commands search for is `Hello World`, in ASCII. -/
theorem C49_search_text : helloWorld = "Hello World".toList.map fun c => UInt8.ofNat c.toNat := by decide

open Classical in
/-- **C49 (exact)** `count_hello_world` panics exactly if some message is too short for its flagged fields;
otherwise it is the number of messages whose payload contains `Hello World`. -/
theorem C49_count_hello_world_partial (bytes : Bytes) (hF : Fits bytes) (msgs : List StorageEntry)
    (h : Messages bytes msgs) :
    (countHelloWorld bytes = some .panic ↔ ∃ e ∈ msgs, payloadOf e = none) ∧
    ((∀ e ∈ msgs, (payloadOf e).isSome) →
      countHelloWorld bytes = some (.ok (msgs.filter fun e => decide (hasText helloWorld e)).length)) := by
  have hs := streams_dlt hF h
  have hpos : (∀ e ∈ msgs, (payloadOf e).isSome) →
      countHelloWorld bytes = some (.ok (msgs.filter fun e => decide (hasText helloWorld e)).length) := by
    intro hc
    have h1 := streams_filter_on hs (F := helloPredicate) (f := fun e => decide (hasText helloWorld e)) (by
      intro e he
      obtain ⟨p, hp⟩ := Option.isSome_iff_exists.1 (hc e he)
      rw [helloPredicate_ok hp]
      congr 1
      rw [Bool.eq_iff_iff, findIter_isSome, decide_eq_true_eq]
      unfold hasText
      rw [hp]
      simp)
    exact pullCount_eq h1 (Nat.le_trans (List.length_filter_le _ _) (messages_length hF h).2)
  refine ⟨⟨?_, ?_⟩, hpos⟩
  · intro hp
    apply Classical.byContradiction
    intro hc
    have := hpos fun e he => by
      cases hpe : payloadOf e with
      | none => exact absurd ⟨e, he, hpe⟩ hc
      | some p => rfl
    rw [hp] at this
    simp at this
  · rintro ⟨e, he, hn⟩
    have hmap := streams_filter helloPredicate hs
    simp only [Res.bind] at hmap
    rw [filterR_panic.2 ⟨e, he, helloPredicate_panic hn⟩] at hmap
    exact pullReduce_panic hmap _

/-- A file of one message. -/
theorem messages_single (e : StorageEntry) (h : WF e) : Messages (fileOf [([], e)] []) [e] := by
  refine ⟨messagesAt 0 [([], e)], ?_, rfl⟩
  have := scan_fileOf [] [([], e)] [] ⟨by simp [h, dltMarker], by simp [dltMarker]⟩
  simpa using this

/-- **C49 (violated)** a file that is one readable message on which `count_hello_world` panics. -/
theorem C49_count_hello_world_can_panic : ∃ bytes, Fits bytes ∧ Messages bytes [msgNoExt] ∧
    countHelloWorld bytes = some .panic := by
  have hF : Fits (fileOf [([], msgNoExt)] []) := by unfold Fits; decide
  have hm := messages_single msgNoExt (by decide)
  exact ⟨_, hF, hm, (C49_count_hello_world_partial _ hF _ hm).1.2 ⟨msgNoExt, by simp, by decide⟩⟩

/-- A message without optional fields whose payload is `Hello World!`. -/
def helloMsg : StorageEntry :=
  ⟨⟨⟨68, 76, 84, 1⟩, 0, 0, ⟨69, 67, 85, 49⟩⟩, ⟨⟨⟨0x20⟩, 0, 16⟩, helloWorld ++ [33]⟩⟩

example : payloadOf helloMsg = some (helloWorld ++ [33]) ∧ hasText helloWorld helloMsg ∧ ¬ hasText helloWorld (secMsg 3) :=
  ⟨by decide, ⟨_, rfl, ⟨[], [33], rfl⟩⟩, by
    rintro ⟨p, h1, h2⟩
    have : p = [] := by
      have h3 : payloadOf (secMsg 3) = some [] := by decide
      rw [h3] at h1; simp at h1; exact h1
    subst this
    exact absurd h2 (by decide)⟩

theorem pairwise_lt_length {l : List Nat} {n : Nat} (h : l.Pairwise (· < ·)) (hn : ∀ i ∈ l, i < n) : l.length ≤ n := by
  have key : ∀ (l : List Nat) (s : Nat), l.Pairwise (· < ·) → (∀ i ∈ l, s ≤ i ∧ i < n) → s + l.length ≤ max s n := by
    intro l
    induction l with
    | nil => intro s _ _; simp; omega
    | cons a l ih =>
      intro s hp hb
      obtain ⟨h1, h2⟩ := List.pairwise_cons.1 hp
      have ha := hb a List.mem_cons_self
      have := ih (a + 1) h2 fun i hi => ⟨h1 i hi, (hb i (List.mem_cons_of_mem _ hi)).2⟩
      simp only [List.length_cons]
      omega
  have := key l 0 h fun i hi => ⟨Nat.zero_le _, hn i hi⟩
  omega

/-- `count_hello_world_raw` never panics: it counts the non-overlapping occurrences of the text. -/
theorem C49_raw (bytes : Bytes) (hF : Fits bytes) :
    countHelloWorldRaw bytes = some (.ok (findIter helloWorld bytes).length) ∧
    (findIter helloWorld bytes).Pairwise (· < ·) ∧ ∀ i, i ∈ findIter helloWorld bytes ↔ helloWorld <+: bytes.drop i := by
  have hspec := findIterAux_spec (n := helloWorld) (by decide)
    (by
      intro k h0 h1
      have : helloWorld.length = 11 := rfl
      have : k ∈ List.range 11 := by rw [List.mem_range]; omega
      revert h0
      revert this
      clear h1
      revert k
      decide) bytes 0 0 (fun k hk => absurd hk (Nat.not_lt_zero k))
  have hmem : ∀ i, i ∈ findIter helloWorld bytes ↔ helloWorld <+: bytes.drop i := by
    intro i
    have := hspec.1 i
    unfold findIter
    rw [this]
    constructor
    · rintro ⟨k, rfl, hk⟩; rw [Nat.zero_add]; exact hk
    · intro hi; exact ⟨i, by omega, hi⟩
  refine ⟨?_, hspec.2, hmem⟩
  unfold countHelloWorldRaw
  have hlen : (findIter helloWorld bytes).length ≤ bytes.length := by
    refine pairwise_lt_length hspec.2 fun i hi => ?_
    have := ((hmem i).1 hi).length_le
    rw [List.length_drop] at this
    have h11 : helloWorld.length = 11 := rfl
    omega
  rw [runRed_count, if_pos]
  have := fits_le hF
  unfold usizeMax
  omega

/-! ## C50 -/

/-- **C50 (exact)** `histogram_payload_size` panics exactly if some message has the extended header flag and is too
short for the optional fields in front of it; otherwise it counts every message under the size of its payload (0 if
it is too short for the extended header); the sizes add up to the bytes of all payloads, which is the total
printed. -/
theorem C50_payload_sizes_partial (bytes : Bytes) (hF : Fits bytes) (msgs : List StorageEntry) (h : Messages bytes msgs) :
    (histogramPayload bytes = some .panic ↔
      ∃ e ∈ msgs, flag e.dlt 0 = true ∧ e.dlt.tail.length < optLen e.dlt) ∧
    ((∀ e ∈ msgs, flag e.dlt 0 = true → optLen e.dlt ≤ e.dlt.tail.length) → ∃ m,
      histogramPayload bytes = some (.ok m) ∧
      IsHistogram (msgs.map fun e => ((payloadOf e).getD []).length) m ∧
      (m.map (·.2)).sum = msgs.length ∧
      totalSize 0 m = .ok (msgs.map fun e => ((payloadOf e).getD []).length).sum) := by
  have hs := streams_dlt hF h
  have hl := messages_length hF h
  have hpos : (∀ e ∈ msgs, flag e.dlt 0 = true → optLen e.dlt ≤ e.dlt.tail.length) → ∃ m,
      histogramPayload bytes = some (.ok m) ∧
      IsHistogram (msgs.map fun e => ((payloadOf e).getD []).length) m ∧
      (m.map (·.2)).sum = msgs.length ∧
      totalSize 0 m = .ok (msgs.map fun e => ((payloadOf e).getD []).length).sum := by
    intro hc
    have h1 := streams_map_on hs (F := fun e : StorageEntry => e.dlt.payload.bind fun p => .ok (p.getD []).length)
      (f := fun e => ((payloadOf e).getD []).length) (by
        intro e he
        rw [payload_payloadOf, if_neg]
        · rfl
        · rintro ⟨h2, h3⟩
          have := hc e he h2
          omega)
    obtain ⟨m, h2, h3⟩ := pullSplit_hist (keyfn := fun id : Nat => .ok id) (key := id) h1 (fun _ _ => rfl)
      (by rw [List.length_map]; exact hl.2)
    rw [List.map_id] at h3
    have hsum := isHistogram_sum id h3
    simp only [List.map_id, id] at hsum
    refine ⟨m, h2, h3, ?_, ?_⟩
    · rw [isHistogram_total h3, List.length_map]
    · have h4 : (msgs.map fun e => ((payloadOf e).getD []).length).sum ≤ (msgs.map fun e => (encode e).length).sum := by
        have hwf := messages_wf h
        clear h1 h2 h3 hsum hc hl hs h
        induction msgs with
        | nil => simp
        | cons e msgs ih =>
          have := ih fun x hx => hwf x (List.mem_cons_of_mem _ hx)
          have h5 : ((payloadOf e).getD []).length ≤ (encode e).length := by
            have h6 : e.dlt.tail.length ≤ (encode e).length := by
              simp only [encode, List.length_append]
              omega
            unfold payloadOf
            split
            · simp only [Option.getD_some, List.length_drop]; omega
            · simp
          simp only [List.map_cons, List.sum_cons]
          omega
      have h5 := (messages_sum h).1
      have h6 := fits_le hF
      rw [totalSize_ok m 0 (by rw [hsum]; unfold usizeMax; omega), hsum, Nat.zero_add]
  refine ⟨⟨?_, ?_⟩, hpos⟩
  · intro hp
    apply Classical.byContradiction
    intro hc
    obtain ⟨m, h1, -⟩ := hpos fun e he hf => Nat.le_of_not_lt fun hlt => hc ⟨e, he, hf, hlt⟩
    rw [hp] at h1
    simp at h1
  · rintro ⟨e, he, hf, hlt⟩
    have hmap := streams_map (fun e : StorageEntry => e.dlt.payload.bind fun p => .ok (p.getD []).length) hs
    simp only [Res.bind] at hmap
    rw [mapR_panic.2 ⟨e, he, by
      show e.dlt.payload.bind _ = _
      rw [payload_payloadOf, if_pos ⟨hf, hlt⟩]; rfl⟩] at hmap
    exact pullReduce_panic hmap _

/-- The extended header of a message that is long enough. -/
theorem infoKey_ok {e : StorageEntry} (hf : flag e.dlt 0 = true) (hl : optLen e.dlt + 10 ≤ e.dlt.tail.length) :
    infoKey e = .ok (MessageType.info ⟨infoByte e⟩) := by
  unfold infoKey
  obtain ⟨bs, hbs⟩ : ∃ bs, bs = e.dlt.tail.drop (optLen e.dlt) := ⟨_, rfl⟩
  have h10 : 10 ≤ bs.length := by rw [hbs, List.length_drop]; omega
  have hh : e.dlt.extendedHeader = .ok (ExtHeader.refFromPrefix bs) := by
    unfold DltEntry.extendedHeader
    rw [flag_ext, optOffset_eq, hf]
    simp only [Bool.not_true, Bool.false_eq_true, if_false, sliceFrom]
    rw [if_pos (by omega), hbs]
    rfl
  rw [hh]
  have hg : bs.head? = some (infoByte e) := by
    rw [hbs, List.head?_drop]
    unfold infoByte
    rw [List.getD_eq_getElem?_getD, List.getElem?_eq_getElem (by omega)]
    rfl
  iterate 10
    rcases bs with _ | ⟨_, bs⟩
    · simp at h10
  simp only [List.head?_cons, Option.some.injEq] at hg
  subst hg
  rfl

theorem infoKey_panic {e : StorageEntry} (hl : e.dlt.tail.length < optLen e.dlt + 10) :
    infoKey e = .panic := by
  unfold infoKey
  cases hx : e.dlt.extendedHeader with
  | panic => rfl
  | ok x =>
    cases x with
    | none => rfl
    | some x =>
      obtain ⟨-, opt, rest, h1, h2⟩ := (C10_extended_header_iff e.dlt x).1 hx
      rw [h1] at hl
      simp [encodeExt] at hl
      omega

/-- **C50 (exact)** `histogram_message_type` panics exactly if some message with the extended header flag is too
short to hold it; otherwise it counts every message with that flag once, under the type its message info byte
decodes to (C07). -/
theorem C50_message_types_partial (bytes : Bytes) (hF : Fits bytes) (msgs : List StorageEntry) (h : Messages bytes msgs) :
    (mstpInfoHistogram bytes = some .panic ↔
      ∃ e ∈ msgs, flag e.dlt 0 = true ∧ e.dlt.tail.length < optLen e.dlt + 10) ∧
    ((∀ e ∈ msgs, flag e.dlt 0 = true → optLen e.dlt + 10 ≤ e.dlt.tail.length) → ∃ m,
      mstpInfoHistogram bytes = some (.ok m) ∧
      IsHistogram ((msgs.filter fun e => flag e.dlt 0).map fun e => MessageType.info ⟨infoByte e⟩) m ∧
      (m.map (·.2)).sum = (msgs.filter fun e => flag e.dlt 0).length) := by
  have hs := streams_filter_on (streams_dlt hF h) (F := fun e => .ok e.dlt.header.headerType.isExtendedHeader)
    (f := fun e => flag e.dlt 0) (fun e _ => by rw [flag_ext])
  have hl : (msgs.filter fun e => flag e.dlt 0).length ≤ usizeMax :=
    Nat.le_trans (List.length_filter_le _ _) (messages_length hF h).2
  have hpos : (∀ e ∈ msgs, flag e.dlt 0 = true → optLen e.dlt + 10 ≤ e.dlt.tail.length) → ∃ m,
      mstpInfoHistogram bytes = some (.ok m) ∧
      IsHistogram ((msgs.filter fun e => flag e.dlt 0).map fun e => MessageType.info ⟨infoByte e⟩) m ∧
      (m.map (·.2)).sum = (msgs.filter fun e => flag e.dlt 0).length := by
    intro hc
    obtain ⟨m, h2, h3⟩ := pullSplit_hist (keyfn := infoKey) (key := fun e => MessageType.info ⟨infoByte e⟩) hs (by
      intro e he
      obtain ⟨h4, h5⟩ := List.mem_filter.1 he
      exact infoKey_ok h5 (hc e h4 h5)) hl
    exact ⟨m, h2, h3, by rw [isHistogram_total h3, List.length_map]⟩
  refine ⟨⟨?_, ?_⟩, hpos⟩
  · intro hp
    apply Classical.byContradiction
    intro hc
    obtain ⟨m, h1, -⟩ := hpos fun e he hf => Nat.le_of_not_lt fun hlt => hc ⟨e, he, hf, hlt⟩
    rw [hp] at h1
    simp at h1
  · rintro ⟨e, he, hf, hlt⟩
    unfold mstpInfoHistogram pullSplit
    rw [pullReduce_eq _ hs]
    exact split_key_panic _ ⟨e, List.mem_filter.2 ⟨he, hf⟩, infoKey_panic hlt⟩

/-- **C50 (violated)** a file that is one readable message on which both panic. -/
theorem C50_histograms_can_panic : ∃ bytes, Fits bytes ∧ Messages bytes [msgNoExt] ∧
    mstpInfoHistogram bytes = some .panic ∧ histogramPayload bytes = some .panic := by
  have hF : Fits (fileOf [([], msgNoExt)] []) := by unfold Fits; decide
  have hm := messages_single msgNoExt (by decide)
  exact ⟨_, hF, hm, (C50_message_types_partial _ hF _ hm).1.2 ⟨msgNoExt, by simp, by decide⟩,
    (C50_payload_sizes_partial _ hF _ hm).1.2 ⟨msgNoExt, by simp, by decide⟩⟩

example : flag msg1.dlt 0 = true ∧ optLen msg1.dlt + 10 ≤ msg1.dlt.tail.length := by decide

end Verif
