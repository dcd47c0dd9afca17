import Verif.Spec.ReportSize
import Verif.Props.Listing
import Verif.Props.ParallelCount
import Verif.Props.Held
import Verif.Lemmas.BuildText
import Verif.Lemmas.IdTexts

set_option linter.unusedSimpArgs false

/-! # C149: how long reports can be -/

namespace Verif

open Spec

theorem hist_keys_nodup {κ : Type} [Key κ] [DecidableEq κ] {keys : List κ} {m : List (κ × Nat)} (h : IsHistogram keys m) :
    (m.map (·.1)).Nodup := by
  have := h.sorted
  show List.Pairwise _ _
  rw [List.pairwise_map]
  exact this.imp Key.ne_of_lt

theorem hist_key_mem {κ : Type} [Key κ] [DecidableEq κ] {keys : List κ} {m : List (κ × Nat)} (h : IsHistogram keys m) (k : κ) :
    k ∈ m.map (·.1) ↔ k ∈ keys := by
  constructor
  · intro hk
    obtain ⟨⟨k, v⟩, he, rfl⟩ := List.mem_map.1 hk
    obtain ⟨h1, h2⟩ := (h.mem k v).1 he
    exact List.count_pos_iff.1 (h2 ▸ h1)
  · intro hk
    exact List.mem_map.2 ⟨(k, keys.count k), (h.mem _ _).2 ⟨List.count_pos_iff.2 hk, rfl⟩, rfl⟩

/-- A histogram has as many lines as there are keys. -/
theorem hist_length_le {κ : Type} [Key κ] [DecidableEq κ] {keys : List κ} {m : List (κ × Nat)} (h : IsHistogram keys m)
    (l : List κ) (hl : ∀ k ∈ keys, k ∈ l) : m.length ≤ l.length := by
  have := nodup_length_le (m.map (·.1)) l (hist_keys_nodup h) fun k hk => hl k ((hist_key_mem h k).1 hk)
  rwa [List.length_map] at this

theorem hist_length_ge {κ : Type} [Key κ] [DecidableEq κ] {keys : List κ} {m : List (κ × Nat)} (h : IsHistogram keys m)
    (l : List κ) (hn : l.Nodup) (hl : ∀ k ∈ l, k ∈ keys) : l.length ≤ m.length := by
  have := nodup_length_le l (m.map (·.1)) hn fun k hk => (hist_key_mem h k).2 (hl k hk)
  rwa [List.length_map] at this

theorem hist_length_lt {keys : List Nat} {m : List (Nat × Nat)} (h : IsHistogram keys m) (a n : Nat)
    (hl : ∀ k ∈ keys, a ≤ k ∧ k < a + n) : m.length ≤ n := by
  have := hist_length_le h (List.range' a n) fun k hk => List.mem_range'_1.2 (hl k hk)
  rwa [List.length_range'] at this

/-- The kinds of messages that the tool tells apart, not verbose and verbose. -/
def allKinds : List (Bool × Option MsgType) := [false, true].flatMap fun v => shownKinds.map fun k => (v, k)

theorem info_listed (b : UInt8) : MessageType.info ⟨b⟩ ∈ allKinds := by
  have h : ∀ i : Fin 256, MessageType.info ⟨UInt8.ofNat i.val⟩ ∈ allKinds := by decide +kernel
  have := h ⟨b.toNat, b.toNat_lt⟩
  rwa [UInt8.ofNat_toNat] at this

theorem texts_number : texts4.length = fourByteTexts := by rw [texts4_length]; rfl

theorem B4.toBytes_inj {a b : B4} (h : a.toBytes = b.toBytes) : a = b := by
  obtain ⟨a0, a1, a2, a3⟩ := a
  obtain ⟨b0, b1, b2, b3⟩ := b
  simp only [B4.toBytes, List.cons.injEq, and_true] at h
  obtain ⟨rfl, rfl, rfl, rfl⟩ := h
  rfl

/-- A table with the texts among the ids as keys. -/
theorem ecu_lines_le {ν : Type} {m : List (B4 × ν)} (h : m.Pairwise fun a b => Key.lt a.1 b.1)
    (hu : ∀ e ∈ m, Utf8 e.1.toBytes) : m.length ≤ fourByteTexts := by
  have h1 : (m.map fun e => e.1.toBytes).Nodup := by
    show List.Pairwise _ _
    rw [List.pairwise_map]
    refine List.Pairwise.imp (R := fun a b : B4 × ν => Key.lt a.1 b.1) (fun {a b} hlt => ?_) h
    exact fun e => Key.ne_of_lt hlt (B4.toBytes_inj e)
  have := nodup_length_le _ texts4 h1 fun k hk => by
    obtain ⟨e, he, rfl⟩ := List.mem_map.1 hk
    exact mem_texts4 (hu e he) rfl
  rwa [List.length_map, texts_number] at this

theorem ecuLines_utf8 {ν : Type} {m : List (B4 × ν)} {ls : List (Bytes × ν)} (h : ecuLines m = .ok ls) :
    ∀ e ∈ m, Utf8 e.1.toBytes := by
  induction m generalizing ls with
  | nil => intro e he; cases he
  | cons e m ih =>
    obtain ⟨k, v⟩ := e
    rw [ecuLines] at h
    split at h
    · rename_i hk
      match hm : ecuLines m with
      | .panic => rw [hm] at h; cases h
      | .ok ls' =>
        intro e he
        rcases List.mem_cons.1 he with rfl | he
        · exact (utf8Valid_iff _).1 hk
        · exact ih hm e he
    · cases h

theorem bucketLines_length {m : List (Nat × Nat)} {ls : List (Nat × Nat × Nat)} (h : bucketLines m = .ok ls) :
    ls.length = m.length := by
  induction m generalizing ls with
  | nil => cases h; rfl
  | cons e m ih =>
    obtain ⟨k, v⟩ := e
    rw [bucketLines] at h
    match hk : uadd k 1, hm : bucketLines m with
    | .panic, _ => rw [hk] at h; cases h
    | .ok k', .panic => rw [hk, hm] at h; cases h
    | .ok k', .ok ls' =>
      rw [hk, hm] at h
      cases h
      rw [List.length_cons, List.length_cons, ih hm]

theorem ecuLines_length {ν : Type} {m : List (B4 × ν)} {ls : List (Bytes × ν)} (h : ecuLines m = .ok ls) :
    ls.length = m.length := by
  induction m generalizing ls with
  | nil => cases h; rfl
  | cons e m ih =>
    obtain ⟨k, v⟩ := e
    rw [ecuLines] at h
    split at h
    · match hm : ecuLines m with
      | .panic => rw [hm] at h; cases h
      | .ok ls' =>
        rw [hm] at h
        cases h
        rw [List.length_cons, List.length_cons, ih hm]
    · cases h

theorem tail_short {e : StorageEntry} (h : WF e) : e.dlt.tail.length < 65532 := by
  have h1 := h.2
  have h2 := e.dlt.header.length.toNat_lt
  omega

theorem payload_short {e : StorageEntry} (h : WF e) : ((payloadOf e).getD []).length < 65532 := by
  have h1 := tail_short h
  unfold payloadOf
  split
  · rw [Option.getD_some, List.length_drop]; omega
  · rw [Option.getD_none]; simp

theorem flatten_length_ge {α : Type} : ∀ {runs : List (List α)}, (∀ r ∈ runs, r ≠ []) → runs.length ≤ runs.flatten.length
  | [], _ => Nat.le_refl _
  | r :: runs, h => by
    have h1 := flatten_length_ge fun r' hr => h r' (List.mem_cons_of_mem _ hr)
    have h2 := List.length_pos_iff.2 (h r List.mem_cons_self)
    simp only [List.flatten_cons, List.length_append, List.length_cons]
    omega

theorem maximal_length_le {α : Type} {R : α → α → Prop} {xs : List α} {runs : List (List α)} (h : MaximalRuns R xs runs) :
    runs.length ≤ xs.length := by
  rw [← h.flatten]; exact flatten_length_ge h.nonempty

theorem hits_below {bytes : Bytes} {hits : List (Nat × StorageEntry)}
    (h : ∀ x ∈ hits, MsgAt bytes x.1 x.2 ∧ SaysHello x.2) : ∀ k ∈ hits.map (fun x => x.1 / 100000000),
    20 ≤ bytes.length ∧ k < bytes.length / 100000000 + 1 := by
  intro k hk
  obtain ⟨x, hx, rfl⟩ := List.mem_map.1 hk
  have hb := (h x hx).1.bounds
  have : x.1 / 100000000 ≤ bytes.length / 100000000 := Nat.div_le_div_right (by omega)
  exact ⟨by omega, by omega⟩

/-- **C149** whatever the file, the table of a report is never longer than this: 22 lines for the message types, 65532 for the
sizes, 429497 for the lifecycles, one for each 100 MB of the file that were searched; a bound that does not depend on the file
except for the last. -/
theorem C149_most_lines (num : Nat) (hnum : num ≠ 0) (bytes : Bytes) (hF : Fits bytes) (c : Cmd) (rep : Report)
    (hr : RunCmd num bytes c (.ok rep)) : tableLines rep ≤ mostLines bytes.length c := by
  obtain ⟨msgs, h⟩ := messages_exists hF
  have hwf := messages_wf h
  by_cases hc : sequential c = true
  · have hp := runs_prints hF h hc hr
    have hnp : ¬ Panics msgs c := by
      rcases sequential_outcome num bytes hF msgs h c hc with ⟨-, h2⟩ | ⟨h1, -⟩
      · cases (h2 _).1 hr
      · exact h1
    cases c <;> cases rep <;> first | exact Nat.zero_le _ | exact absurd hp id | skip
    case histogramLifecycles.buckets ls =>
      obtain ⟨runs, m, -, h1, rfl⟩ := hp
      show List.length _ ≤ 429497
      rw [List.length_map]
      refine hist_length_lt h1 0 429497 fun k hk => ?_
      obtain ⟨r, -, rfl⟩ := List.mem_map.1 hk
      have := timeSpanOf_lt r
      omega
    case histogramTimestamp.buckets ls =>
      obtain ⟨runs, m, -, h1, rfl⟩ := hp
      show List.length _ ≤ 2 ^ 32
      rw [List.length_map]
      refine hist_length_lt h1 0 (2 ^ 32) fun k hk => ?_
      obtain ⟨r, -, rfl⟩ := List.mem_map.1 hk
      have := secSpanOf_lt r
      omega
    case histogramMessageSize.sizes ls t =>
      obtain ⟨m, h1, rfl, -⟩ := hp
      show List.length _ ≤ 65532
      rw [List.length_map]
      refine hist_length_lt h1 20 65532 fun k hk => ?_
      obtain ⟨e, he, rfl⟩ := List.mem_map.1 hk
      have := tail_short (hwf e he)
      rw [encode_length]
      omega
    case histogramPayloadSize.sizes ls t =>
      obtain ⟨m, h1, rfl, -⟩ := hp
      show List.length _ ≤ 65532
      rw [List.length_map]
      refine hist_length_lt h1 0 65532 fun k hk => ?_
      obtain ⟨e, he, rfl⟩ := List.mem_map.1 hk
      have := payload_short (hwf e he)
      omega
    case histogramMessageType.infos ls =>
      refine hist_length_le hp allKinds fun k hk => ?_
      obtain ⟨e, -, rfl⟩ := List.mem_map.1 hk
      exact info_listed _
    case histogramHelloWorld.offsets ls =>
      obtain ⟨hits, m, -, -, h0, h1, rfl⟩ := hp
      show List.length _ ≤ bytes.length / 100000000 + 1
      rw [List.length_map]
      exact hist_length_lt h1 0 _ fun k hk => ⟨Nat.zero_le _, by have := (hits_below h0 k hk).2; omega⟩
    case splitTimestamp.ecus ls =>
      obtain ⟨m, h1, h2, rfl⟩ := hp
      have h3 := h1.sorted
      rw [List.pairwise_map] at h3
      show List.length _ ≤ fourByteTexts
      rw [List.length_map]
      refine ecu_lines_le h3 fun x hx => Classical.byContradiction fun hu => ?_
      have h4 := (hist_key_mem h1 x.1).1 (List.mem_map.2 ⟨_, List.mem_map.2 ⟨x, hx, rfl⟩, rfl⟩)
      obtain ⟨e, he, hex⟩ := List.mem_map.1 h4
      rw [← hex] at hu
      exact hnp ⟨e, he, hu⟩
    case splitLifecycles.ecus ls =>
      obtain ⟨m, h1, h2, rfl⟩ := hp
      have h3 := h1.sorted
      rw [List.pairwise_map] at h3
      show List.length _ ≤ fourByteTexts
      rw [List.length_map]
      refine ecu_lines_le h3 fun x hx => Classical.byContradiction fun hu => ?_
      have h4 := (hist_key_mem h1 x.1).1 (List.mem_map.2 ⟨_, List.mem_map.2 ⟨x, hx, rfl⟩, rfl⟩)
      obtain ⟨e, he, hex⟩ := List.mem_map.1 h4
      rw [← hex] at hu
      exact hnp ⟨e, he, .inr hu⟩
  · cases c <;> first | exact absurd rfl hc | skip
    case parSplitTimestamp =>
      obtain ⟨-, -, m, -, h2, -, ⟨h3, h4⟩, -⟩ := C35_par_split bytes num hnum hF
      obtain ⟨q, hq, hr⟩ := hr
      rw [h2] at hq
      subst hq
      have h5 : Res.ok rep = ecuReport m := hr
      rw [ecuReport] at h5
      match hb : ecuLines m with
      | .panic => rw [hb] at h5; cases h5
      | .ok ls =>
        rw [hb] at h5
        cases h5
        show ls.length ≤ fourByteTexts
        rw [ecuLines_length hb]
        exact ecu_lines_le h3 (ecuLines_utf8 hb)
    case parHistogramTimestamp =>
      obtain ⟨_, runss, m, -, h2, -, h3⟩ := C35_par_histogram bytes num hnum hF
      obtain ⟨q, hq, hr⟩ := hr
      rw [h2] at hq
      subst hq
      have h5 : Res.ok rep = bucketReport m := hr
      rw [bucketReport] at h5
      match hb : bucketLines m with
      | .panic => rw [hb] at h5; cases h5
      | .ok ls =>
        rw [hb] at h5
        cases h5
        show ls.length ≤ 2 ^ 32
        rw [bucketLines_length hb]
        refine hist_length_lt h3 0 (2 ^ 32) fun k hk => ?_
        obtain ⟨r, -, rfl⟩ := List.mem_map.1 hk
        have := secSpanOf_lt r
        omega
    all_goals
      obtain ⟨q, hq, hr⟩ := hr
      cases q
      · cases hr; exact Nat.zero_le _
      · cases hr

/-- **C149** and never longer than the file allows: a line for every 20 bytes at most, which is the size of the smallest
message. -/
theorem C149_lines_by_file (num : Nat) (hnum : num ≠ 0) (bytes : Bytes) (hF : Fits bytes) (c : Cmd) (rep : Report)
    (hr : RunCmd num bytes c (.ok rep)) : 20 * tableLines rep ≤ bytes.length := by
  obtain ⟨msgs, h⟩ := messages_exists hF
  have hsum : ∀ {s : Bytes} {ms : List StorageEntry}, Messages s ms → 20 * ms.length ≤ s.length := fun h => by
    have := messages_sum h; omega
  have hm := hsum h
  have htimed : (timed msgs).length ≤ msgs.length := List.length_filter_le ..
  by_cases hc : sequential c = true
  · have hp := runs_prints hF h hc hr
    cases c <;> cases rep <;> first | exact Nat.zero_le _ | exact absurd hp id | skip
    case histogramLifecycles.buckets ls =>
      obtain ⟨runs, m, h0, h1, rfl⟩ := hp
      show 20 * List.length _ ≤ _
      have h2 := hist_length_le h1 _ fun k hk => hk
      have h3 := maximal_length_le h0
      rw [List.length_map] at h2 ⊢
      omega
    case histogramTimestamp.buckets ls =>
      obtain ⟨runs, m, h0, h1, rfl⟩ := hp
      show 20 * List.length _ ≤ _
      have h2 := hist_length_le h1 _ fun k hk => hk
      have h3 := maximal_length_le h0
      rw [List.length_map] at h2 ⊢
      omega
    case histogramMessageSize.sizes ls t =>
      obtain ⟨m, h1, rfl, -⟩ := hp
      show 20 * List.length _ ≤ _
      have h2 := hist_length_le h1 _ fun k hk => hk
      rw [List.length_map] at h2 ⊢
      omega
    case histogramPayloadSize.sizes ls t =>
      obtain ⟨m, h1, rfl, -⟩ := hp
      show 20 * List.length _ ≤ _
      have h2 := hist_length_le h1 _ fun k hk => hk
      rw [List.length_map] at h2 ⊢
      omega
    case histogramMessageType.infos ls =>
      show 20 * List.length _ ≤ _
      have h2 := hist_length_le hp _ fun k hk => hk
      have h3 := List.length_filter_le (fun e => flag e.dlt 0) msgs
      rw [List.length_map] at h2
      omega
    case histogramHelloWorld.offsets ls =>
      obtain ⟨hits, m, -, -, h0, h1, rfl⟩ := hp
      show 20 * List.length _ ≤ _
      rw [List.length_map]
      cases m with
      | nil => exact Nat.zero_le _
      | cons e m =>
        have h2 := (hits_below h0 e.1 ((hist_key_mem h1 _).1 (by simp))).1
        have h3 := hist_length_lt h1 0 (bytes.length / 100000000 + 1) fun k hk =>
          ⟨Nat.zero_le _, by have := (hits_below h0 k hk).2; omega⟩
        omega
    case splitTimestamp.ecus ls =>
      obtain ⟨m, h1, -, rfl⟩ := hp
      show 20 * List.length _ ≤ _
      have h2 := hist_length_le h1 _ fun k hk => hk
      rw [List.length_map, List.length_map] at h2
      rw [List.length_map]
      omega
    case splitLifecycles.ecus ls =>
      obtain ⟨m, h1, -, rfl⟩ := hp
      show 20 * List.length _ ≤ _
      have h2 := hist_length_le h1 _ fun k hk => hk
      rw [List.length_map, List.length_map] at h2
      rw [List.length_map]
      omega
  · cases c <;> first | exact absurd rfl hc | skip
    case parSplitTimestamp =>
      obtain ⟨slices, tables, m, hp, h2, he, ⟨h3, h4⟩, hmem, -⟩ := C35_par_split bytes num hnum hF
      obtain ⟨hlen, hfit⟩ := partition_fits hF hp
      obtain ⟨q, hq, hr⟩ := hr
      rw [h2] at hq
      subst hq
      have h5 : Res.ok rep = ecuReport m := hr
      rw [ecuReport] at h5
      match hb : ecuLines m with
      | .panic => rw [hb] at h5; cases h5
      | .ok ls =>
        rw [hb] at h5
        cases h5
        show 20 * ls.length ≤ _
        rw [ecuLines_length hb]
        have ht : ∀ s t, s ∈ slices → timestampSplit s = some (.ok t) → 20 * t.length ≤ s.length := by
          intro s t hs ht
          obtain ⟨ms, hms⟩ := messages_exists (hfit s hs)
          obtain ⟨m', h6, h7, -⟩ := C47_split_timestamp s (hfit s hs) ms hms
          rw [h6] at ht
          cases ht
          have h8 := hist_length_le h7 _ fun k hk => hk
          have h9 := hsum hms
          rw [List.length_map, List.length_map] at h8
          omega
        have hall : ∀ (slices : List Bytes) (tables : List (OrdMap B4 (OrdMap UInt32 Nat × Nat))),
            (∀ s t, s ∈ slices → timestampSplit s = some (.ok t) → 20 * t.length ≤ s.length) →
            Each (fun s t => timestampSplit s = some (.ok t)) slices tables →
            20 * tables.flatten.length ≤ slices.flatten.length := by
          intro slices
          induction slices with
          | nil => intro tables _ he; cases tables with
            | nil => exact Nat.le_refl _
            | cons t ts => exact absurd he id
          | cons s ss ih => intro tables hs he; cases tables with
            | nil => exact absurd he id
            | cons t ts =>
              have h6 := hs s t List.mem_cons_self he.1
              have h7 := ih ts (fun s' t' hs' => hs s' t' (List.mem_cons_of_mem _ hs')) he.2
              simp only [List.flatten_cons, List.length_append]
              omega
        have h6 := hall slices tables ht he
        have h7 := nodup_length_le (m.map (·.1)) (tables.flatten.map (·.1)) (by
            show List.Pairwise _ _
            rw [List.pairwise_map]; exact h3.imp Key.ne_of_lt) fun k hk => by
          obtain ⟨⟨k, v⟩, hv, rfl⟩ := List.mem_map.1 hk
          obtain ⟨t, ht, v', hv'⟩ := (hmem k).1 ⟨v, hv⟩
          exact List.mem_map.2 ⟨_, List.mem_flatten.2 ⟨t, ht, hv'⟩, rfl⟩
        rw [List.length_map, List.length_map] at h7
        omega
    case parHistogramTimestamp =>
      obtain ⟨slices, runss, m, hp, h2, he, h3⟩ := C35_par_histogram bytes num hnum hF
      obtain ⟨hlen, hfit⟩ := partition_fits hF hp
      obtain ⟨q, hq, hr⟩ := hr
      rw [h2] at hq
      subst hq
      have h5 : Res.ok rep = bucketReport m := hr
      rw [bucketReport] at h5
      match hb : bucketLines m with
      | .panic => rw [hb] at h5; cases h5
      | .ok ls =>
        rw [hb] at h5
        cases h5
        show 20 * ls.length ≤ _
        rw [bucketLines_length hb]
        have hall : ∀ (slices : List Bytes) (runss : List (List (List StorageEntry))),
            Each (fun s runs => ∃ msgs, Messages s msgs ∧ MaximalRuns (fun a b => secsOf a ≤ secsOf b) msgs runs) slices runss →
            20 * runss.flatten.length ≤ slices.flatten.length := by
          intro slices
          induction slices with
          | nil => intro runss he; cases runss with
            | nil => exact Nat.le_refl _
            | cons t ts => exact absurd he id
          | cons s ss ih => intro runss he; cases runss with
            | nil => exact absurd he id
            | cons t ts =>
              obtain ⟨⟨ms, h6, h7⟩, h8⟩ := he
              have h9 := ih ts h8
              have := hsum h6
              have := maximal_length_le h7
              simp only [List.flatten_cons, List.length_append]
              omega
        have h6 := hall slices runss he
        have h7 := hist_length_le h3 _ fun k hk => hk
        rw [List.length_map] at h7
        omega
    all_goals
      obtain ⟨q, hq, hr⟩ := hr
      cases q
      · cases hr; exact Nat.zero_le _
      · cases hr

/-! ## Files that reach the bounds -/

/-- A message with an extended header and the message info `b`. -/
def kindMsg (b : UInt8) : StorageEntry :=
  ⟨⟨⟨68, 76, 84, 1⟩, 0, 0, ⟨69, 67, 85, 49⟩⟩, ⟨⟨⟨0x21⟩, 0, 14⟩, [b, 0, 65, 80, 73, 68, 67, 84, 73, 68]⟩⟩

/-- A message with `n` bytes behind the header. -/
def sizedMsg (n : Nat) : StorageEntry :=
  ⟨⟨⟨68, 76, 84, 1⟩, 0, 0, ⟨69, 67, 85, 49⟩⟩, ⟨⟨⟨0x20⟩, 0, UInt16.ofNat (n + 4)⟩, List.replicate n 0⟩⟩

/-- A message received in the second `s`. -/
def atSec (s : Nat) : StorageEntry := secMsg (UInt32.ofNat s)

/-- A message with the time stamp `s` seconds. -/
def atTime (s : Nat) : StorageEntry :=
  tickMsg (UInt8.ofNat (s * 10000 / 16777216)) (UInt8.ofNat (s * 10000 / 65536)) (UInt8.ofNat (s * 10000 / 256)) (UInt8.ofNat (s * 10000))

theorem kindMsg_wf (b : UInt8) : WF (kindMsg b) := ⟨rfl, rfl⟩

theorem sizedMsg_wf {n : Nat} (h : n < 65532) : WF (sizedMsg n) := by
  refine ⟨rfl, ?_⟩
  show (UInt16.ofNat (n + 4)).toNat = 4 + (List.replicate n (0 : UInt8)).length
  rw [List.length_replicate, UInt16.toNat_ofNat']
  omega

theorem tick_time (a b c d : UInt8) : timeOf (tickMsg a b c d) = some (beVal a b c d) := by
  simp [timeOf, tickMsg, flag, Spec.four]

theorem beVal_digits {x : Nat} (h : x < 2 ^ 32) :
    beVal (UInt8.ofNat (x / 16777216)) (UInt8.ofNat (x / 65536)) (UInt8.ofNat (x / 256)) (UInt8.ofNat x) = x := by
  simp only [beVal, UInt8.toNat_ofNat']
  omega

theorem atTime_time {s : Nat} (h : s * 10000 < 2 ^ 32) : timeOf (atTime s) = some (s * 10000) := by
  rw [atTime, tick_time, beVal_digits h]

theorem atSec_secs {s : Nat} (h : s < 2 ^ 32) : secsOf (atSec s) = s := by
  show (UInt32.ofNat s).toNat = s
  rw [UInt32.toNat_ofNat']; omega

theorem packed_length_le : ∀ (es : List StorageEntry), (∀ e ∈ es, WF e) → (packed es).length ≤ es.length * 65551
  | [], _ => by simp [packed]
  | e :: es, h => by
    have h1 := packed_length_le es fun e he => h e (List.mem_cons_of_mem _ he)
    have h2 := tail_short (h e List.mem_cons_self)
    have h3 := encode_length e
    unfold packed at h1 ⊢
    rw [List.map_cons, List.flatten_cons, List.length_append, List.length_cons]
    omega

/-- `0, 1, 0, 2, ..., 0, n, 0`. -/
def sawtooth (mk : Nat → StorageEntry) (n : Nat) : List (List StorageEntry) :=
  ((List.range' 1 n).map fun k => [mk 0, mk k]) ++ [[mk 0]]

theorem sawtooth_runs {R : StorageEntry → StorageEntry → Prop} {mk : Nat → StorageEntry} {n : Nat}
    (hR : ∀ a b, a ≤ n → b ≤ n → (R (mk a) (mk b) ↔ a ≤ b)) : MaximalRuns R (sawtooth mk n).flatten (sawtooth mk n) := by
  have hmem : ∀ r ∈ sawtooth mk n, r = [mk 0] ∨ ∃ k, 1 ≤ k ∧ k ≤ n ∧ r = [mk 0, mk k] := by
    intro r hr
    rcases List.mem_append.1 hr with h | h
    · obtain ⟨k, hk, rfl⟩ := List.mem_map.1 h
      have := List.mem_range'_1.1 hk
      exact .inr ⟨k, by omega, by omega, rfl⟩
    · exact .inl (List.mem_singleton.1 h)
  refine ⟨rfl, ?_, ?_, ?_⟩
  · intro r hr
    rcases hmem r hr with rfl | ⟨k, -, -, rfl⟩ <;> simp
  · intro r hr i a b ha hb
    rcases hmem r hr with rfl | ⟨k, h1, h2, rfl⟩
    · simp at hb
    · match i with
      | 0 =>
        simp at ha hb
        subst ha; subst hb
        exact (hR 0 k (Nat.zero_le _) h2).2 (Nat.zero_le _)
      | i + 1 => simp at hb
  · intro i r r' a b hi hi' ha hb hr
    have hi1 : i + 1 < (sawtooth mk n).length := by
      rcases Nat.lt_or_ge (i + 1) (sawtooth mk n).length with h | h
      · exact h
      · rw [List.getElem?_eq_none h] at hi'; cases hi'
    have hi2 : i < n := by
      rw [sawtooth, List.length_append, List.length_map, List.length_range', List.length_singleton] at hi1
      omega
    have h1 : r = [mk 0, mk (1 + i)] := by
      rw [sawtooth, List.getElem?_append_left (by rw [List.length_map, List.length_range']; exact hi2), List.getElem?_map,
        List.getElem?_range' hi2] at hi
      simpa using hi.symm
    have h2 : b = mk 0 := by
      rcases hmem r' (List.mem_of_getElem? hi') with rfl | ⟨k, -, -, rfl⟩ <;> simpa using hb.symm
    subst h1
    have h3 : a = mk (1 + i) := by simpa using ha.symm
    subst h2; subst h3
    have := (hR (1 + i) 0 (by omega) (by omega)).1 hr
    omega

theorem sawtooth_mem {mk : Nat → StorageEntry} {n : Nat} {e : StorageEntry} (h : e ∈ (sawtooth mk n).flatten) :
    ∃ k, k ≤ n ∧ e = mk k := by
  obtain ⟨r, hr, he⟩ := List.mem_flatten.1 h
  rcases List.mem_append.1 hr with h | h
  · obtain ⟨k, hk, rfl⟩ := List.mem_map.1 h
    have := List.mem_range'_1.1 hk
    rcases List.mem_cons.1 he with rfl | he
    · exact ⟨0, Nat.zero_le _, rfl⟩
    · exact ⟨k, by omega, List.mem_singleton.1 he⟩
  · rw [List.mem_singleton.1 h] at he
    exact ⟨0, Nat.zero_le _, List.mem_singleton.1 he⟩

theorem sawtooth_length (mk : Nat → StorageEntry) (n : Nat) : (sawtooth mk n).flatten.length = 2 * n + 1 := by
  have : ∀ a, ((List.range' a n).map fun k => [mk 0, mk k]).flatten.length = 2 * n := by
    induction n with
    | zero => intro a; rfl
    | succ n ih => intro a; rw [List.range'_succ, List.map_cons, List.flatten_cons, List.length_append, ih]; simp; omega
  rw [sawtooth, List.flatten_append, List.length_append, this]
  rfl

theorem sawtooth_keys {mk : Nat → StorageEntry} {n : Nat} {f : List StorageEntry → Nat} (h0 : f [mk 0] = 0)
    (hk : ∀ k, k ≤ n → f [mk 0, mk k] = k) : ∀ k ∈ List.range (n + 1), k ∈ (sawtooth mk n).map f := by
  intro k hkn
  have := List.mem_range.1 hkn
  rw [sawtooth, List.map_append, List.map_map, List.mem_append]
  cases k with
  | zero => exact .inr (by simp [h0])
  | succ k => exact .inl (List.mem_map.2 ⟨k + 1, List.mem_range'_1.2 (by omega), hk _ (by omega)⟩)

theorem reaches {num : Nat} {c : Cmd} {es : List StorageEntry} (hnum : num ≠ 0) (hw : ∀ e ∈ es, WF e) (hlen : es.length < 2 ^ 34)
    (hc : sequential c = true) (hn : ¬ Panics es c) {N : Nat} (hN : mostLines (packed es).length c = N)
    (hge : ∀ rep, Prints (packed es) es c rep → N ≤ tableLines rep) :
    ∃ bytes rep, Fits bytes ∧ RunCmd num bytes c (.ok rep) ∧ tableLines rep = N := by
  have hF : Fits (packed es) := by
    have := packed_length_le es hw
    show (packed es).length < 2 ^ 63
    omega
  obtain ⟨rep, h1, h2⟩ := C68_sequential_prints num (packed es) hF es (messages_packed hw) c hc hn
  refine ⟨_, rep, hF, (h2 _).2 rfl, ?_⟩
  have h3 := C149_most_lines num hnum _ hF c rep ((h2 _).2 rfl)
  rw [hN] at h3
  exact Nat.le_antisymm h3 (hge rep h1)

theorem types_reached (num : Nat) (hnum : num ≠ 0) :
    ∃ bytes rep, Fits bytes ∧ RunCmd num bytes .histogramMessageType (.ok rep) ∧ tableLines rep = 22 := by
  refine reaches (es := (List.range 256).map fun i => kindMsg (UInt8.ofNat i)) hnum ?_ (by simp) rfl ?_ rfl ?_
  · intro e he
    obtain ⟨i, -, rfl⟩ := List.mem_map.1 he
    exact kindMsg_wf _
  · rintro ⟨e, he, -, h⟩
    obtain ⟨i, -, rfl⟩ := List.mem_map.1 he
    revert h
    simp [kindMsg, optLen, flag, Spec.four]
  · intro rep hp
    cases rep <;> first | exact absurd hp id | skip
    rename_i ls
    refine hist_length_ge hp allKinds (by decide +kernel) fun k hk => ?_
    have h1 : ∃ i : Fin 256, MessageType.info ⟨UInt8.ofNat i.val⟩ = k :=
      (show ∀ k ∈ allKinds, ∃ i : Fin 256, MessageType.info ⟨UInt8.ofNat i.val⟩ = k by decide +kernel) k hk
    obtain ⟨i, rfl⟩ := h1
    refine List.mem_map.2 ⟨kindMsg (UInt8.ofNat i.val), List.mem_filter.2 ⟨List.mem_map.2 ⟨i.val, List.mem_range.2 i.isLt, rfl⟩, ?_⟩, ?_⟩
    · simp [kindMsg, flag]
    · simp [infoByte, kindMsg, optLen, flag, Spec.four]

theorem sizedMsgs_wf : ∀ e ∈ (List.range 65532).map sizedMsg, WF e := by
  intro e he
  obtain ⟨i, hi, rfl⟩ := List.mem_map.1 he
  exact sizedMsg_wf (List.mem_range.1 hi)

theorem sizes_reached (num : Nat) (hnum : num ≠ 0) :
    ∃ bytes rep, Fits bytes ∧ RunCmd num bytes .histogramMessageSize (.ok rep) ∧ tableLines rep = 65532 := by
  refine reaches hnum sizedMsgs_wf (by rw [List.length_map, List.length_range]; omega) rfl id rfl ?_
  intro rep hp
  cases rep <;> first | exact absurd hp id | skip
  obtain ⟨m, h1, rfl, -⟩ := hp
  have := hist_length_ge h1 (List.range' 20 65532) List.nodup_range' fun k hk => by
    have hk := List.mem_range'_1.1 hk
    refine List.mem_map.2 ⟨sizedMsg (k - 20), List.mem_map.2 ⟨k - 20, List.mem_range.2 (by omega), rfl⟩, ?_⟩
    rw [encode_length]
    show 20 + (List.replicate _ _).length = _
    rw [List.length_replicate]
    omega
  rw [List.length_range'] at this
  show 65532 ≤ List.length _
  rwa [List.length_map]

theorem payloads_reached (num : Nat) (hnum : num ≠ 0) :
    ∃ bytes rep, Fits bytes ∧ RunCmd num bytes .histogramPayloadSize (.ok rep) ∧ tableLines rep = 65532 := by
  refine reaches hnum sizedMsgs_wf (by rw [List.length_map, List.length_range]; omega) rfl ?_ rfl ?_
  · rintro ⟨e, he, h, -⟩
    obtain ⟨i, -, rfl⟩ := List.mem_map.1 he
    simp [sizedMsg, flag] at h
  intro rep hp
  cases rep <;> first | exact absurd hp id | skip
  obtain ⟨m, h1, rfl, -⟩ := hp
  have := hist_length_ge h1 (List.range 65532) List.nodup_range fun k hk => by
    refine List.mem_map.2 ⟨sizedMsg k, List.mem_map.2 ⟨k, hk, rfl⟩, ?_⟩
    simp [payloadOf, preLen, sizedMsg, optLen, flag, Spec.four]
  rw [List.length_range] at this
  show 65532 ≤ List.length _
  rwa [List.length_map]

theorem seconds_ge {n : Nat} (hn : n < 2 ^ 32) (rep : Report)
    (hp : Prints (packed (sawtooth atSec n).flatten) (sawtooth atSec n).flatten .histogramTimestamp rep) :
    n + 1 ≤ tableLines rep := by
  cases rep <;> first | exact absurd hp id | skip
  obtain ⟨runs, m, h0, h1, rfl⟩ := hp
  have h2 := C39_runs_unique (fun a b => decide (secsOf a ≤ secsOf b)) _ runs (sawtooth atSec n)
    (maximalRuns_congr h0 fun a _ b _ => by simp) (sawtooth_runs fun a b ha hb => by
      rw [atSec_secs (by omega), atSec_secs (by omega)]; simp)
  subst h2
  have := hist_length_ge h1 _ List.nodup_range (sawtooth_keys (Nat.sub_self _) fun k hk => by
    show secsOf (atSec k) - secsOf (atSec 0) = k
    rw [atSec_secs (by omega), atSec_secs (by omega)]; omega)
  rw [List.length_range] at this
  show n + 1 ≤ List.length _
  rwa [List.length_map]

theorem seconds_reached (num : Nat) (hnum : num ≠ 0) :
    ∃ bytes rep, Fits bytes ∧ RunCmd num bytes .histogramTimestamp (.ok rep) ∧ tableLines rep = 2 ^ 32 := by
  have h0 : ∃ n, n + 1 = 2 ^ 32 := ⟨2 ^ 32 - 1, by omega⟩
  obtain ⟨n, hn⟩ := h0
  rw [← hn]
  refine reaches (es := (sawtooth atSec n).flatten) hnum ?_ (by rw [sawtooth_length]; omega) rfl id hn.symm
    (seconds_ge (by omega))
  intro e he
  obtain ⟨k, -, rfl⟩ := sawtooth_mem he
  exact ⟨rfl, rfl⟩

theorem timed_atTime {es : List StorageEntry} (h : ∀ e ∈ es, ∃ k, e = atTime k) : timed es = es := by
  refine List.filter_eq_self.2 fun e he => ?_
  obtain ⟨k, rfl⟩ := h e he
  simp [atTime, tickMsg, flag]

theorem lifecycles_ge {n : Nat} (hn : n * 10000 < 2 ^ 32) (rep : Report)
    (hp : Prints (packed (sawtooth atTime n).flatten) (sawtooth atTime n).flatten .histogramLifecycles rep) :
    n + 1 ≤ tableLines rep := by
  cases rep <;> first | exact absurd hp id | skip
  obtain ⟨runs, m, h0, h1, rfl⟩ := hp
  rw [timed_atTime fun e he => (sawtooth_mem he).imp fun k h => h.2] at h0
  have ht : ∀ k, k ≤ n → time (atTime k) = k * 10000 := fun k hk => by
    have h := atTime_time (s := k) (Nat.lt_of_le_of_lt (Nat.mul_le_mul_right 10000 hk) hn)
    unfold time
    simp only [h, Option.getD_some]
  have h2 := C39_runs_unique (fun a b => decide (ecuOf a = ecuOf b ∧ time a ≤ time b)) _ runs (sawtooth atTime n)
    (maximalRuns_congr h0 fun a _ b _ => by simp) (sawtooth_runs fun a b ha hb => by
      have he : ecuOf (atTime a) = ecuOf (atTime b) := by simp [ecuOf, atTime, tickMsg, flag]
      simp only [he, true_and, decide_eq_true_eq]
      rw [ht a ha, ht b hb]
      omega)
  subst h2
  have := hist_length_ge h1 _ List.nodup_range (sawtooth_keys (by
    show (time (atTime 0) - time (atTime 0)) / 10000 = 0; omega) fun k hk => by
    show (time (atTime k) - time (atTime 0)) / 10000 = k
    rw [ht k hk, ht 0 (Nat.zero_le _)]; omega)
  rw [List.length_range] at this
  show n + 1 ≤ List.length _
  rwa [List.length_map]

theorem lifecycles_reached (num : Nat) (hnum : num ≠ 0) :
    ∃ bytes rep, Fits bytes ∧ RunCmd num bytes .histogramLifecycles (.ok rep) ∧ tableLines rep = 429497 := by
  have h0 : ∃ n, n + 1 = 429497 := ⟨429496, by omega⟩
  obtain ⟨n, hn⟩ := h0
  rw [← hn]
  refine reaches (es := (sawtooth atTime n).flatten) hnum ?_ (by rw [sawtooth_length]; omega) rfl ?_ hn.symm
    (lifecycles_ge (by omega))
  · intro e he
    obtain ⟨k, -, rfl⟩ := sawtooth_mem he
    exact ⟨rfl, rfl⟩
  · rintro ⟨e, he, h⟩
    obtain ⟨k, hk, rfl⟩ := sawtooth_mem (List.mem_filter.1 he).1
    rw [atTime_time (by omega)] at h
    cases h

/-- A message with a time stamp and the ECU id `b`. -/
def idMsg (b : B4) : StorageEntry := ⟨⟨⟨68, 76, 84, 1⟩, 0, 0, b⟩, ⟨⟨⟨0x30⟩, 0, 8⟩, [0, 0, 0, 0]⟩⟩

/-- The id with the given bytes. -/
def idOf : Bytes → B4
  | [a, b, c, d] => ⟨a, b, c, d⟩
  | _ => ⟨0, 0, 0, 0⟩

theorem idOf_toBytes {b : Bytes} (h : b.length = 4) : (idOf b).toBytes = b := by
  match b, h with
  | [a, b, c, d], _ => rfl

theorem ids_nodup : (texts4.map idOf).Nodup := by
  show List.Pairwise _ _
  rw [List.pairwise_map]
  refine List.Pairwise.imp_of_mem (fun {a b} ha hb (hab : a ≠ b) he => hab ?_) texts4_nodup
  rw [← idOf_toBytes (texts4_utf8 a ha).2, he, idOf_toBytes (texts4_utf8 b hb).2]

/-- A message with each id. -/
def idMsgs : List StorageEntry := (texts4.map idOf).map idMsg

theorem idMsgs_mem {e : StorageEntry} (h : e ∈ idMsgs) : ∃ b, Utf8 b.toBytes ∧ e = idMsg b := by
  obtain ⟨b, hb, rfl⟩ := List.mem_map.1 h
  obtain ⟨t, ht, rfl⟩ := List.mem_map.1 hb
  have h1 := texts4_utf8 t ht
  exact ⟨_, by rw [idOf_toBytes h1.2]; exact h1.1, rfl⟩

theorem idMsgs_wf : ∀ e ∈ idMsgs, WF e := by
  intro e he
  obtain ⟨b, -, rfl⟩ := idMsgs_mem he
  exact ⟨rfl, rfl⟩

theorem idMsgs_length : idMsgs.length = fourByteTexts := by
  unfold idMsgs
  rw [List.length_map, List.length_map, texts_number]

theorem idMsgs_timed : timed idMsgs = idMsgs := by
  refine List.filter_eq_self.2 fun e he => ?_
  obtain ⟨b, -, rfl⟩ := idMsgs_mem he
  simp [idMsg, flag]

theorem fourByteTexts_lt : fourByteTexts < 2 ^ 34 := by unfold fourByteTexts; omega

theorem idMsgs_keys {ν : Type} {m : List (B4 × ν)} {f : ν → Nat}
    (h : IsHistogram (idMsgs.map fun e => e.storageHeader.ecu) (m.map fun e => (e.1, f e.2))) : fourByteTexts ≤ m.length := by
  have := hist_length_ge h (texts4.map idOf) ids_nodup fun k hk =>
    List.mem_map.2 ⟨idMsg k, List.mem_map.2 ⟨k, hk, rfl⟩, rfl⟩
  rwa [List.length_map, List.length_map, texts_number] at this

theorem ecus_reached (num : Nat) (hnum : num ≠ 0) (c : Cmd) (hc : c = .splitTimestamp ∨ c = .splitLifecycles) :
    ∃ bytes rep, Fits bytes ∧ RunCmd num bytes c (.ok rep) ∧ tableLines rep = fourByteTexts := by
  rcases hc with rfl | rfl
  · refine reaches hnum idMsgs_wf (by rw [idMsgs_length]; exact fourByteTexts_lt) rfl ?_ rfl ?_
    · rintro ⟨e, he, hu⟩
      obtain ⟨b, hb, rfl⟩ := idMsgs_mem he
      exact hu hb
    · intro rep hp
      cases rep <;> first | exact absurd hp id | skip
      obtain ⟨m, h1, -, rfl⟩ := hp
      show _ ≤ List.length _
      rw [List.length_map]
      exact idMsgs_keys h1
  · refine reaches hnum idMsgs_wf (by rw [idMsgs_length]; exact fourByteTexts_lt) rfl ?_ rfl ?_
    · rintro ⟨e, he, hu⟩
      obtain ⟨b, hb, rfl⟩ := idMsgs_mem (List.mem_filter.1 he).1
      rcases hu with hu | hu
      · simp [timeOf, idMsg, flag, Spec.four] at hu
      · exact hu hb
    · intro rep hp
      cases rep <;> first | exact absurd hp id | skip
      obtain ⟨m, h1, -, rfl⟩ := hp
      rw [idMsgs_timed] at h1
      show _ ≤ List.length _
      rw [List.length_map]
      exact idMsgs_keys h1

/-- **C149** and these bounds are reached: for every sequential command but the one that counts offsets there is a file for which
the table is as long as it can be. -/
theorem C149_reached (num : Nat) (hnum : num ≠ 0) (c : Cmd) (hc : sequential c = true) (hh : c ≠ .histogramHelloWorld)
    (ht : mostLines 0 c ≠ 0) :
    ∃ bytes rep, Fits bytes ∧ RunCmd num bytes c (.ok rep) ∧ tableLines rep = mostLines bytes.length c := by
  cases c <;> first | exact absurd rfl ht | exact absurd rfl hh | cases hc | skip
  case histogramMessageType => exact types_reached num hnum
  case histogramMessageSize => exact sizes_reached num hnum
  case histogramPayloadSize => exact payloads_reached num hnum
  case histogramLifecycles => exact lifecycles_reached num hnum
  case histogramTimestamp => exact seconds_reached num hnum
  case splitTimestamp => exact ecus_reached num hnum _ (.inl rfl)
  case splitLifecycles => exact ecus_reached num hnum _ (.inr rfl)

end Verif
