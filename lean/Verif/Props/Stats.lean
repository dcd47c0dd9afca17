import Verif.Lemmas.Stats
import Verif.Props.Merge
import Verif.Lemmas.Spans
import Verif.Props.Dltit

/-!
# C45–C47: statistics over storage headers and message sizes

`Messages bytes msgs`: `msgs` is what `dltit` reads from the file (C11–C13). `Fits`: the file is at most
`isize::MAX` bytes long.
-/

set_option linter.unusedSimpArgs false

namespace Verif

open Spec

/-- **every file** has a list of messages, so the hypothesis `Messages bytes msgs` can always be met. -/
theorem messages_of_file (bytes : Bytes) (hF : Fits bytes) :
    ∃ msgs, Messages bytes msgs ∧ Collects (dltitNext bytes) 0 msgs ∧ ∀ msgs', Messages bytes msgs' → msgs' = msgs := by
  obtain ⟨items, h1, h2⟩ := dltit_collects bytes hF
  exact ⟨_, ⟨items, h2, rfl⟩, collects_noOffset h1, fun m hm => messages_unique hm ⟨items, h2, rfl⟩⟩

/-- `count` counts the messages. -/
theorem C45_count (bytes : Bytes) (hF : Fits bytes) (msgs : List StorageEntry) (h : Messages bytes msgs) :
    ripCount bytes = some (.ok msgs.length) :=
  pullCount_eq (streams_dlt hF h) (messages_length hF h).2

theorem totalSize_ok (m : List (Nat × Nat)) (t : Nat) (h : t + (m.map fun e => e.1 * e.2).sum ≤ usizeMax) :
    totalSize t m = .ok (t + (m.map fun e => e.1 * e.2).sum) := by
  induction m generalizing t with
  | nil => simp [totalSize]
  | cons e m ih =>
    obtain ⟨k, v⟩ := e
    simp only [List.map_cons, List.sum_cons] at h ⊢
    have h1 : umul k v = .ok (k * v) := by unfold umul; rw [if_pos (by omega)]
    have h2 : uadd t (k * v) = .ok (t + k * v) := uadd_ok (by omega)
    simp only [totalSize, h1, Res.bind, h2]
    rw [ih (t + k * v) (by omega)]
    congr 1
    omega

/-- **C45** `histogram_message_size`: each message length with its number of messages; the counts add up to the
number of messages, length times count to the bytes of all messages, and the total printed is that number. -/
theorem C45_message_sizes (bytes : Bytes) (hF : Fits bytes) (msgs : List StorageEntry) (h : Messages bytes msgs) :
    ∃ m, histogramMessage bytes = some (.ok m) ∧
      IsHistogram (msgs.map fun e => (encode e).length) m ∧
      (m.map (·.2)).sum = msgs.length ∧
      (m.map fun e => e.1 * e.2).sum = (msgs.map fun e => (encode e).length).sum ∧
      (msgs.map fun e => (encode e).length).sum ≤ bytes.length ∧
      totalSize 0 m = .ok (msgs.map fun e => (encode e).length).sum := by
  have hs := streams_map_on (streams_dlt hF h) (F := fun e => .ok e.len) (f := fun e => (encode e).length)
    (fun e he => by rw [encode_len e (messages_wf h e he)])
  have hl := messages_length hF h
  obtain ⟨m, h1, h2⟩ := pullSplit_hist (keyfn := fun id : Nat => .ok id) (key := id) hs (fun _ _ => rfl)
    (by rw [List.length_map]; exact hl.2)
  rw [List.map_id] at h2
  have hsum := isHistogram_sum id h2
  simp only [List.map_id, id] at hsum
  refine ⟨m, h1, h2, ?_, hsum, (messages_sum h).1, ?_⟩
  · rw [isHistogram_total h2, List.length_map]
  · have h3 := (messages_sum h).1
    have h4 := fits_le hF
    rw [totalSize_ok m 0 (by rw [hsum]; unfold usizeMax; omega), hsum, Nat.zero_add]

/-! ## C46 -/

theorem secs_rel : (fun a b : StorageEntry => (fun a b : StorageEntry => decide (a.secs ≤ b.secs)) a b = true) =
    fun a b => secsOf a ≤ secsOf b := by
  funext a b
  simp only [decide_eq_true_eq, StorageEntry.secs, UInt32.le_iff_toNat_le, secsOf]

theorem secs_runs (xs : List StorageEntry) :
    MaximalRuns (fun a b => secsOf a ≤ secsOf b) xs (runsL (fun a b : StorageEntry => decide (a.secs ≤ b.secs)) xs) := by
  have := maximalRuns_runsL (fun a b : StorageEntry => decide (a.secs ≤ b.secs)) xs
  rw [secs_rel] at this
  exact this

theorem secs_run_le {xs : List StorageEntry} {runs : List (List StorageEntry)}
    (h : MaximalRuns (fun a b => secsOf a ≤ secsOf b) xs runs) {r : List StorageEntry} (hr : r ∈ runs) {a b : StorageEntry}
    (ha : r.head? = some a) (hb : r.getLast? = some b) : secsOf a ≤ secsOf b :=
  run_first_last (R := fun a b => secsOf a ≤ secsOf b) (fun _ => Nat.le_refl _) (fun _ _ _ => Nat.le_trans) (h.related r hr) ha hb

theorem secSpanOf_eq {r : List StorageEntry} {a b : StorageEntry} (ha : r.head? = some a) (hb : r.getLast? = some b) :
    secSpanOf r = secsOf b - secsOf a := by
  unfold secSpanOf; rw [ha, hb]

theorem bucketLines_ok (m : List (Nat × Nat)) (h : ∀ e ∈ m, e.1 < 2 ^ 32) :
    bucketLines m = .ok (m.map fun e => (e.1, e.1 + 1, e.2)) := by
  induction m with
  | nil => rfl
  | cons e m ih =>
    obtain ⟨k, v⟩ := e
    have hk := h (k, v) List.mem_cons_self
    simp only at hk
    have h1 : uadd k 1 = .ok (k + 1) := uadd_ok (by unfold usizeMax; omega)
    simp only [bucketLines, h1, Res.bind, ih fun e he => h e (List.mem_cons_of_mem _ he), List.map_cons]

/-- **C46** `histogram_timestamp` never panics: it is the histogram of the durations of the maximal runs of messages
with non-decreasing storage seconds; in every run the last second is at least the first; the counts add up to the
number of runs; the printed lines are the buckets. -/
theorem C46_timestamp_histogram (bytes : Bytes) (hF : Fits bytes) (msgs : List StorageEntry) (h : Messages bytes msgs) :
    ∃ runs m, MaximalRuns (fun a b => secsOf a ≤ secsOf b) msgs runs ∧
      timestampHistogram bytes = some (.ok m) ∧
      IsHistogram (runs.map secSpanOf) m ∧
      (∀ r ∈ runs, ∀ a b, r.head? = some a → r.getLast? = some b → secsOf a ≤ secsOf b) ∧
      (m.map (·.2)).sum = runs.length ∧
      bucketLines m = .ok (m.map fun e => (e.1, e.1 + 1, e.2)) := by
  have hruns := secs_runs msgs
  have hs := streams_groupBy_on (streams_dlt hF h) (F := secsPredicate) (f := fun a b => decide (a.secs ≤ b.secs))
    (fun _ _ _ _ => rfl) (fun x _ => by simp)
  have hle : ∀ r ∈ runsL (fun a b : StorageEntry => decide (a.secs ≤ b.secs)) msgs, ∀ a b, r.head? = some a →
      r.getLast? = some b → secsOf a ≤ secsOf b := fun r hr a b ha hb => secs_run_le hruns hr ha hb
  have hm := streams_map_on hs (F := fun r : StorageEntry × StorageEntry => subU32 r.2.secs r.1.secs)
    (f := fun r => r.2.secs - r.1.secs) (by
      rintro ⟨a, b⟩ hp
      obtain ⟨r, hr, ha, hb⟩ := mem_ends hp
      have := hle r hr a b ha hb
      unfold subU32
      rw [if_pos]
      rw [UInt32.le_iff_toNat_le]; exact this)
  have hkeys : (((runsL (fun a b : StorageEntry => decide (a.secs ≤ b.secs)) msgs).filterMap ends).map
      fun r => r.2.secs - r.1.secs).map UInt32.toNat =
      (runsL (fun a b : StorageEntry => decide (a.secs ≤ b.secs)) msgs).map secSpanOf := by
    rw [List.map_map]
    refine map_ends _ _ hruns.nonempty ?_
    intro r hr a b ha hb
    rw [secSpanOf_eq ha hb]
    exact UInt32.toNat_sub_of_le _ _ (UInt32.le_iff_toNat_le.2 (hle r hr a b ha hb))
  have hlen : (((runsL (fun a b : StorageEntry => decide (a.secs ≤ b.secs)) msgs).filterMap ends).map
      fun r => r.2.secs - r.1.secs).length ≤ usizeMax := by
    have := congrArg List.length hkeys
    rw [List.length_map, List.length_map (f := secSpanOf)] at this
    have h1 := runs_length_le hruns
    have h2 := messages_length hF h
    omega
  obtain ⟨m, h1, h2⟩ := pullSplit_hist (keyfn := fun id : UInt32 => .ok id.toNat) (key := UInt32.toNat) hm (fun _ _ => rfl) hlen
  refine ⟨_, m, hruns, h1, hkeys ▸ h2, hle, ?_, ?_⟩
  · rw [isHistogram_total h2, hkeys, List.length_map]
  · refine bucketLines_ok m ?_
    rintro ⟨k, v⟩ he
    obtain ⟨h3, h4⟩ := (h2.mem k v).1 he
    have := List.count_pos_iff.1 (h4 ▸ h3)
    obtain ⟨d, -, rfl⟩ := List.mem_map.1 this
    exact d.toNat_lt

/-- Three messages at seconds 3, 5, 4: two runs, of durations 2 and 0. -/
example : MaximalRuns (fun a b => secsOf a ≤ secsOf b) [secMsg 3, secMsg 5, secMsg 4] [[secMsg 3, secMsg 5], [secMsg 4]] ∧
    IsHistogram ([[secMsg 3, secMsg 5], [secMsg 4]].map secSpanOf) [(0, 1), (2, 1)] ∧
    Messages (fileOf [([], secMsg 3), ([1], secMsg 5), ([], secMsg 4)] []) [secMsg 3, secMsg 5, secMsg 4] := by
  refine ⟨secs_runs [secMsg 3, secMsg 5, secMsg 4], isHistogram_iff.2 ⟨by unfold OrdMap.Sorted; decide, by decide, ?_⟩,
    messagesAt 0 [([], secMsg 3), ([1], secMsg 5), ([], secMsg 4)], ?_, rfl⟩
  · intro k
    have : [[secMsg 3, secMsg 5], [secMsg 4]].map secSpanOf = [2, 0] := by decide
    rw [this]
    by_cases h0 : k = 0
    · subst h0; decide
    · by_cases h2 : k = 2
      · subst h2; decide
      · rw [List.count_eq_zero.2 (by simp; omega)]
        have h1 : ¬ Key.lt k 0 := Nat.not_lt_zero k
        by_cases h3 : k < 2
        · have : Key.lt k 2 := h3
          have h4 : Key.lt 0 k := by show 0 < k; omega
          simp [cnt, OrdMap.get, h1, h4, this]
        · have h5 : ¬ Key.lt k 2 := h3
          have h6 : Key.lt 2 k := by show 2 < k; omega
          have h4 : Key.lt 0 k := by show 0 < k; omega
          simp [cnt, OrdMap.get, h1, h4, h5, h6]
  · have := scan_fileOf [] [([], secMsg 3), ([1], secMsg 5), ([], secMsg 4)] [] (by
      unfold Clean; decide)
    simpa using this

/-! ## C47 -/

/-- Histograms over `u32` keys as histograms over numbers. -/
theorem isHistogram_toNat {keys : List UInt32} {m : OrdMap UInt32 Nat} (h : IsHistogram keys m) :
    IsHistogram (keys.map UInt32.toNat) (m.map fun e => (e.1.toNat, e.2)) := by
  refine ⟨?_, ?_⟩
  · rw [List.pairwise_map]; exact h.sorted
  · intro k v
    have hc : ∀ x : UInt32, (keys.map UInt32.toNat).count x.toNat = keys.count x := by
      intro x
      rw [List.count, List.countP_map, List.count]
      congr 1
      funext y
      by_cases hy : y = x
      · subst hy; simp
      · have : y.toNat ≠ x.toNat := fun h => hy (UInt32.toNat_inj.1 h)
        exact (beq_eq_false_iff_ne.2 this).trans (beq_eq_false_iff_ne.2 hy).symm
    rw [List.mem_map]
    constructor
    · rintro ⟨⟨x, w⟩, he, heq⟩
      simp only [Prod.mk.injEq] at heq
      obtain ⟨rfl, rfl⟩ := heq
      rw [hc]; exact (h.mem x w).1 he
    · rintro ⟨h0, h1⟩
      obtain ⟨x, hx, rfl⟩ := List.mem_map.1 (List.count_pos_iff.1 (h1 ▸ h0))
      rw [hc] at h1
      exact ⟨(x, v), (h.mem x v).2 ⟨h0, h1⟩, rfl⟩

/-- The second components of a split map are the histogram of the keys. -/
theorem isHistogram_of_split {κ ν : Type} [Key κ] [DecidableEq κ] {keys : List κ} {m : OrdMap κ (ν × Nat)} (hs : m.Sorted)
    (hk : ∀ k, k ∈ m.map (·.1) ↔ k ∈ keys) (hn : ∀ k h n, (k, h, n) ∈ m → n = keys.count k) :
    IsHistogram keys (m.map fun e => (e.1, e.2.2)) := by
  refine ⟨?_, ?_⟩
  · rw [List.pairwise_map]; exact hs
  · intro k n
    rw [List.mem_map]
    constructor
    · rintro ⟨⟨k', h, n'⟩, he, heq⟩
      simp only [Prod.mk.injEq] at heq
      obtain ⟨rfl, rfl⟩ := heq
      have h1 := hn _ _ _ he
      refine ⟨?_, h1⟩
      rw [h1]
      exact List.count_pos_iff.2 ((hk k').1 (List.mem_map.2 ⟨_, he, rfl⟩))
    · rintro ⟨h0, h1⟩
      have h2 : k ∈ keys := List.count_pos_iff.1 (h1 ▸ h0)
      obtain ⟨⟨k', h, n'⟩, he, heq⟩ := List.mem_map.1 ((hk k).2 h2)
      simp only at heq
      subst heq
      refine ⟨_, he, ?_⟩
      simp only [Prod.mk.injEq, true_and]
      rw [hn _ _ _ he, h1]

/-- The chain in front of the histogram of `timestamp_splitit`. -/
def spanChain : Chain StorageEntry (StorageEntry × StorageEntry) :=
  .merge inferInstance (.groupby .nil secsPredicate) (fun a b => .ok (mergeOverlapping a b)) spanKey

theorem spanRed_spec (xs : List StorageEntry) (hl : xs.length ≤ usizeMax) :
    ∃ runs spans h, EcuSpans xs runs spans ∧ runRed spanRed xs = some (.ok h) ∧
      IsHistogram (spans.map fun s => s.2 - s.1) (h.map fun e => (e.1.toNat, e.2)) := by
  have hruns := secs_runs xs
  have hg : collected (Chain.groupby Chain.nil secsPredicate) xs =
      some (.ok ((runsL (fun a b : StorageEntry => decide (a.secs ≤ b.secs)) xs).filterMap ends)) :=
    collected_behind (good_groupby _) rfl (C37_nil_chain xs) (outs_groupBy _ xs (fun x _ => by simp))
  obtain ⟨zs, h1, h2, h3, h4, h5, h6⟩ := C40_merge_overlapping _ xs _ hg
  have hwy : ∀ y ∈ (runsL (fun a b : StorageEntry => decide (a.secs ≤ b.secs)) xs).filterMap ends, fstSec y ≤ sndSec y := by
    rintro ⟨a, b⟩ hp
    obtain ⟨r, hr, ha, hb⟩ := mem_ends hp
    exact secs_run_le hruns hr ha hb
  have hwf := h5 hwy
  have hab := absorbed_foldl _ hwy
  have hzs : zs = (((runsL (fun a b : StorageEntry => decide (a.secs ≤ b.secs)) xs).filterMap ends).foldl
      (mergeStep mergeOverlapping spanKey) []).map (·.2) := by
    have := collected_behind (d := Chain.merge inferInstance (.groupby .nil secsPredicate) (fun a b => .ok (mergeOverlapping a b)) spanKey)
      (good_merge _ spanKey) rfl hg (outs_merge mergeOverlapping spanKey _)
    rw [h1] at this
    simpa using this
  have hends : ((runsL (fun a b : StorageEntry => decide (a.secs ≤ b.secs)) xs).filterMap ends).map secsPair =
      (runsL (fun a b : StorageEntry => decide (a.secs ≤ b.secs)) xs).map secsPairOf := by
    have key : ∀ l : List (List StorageEntry), (∀ r ∈ l, r ≠ []) → (l.filterMap ends).map secsPair = l.map secsPairOf := by
      intro l
      induction l with
      | nil => intro _; rfl
      | cons r l ih =>
        intro hne
        have hr := hne r List.mem_cons_self
        cases hh : r.head? with
        | none => exact absurd (List.head?_eq_none_iff.1 hh) hr
        | some a =>
          cases hl : r.getLast? with
          | none => exact absurd (List.getLast?_eq_none_iff.1 hl) hr
          | some b =>
            have e1 : ends r = some (a, b) := by unfold ends; rw [hh, hl]
            have e2 : secsPairOf r = (secsOf a, secsOf b) := by unfold secsPairOf; rw [hh, hl]
            rw [List.filterMap_cons_some e1, List.map_cons, List.map_cons, ih fun r hr => hne r (List.mem_cons_of_mem _ hr), e2]
            rfl
    exact key _ hruns.nonempty
  have hsub : ∀ z ∈ zs, subU32 z.2.secs z.1.secs = .ok (z.2.secs - z.1.secs) := by
    intro z hz
    unfold subU32
    rw [if_pos]
    rw [UInt32.le_iff_toNat_le]; exact hwf z hz
  have hm : collected (Chain.map spanChain fun r => subU32 r.2.secs r.1.secs) xs =
      some (.ok (zs.map fun r => r.2.secs - r.1.secs)) := by
    refine collected_behind (c := spanChain) (good_map _) rfl h1 ?_
    rw [← mapR_pure (fun r : StorageEntry × StorageEntry => r.2.secs - r.1.secs) zs, ← mapR_congr hsub]
    exact outs_map _ zs
  have hlen : ((runsL (fun a b : StorageEntry => decide (a.secs ≤ b.secs)) xs).filterMap ends).length ≤
      (runsL (fun a b : StorageEntry => decide (a.secs ≤ b.secs)) xs).length := List.length_filterMap_le _ _
  have hrl := runs_length_le hruns
  obtain ⟨h, h7, h8⟩ := runRed_split_hist (keyfn := fun k : UInt32 => .ok k) (key := id)
    (zs.map fun r => r.2.secs - r.1.secs) (fun _ _ => rfl) (by rw [List.length_map]; omega)
  rw [List.map_id] at h8
  refine ⟨_, zs.map fun z => (fstSec z, sndSec z), h, ⟨hruns, ?_, ?_, ?_, ?_, ?_, ?_⟩, ?_, ?_⟩
  · intro t
    have ht := h2 t
    constructor
    · rintro ⟨s, hs, hc⟩
      obtain ⟨z, hz, rfl⟩ := List.mem_map.1 hs
      obtain ⟨⟨a, b⟩, hp, hc'⟩ := ht.1 ⟨z, hz, hc⟩
      obtain ⟨r, hr, ha, hb⟩ := mem_ends hp
      exact ⟨r, hr, a, b, ha, hb, hc'⟩
    · rintro ⟨r, hr, a, b, ha, hb, hc⟩
      obtain ⟨z, hz, hc'⟩ := ht.2 ⟨(a, b), ends_mem hr ha hb, hc⟩
      exact ⟨_, List.mem_map.2 ⟨z, hz, rfl⟩, hc'⟩
  · intro s hs
    obtain ⟨z, hz, rfl⟩ := List.mem_map.1 hs
    exact hwf z hz
  · rw [List.length_map]; omega
  · rw [List.pairwise_map]; exact h4
  · intro s hs
    obtain ⟨z, hz, rfl⟩ := List.mem_map.1 hs
    obtain ⟨⟨a, b⟩, hy, ⟨a', b'⟩, hy', rfl⟩ := h6 z hz
    obtain ⟨r, hr, ha, -⟩ := mem_ends hy
    obtain ⟨r', hr', -, hb⟩ := mem_ends hy'
    exact ⟨a, runs_mem hruns hr (head_mem ha), b', runs_mem hruns hr' (last_mem hb), rfl⟩
  · rw [hends] at hab
    rw [hzs, List.map_map]
    exact hab
  · have := C37_reducer_on_collected _ (splitRed (fun k : UInt32 => .ok k) fun _ => genCount UInt32) xs _ hm
    exact this.trans h7
  · have h9 := isHistogram_toNat h8
    rw [List.map_map] at h9
    have : (zs.map fun z => (fstSec z, sndSec z)).map (fun s => s.2 - s.1) =
        zs.map (UInt32.toNat ∘ fun r => r.2.secs - r.1.secs) := by
      rw [List.map_map]
      refine List.map_congr_left fun z hz => ?_
      exact (UInt32.toNat_sub_of_le _ _ (UInt32.le_iff_toNat_le.2 (hwf z hz))).symm
    rw [this]; exact h9

/-- **C47** `split_timestamp` never panics. Its keys and second components are exactly the ECU ids and their
numbers of messages; the first component of an ECU is the histogram of the durations of spans that cover exactly
the seconds covered by the runs of that ECU's messages. -/
theorem C47_split_timestamp (bytes : Bytes) (hF : Fits bytes) (msgs : List StorageEntry) (h : Messages bytes msgs) :
    ∃ m, timestampSplit bytes = some (.ok m) ∧
      IsHistogram (msgs.map fun e => e.storageHeader.ecu) (m.map fun e => (e.1, e.2.2)) ∧
      (m.map fun e => e.2.2).sum = msgs.length ∧
      ∀ ecu hist n, (ecu, hist, n) ∈ m →
        n = (ofEcu ecu msgs).length ∧
        ∃ runs spans, EcuSpans (ofEcu ecu msgs) runs spans ∧
          IsHistogram (spans.map fun s => s.2 - s.1) (hist.map fun e => (e.1.toNat, e.2)) := by
  have hl := messages_length hF h
  have hfl : ∀ ecu, (ofEcu ecu msgs).length ≤ usizeMax := fun ecu => Nat.le_trans (List.length_filter_le _ _) hl.2
  have hred : ∀ xs : List StorageEntry, xs.length ≤ usizeMax → ∀ v,
      runRed (reducer (forkRed spanRed (genCount StorageEntry)) (nilStage StorageEntry)) xs = some (.ok v) ↔
        runRed spanRed xs = some (.ok v.1) ∧ v.2 = xs.length := by
    intro xs hx v
    rw [runRed_nil_reducer]
    have := runRed_fork_iff (r1 := spanRed) (r2 := genCount StorageEntry) xs v.1 v.2
    rw [this, runRed_genCount, if_pos hx]
    simp only [Option.some.injEq, Res.ok.injEq, eq_comm]
  obtain ⟨m, hm⟩ := C42_split_total (fun e : StorageEntry => e.storageHeader.ecu)
    (fun _ => reducer (forkRed spanRed (genCount StorageEntry)) (nilStage StorageEntry)) msgs (by
      intro x _
      have hx : (msgs.filter fun y => decide (y.storageHeader.ecu = x.storageHeader.ecu)).length ≤ usizeMax :=
        hfl x.storageHeader.ecu
      obtain ⟨runs, spans, hist, -, h2, -⟩ := spanRed_spec _ hx
      exact ⟨(hist, _), (hred _ hx _).2 ⟨h2, rfl⟩⟩)
  have hspec := (runRed_split_iff msgs (fun _ _ => rfl) m).1 hm
  obtain ⟨hs, hk, hv⟩ := hspec
  have hn : ∀ ecu hist n, (ecu, hist, n) ∈ m →
      runRed spanRed (ofEcu ecu msgs) = some (.ok hist) ∧ n = (ofEcu ecu msgs).length := by
    intro ecu hist n he
    exact (hred _ (hfl ecu) (hist, n)).1 (hv ecu (hist, n) he)
  have hhist : IsHistogram (msgs.map fun e => e.storageHeader.ecu) (m.map fun e => (e.1, e.2.2)) := by
    refine isHistogram_of_split hs hk ?_
    intro ecu hist n he
    rw [count_map_eq]
    exact (hn ecu hist n he).2
  refine ⟨m, ?_, hhist, ?_, ?_⟩
  · unfold timestampSplit pullSplit
    rw [pullReduce_eq _ (streams_dlt hF h)]
    exact hm
  · have := isHistogram_total hhist
    rw [List.map_map, List.length_map] at this
    exact this
  · intro ecu hist n he
    obtain ⟨h1, h2⟩ := hn ecu hist n he
    obtain ⟨runs, spans, hist', h3, h4, h5⟩ := spanRed_spec _ (hfl ecu)
    rw [h1] at h4
    simp only [Option.some.injEq, Res.ok.injEq] at h4
    subst h4
    exact ⟨h2, runs, spans, h3, h5⟩

end Verif
