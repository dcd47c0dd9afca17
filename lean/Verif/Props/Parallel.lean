import Verif.Lemmas.Slices
import Verif.Lemmas.Par
import Verif.Props.Payload

/-! # C34–C36: the parallel commands -/

set_option linter.unusedSimpArgs false

namespace Verif

open Spec

/-! ## C35: the schedule does not matter -/

/-- **C35** the parallel counters: whatever function counts the slices (as long as it returns or panics on every
slice), every schedule gives the same result, and there is one. -/
theorem C35_counters (f : Bytes → Option (Res Nat)) (bytes : Bytes) (num : Nat) (hF : Fits bytes)
    (hf : ∀ s, Fits s → f s ≠ none) : ∃ r, ∀ r', Multithreaded f bytes num r' ↔ r' = r := by
  unfold Multithreaded
  cases hp : partitionFrom dltStorage bytes num with
  | panic => exact ⟨.panic, fun r' => Iff.rfl⟩
  | ok slices =>
    have hfit := (partition_fits hF hp).2
    let F : Bytes → Res Nat := fun s => (f s).getD .panic
    have hF' : ∀ s ∈ slices, f s = some (F s) := by
      intro s hs
      have := hf s (hfit s hs)
      show f s = some ((f s).getD .panic)
      cases h : f s with
      | none => exact absurd h this
      | some v => rfl
    refine ⟨sumR F slices, fun r' => ⟨fun h => parReduce_sum h hF', ?_⟩⟩
    rintro rfl
    obtain ⟨r, hr⟩ := parReduce_exists (f := f) (op := uadd) (e := 0) slices fun s hs => hf s (hfit s hs)
    rw [← parReduce_sum hr hF']
    exact hr

/-- **C35** a counter that panics on some slice makes every schedule panic; otherwise every schedule returns the sum. -/
theorem C35_counters_sum (f : Bytes → Option (Res Nat)) (bytes : Bytes) (num : Nat) (hF : Fits bytes)
    (slices : List Bytes) (hp : partitionFrom dltStorage bytes num = .ok slices) (hf : ∀ s, Fits s → f s ≠ none) :
    ((∃ s ∈ slices, f s = some .panic) → ∀ r, Multithreaded f bytes num r ↔ r = .panic) ∧
    (∀ F : Bytes → Nat, (∀ s ∈ slices, f s = some (.ok (F s))) → (slices.map F).sum ≤ usizeMax →
      ∀ r, Multithreaded f bytes num r ↔ r = .ok (slices.map F).sum) := by
  obtain ⟨r0, h0⟩ := C35_counters f bytes num hF hf
  have hr0 := (h0 r0).2 rfl
  have hm : ∀ r, Multithreaded f bytes num r ↔ ParReduce f uadd 0 slices r := fun r => by
    unfold Multithreaded; rw [hp]
  constructor
  · rintro ⟨s, hs, hsp⟩ r
    rw [h0 r, show r0 = .panic from parReduce_panic ((hm _).1 hr0) hs hsp]
  · intro F hF' hsum r
    rw [h0 r, parReduce_sum ((hm _).1 hr0) hF', sumR_eq, if_pos hsum]

theorem ripCount_total (s : Bytes) (h : Fits s) : ripCount s ≠ none := by
  obtain ⟨msgs, hm, -⟩ := messages_of_file s h
  rw [C45_count s h msgs hm]
  simp

theorem countHelloWorld_total (s : Bytes) (h : Fits s) : countHelloWorld s ≠ none := by
  obtain ⟨msgs, hm, -⟩ := messages_of_file s h
  have := C49_count_hello_world_partial s h msgs hm
  by_cases hp : ∃ e ∈ msgs, payloadOf e = none
  · rw [this.1.2 hp]; simp
  · rw [this.2 fun e he => by
      cases hq : payloadOf e with
      | some p => rfl
      | none => exact absurd ⟨e, he, hq⟩ hp]
    simp

theorem countHelloWorldRaw_total (s : Bytes) (h : Fits s) : countHelloWorldRaw s ≠ none := by
  rw [(C49_raw s h).1]; simp

theorem lifecycleIter_total (s : Bytes) (h : Fits s) : lifecycleIter s ≠ none := by
  obtain ⟨msgs, hm, -⟩ := messages_of_file s h
  have := C48_lifecycle_iter_partial s h msgs hm
  by_cases hp : TimesComplete msgs
  · obtain ⟨runs, -, h2⟩ := this.2 hp
    rw [h2]; simp
  · rw [this.1.2 hp]; simp

/-- **C35** the four commands `par_count`, `par_count_hello_world`, `par_count_hello_world_raw` and `par_lifecycle_iter`
have exactly one result, whatever the schedule. -/
theorem C35_commands (bytes : Bytes) (num : Nat) (hF : Fits bytes) :
    (∃ r, ∀ r', Multithreaded ripCount bytes num r' ↔ r' = r) ∧
    (∃ r, ∀ r', Multithreaded countHelloWorld bytes num r' ↔ r' = r) ∧
    (∃ r, ∀ r', Multithreaded countHelloWorldRaw bytes num r' ↔ r' = r) ∧
    (∃ r, ∀ r', Multithreaded lifecycleIter bytes num r' ↔ r' = r) :=
  ⟨C35_counters _ bytes num hF ripCount_total, C35_counters _ bytes num hF countHelloWorld_total,
    C35_counters _ bytes num hF countHelloWorldRaw_total, C35_counters _ bytes num hF lifecycleIter_total⟩

/-! ### Histograms -/

/-- The runs of the messages of a file. -/
noncomputable def runsOfFile (s : Bytes) : List (List StorageEntry) :=
  open Classical in
  if h : Fits s then runsL (fun a b : StorageEntry => decide (a.secs ≤ b.secs)) (Classical.choose (messages_of_file s h)) else []

theorem runsOfFile_eq {s : Bytes} (h : Fits s) {msgs : List StorageEntry} (hm : Messages s msgs) :
    runsOfFile s = runsL (fun a b : StorageEntry => decide (a.secs ≤ b.secs)) msgs := by
  unfold runsOfFile
  rw [dif_pos h, messages_unique hm (Classical.choose_spec (messages_of_file s h)).1]

theorem secs_runs_unique {msgs : List StorageEntry} {runs : List (List StorageEntry)}
    (h : MaximalRuns (fun a b => secsOf a ≤ secsOf b) msgs runs) :
    runs = runsL (fun a b : StorageEntry => decide (a.secs ≤ b.secs)) msgs := by
  refine C39_runs_unique (fun a b : StorageEntry => decide (a.secs ≤ b.secs)) msgs _ _ ?_ ?_
  · have h' := h; rw [← secs_rel] at h'; exact h'
  · have h' := secs_runs msgs; rw [← secs_rel] at h'; exact h'

theorem timestampHistogram_runs {s : Bytes} (h : Fits s) :
    ∃ m, timestampHistogram s = some (.ok m) ∧ IsHistogram ((runsOfFile s).map secSpanOf) m := by
  obtain ⟨msgs, hm, -⟩ := messages_of_file s h
  obtain ⟨runs, m, h1, h2, h3, -⟩ := C46_timestamp_histogram s h msgs hm
  rw [secs_runs_unique h1, ← runsOfFile_eq h hm] at h3
  exact ⟨m, h2, h3⟩

theorem runsOfFile_length {s : Bytes} (h : Fits s) : (runsOfFile s).length ≤ s.length := by
  obtain ⟨msgs, hm, -⟩ := messages_of_file s h
  have h1 := runs_length_le (secs_runs msgs)
  have h2 := (messages_length h hm).1
  rw [runsOfFile_eq h hm]
  omega

theorem flatten_length_le {α β : Type} {g : List α → List β} : ∀ {l : List (List α)}, (∀ s ∈ l, (g s).length ≤ s.length) →
    (l.map g).flatten.length ≤ l.flatten.length
  | [], _ => by simp
  | s :: l, h => by
    have h1 := h s (List.mem_cons_self ..)
    have h2 := flatten_length_le fun s hs => h s (List.mem_cons_of_mem _ hs)
    simp only [List.map_cons, List.flatten_cons, List.length_append]
    omega

theorem each_map {α β : Type} {P : α → β → Prop} {g : α → β} : ∀ {l : List α}, (∀ x ∈ l, P x (g x)) → Each P l (l.map g)
  | [], _ => trivial
  | x :: _, h => ⟨h x (List.mem_cons_self ..), each_map fun y hy => h y (List.mem_cons_of_mem _ hy)⟩

/-- **C35** `par_histogram_timestamp` never panics and has exactly one result, whatever the schedule: the histogram of
the durations of the runs of all slices. -/
theorem C35_par_histogram (bytes : Bytes) (num : Nat) (hnum : num ≠ 0) (hF : Fits bytes) :
    ∃ (slices : List Bytes) (runss : List (List (List StorageEntry))) (m : OrdMap Nat Nat), partitionFrom dltStorage bytes num = .ok slices ∧
      (∀ r, ParTimestampHistogram bytes num r ↔ r = .ok m) ∧
      Each (fun s runs => ∃ msgs, Messages s msgs ∧ MaximalRuns (fun a b => secsOf a ≤ secsOf b) msgs runs)
        slices runss ∧
      IsHistogram (runss.flatten.map secSpanOf) m := by
  obtain ⟨rs, b, slices, -, -, -, hp, -⟩ := C30_partition_contiguous bytes hF num hnum
  obtain ⟨hlen, hfit⟩ := partition_fits hF hp
  have hpar : ∀ r, ParTimestampHistogram bytes num r ↔ ParReduce timestampHistogram mergeCounts [] slices r := fun r => by
    unfold ParTimestampHistogram; rw [hp]
  have hlen2 : (slices.map runsOfFile).flatten.length ≤ usizeMax := by
    have := flatten_length_le (g := runsOfFile) fun s hs => runsOfFile_length (hfit s hs)
    have := fits_le hF
    unfold usizeMax
    omega
  have hrep : ∀ r, ParReduce timestampHistogram mergeCounts [] slices r →
      ∃ v, r = .ok v ∧ IsHistogram ((slices.map runsOfFile).flatten.map secSpanOf) v := fun r hr =>
    parReduce_rep (I := fun u m => IsHistogram (u.map secSpanOf) m) runsOfFile (N := usizeMax) isHistogram_nil
      (by
        intro a b u v ha hb hl
        rw [List.length_append] at hl
        obtain ⟨m, h1, h2⟩ := mergeCounts_hist ha hb (by rw [List.length_map, List.length_map]; exact hl)
        exact ⟨m, h1, by rw [List.map_append]; exact h2⟩)
      hr (fun s hs => timestampHistogram_runs (hfit s hs)) hlen2
  obtain ⟨r, hr⟩ := parReduce_exists (f := timestampHistogram) (op := mergeCounts) (e := []) slices fun s hs => by
    obtain ⟨m, h1, -⟩ := timestampHistogram_runs (hfit s hs)
    rw [h1]; simp
  obtain ⟨m, rfl, hm⟩ := hrep r hr
  refine ⟨slices, slices.map runsOfFile, m, hp, fun r' => ?_, ?_, hm⟩
  · rw [hpar]
    constructor
    · intro hr'
      obtain ⟨m', rfl, hm'⟩ := hrep r' hr'
      rw [isHistogram_unique hm' hm]
    · rintro rfl; exact hr
  · exact each_map fun s hs => by
      obtain ⟨msgs, hm, -⟩ := messages_of_file s (hfit s hs)
      exact ⟨msgs, hm, by rw [runsOfFile_eq (hfit s hs) hm]; exact secs_runs msgs⟩

/-! ### Tables of ECUs -/

/-- The table of a file. -/
noncomputable def tableOfFile (s : Bytes) : OrdMap B4 (OrdMap UInt32 Nat × Nat) :=
  match timestampSplit s with
  | some (.ok m) => m
  | _ => []

theorem timestampSplit_table {s : Bytes} (h : Fits s) :
    timestampSplit s = some (.ok (tableOfFile s)) ∧ IsEcuTable (itemsOf (tableOfFile s)) (tableOfFile s) ∧
      (itemsOf (tableOfFile s)).length ≤ s.length := by
  obtain ⟨msgs, hm, -⟩ := messages_of_file s h
  obtain ⟨m, h1, h2, h3, h4⟩ := C47_split_timestamp s h msgs hm
  have ht : tableOfFile s = m := by unfold tableOfFile; rw [h1]
  have hs : m.Pairwise fun a b => Key.lt a.1 b.1 := by
    have := h2.sorted
    rw [List.pairwise_map] at this
    exact this
  have hpos : ∀ ecu hist n, (ecu, hist, n) ∈ m → 0 < n := fun ecu hist n he =>
    ((h2.mem ecu n).1 (List.mem_map.2 ⟨_, he, rfl⟩)).1
  have hist : ∀ ecu (hist : OrdMap UInt32 Nat) n, (ecu, hist, n) ∈ m → OrdMap.Sorted hist ∧ (∀ x ∈ hist, 0 < x.2) ∧
      (hist.map (·.2)).sum ≤ n := by
    intro ecu hist n he
    obtain ⟨hn, runs, spans, h5, h6⟩ := h4 ecu hist n he
    refine ⟨?_, ?_, ?_⟩
    · have := h6.sorted
      rw [List.pairwise_map] at this
      exact List.Pairwise.imp (fun {a b} h' => by
        have h'' : a.1.toNat < b.1.toNat := h'
        exact h'') this
    · intro x hx
      exact ((h6.mem x.1.toNat x.2).1 (List.mem_map.2 ⟨x, hx, rfl⟩)).1
    · have := isHistogram_total h6
      rw [List.map_map, List.length_map] at this
      have h7 := h5.few
      have h8 := runs_length_le h5.isRuns
      rw [hn]
      have h9 : (hist.map ((fun x : Nat × Nat => x.2) ∘ fun e : UInt32 × Nat => (e.1.toNat, e.2))) = hist.map (·.2) := rfl
      rw [h9] at this
      omega
  rw [ht]
  refine ⟨h1, isEcuTable_itemsOf hs fun ecu hst n he => ⟨hpos _ _ _ he, (hist _ _ _ he).1, (hist _ _ _ he).2.1⟩, ?_⟩
  have hlen : (itemsOf m).length ≤ 2 * (m.map fun e => e.2.2).sum := by
    clear h1 h2 h3 h4 ht hs hpos
    induction m with
    | nil => simp [itemsOf]
    | cons e m ih =>
      obtain ⟨ecu, hst, n⟩ := e
      have h1 := ih fun ecu hst n he => hist ecu hst n (List.mem_cons_of_mem _ he)
      have h2 := (hist ecu hst n (List.mem_cons_self ..)).2.2
      have h3 : itemsOf ((ecu, hst, n) :: m) = (List.replicate n (ecu, none) ++
        hst.flatMap fun x => List.replicate x.2 (ecu, some x.1)) ++ itemsOf m := by
        simp [itemsOf]
      have h4 : (hst.flatMap fun x => List.replicate x.2 (ecu, some x.1)).length = (hst.map (·.2)).sum := by
        rw [List.length_flatMap]
        simp
      rw [h3, List.length_append, List.length_append, List.length_replicate, h4, List.map_cons, List.sum_cons]
      simp only
      omega
  have h5 := messages_sum hm
  omega

theorem sum_flatten_count {α β : Type} [BEq β] (g : α → List β) (x : β) (l : List α) :
    (l.map g).flatten.count x = (l.map fun a => (g a).count x).sum := by
  induction l with
  | nil => rfl
  | cons a l ih => simp only [List.map_cons, List.flatten_cons, List.count_append, List.sum_cons, ih]

/-- **C35** `par_split_timestamp` never panics while computing and has exactly one result, whatever the schedule: a
line for each ECU of some slice, message counts and histogram entries added up over the slices. The lines, and the
durations in each line, are in order, and no duration is listed that does not occur. -/
theorem C35_par_split (bytes : Bytes) (num : Nat) (hnum : num ≠ 0) (hF : Fits bytes) :
    ∃ (slices : List Bytes) (tables : List (OrdMap B4 (OrdMap UInt32 Nat × Nat))) (m : OrdMap B4 (OrdMap UInt32 Nat × Nat)),
      partitionFrom dltStorage bytes num = .ok slices ∧
      (∀ r, ParTimestampSplit bytes num r ↔ r = .ok m) ∧
      Each (fun s t => timestampSplit s = some (.ok t)) slices tables ∧
      (m.Pairwise (fun a b => Key.lt a.1 b.1) ∧
        ∀ ecu hist n, (ecu, hist, n) ∈ m → (hist.Pairwise fun a b => a.1.toNat < b.1.toNat) ∧ ∀ x ∈ hist, 0 < x.2) ∧
      (∀ ecu, (∃ v, (ecu, v) ∈ m) ↔ ∃ t ∈ tables, ∃ v, (ecu, v) ∈ t) ∧
      ∀ ecu, msgsIn m ecu = (tables.map fun t => msgsIn t ecu).sum ∧
        ∀ d, spansIn m ecu d = (tables.map fun t => spansIn t ecu d).sum := by
  obtain ⟨rs, b, slices, -, -, -, hp, -⟩ := C30_partition_contiguous bytes hF num hnum
  obtain ⟨hlen, hfit⟩ := partition_fits hF hp
  have hpar : ∀ r, ParTimestampSplit bytes num r ↔ ParReduce timestampSplit mergeNested [] slices r := fun r => by
    unfold ParTimestampSplit; rw [hp]
  let g : Bytes → List (B4 × Option UInt32) := fun s => itemsOf (tableOfFile s)
  have hlen2 : (slices.map g).flatten.length ≤ usizeMax := by
    have := flatten_length_le (g := g) fun s hs => (timestampSplit_table (hfit s hs)).2.2
    have := fits_le hF
    unfold usizeMax
    omega
  have hrep : ∀ r, ParReduce timestampSplit mergeNested [] slices r →
      ∃ v, r = .ok v ∧ IsEcuTable (slices.map g).flatten v := fun r hr =>
    parReduce_rep (I := fun u m => IsEcuTable u m) g (N := usizeMax) isEcuTable_nil
      (fun a b u v ha hb hl => mergeNested_table ha hb (by rw [← List.length_append]; exact hl))
      hr (fun s hs => ⟨_, (timestampSplit_table (hfit s hs)).1, (timestampSplit_table (hfit s hs)).2.1⟩) hlen2
  obtain ⟨r, hr⟩ := parReduce_exists (f := timestampSplit) (op := mergeNested) (e := []) slices fun s hs => by
    rw [(timestampSplit_table (hfit s hs)).1]; simp
  obtain ⟨m, rfl, hm⟩ := hrep r hr
  refine ⟨slices, slices.map tableOfFile, m, hp, fun r' => ?_, ?_, ⟨hm.sorted, fun ecu hist n he => ⟨(hm.hist ecu hist n he).sorted,
    fun x hx => (((hm.hist ecu hist n he).mem x.1 x.2).1 hx).1⟩⟩, ?_, ?_⟩
  · rw [hpar]
    constructor
    · intro hr'
      obtain ⟨m', rfl, hm'⟩ := hrep r' hr'
      rw [isEcuTable_unique hm' hm]
    · rintro rfl; exact hr
  · exact each_map fun s hs => (timestampSplit_table (hfit s hs)).1
  · intro ecu
    rw [hm.keys]
    constructor
    · rintro ⟨x, hx, hxe⟩
      obtain ⟨l, hl, hx⟩ := List.mem_flatten.1 hx
      obtain ⟨s, hs, rfl⟩ := List.mem_map.1 hl
      exact ⟨_, List.mem_map.2 ⟨s, hs, rfl⟩, ((timestampSplit_table (hfit s hs)).2.1.keys ecu).2 ⟨x, hx, hxe⟩⟩
    · rintro ⟨t, ht, hv⟩
      obtain ⟨s, hs, rfl⟩ := List.mem_map.1 ht
      obtain ⟨x, hx, hxe⟩ := ((timestampSplit_table (hfit s hs)).2.1.keys ecu).1 hv
      exact ⟨x, List.mem_flatten.2 ⟨_, List.mem_map.2 ⟨s, hs, rfl⟩, hx⟩, hxe⟩
  · intro ecu
    have h1 := isEcuTable_counts hm ecu
    have h2 : ∀ s ∈ slices, _ := fun s hs => isEcuTable_counts (timestampSplit_table (hfit s hs)).2.1 ecu
    refine ⟨?_, fun d => ?_⟩
    · rw [h1.1, sum_flatten_count, List.map_map]
      congr 1
      exact List.map_congr_left fun s hs => (h2 s hs).1.symm
    · rw [h1.2, sum_flatten_count, List.map_map]
      congr 1
      exact List.map_congr_left fun s hs => ((h2 s hs).2 d).symm

/-! ## C34 -/

theorem sum_map_length {α : Type} (l : List (List α)) : (l.map List.length).sum = l.flatten.length := by
  rw [List.length_flatten]

/-- **C34 (partial)** on a clean file whose messages have at most 65536 bytes, and where no message straddles the end
of another: whatever the number of threads and the schedule, `par_count` returns the number of messages that start in
front of the end of the last slice; `count` returns the number of all messages. -/
theorem C34_par_count_exact_partial (segs : List (Bytes × StorageEntry)) (t : Bytes) (hc : Clean segs t)
    (hF : Fits (fileOf segs t)) (hmax : AtMost 65536 (messagesAt 0 segs))
    (hns : NoStraddle (fileOf segs t) (messagesAt 0 segs)) (num : Nat) (hnum : num ≠ 0) :
    ripCount (fileOf segs t) = some (.ok segs.length) ∧
    ∃ slices b, partitionFrom dltStorage (fileOf segs t) num = .ok slices ∧
      slices.flatten = (fileOf segs t).take b ∧ b ≤ (fileOf segs t).length ∧
      ∀ r, Multithreaded ripCount (fileOf segs t) num r ↔
        r = .ok ((messagesAt 0 segs).filter fun x => decide (x.1 < b)).length := by
  have hcount := C45_count _ hF _ (messages_fileOf hc)
  rw [List.length_map] at hcount
  refine ⟨hcount, ?_⟩
  obtain ⟨parts, b, h1, h2, h3, h4, h5⟩ := partition_clean segs t hc hF hmax hns num hnum
  refine ⟨_, b, h1, h2, h3, ?_⟩
  let F : Bytes → Nat := fun s => match ripCount s with
    | some (.ok n) => n
    | _ => 0
  have hpart : ∀ p ∈ parts, ripCount (fileOf p.1 p.2) = some (.ok p.1.length) := by
    intro p hp
    have := C45_count _ (h4 p hp).2 _ (messages_fileOf (h4 p hp).1)
    rw [List.length_map] at this
    exact this
  have hsum : ((parts.map fun p => fileOf p.1 p.2).map F).sum =
      ((messagesAt 0 segs).filter fun x => decide (x.1 < b)).length := by
    have h6 := congrArg List.length h5
    rw [List.length_map] at h6
    rw [← h6, ← sum_map_length, List.map_map, List.map_map]
    congr 1
    refine List.map_congr_left fun p hp => ?_
    simp only [Function.comp, List.length_map]
    show F (fileOf p.1 p.2) = _
    show (match ripCount (fileOf p.1 p.2) with
      | some (Res.ok n) => n
      | _ => 0) = _
    rw [hpart p hp]
  have hle : ((messagesAt 0 segs).filter fun x => decide (x.1 < b)).length ≤ usizeMax := by
    have h6 := List.length_filter_le (fun x : Nat × StorageEntry => decide (x.1 < b)) (messagesAt 0 segs)
    have h7 := (messages_length hF (messages_fileOf hc)).2
    have h8 := congrArg List.length (messagesAt_map segs 0)
    rw [List.length_map, List.length_map] at h8
    rw [List.length_map] at h7
    omega
  have := (C35_counters_sum ripCount (fileOf segs t) num hF _ h1 ripCount_total).2 F (by
    intro s hs
    obtain ⟨p, hp, rfl⟩ := List.mem_map.1 hs
    show _ = some (Res.ok (match ripCount (fileOf p.1 p.2) with
      | some (Res.ok n) => n
      | _ => 0))
    rw [hpart p hp]) (by rw [hsum]; exact hle)
  rw [hsum] at this
  exact this

/-- **C34 (partial)** in particular `par_count` is `count` whenever the slices cover the file. -/
theorem C34_par_count_partial (segs : List (Bytes × StorageEntry)) (t : Bytes) (hc : Clean segs t)
    (hF : Fits (fileOf segs t)) (hmax : AtMost 65536 (messagesAt 0 segs))
    (hns : NoStraddle (fileOf segs t) (messagesAt 0 segs)) (num : Nat) (hnum : num ≠ 0) (slices : List Bytes)
    (hp : partitionFrom dltStorage (fileOf segs t) num = .ok slices) (hcover : slices.flatten = fileOf segs t) (r : Res Nat) :
    Multithreaded ripCount (fileOf segs t) num r ↔ some r = ripCount (fileOf segs t) := by
  obtain ⟨h0, slices', b, h1, h2, h3, h4⟩ := C34_par_count_exact_partial segs t hc hF hmax hns num hnum
  rw [hp] at h1
  cases h1
  have hb : b = (fileOf segs t).length := by
    have := congrArg List.length (hcover.symm.trans h2)
    rw [List.length_take] at this
    omega
  rw [h4, h0, Option.some.injEq, List.filter_eq_self.2]
  · have h8 := congrArg List.length (messagesAt_map segs 0)
    rw [List.length_map, List.length_map] at h8
    rw [h8]
  · intro x hx
    have h9 := messagesAt_end segs t 0 x hx
    have := encode_pos x.2
    simp only [decide_eq_true_eq]
    omega

/-- **C34 (partial)** which is the case for every file that is large against the square of the number of threads. -/
theorem C34_par_count_large_partial (segs : List (Bytes × StorageEntry)) (t : Bytes) (hc : Clean segs t)
    (hF : Fits (fileOf segs t)) (hmax : AtMost 65536 (messagesAt 0 segs))
    (hns : NoStraddle (fileOf segs t) (messagesAt 0 segs)) (num : Nat) (hnum : num ≠ 0)
    (hsize : (fileOf segs t).length % num + num * 65535 ≤ (fileOf segs t).length / num / 4) (r : Res Nat) :
    Multithreaded ripCount (fileOf segs t) num r ↔ some r = ripCount (fileOf segs t) := by
  obtain ⟨slices, h1, -, h2⟩ := C33_large_files_partial (fileOf segs t) hF num hnum hsize
  exact C34_par_count_partial segs t hc hF hmax hns num hnum slices h1 h2 r

/-- **C34 (violated)** five messages, two threads: every schedule counts four. -/
theorem C34_par_count_wrong : ripCount (packed five) = some (.ok 5) ∧
    ∀ r, Multithreaded ripCount (packed five) 2 r ↔ r = .ok 4 := by
  have hcl := clean_packed five_wf
  have hmx : AtMost 65536 (messagesAt 0 (five.map fun e => (([] : Bytes), e))) := by
    rw [messagesAt_packed]; exact five_max
  have hF := five_fits
  have hns : NoStraddle (fileOf (five.map fun e => (([] : Bytes), e)) []) (messagesAt 0 (five.map fun e => (([] : Bytes), e))) := by
    rw [messagesAt_packed, fileOf_packed]; exact noStraddle_packed five_wf
  rw [← fileOf_packed] at hF
  obtain ⟨h0, slices, b, h1, h2, h3, h4⟩ := C34_par_count_exact_partial _ [] hcl hF hmx hns 2 (by decide)
  rw [fileOf_packed] at h0 h1 h2 h3 h4
  refine ⟨h0, fun r => ?_⟩
  have h5 := partitionFrom_of_ranges C31_partition_drops_the_tail
  rw [h1] at h5
  simp only [Res.ok.injEq] at h5
  have hb : b = 80 := by
    have := congrArg List.length h2
    rw [h5, List.length_take] at this
    simp only [List.map_cons, List.map_nil, List.flatten_cons, List.flatten_nil, List.length_append, List.length_nil,
      List.length_drop, List.length_take, five_len] at this
    rw [five_len] at h3
    omega
  rw [h4, hb, messagesAt_packed, five_at]
  have : ([(0, msg0), (20, msg0), (40, msg0), (60, msg0), (80, msg0)].filter fun x : Nat × StorageEntry => decide (x.1 < 80)).length = 4 := by
    decide
  rw [this]

/-! ## C36 -/

theorem maximalRuns_append {α : Type} {R : α → α → Prop} {xs ys : List α} {r1 r2 : List (List α)}
    (h1 : MaximalRuns R xs r1) (h2 : MaximalRuns R ys r2)
    (hb : ∀ a b, xs.getLast? = some a → ys.head? = some b → ¬ R a b) : MaximalRuns R (xs ++ ys) (r1 ++ r2) where
  flatten := by rw [List.flatten_append, h1.flatten, h2.flatten]
  nonempty r hr := by
    rcases List.mem_append.1 hr with hr | hr
    · exact h1.nonempty r hr
    · exact h2.nonempty r hr
  related r hr := by
    rcases List.mem_append.1 hr with hr | hr
    · exact h1.related r hr
    · exact h2.related r hr
  maximal i r r' a b hr hr' ha hb' := by
    by_cases hi : i + 1 < r1.length
    · rw [List.getElem?_append_left (by omega)] at hr
      rw [List.getElem?_append_left hi] at hr'
      exact h1.maximal i r r' a b hr hr' ha hb'
    · by_cases hi2 : i < r1.length
      · rw [List.getElem?_append_left hi2] at hr
        rw [List.getElem?_append_right (by omega), show i + 1 - r1.length = 0 by omega] at hr'
        refine hb a b ?_ ?_
        · have hlast : r1.getLast? = some r := by
            rw [List.getLast?_eq_getElem?, show r1.length - 1 = i by omega]; exact hr
          obtain ⟨l, rfl⟩ : ∃ l, r1 = l ++ [r] := by
            have hne : r1 ≠ [] := by rintro rfl; simp at hi2
            refine ⟨r1.dropLast, ?_⟩
            rw [List.getLast?_eq_some_getLast hne, Option.some.injEq] at hlast
            rw [← hlast]; exact (List.dropLast_concat_getLast hne).symm
          rw [← h1.flatten, List.flatten_append, List.flatten_cons, List.flatten_nil, List.append_nil,
            List.getLast?_append, ha]
          rfl
        · obtain ⟨l, rfl⟩ : ∃ l, r2 = r' :: l := by
            cases r2 with
            | nil => simp at hr'
            | cons x l => simp at hr'; exact ⟨l, by rw [hr']⟩
          rw [← h2.flatten, List.flatten_cons, List.head?_append, hb']
          rfl
      · rw [List.getElem?_append_right (by omega)] at hr
        rw [List.getElem?_append_right (by omega), show i + 1 - r1.length = i - r1.length + 1 by omega] at hr'
        exact h2.maximal _ r r' a b hr hr' ha hb'

/-- The runs of a list cut at places where a run ends anyway are the runs of the pieces. -/
theorem runs_of_pieces (mss : List (List StorageEntry))
    (hb : ∀ pre post a b, mss = pre ++ post → pre.flatten.getLast? = some a → post.flatten.head? = some b →
      secsOf b < secsOf a) :
    MaximalRuns (fun a b => secsOf a ≤ secsOf b) mss.flatten
      (mss.map (runsL fun a b : StorageEntry => decide (a.secs ≤ b.secs))).flatten := by
  induction mss with
  | nil => exact ⟨rfl, by simp, by simp, by simp⟩
  | cons ms mss ih =>
    rw [List.map_cons, List.flatten_cons, List.flatten_cons]
    refine maximalRuns_append (secs_runs ms) (ih fun pre post a b he ha hb' => ?_) fun a b ha hb' => ?_
    · refine hb (ms :: pre) post a b (by rw [he]; rfl) ?_ hb'
      rw [List.flatten_cons, List.getLast?_append, ha]; rfl
    · have := hb [ms] mss a b rfl (by rw [List.flatten_cons, List.flatten_nil, List.append_nil]; exact ha) hb'
      omega

theorem each_messages {slices : List Bytes} (hfit : ∀ s ∈ slices, Fits s) : ∃ mss, Each Messages slices mss := by
  induction slices with
  | nil => exact ⟨[], trivial⟩
  | cons s l ih =>
    obtain ⟨msgs, hm, -⟩ := messages_of_file s (hfit s (List.mem_cons_self ..))
    obtain ⟨mss, h⟩ := ih fun s hs => hfit s (List.mem_cons_of_mem _ hs)
    exact ⟨msgs :: mss, hm, h⟩

theorem runss_of_messages : ∀ {slices : List Bytes} {mss : List (List StorageEntry)} {runss : List (List (List StorageEntry))},
    Each Messages slices mss →
    Each (fun s runs => ∃ msgs, Messages s msgs ∧ MaximalRuns (fun a b => secsOf a ≤ secsOf b) msgs runs) slices runss →
    runss = mss.map (runsL fun a b : StorageEntry => decide (a.secs ≤ b.secs))
  | [], [], [], _, _ => rfl
  | [], [], _ :: _, _, h => h.elim
  | [], _ :: _, _, h, _ => h.elim
  | _ :: _, [], _, h, _ => h.elim
  | _ :: _, _ :: _, [], _, h => h.elim
  | s :: slices, ms :: mss, runs :: runss, h1, h2 => by
    obtain ⟨msgs, h3, h4⟩ := h2.1
    rw [List.map_cons, ← runss_of_messages h1.2 h2.2, messages_unique h1.1 h3, ← secs_runs_unique h4]

theorem messages_parts : ∀ {parts : List (List (Bytes × StorageEntry) × Bytes)} {mss : List (List StorageEntry)},
    (∀ p ∈ parts, Clean p.1 p.2) → Each Messages (parts.map fun p => fileOf p.1 p.2) mss →
    mss = parts.map fun p => p.1.map (·.2)
  | [], [], _, _ => rfl
  | [], _ :: _, _, h => h.elim
  | _ :: _, [], _, h => h.elim
  | p :: parts, ms :: mss, hc, h => by
    rw [List.map_cons, ← messages_parts (fun p hp => hc p (List.mem_cons_of_mem _ hp)) h.2,
      messages_unique h.1 (messages_fileOf (hc p (List.mem_cons_self ..)))]

/-- The messages of the slices of a clean file that lose nothing are the messages of the file. -/
theorem slices_messages (segs : List (Bytes × StorageEntry)) (t : Bytes) (hc : Clean segs t)
    (hF : Fits (fileOf segs t)) (hmax : AtMost 65536 (messagesAt 0 segs))
    (hns : NoStraddle (fileOf segs t) (messagesAt 0 segs)) (num : Nat) (hnum : num ≠ 0) (slices : List Bytes)
    (hp : partitionFrom dltStorage (fileOf segs t) num = .ok slices) (hcover : slices.flatten = fileOf segs t)
    (mss : List (List StorageEntry)) (hm : Each Messages slices mss) : mss.flatten = segs.map (·.2) := by
  obtain ⟨parts, b, h1, h2, h3, h4, h5⟩ := partition_clean segs t hc hF hmax hns num hnum
  rw [hp] at h1
  cases h1
  have hb : b = (fileOf segs t).length := by
    have := congrArg List.length (hcover.symm.trans h2)
    rw [List.length_take] at this
    omega
  rw [messages_parts (fun p hp => (h4 p hp).1) hm, h5, List.filter_eq_self.2, messagesAt_map]
  intro x hx
  have h9 := messagesAt_end segs t 0 x hx
  have := encode_pos x.2
  simp only [decide_eq_true_eq]
  omega

/-- **C36 (partial)** on a clean file whose slices lose nothing, `par_histogram_timestamp` is `histogram_timestamp` if the
seconds decrease from the last message in front of each cut to the first behind it. Missing, and false: cuts inside a
run (`C36_par_histogram_differs`). -/
theorem C36_par_histogram_partial (segs : List (Bytes × StorageEntry)) (t : Bytes) (hc : Clean segs t)
    (hF : Fits (fileOf segs t)) (hmax : AtMost 65536 (messagesAt 0 segs))
    (hns : NoStraddle (fileOf segs t) (messagesAt 0 segs)) (num : Nat) (hnum : num ≠ 0) (slices : List Bytes)
    (hp : partitionFrom dltStorage (fileOf segs t) num = .ok slices) (hcover : slices.flatten = fileOf segs t)
    (mss : List (List StorageEntry)) (hm : Each Messages slices mss)
    (hcuts : ∀ pre post a b, mss = pre ++ post → pre.flatten.getLast? = some a → post.flatten.head? = some b →
      secsOf b < secsOf a) (r : Res (OrdMap Nat Nat)) :
    ParTimestampHistogram (fileOf segs t) num r ↔ some r = timestampHistogram (fileOf segs t) := by
  obtain ⟨slices', runss, m, h1, h2, h3, h4⟩ := C35_par_histogram (fileOf segs t) num hnum hF
  rw [hp] at h1
  cases h1
  obtain ⟨m', h5, h6⟩ := timestampHistogram_runs hF
  rw [runsOfFile_eq hF (messages_fileOf hc), ← slices_messages segs t hc hF hmax hns num hnum slices hp hcover mss hm,
    ← secs_runs_unique (runs_of_pieces mss hcuts), ← runss_of_messages hm h3] at h6
  rw [h2, h5, isHistogram_unique h6 h4, Option.some.injEq]

theorem msgsIn_seq {s : Bytes} (h : Fits s) {msgs : List StorageEntry} (hm : Messages s msgs) (ecu : B4) {tab}
    (ht : timestampSplit s = some (.ok tab)) :
    msgsIn tab ecu = (ofEcu ecu msgs).length ∧ ((∃ v, (ecu, v) ∈ tab) ↔ ∃ e ∈ msgs, e.storageHeader.ecu = ecu) := by
  obtain ⟨m, h1, h2, h3, h4⟩ := C47_split_timestamp s h msgs hm
  rw [ht] at h1
  cases h1
  have hs : OrdMap.Sorted (tab.map fun e => (e.1, e.2.2)) := h2.sorted
  have hi := isHistogram_iff.1 h2
  refine ⟨?_, ?_⟩
  · rw [msgsIn_tot, tot_sorted hs, hi.2.2, count_map_eq]
    rfl
  · constructor
    · rintro ⟨v, hv⟩
      have := (h2.mem ecu v.2).1 (List.mem_map.2 ⟨_, hv, rfl⟩)
      have h5 := List.count_pos_iff.1 (this.2 ▸ this.1)
      obtain ⟨e, he, heq⟩ := List.mem_map.1 h5
      exact ⟨e, he, heq⟩
    · rintro ⟨e, he, heq⟩
      have h5 : 0 < (msgs.map fun e => e.storageHeader.ecu).count ecu :=
        List.count_pos_iff.2 (List.mem_map.2 ⟨e, he, heq⟩)
      obtain ⟨x, hx, h6⟩ := List.mem_map.1 ((h2.mem ecu _).2 ⟨h5, rfl⟩)
      simp only [Prod.mk.injEq] at h6
      exact ⟨x.2, by rw [← h6.1]; exact hx⟩

theorem tables_messages (ecu : B4) : ∀ {slices : List Bytes} {mss : List (List StorageEntry)} {tables},
    (∀ s ∈ slices, Fits s) → Each Messages slices mss → Each (fun s t => timestampSplit s = some (.ok t)) slices tables →
    (tables.map fun t => msgsIn t ecu).sum = (ofEcu ecu mss.flatten).length ∧
    ((∃ t ∈ tables, ∃ v, (ecu, v) ∈ t) ↔ ∃ e ∈ mss.flatten, e.storageHeader.ecu = ecu)
  | [], [], [], _, _, _ => by simp [ofEcu]
  | [], [], _ :: _, _, _, h => h.elim
  | [], _ :: _, _, _, h, _ => h.elim
  | _ :: _, [], _, _, h, _ => h.elim
  | _ :: _, _ :: _, [], _, _, h => h.elim
  | s :: slices, ms :: mss, tab :: tables, hf, h1, h2 => by
    have h3 := msgsIn_seq (hf s (List.mem_cons_self ..)) h1.1 ecu h2.1
    have h4 := tables_messages ecu (fun s hs => hf s (List.mem_cons_of_mem _ hs)) h1.2 h2.2
    refine ⟨?_, ?_⟩
    · rw [List.map_cons, List.sum_cons, h3.1, h4.1, List.flatten_cons]
      unfold ofEcu
      rw [List.filter_append, List.length_append]
    · rw [List.flatten_cons]
      constructor
      · rintro ⟨t, ht, hv⟩
        rcases List.mem_cons.1 ht with rfl | ht
        · obtain ⟨e, he, heq⟩ := h3.2.1 hv
          exact ⟨e, List.mem_append_left _ he, heq⟩
        · obtain ⟨e, he, heq⟩ := h4.2.1 ⟨t, ht, hv⟩
          exact ⟨e, List.mem_append_right _ he, heq⟩
      · rintro ⟨e, he, heq⟩
        rcases List.mem_append.1 he with he | he
        · exact ⟨tab, List.mem_cons_self .., h3.2.2 ⟨e, he, heq⟩⟩
        · obtain ⟨t, ht, hv⟩ := h4.2.2 ⟨e, he, heq⟩
          exact ⟨t, List.mem_cons_of_mem _ ht, hv⟩

/-- **C36 (partial)** on a clean file whose slices lose nothing, `par_split_timestamp` has a line for the same ECUs as
`split_timestamp`, with the same numbers of messages. Missing, and false: the durations (`C36_par_histogram_differs`). -/
theorem C36_par_split_counts_partial (segs : List (Bytes × StorageEntry)) (t : Bytes) (hc : Clean segs t)
    (hF : Fits (fileOf segs t)) (hmax : AtMost 65536 (messagesAt 0 segs))
    (hns : NoStraddle (fileOf segs t) (messagesAt 0 segs)) (num : Nat) (hnum : num ≠ 0) (slices : List Bytes)
    (hp : partitionFrom dltStorage (fileOf segs t) num = .ok slices) (hcover : slices.flatten = fileOf segs t) :
    ∃ m m', (∀ r, ParTimestampSplit (fileOf segs t) num r ↔ r = .ok m) ∧ timestampSplit (fileOf segs t) = some (.ok m') ∧
      ∀ ecu, ((∃ v, (ecu, v) ∈ m) ↔ ∃ v, (ecu, v) ∈ m') ∧ msgsIn m ecu = msgsIn m' ecu := by
  obtain ⟨slices', tables, m, h1, h2, h3, h4, h5, h6⟩ := C35_par_split (fileOf segs t) num hnum hF
  rw [hp] at h1
  cases h1
  have hfit := (partition_fits hF hp).2
  obtain ⟨mss, hm⟩ := each_messages hfit
  have hmsgs := slices_messages segs t hc hF hmax hns num hnum slices hp hcover mss hm
  have hseq := timestampSplit_table hF
  refine ⟨m, _, h2, hseq.1, fun ecu => ?_⟩
  have h7 := tables_messages ecu hfit hm h3
  have h8 := msgsIn_seq hF (messages_fileOf hc) ecu hseq.1
  rw [hmsgs] at h7
  exact ⟨by rw [h5, h7.2, h8.2], by rw [(h6 ecu).1, h7.1, h8.1]⟩

/-! ### Four messages in two slices -/

/-- Four messages of 20 bytes, stored at the given seconds. -/
def four (a b c d : UInt32) : List StorageEntry := [secMsg a, secMsg b, secMsg c, secMsg d]

theorem secMsg_wf (s : UInt32) : WF (secMsg s) := ⟨rfl, rfl⟩

theorem four_wf (a b c d : UInt32) : ∀ e ∈ four a b c d, WF e := by
  intro e he
  simp only [four, List.mem_cons, List.not_mem_nil, or_false] at he
  rcases he with rfl | rfl | rfl | rfl <;> exact secMsg_wf _

theorem secMsg_length (s : UInt32) : (encode (secMsg s)).length = 20 := rfl

theorem four_at (a b c d : UInt32) : packedAt 0 (four a b c d) = [(0, secMsg a), (20, secMsg b), (40, secMsg c), (60, secMsg d)] := rfl

theorem four_max (a b c d : UInt32) : AtMost 65536 (packedAt 0 (four a b c d)) := by
  intro x hx
  simp only [four_at, List.mem_cons, List.not_mem_nil, or_false] at hx
  rcases hx with rfl | rfl | rfl | rfl <;> show 20 ≤ 65536 <;> decide

theorem four_len (a b c d : UInt32) : (packed (four a b c d)).length = 80 := rfl
theorem four_fits (a b c d : UInt32) : Fits (packed (four a b c d)) := by unfold Fits; rw [four_len]; decide

theorem four_ranges (a b c d : UInt32) : partitionRanges dltStorage (packed (four a b c d)) 2 = .ok [(0, 40), (40, 80)] := by
  rw [partitionRanges_pos (by decide), four_len, show 80 / 2 = 40 from rfl]
  have hl := four_len a b c d
  have hc : containedBy dltStorage (packed (four a b c d)) 40 (40 + 1) = .ok none := by
    refine containedBy_packed_none (four_wf a b c d) (four_fits a b c d) (four_max a b c d) (by rw [four_len]; decide) ?_
    intro x hx hin
    have h1 := hin.1
    have h2 := hin.2
    simp only [four_at, List.mem_cons, List.not_mem_nil, or_false] at hx
    rcases hx with rfl | rfl | rfl | rfl <;> simp only [secMsg_length] at h1 h2 <;> omega
  refine partitionLoop_cut _ (c := 40) hc rfl (by omega) (by omega) (by omega) (by omega) ?_
  have hc2 : containedBy dltStorage (packed (four a b c d)) 80 (80 + 1) = .ok none := by
    rw [containedBy_unfold, if_pos (Or.inl (by rw [four_len]; decide))]
  exact partitionLoop_last _ (c := 80) hc2 rfl (by omega) (by omega) (by omega) (by omega)

/-- The slices of the four messages: two each, nothing lost. -/
theorem four_slices (a b c d : UInt32) :
    partitionFrom dltStorage (packed (four a b c d)) 2 = .ok [packed [secMsg a, secMsg b], packed [secMsg c, secMsg d]] ∧
    [packed [secMsg a, secMsg b], packed [secMsg c, secMsg d]].flatten = packed (four a b c d) := by
  rw [partitionFrom_of_ranges (four_ranges a b c d)]
  exact ⟨rfl, rfl⟩

theorem messages_packed {es : List StorageEntry} (hw : ∀ e ∈ es, WF e) : Messages (packed es) es := by
  have := messages_fileOf (clean_packed hw)
  rw [fileOf_packed, List.map_map] at this
  have h2 : es.map ((fun x : Bytes × StorageEntry => x.2) ∘ fun e => (([] : Bytes), e)) = es := List.map_id es
  rw [h2] at this
  exact this

theorem four_messages (a b c d : UInt32) : Each Messages [packed [secMsg a, secMsg b], packed [secMsg c, secMsg d]]
    [[secMsg a, secMsg b], [secMsg c, secMsg d]] := by
  refine ⟨messages_packed ?_, messages_packed ?_, trivial⟩ <;>
  · intro e he
    simp only [List.mem_cons, List.not_mem_nil, or_false] at he
    rcases he with rfl | rfl <;> exact secMsg_wf _

theorem hist_zeros (n : Nat) (h : 0 < n) : IsHistogram (List.replicate n 0) [(0, n)] := by
  refine isHistogram_iff.2 ⟨by unfold OrdMap.Sorted; simp, by simp [h], fun k => ?_⟩
  rcases Nat.eq_zero_or_pos k with rfl | hk
  · rw [List.count_replicate_self]; rfl
  · rw [List.count_eq_zero.2 (by simp; omega)]
    unfold cnt
    rw [OrdMap.get, if_neg (by show ¬ k < 0; omega), if_pos (by show 0 < k; omega)]
    rfl

/-- **C36 (violated)** four messages stored in the same second, two threads, nothing lost: `histogram_timestamp`
reports one run, `par_histogram_timestamp` two. -/
theorem C36_par_histogram_differs : timestampHistogram (packed (four 7 7 7 7)) = some (.ok [(0, 1)]) ∧
    ∀ r, ParTimestampHistogram (packed (four 7 7 7 7)) 2 r ↔ r = .ok [(0, 2)] := by
  constructor
  · obtain ⟨m, h1, h2⟩ := timestampHistogram_runs (four_fits 7 7 7 7)
    rw [runsOfFile_eq (four_fits 7 7 7 7) (messages_packed (four_wf 7 7 7 7))] at h2
    have : (runsL (fun a b : StorageEntry => decide (a.secs ≤ b.secs)) (four 7 7 7 7)).map secSpanOf = List.replicate 1 0 := by
      decide
    rw [this] at h2
    rw [h1, isHistogram_unique h2 (hist_zeros 1 (by decide))]
  · obtain ⟨slices, runss, m, h1, h2, h3, h4⟩ := C35_par_histogram (packed (four 7 7 7 7)) 2 (by decide) (four_fits 7 7 7 7)
    rw [(four_slices 7 7 7 7).1] at h1
    cases h1
    rw [runss_of_messages (four_messages 7 7 7 7) h3] at h4
    have : (([[secMsg 7, secMsg 7], [secMsg 7, secMsg 7]].map
        (runsL fun a b : StorageEntry => decide (a.secs ≤ b.secs))).flatten).map secSpanOf = List.replicate 2 0 := by
      decide
    rw [this] at h4
    intro r
    rw [h2, isHistogram_unique h4 (hist_zeros 2 (by decide))]

/-- The hypotheses of the partial theorems are met by four messages whose seconds decrease at the cut; so both
histograms agree. -/
example : ∀ r, ParTimestampHistogram (packed (four 5 9 1 2)) 2 r ↔ some r = timestampHistogram (packed (four 5 9 1 2)) := by
  have hw := four_wf 5 9 1 2
  have hF := four_fits 5 9 1 2
  have hmx := four_max 5 9 1 2
  have hns := noStraddle_packed hw
  have hsl := four_slices 5 9 1 2
  rw [← fileOf_packed] at hF hns hsl
  rw [← messagesAt_packed] at hmx hns
  intro r
  rw [← fileOf_packed]
  refine C36_par_histogram_partial _ [] (clean_packed hw) hF hmx hns 2 (by decide) _ hsl.1 hsl.2 _ (four_messages 5 9 1 2) ?_ r
  intro pre post a b h ha hb
  rcases pre with _ | ⟨p1, _ | ⟨p2, _ | ⟨p3, pre⟩⟩⟩
  · simp at ha
  · simp only [List.cons_append, List.nil_append, List.cons.injEq] at h
    obtain ⟨rfl, rfl⟩ := h
    simp at ha hb
    subst ha; subst hb
    decide
  · simp only [List.cons_append, List.nil_append, List.cons.injEq] at h
    obtain ⟨rfl, rfl, rfl⟩ := h
    simp at hb
  · simp at h

end Verif
