import Verif.Props.Text

/-!
# C128: one core, and more cores than bytes

With one thread the multithreaded commands report what the sequential commands report. With more threads than the file has
bytes the length of a slice is zero: no slice is made and every multithreaded command reports nothing, whatever is in the
file.
-/

set_option linter.unusedSimpArgs false

namespace Verif

open Spec

section
variable {T : Type}

theorem containedBy_at_end (S : SearchableMarker T) (bytes : Bytes) {p0 p1 : Nat} (h : p0 ≥ bytes.length) :
    containedBy S bytes p0 p1 = .ok none := by
  unfold containedBy
  rw [if_pos (.inl h)]

theorem containedBy_at_start (S : SearchableMarker T) (bytes : Bytes) (p1 : Nat) : containedBy S bytes 0 p1 = .ok none := by
  unfold containedBy
  split
  · rfl
  · rename_i h
    have h0 : sliceFrom bytes (0 - S.maxLen) = .ok bytes := by
      unfold sliceFrom
      rw [Nat.zero_sub, if_pos (Nat.zero_le _), List.drop_zero]
    simp only [h0]
    cases (findIter S.marker bytes).map (· + (0 - S.maxLen)) with
    | nil => unfold containedByLoop; rfl
    | cons c cs => unfold containedByLoop; rw [dif_pos (Nat.zero_le c)]

/-- **C128** one partition of bytes that are not empty: the bytes, for every type of message. -/
theorem C128_one_slice (S : SearchableMarker T) (bytes : Bytes) (h : bytes ≠ []) : partitionFrom S bytes 1 = .ok [bytes] := by
  have hl : 0 < bytes.length := List.length_pos_iff.2 h
  have hr : partitionRanges S bytes 1 = .ok [(0, bytes.length)] := by
    unfold partitionRanges
    rw [if_neg (by decide)]
    simp only [Nat.div_one]
    unfold partitionLoop
    rw [if_neg (by omega), containedBy_at_end S bytes (Nat.le_refl _)]
    simp only
    rw [dif_neg (by omega), dif_pos (by omega)]
    rfl
  unfold partitionFrom
  rw [hr]
  simp

/-- **C128** more partitions than bytes: none, for every type of message. -/
theorem C128_no_slice (S : SearchableMarker T) (bytes : Bytes) (num : Nat) (h : bytes.length < num) :
    partitionFrom S bytes num = .ok [] := by
  have hr : partitionRanges S bytes num = .ok [] := by
    unfold partitionRanges
    rw [if_neg (by omega)]
    simp only [Nat.div_eq_of_lt h]
    unfold partitionLoop
    rw [if_neg (by omega), containedBy_at_start]
    simp only
    rw [dif_pos (Nat.le_refl _)]
  unfold partitionFrom
  rw [hr]
  rfl

end

theorem append_one {α : Type} {xs ys : List α} {s : α} (h : xs ++ ys = [s]) : (xs = [] ∧ ys = [s]) ∨ (xs = [s] ∧ ys = []) := by
  cases xs with
  | nil => exact .inl ⟨rfl, h⟩
  | cons x xs =>
    cases h' : xs with
    | nil => subst h'; cases ys with
      | nil => exact .inr ⟨h, rfl⟩
      | cons => simp at h
    | cons => subst h'; simp at h

section
variable {β ρ : Type} {f : β → Option (Res ρ)} {op : ρ → ρ → Res ρ} {e : ρ}

theorem parReduce_nil (he : op e e = .ok e) {xs : List β} {r : Res ρ} (h : ParReduce f op e xs r) (hx : xs = []) : r = .ok e := by
  induction h with
  | leaf h => subst hx; exact (Option.some.inj h).symm
  | node _ _ ih1 ih2 =>
    obtain ⟨h1, h2⟩ := List.append_eq_nil_iff.1 hx
    cases ih1 h1; cases ih2 h2; exact he
  | panicL _ _ ih1 _ => cases ih1 (List.append_eq_nil_iff.1 hx).1
  | panicR _ _ _ ih2 => cases ih2 (List.append_eq_nil_iff.1 hx).2

/-- Reducing one value with an identity gives the value. -/
theorem parReduce_one (he : op e e = .ok e) {s : β} {v : ρ} (hf : f s = some (.ok v)) (hl : op e v = .ok v) (hr : op v e = .ok v)
    {xs : List β} {r : Res ρ} (h : ParReduce f op e xs r) (hx : xs = [s]) : r = .ok v := by
  induction h with
  | leaf h =>
    subst hx
    simp only [parLeaf, hf, hl] at h
    exact (Option.some.inj h).symm
  | node h1 h2 ih1 ih2 =>
    rcases append_one hx with ⟨rfl, rfl⟩ | ⟨rfl, rfl⟩
    · cases ih2 rfl; cases parReduce_nil he h1 rfl; exact hl
    · cases ih1 rfl; cases parReduce_nil he h2 rfl; exact hr
  | panicL h1 _ ih1 _ =>
    rcases append_one hx with ⟨rfl, rfl⟩ | ⟨rfl, rfl⟩
    · cases parReduce_nil he h1 rfl
    · cases ih1 rfl
  | panicR _ h2 _ ih2 =>
    rcases append_one hx with ⟨rfl, rfl⟩ | ⟨rfl, rfl⟩
    · cases ih2 rfl
    · cases parReduce_nil he h2 rfl

theorem parReduce_one_iff (he : op e e = .ok e) {s : β} (hf : f s ≠ none)
    (hid : ∀ v, f s = some (.ok v) → op e v = .ok v ∧ op v e = .ok v) (r : Res ρ) :
    ParReduce f op e [s] r ↔ f s = some r := by
  cases h : f s with
  | none => exact absurd h hf
  | some q =>
    have hleaf : ParReduce f op e [s] q := by
      refine .leaf ?_
      cases q with
      | panic => simp only [parLeaf, h]
      | ok v => simp only [parLeaf, h, (hid v h).1]
    rw [Option.some.injEq]
    constructor
    · intro hr
      cases q with
      | panic => exact (parReduce_panic hr (List.mem_singleton.2 rfl) h).symm
      | ok v => exact (parReduce_one he h (hid v h).1 (hid v h).2 hr rfl).symm
    · rintro rfl; exact hleaf

theorem parReduce_nil_iff (he : op e e = .ok e) (r : Res ρ) : ParReduce f op e [] r ↔ r = .ok e :=
  ⟨fun h => parReduce_nil he h rfl, fun h => h ▸ .leaf rfl⟩

end

/-! ## The commands -/

theorem one_sum {f : Bytes → Option (Res Nat)} {bytes : Bytes} (hF : Fits bytes) (ht : f bytes ≠ none)
    (hle : ∀ n, f bytes = some (.ok n) → n ≤ bytes.length) (hne : bytes ≠ []) (q : Res Nat) :
    Multithreaded f bytes 1 q ↔ f bytes = some q := by
  unfold Multithreaded
  rw [C128_one_slice dltStorage bytes hne]
  refine parReduce_one_iff rfl ht (fun v hv => ?_) q
  have h1 := hle v hv
  have h2 := fits_le hF
  have h3 : v ≤ usizeMax := by unfold usizeMax; omega
  unfold uadd
  rw [Nat.zero_add, Nat.add_zero, if_pos h3]
  exact ⟨rfl, rfl⟩

theorem one_histogram {bytes : Bytes} (hF : Fits bytes) (hne : bytes ≠ []) (q : Res (OrdMap Nat Nat)) :
    ParTimestampHistogram bytes 1 q ↔ timestampHistogram bytes = some q := by
  unfold ParTimestampHistogram
  rw [C128_one_slice dltStorage bytes hne]
  obtain ⟨m, h1, h2⟩ := timestampHistogram_runs hF
  have hl : ((runsOfFile bytes).map secSpanOf).length ≤ usizeMax := by
    rw [List.length_map]
    have h3 := runsOfFile_length hF
    have h4 := fits_le hF
    unfold usizeMax; omega
  refine parReduce_one_iff rfl (by rw [h1]; simp) (fun v hv => ?_) q
  rw [h1] at hv
  cases hv
  obtain ⟨a, ha, ha'⟩ := mergeCounts_hist (isHistogram_nil (κ := Nat)) h2 (by simpa using hl)
  obtain ⟨b, hb, hb'⟩ := mergeCounts_hist h2 (isHistogram_nil (κ := Nat)) (by simpa using hl)
  rw [List.nil_append] at ha'
  rw [List.append_nil] at hb'
  rw [isHistogram_unique ha' h2] at ha
  rw [isHistogram_unique hb' h2] at hb
  exact ⟨ha, hb⟩

theorem one_split {bytes : Bytes} (hF : Fits bytes) (hne : bytes ≠ []) (q : Res (OrdMap B4 (OrdMap UInt32 Nat × Nat))) :
    ParTimestampSplit bytes 1 q ↔ timestampSplit bytes = some q := by
  unfold ParTimestampSplit
  rw [C128_one_slice dltStorage bytes hne]
  obtain ⟨h1, h2, h3⟩ := timestampSplit_table hF
  have hl : (itemsOf (tableOfFile bytes)).length ≤ usizeMax := by
    have h4 := fits_le hF
    unfold usizeMax; omega
  refine parReduce_one_iff rfl (by rw [h1]; simp) (fun v hv => ?_) q
  rw [h1] at hv
  cases hv
  obtain ⟨a, ha, ha'⟩ := mergeNested_table isEcuTable_nil h2 (by simpa using hl)
  obtain ⟨b, hb, hb'⟩ := mergeNested_table h2 isEcuTable_nil (by simpa using hl)
  rw [List.nil_append] at ha'
  rw [List.append_nil] at hb'
  rw [isEcuTable_unique ha' h2] at ha
  rw [isEcuTable_unique hb' h2] at hb
  exact ⟨ha, hb⟩

theorem hist_empty {κ : Type} [Key κ] [DecidableEq κ] {m : List (κ × Nat)} (h : IsHistogram ([] : List κ) m) : m = [] :=
  isHistogram_unique h isHistogram_nil

/-- **C128** a sequential command on an empty file reports nothing. -/
theorem C128_empty_sequential (num : Nat) (c : Cmd) (hc : sequential c = true) (r : Res Report) :
    RunCmd num [] c r ↔ r = .ok (blank c) := by
  have hF : Fits [] := by decide
  obtain ⟨msgs, hm, -⟩ := messages_of_file [] hF
  obtain rfl : msgs = [] := List.length_eq_zero_iff.1 (Nat.le_zero.1 (messages_length hF hm).1)
  have hn : ¬ Panics [] c := by cases c <;> simp [Panics, timed]
  obtain ⟨rep, h1, h2⟩ := C68_sequential_prints num [] hF [] hm c hc hn
  rw [h2]
  suffices h : rep = blank c by rw [h]
  have hruns : ∀ {R : StorageEntry → StorageEntry → Prop} {runs : List (List StorageEntry)}, MaximalRuns R [] runs → runs = [] :=
    fun h => List.length_eq_zero_iff.1 (Nat.le_zero.1 (runs_length_le h))
  have hits0 : ∀ {hits : List (Nat × StorageEntry)}, (∀ x ∈ hits, MsgAt [] x.1 x.2 ∧ SaysHello x.2) → hits = [] := fun h => by
    refine List.eq_nil_iff_forall_not_mem.2 fun x hx => ?_
    have h3 := (readableAt_iff_msgAt.2 (h x hx).1).bounds dlt_lawful
    simp at h3
    omega
  cases c <;> first | (exact absurd hc (by decide)) | skip
  all_goals cases rep <;> first | exact h1.elim | skip
  case histogramLifecycles =>
    obtain ⟨runs, m, a, b, rfl⟩ := h1
    obtain rfl := hruns a
    rw [hist_empty b]; rfl
  case histogramTimestamp =>
    obtain ⟨runs, m, a, b, rfl⟩ := h1
    obtain rfl := hruns a
    rw [hist_empty b]; rfl
  case splitLifecycles =>
    obtain ⟨m, a, -, rfl⟩ := h1
    rw [List.map_eq_nil_iff.1 (hist_empty a)]; rfl
  case splitTimestamp =>
    obtain ⟨m, a, -, rfl⟩ := h1
    rw [List.map_eq_nil_iff.1 (hist_empty a)]; rfl
  case histogramMessageType => rw [hist_empty h1]; rfl
  case histogramPayloadSize =>
    obtain ⟨m, a, rfl, rfl⟩ := h1
    rw [hist_empty a]; rfl
  case histogramMessageSize =>
    obtain ⟨m, a, rfl, rfl⟩ := h1
    rw [hist_empty a]; rfl
  case histogramHelloWorld =>
    obtain ⟨hits, m, -, -, a, b, rfl⟩ := h1
    obtain rfl := hits0 a
    rw [hist_empty b]; rfl
  case count => rw [show _ = _ from h1]; rfl
  case countHelloWorld => rw [show _ = _ from h1]; rfl
  case countHelloWorldRaw =>
    obtain ⟨at_, -, a, rfl⟩ := h1
    have : at_ = [] := List.eq_nil_iff_forall_not_mem.2 fun i hi => by
      have := ((a i).1 hi).length_le
      simp [helloWorld] at this
    rw [this]; rfl
  case countHelloWorldGrepit =>
    obtain ⟨hits, -, -, a, rfl⟩ := h1
    obtain rfl := hits0 a
    rfl
  case iter =>
    obtain ⟨runs, a, rfl⟩ := h1
    obtain rfl := hruns a
    rfl
  case itertools => rw [show _ = _ from h1]; rfl

/-- **C128** with more threads than bytes every multithreaded command reports nothing, whatever is in the file. -/
theorem C128_too_many (num : Nat) (bytes : Bytes) (h : bytes.length < num) (c : Cmd) (hc : sequential c = false) (r : Res Report) :
    RunCmd num bytes c r ↔ r = .ok (blank c) := by
  have hp := C128_no_slice dltStorage bytes num h
  have hsum : ∀ (f : Bytes → Option (Res Nat)) (q : Res Nat), Multithreaded f bytes num q ↔ q = .ok 0 := fun f q => by
    unfold Multithreaded; rw [hp]; exact parReduce_nil_iff rfl q
  have hh : ∀ q, ParTimestampHistogram bytes num q ↔ q = .ok [] := fun q => by
    unfold ParTimestampHistogram; rw [hp]; exact parReduce_nil_iff rfl q
  have hs : ∀ q, ParTimestampSplit bytes num q ↔ q = .ok [] := fun q => by
    unfold ParTimestampSplit; rw [hp]; exact parReduce_nil_iff rfl q
  have hu : ∀ {α : Type} {P : Res α → Prop} {g : α → Res Report} {a : α} {z : Report}, (∀ q, P q ↔ q = .ok a) → g a = .ok z →
      ((∃ q, P q ∧ r = q.bind g) ↔ r = .ok z) := fun hq hg => by
    simp only [hq]
    constructor
    · rintro ⟨q, rfl, rfl⟩; exact hg
    · rintro rfl; exact ⟨_, rfl, hg.symm⟩
  cases c <;> first | (exact absurd hc (by decide)) | skip
  case parSplitTimestamp => exact hu hs rfl
  case parHistogramTimestamp => exact hu hh rfl
  all_goals exact hu (hsum _) rfl

/-- **C128** with one thread a multithreaded command reports what the sequential command reports. -/
theorem C128_one_core (bytes : Bytes) (hF : Fits bytes) (c : Cmd) (hc : sequential c = false) (hi : c ≠ .parIter)
    (r : Res Report) : RunCmd 1 bytes c r ↔ RunCmd 1 bytes (onSlices c) r := by
  by_cases hne : bytes = []
  · subst hne
    rw [C128_too_many 1 [] (by decide) c hc, C128_empty_sequential 1 (onSlices c) (by cases c <;> first | rfl | cases hc)]
    cases c <;> first | rfl | exact absurd rfl hi | cases hc
  cases c <;> first | (exact absurd hc (by decide)) | skip
  case parIter => exact absurd rfl hi
  case parSplitTimestamp => simp only [RunCmd, onSlices, one_split hF hne, printed_iff]
  case parHistogramTimestamp => simp only [RunCmd, onSlices, one_histogram hF hne, printed_iff]
  case parCount => simp only [RunCmd, onSlices, one_sum hF (ripCount_total _ hF) (ripCount_le _ hF) hne, printed_iff]
  case parCountHelloWorld => simp only [RunCmd, onSlices, one_sum hF (countHelloWorld_total _ hF) (countHelloWorld_le _ hF) hne, printed_iff]
  case parCountHelloWorldRaw => simp only [RunCmd, onSlices, one_sum hF (countHelloWorldRaw_total _ hF) (countHelloWorldRaw_le _ hF) hne, printed_iff]
  case parCountHelloWorldGrepit => simp only [RunCmd, onSlices, one_sum hF (grepit_total _ hF) (grepit_le _ hF) hne, printed_iff]

/-- **C128** a command on an empty file reports nothing, with any number of threads. -/
theorem C128_empty (num : Nat) (hnum : num ≠ 0) (c : Cmd) (r : Res Report) : RunCmd num [] c r ↔ r = .ok (blank c) := by
  cases hc : sequential c with
  | true => exact C128_empty_sequential num c hc r
  | false => exact C128_too_many num [] (by simp; omega) c hc r

/-! ## The text -/

/-- **C128** with one thread `par_count_hello_world_raw` prints, below the line about the threads, the number
`count_hello_world_raw` prints, but calls the matches messages. -/
theorem C128_one_core_raw (bytes : Bytes) (hF : Fits bytes) (hne : bytes ≠ []) (out : Bytes) (ok : Bool) :
    CmdText 1 bytes .parCountHelloWorldRaw (out, ok) ↔ ∃ n, RunCmd 1 bytes .countHelloWorldRaw (.ok (.number n)) ∧
      out = utf8 (Spec.startLine 1 1) ++ (linesOf .countHelloWorld (.number n)).flatten ∧ ok = true := by
  have hp := C128_one_slice dltStorage bytes hne
  have hrun := C128_one_core bytes hF .parCountHelloWorldRaw rfl (by decide)
  have hnum : ∀ r, RunCmd 1 bytes .parCountHelloWorldRaw (.ok r) → ∃ n, r = .number n := fun r h => by
    have := run_shape h
    cases r <;> first | exact ⟨_, rfl⟩ | exact absurd this (by simp [reportShape])
  have hno : ¬ RunCmd 1 bytes .parCountHelloWorldRaw .panic := fun h => by
    obtain ⟨msgs, hm, -⟩ := messages_of_file bytes hF
    exact (C67_sequential_panics 1 bytes hF msgs hm .countHelloWorldRaw rfl).1 ((hrun _).1 h)
  cases ok with
  | false =>
    constructor
    · intro h; exact absurd ((C88_panics 1 bytes _ (by decide) _ hp).1 ⟨_, h⟩) hno
    · rintro ⟨_, _, _, h⟩; cases h
  | true =>
    rw [C88_text 1 bytes _ (by decide) _ hp, opening_count rfl rfl, List.length_singleton]
    constructor
    · rintro ⟨r, h1, rfl⟩
      obtain ⟨n, rfl⟩ := hnum r h1
      exact ⟨n, (hrun _).1 h1, rfl, rfl⟩
    · rintro ⟨n, h1, rfl, -⟩
      exact ⟨_, (hrun _).2 h1, rfl⟩

theorem around_insert {α : Type} {P Q : Res α → Prop} (h : ∀ q, P q ↔ Q q) (a b : Bytes) (body : α → Bytes × Bool) (out : Bytes) (ok : Bool) :
    (∃ q, P q ∧ (out, ok) = around (a ++ b) q body) ↔
      ∃ rest, (∃ q, Q q ∧ (a ++ rest, ok) = around a q body) ∧ out = a ++ b ++ rest := by
  constructor
  · rintro ⟨q, hq, he⟩
    cases q with
    | panic => cases he; exact ⟨[], ⟨_, (h _).1 hq, by simp [around]⟩, by simp⟩
    | ok v => cases he; exact ⟨_, ⟨_, (h _).1 hq, rfl⟩, rfl⟩
  · rintro ⟨rest, ⟨q, hq, he⟩, rfl⟩
    refine ⟨q, (h q).2 hq, ?_⟩
    cases q with
    | panic =>
      obtain ⟨h1, h2⟩ := Prod.mk.inj he
      have : rest = [] := by simpa using h1
      subst this; subst h2; simp [around]
    | ok v =>
      obtain ⟨h1, h2⟩ := Prod.mk.inj he
      rw [List.append_cancel_left h1, h2]; rfl

/-- **C128** with one thread a multithreaded command prints, up to its end or its panic, what the sequential command prints,
with one line about the threads below the title. -/
theorem C128_one_core_same_text (bytes : Bytes) (hF : Fits bytes) (hne : bytes ≠ []) (c : Cmd) (hc : sequential c = false)
    (hi : c ≠ .parIter) (hraw : c ≠ .parCountHelloWorldRaw) (out : Bytes) (ok : Bool) :
    CmdText 1 bytes c (out, ok) ↔ ∃ rest, CmdText 1 bytes (onSlices c) (utf8 (titleOf c) ++ rest, ok) ∧
      out = utf8 (titleOf c) ++ utf8 (Spec.startLine 1 1) ++ rest := by
  have hline : slicesLine 1 bytes = utf8 (Spec.startLine 1 1) := by
    rw [slicesLine_eq (C128_one_slice dltStorage bytes hne), List.length_singleton]
  have he : ∀ c', titleOf c' = "" → utf8 (titleOf c') = [] := fun c' h => by rw [h, utf8_empty]
  cases c <;> first | (exact absurd hc (by decide)) | skip
  case parIter => exact absurd rfl hi
  case parCountHelloWorldRaw => exact absurd rfl hraw
  case parSplitTimestamp =>
    simp only [CmdText, onSlices, hline]
    exact around_insert (one_split hF hne) _ _ _ out ok
  case parHistogramTimestamp =>
    simp only [CmdText, onSlices, hline]
    exact around_insert (one_histogram hF hne) _ _ _ out ok
  case parCount =>
    rw [he _ rfl]
    simp only [CmdText, onSlices, hline]
    exact around_insert (one_sum hF (ripCount_total _ hF) (ripCount_le _ hF) hne) [] _ _ out ok
  case parCountHelloWorld =>
    rw [he _ rfl]
    simp only [CmdText, onSlices, hline]
    exact around_insert (one_sum hF (countHelloWorld_total _ hF) (countHelloWorld_le _ hF) hne) [] _ _ out ok
  case parCountHelloWorldGrepit =>
    rw [he _ rfl]
    simp only [CmdText, onSlices, hline]
    exact around_insert (one_sum hF (grepit_total _ hF) (grepit_le _ hF) hne) [] _ _ out ok

theorem iterLine_number (n : Nat) : (numberLine "lifecycles >= 1800s" n).1 = text s!"{n} lifecycles >= 1800s\n" := by
  simp only [numberLine, text, String.toList_append, List.flatMap_append, List.append_assoc]
  congr 1

/-- **C128** with one thread `par_iter` prints what `iter` prints, below the line about the threads. -/
theorem C128_one_core_par_iter (bytes : Bytes) (hF : Fits bytes) (hne : bytes ≠ []) (out : Bytes) (ok : Bool) :
    CmdText 1 bytes .parIter (out, ok) ↔ ∃ o, CmdText 1 bytes .iter (o, ok) ∧ out = utf8 (Spec.startLine 1 1) ++ o := by
  have hp := C128_one_slice dltStorage bytes hne
  have hsum := one_sum hF (lifecycleIter_total _ hF) (lifecycleIter_le _ hF) hne
  have hline : slicesLine 1 bytes = utf8 (Spec.startLine 1 1) := by
    rw [slicesLine_eq hp, List.length_singleton]
  obtain ⟨q, hq⟩ : ∃ q, lifecycleIter bytes = some q := by
    cases h : lifecycleIter bytes with
    | none => exact absurd h (lifecycleIter_total _ hF)
    | some q => exact ⟨q, rfl⟩
  simp only [CmdText, hsum, hq, hp, hline, Option.some.injEq, Res.ok.injEq]
  constructor
  · rintro ⟨_, _, lines, rfl, rfl, rfl, h4, rfl⟩
    cases q with
    | panic =>
      obtain ⟨ls, h5, h6⟩ := h4
      simp [iterLine, hq] at h5
      subst h5
      obtain rfl := h6.eq_nil
      exact ⟨_, ⟨_, rfl, rfl⟩, by simp⟩
    | ok n =>
      obtain ⟨ls, h5, h6⟩ := h4
      have h7 : ls = [text s!"{n} lifecycles >= 1800s\n"] := by
        simp only [List.map_cons, List.map_nil, iterLine, hq] at h5
        exact (map_some_inj (a := [_]) h5).symm
      subst h7
      obtain rfl := List.perm_singleton.1 h6
      exact ⟨_, ⟨_, rfl, rfl⟩, by simp [around, iterLine_number]⟩
  · rintro ⟨o, ⟨_, rfl, h2⟩, rfl⟩
    cases q with
    | panic =>
      cases h2
      exact ⟨_, _, [], rfl, rfl, rfl, ⟨[], List.nil_sublist _, List.Perm.nil⟩, by simp⟩
    | ok n =>
      cases h2
      exact ⟨_, _, [text s!"{n} lifecycles >= 1800s\n"], rfl, rfl, rfl,
        ⟨_, by simp only [List.map_cons, List.map_nil, iterLine, hq], List.Perm.refl _⟩, by simp [iterLine_number]⟩

/-- **C128** with more threads than bytes a multithreaded command prints its title, the line about the threads, and the lines
of a report about nothing. -/
theorem C128_too_many_text (num : Nat) (bytes : Bytes) (h : bytes.length < num) (c : Cmd) (hc : sequential c = false) (out : Bytes × Bool) :
    CmdText num bytes c out ↔ out = (utf8 (titleOf c) ++ utf8 (Spec.startLine num 0) ++ (linesOf c (blank c)).flatten, true) := by
  have hp := C128_no_slice dltStorage bytes num h
  have hrun := C128_too_many num bytes h c hc
  obtain ⟨o, ok⟩ := out
  by_cases hi : c = .parIter
  · subst hi
    have hline : slicesLine num bytes = utf8 (Spec.startLine num 0) := by
      rw [slicesLine_eq hp, List.length_nil]
    have hsum : ∀ q, Multithreaded lifecycleIter bytes num q ↔ q = .ok 0 := fun q => by
      unfold Multithreaded; rw [hp]; exact parReduce_nil_iff rfl q
    simp only [CmdText, hsum, hp, hline, Res.ok.injEq]
    constructor
    · rintro ⟨_, _, lines, rfl, rfl, rfl, ⟨ls, h5, h6⟩, rfl⟩
      have : ls = [] := by simpa using h5.symm
      subst this
      obtain rfl := h6.eq_nil
      simp [blank, linesOf, titleOf, utf8_empty, Res.isOk]
    · intro h
      obtain ⟨rfl, rfl⟩ := Prod.mk.injEq .. ▸ h
      exact ⟨_, _, [], rfl, rfl, rfl, ⟨[], rfl, List.Perm.nil⟩, by simp [blank, linesOf, titleOf, utf8_empty]⟩
  · cases ok with
    | true =>
      rw [C88_text num bytes c hi _ hp]
      simp only [hrun, Res.ok.injEq, opening_par hc, List.length_nil, Prod.mk.injEq, and_true]
      constructor
      · rintro ⟨_, rfl, rfl⟩; rfl
      · rintro rfl; exact ⟨_, rfl, rfl⟩
    | false =>
      constructor
      · intro h'
        have := (hrun .panic).1 ((C88_panics num bytes c hi _ hp).1 ⟨_, h'⟩)
        cases this
      · intro h'; cases congrArg Prod.snd h'

/-- A file of four messages: `count` reports 4 and so does `par_count` with one thread; with 97 threads (the file has 96
bytes) it reports 0. -/
example : ∃ bytes, Fits bytes ∧ (∀ r, RunCmd 1 bytes .count r ↔ r = .ok (.number 4)) ∧ (∀ r, RunCmd 1 bytes .parCount r ↔ r = .ok (.number 4)) ∧
    ∀ r, RunCmd 97 bytes .parCount r ↔ r = .ok (.number 0) := by
  have hw : ∀ e ∈ fourTicks, WF e ∧ (encode e).length = 24 := four_of ticks_wf ticks_wf ticks_wf ticks_wf
  have hF : Fits (packed fourTicks) := (pair_slices hw).1
  have hm : Messages (packed fourTicks) fourTicks := messages_packed fun e he => (hw e he).1
  have hcount : ∀ r, RunCmd 1 (packed fourTicks) .count r ↔ r = .ok (.number 4) := fun r => by
    show printed (ripCount (packed fourTicks)) numberReport = some r ↔ _
    rw [C45_count _ hF _ hm, printed, Option.some.injEq, eq_comm]
    exact Iff.rfl
  have hlen : (packed fourTicks).length = 96 := by decide +kernel
  exact ⟨packed fourTicks, hF, hcount, fun r => (C128_one_core _ hF .parCount rfl (by decide) r).trans (hcount r),
    C128_too_many 97 _ (by omega) .parCount rfl⟩

end Verif
