import Verif.Spec.Build32
import Verif.Props.Build

/-!
# C146: builds for 32-bit machines

On a machine on which `usize` has 32 bits a slice has fewer than `2^31` bytes, and everything the code computes about such a
file has room in 32 bits - except the upper end of the last bucket of the storage time histograms.
-/

set_option linter.unusedSimpArgs false

namespace Verif

open Spec

/-! ## The arithmetic -/

/-- **C146** both builds for 32 bits compute correctly where nothing exceeds `2^32 - 1`. -/
theorem C146_builds : ExactTo (2 ^ 32 - 1) .debug32 ∧ ExactTo (2 ^ 32 - 1) .release32 := by
  refine ⟨⟨fun a b h => ?_, fun a b h => ?_, exact_debug.sub⟩, ⟨fun a b h => ?_, fun a b h => ?_, exact_release.sub⟩⟩
  · show (if a + b < 2 ^ 32 then Res.ok (a + b) else .panic) = _
    rw [if_pos (by omega)]
  · show (if a * b < 2 ^ 32 then Res.ok (a * b) else .panic) = _
    rw [if_pos (by omega)]
  · show Res.ok ((a + b) % 2 ^ 32) = _
    rw [Nat.mod_eq_of_lt (by omega)]
  · show Res.ok ((a * b) % 2 ^ 32) = _
    rw [Nat.mod_eq_of_lt (by omega)]

theorem Room.of32 {bytes : Bytes} (h : bytes.length < 2 ^ 31) : Room (2 ^ 32 - 1) bytes :=
  ⟨by omega, by decide, by decide⟩

section
variable {A : Arith} {T : Type} {S : SearchableMarker T} {bytes : Bytes}

/-- **C146** the scanning iterators of a 32-bit build return what those of a 64-bit build return, from every position that
leaves room for a marker. -/
theorem C146_scanning (hA : ExactTo (2 ^ 32 - 1) A) (L : Lawful S) (hF : bytes.length < 2 ^ 31) (off : Nat)
    (hoff : off + S.marker.length < 2 ^ 32) :
    readFallbackNextA A S bytes off = some (readFallbackNext S bytes off) ∧
    (S.marker.length < 2 ^ 30 → searchNextA A S bytes off = some (searchNext S bytes off)) :=
  ⟨readFallbackNextA_eq hA L.toReads (.of32 hF) off (by omega),
    fun hm => searchNextA_eq hA L.toReads (.of32 hF) (by omega) off (by omega)⟩

/-- **C146** so do the iterator of `FromBytesReadable` and the searches for a pattern, from every position. -/
theorem C146_reading (hA : ExactTo (2 ^ 32 - 1) A) (L : Lawful S) (hF : bytes.length < 2 ^ 31) (re : Regex) (off : Nat) :
    (∀ R : FromBytesReadable T, (∀ bs n v, R.tryRead bs = .ok (some (n, v)) → n ≤ bs.length) →
      readNextA A R bytes off = readNext R bytes off) ∧
    grepNextA A S re bytes off = grepNext S re bytes off ∧ regexNextA A S re bytes off = regexNext S re bytes off :=
  ⟨fun _ hR => readNextA_eq hA hR (.of32 hF) off, grepNextA_eq hA L (.of32 hF) re off, regexNextA_eq hA L (.of32 hF) re off⟩

/-- **C146** and so do `contained_by` and `partition`. -/
theorem C146_slicing (hA : ExactTo (2 ^ 32 - 1) A) (L : Lawful S) (hF : bytes.length < 2 ^ 31) :
    (∀ p0 p1, containedByA A S bytes p0 p1 = containedBy S bytes p0 p1) ∧
    ∀ num, partitionFromA A S bytes num = partitionFrom S bytes num :=
  ⟨containedByA_eq hA L (.of32 hF), partitionFromA_eq hA L (.of32 hF)⟩

end

/-! ## `ripdlt` -/

/-- **C146** the commands of `ripdlt` print the same and end the same way in 32-bit and 64-bit builds, for every way in which
the threads are scheduled. Missing: `histogram_timestamp` and `par_histogram_timestamp`, which do not for some files
(`C146_timestamp_iff`, `C146_par_timestamp_iff`). -/
theorem C146_commands_partial {A : Arith} (hA : ExactTo (2 ^ 32 - 1) A) {bytes : Bytes} (hF : bytes.length < 2 ^ 31) (num : Nat)
    (c : Cmd) (hc : c ≠ .histogramTimestamp ∧ c ≠ .parHistogramTimestamp) (out : Bytes × Bool) :
    CmdTextA A num bytes c out ↔ CmdText num bytes c out :=
  commands_to hA (.of32 hF) (Nat.le_refl _) num c out (fun h => absurd h hc.1) (fun h => absurd h hc.2)

theorem printLoop_append {α : Type} {f : α → Res Bytes} {line : α → Bytes} {xs : List α} (h : ∀ x ∈ xs, f x = .ok (line x))
    (ys : List α) : printLoop f (xs ++ ys) = ((xs.map line).flatten ++ (printLoop f ys).1, (printLoop f ys).2) := by
  induction xs with
  | nil => rfl
  | cons x xs ih =>
    rw [List.cons_append, printLoop, h x (List.mem_cons_self ..), ih fun y hy => h y (List.mem_cons_of_mem _ hy)]
    simp

/-- The line of a bucket with the upper limit `k'`. -/
def secsLine (k k' v : Nat) : Bytes := text s!"{k}-{k'} secs: {v}\n"

theorem bucketLineA_line {A : Arith} {k k' : Nat} (v : Nat) (h : A.add k 1 = .ok k') :
    bucketLineA A (k, v) = .ok (secsLine k k' v) := by
  unfold bucketLineA
  rw [h]
  rfl

theorem bucketLine_line {k : Nat} (v : Nat) (h : k < 2 ^ 32) : bucketLine (k, v) = .ok (secsLine k (k + 1) v) := by
  unfold bucketLine
  rw [uadd_ok (by unfold usizeMax; omega)]
  rfl

theorem bucketLineA_stops {A : Arith} {k : Nat} (v : Nat) (h : A.add k 1 = .panic) : bucketLineA A (k, v) = .panic := by
  unfold bucketLineA
  rw [h]
  rfl

theorem bucketLine_last (v : Nat) : bucketLine (2 ^ 32 - 1, v) = .ok (secsLine (2 ^ 32 - 1) (2 ^ 32) v) :=
  (bucketLine_line v (by decide)).trans (congrArg (fun n => Res.ok (secsLine (2 ^ 32 - 1) n v)) (by decide))

theorem debug32_last : Arith.debug32.add (2 ^ 32 - 1) 1 = .panic := rfl
theorem release32_last : Arith.release32.add (2 ^ 32 - 1) 1 = .ok 0 := rfl

theorem printLoop_last {f : Nat × Nat → Res Bytes} {line : Nat × Nat → Bytes} {xs : OrdMap Nat Nat} {y : Nat × Nat} {l : Bytes}
    (h : ∀ x ∈ xs, f x = .ok (line x)) (hy : f y = .ok l) (head : Bytes) :
    around head (.ok (xs ++ [y])) (printLoop f) = (head ++ (xs.map line).flatten ++ l, true) := by
  show (head ++ (printLoop f (xs ++ [y])).1, (printLoop f (xs ++ [y])).2) = _
  rw [printLoop_append h]
  simp only [printLoop, hy, List.append_nil, List.append_assoc]

theorem printLoop_stops {f : Nat × Nat → Res Bytes} {line : Nat × Nat → Bytes} {xs : OrdMap Nat Nat} {y : Nat × Nat}
    (h : ∀ x ∈ xs, f x = .ok (line x)) (hy : f y = .panic) (head : Bytes) :
    around head (.ok (xs ++ [y])) (printLoop f) = (head ++ (xs.map line).flatten, false) := by
  show (head ++ (printLoop f (xs ++ [y])).1, (printLoop f (xs ++ [y])).2) = _
  rw [printLoop_append h]
  simp only [printLoop, hy, List.append_nil]

/-- The largest key of a histogram of numbers below `2^32` is the last. -/
theorem hist_last {keys : List Nat} {m : List (Nat × Nat)} (h : IsHistogram keys m) (hk : ∀ k ∈ keys, k < 2 ^ 32)
    (hmem : 2 ^ 32 - 1 ∈ keys) :
    ∃ m', m = m' ++ [(2 ^ 32 - 1, keys.count (2 ^ 32 - 1))] ∧ ∀ e ∈ m', e.1 + 1 < 2 ^ 32 := by
  have h1 : (2 ^ 32 - 1, keys.count (2 ^ 32 - 1)) ∈ m := (h.mem _ _).2 ⟨List.count_pos_iff.2 hmem, rfl⟩
  obtain ⟨m', rest, rfl⟩ := List.append_of_mem h1
  have hs := h.sorted
  rw [List.pairwise_append] at hs
  obtain ⟨-, h2, h3⟩ := hs
  have hr : rest = [] := by
    cases rest with
    | nil => rfl
    | cons e rest =>
      have h4 : 2 ^ 32 - 1 < e.1 := (List.pairwise_cons.1 h2).1 e (List.mem_cons_self ..)
      have h5 := hk _ (hist_key h (e := e) (by simp))
      omega
  subst hr
  refine ⟨m', rfl, fun e he => ?_⟩
  have h4 : e.1 < 2 ^ 32 - 1 := h3 e he _ (List.mem_cons_self ..)
  omega

/-- The line of a bucket. -/
def lineOf (e : Nat × Nat) : Bytes := secsLine e.1 (e.1 + 1) e.2

theorem three_prints {A B : Arith} {m' : List (Nat × Nat)} {K k v : Nat} (hm : ∀ e ∈ m', e.1 + 1 < 2 ^ 32)
    (h1 : bucketLine (K, v) = .ok (secsLine K k v)) (h2 : A.add K 1 = .panic) (h3 : B.add K 1 = .ok 0)
    (hA : ∀ a, a + 1 < 2 ^ 32 → A.add a 1 = .ok (a + 1)) (hB : ∀ a, a + 1 < 2 ^ 32 → B.add a 1 = .ok (a + 1)) (head : Bytes) :
    ∃ pre, around head (.ok (m' ++ [(K, v)])) (printLoop bucketLine) = (pre ++ secsLine K k v, true) ∧
      around head (.ok (m' ++ [(K, v)])) (printLoop (bucketLineA A)) = (pre, false) ∧
      around head (.ok (m' ++ [(K, v)])) (printLoop (bucketLineA B)) = (pre ++ secsLine K 0 v, true) := by
  have h4 : ∀ e ∈ m', bucketLine e = .ok (secsLine e.1 (e.1 + 1) e.2) := fun e he =>
    bucketLine_line e.2 (Nat.lt_of_succ_lt (hm e he))
  have h5 : ∀ e ∈ m', bucketLineA A e = .ok (secsLine e.1 (e.1 + 1) e.2) := fun e he =>
    bucketLineA_line e.2 (hA _ (hm e he))
  have h6 : ∀ e ∈ m', bucketLineA B e = .ok (secsLine e.1 (e.1 + 1) e.2) := fun e he =>
    bucketLineA_line e.2 (hB _ (hm e he))
  have h7 : bucketLineA B (K, v) = .ok (secsLine K 0 v) := bucketLineA_line v h3
  have h8 : bucketLineA A (K, v) = .panic := bucketLineA_stops v h2
  have h4 : ∀ e ∈ m', bucketLine e = .ok (lineOf e) := h4
  have h5 : ∀ e ∈ m', bucketLineA A e = .ok (lineOf e) := h5
  have h6 : ∀ e ∈ m', bucketLineA B e = .ok (lineOf e) := h6
  exact ⟨head ++ (m'.map lineOf).flatten, printLoop_last h4 h1 head, printLoop_stops h5 h8 head, printLoop_last h6 h7 head⟩

/-- What the two histogram commands print in each build if the longest possible duration occurs. -/
theorem histogram_prints {keys : List Nat} {m : List (Nat × Nat)} (h : IsHistogram keys m) (hk : ∀ k ∈ keys, k < 2 ^ 32)
    (hmem : 2 ^ 32 - 1 ∈ keys) {v : Nat} (hv : keys.count (2 ^ 32 - 1) = v) (head : Bytes) : ∃ pre,
      around head (.ok m) (printLoop bucketLine) = (pre ++ secsLine (2 ^ 32 - 1) (2 ^ 32) v, true) ∧
      around head (.ok m) (printLoop (bucketLineA .debug32)) = (pre, false) ∧
      around head (.ok m) (printLoop (bucketLineA .release32)) = (pre ++ secsLine (2 ^ 32 - 1) 0 v, true) := by
  obtain ⟨m', hm', hm⟩ := hist_last h hk hmem
  rw [hv] at hm'
  rw [hm']
  exact three_prints hm (bucketLine_last v) debug32_last release32_last
    (fun a ha => C146_builds.1.add a 1 (Nat.le_sub_one_of_lt ha)) (fun a ha => C146_builds.2.add a 1 (Nat.le_sub_one_of_lt ha)) head

instance : DecidablePred WholeRange := fun r =>
  match h1 : r.head?, h2 : r.getLast? with
  | some a, some b => decidable_of_iff (secsOf a = 0 ∧ secsOf b = 2 ^ 32 - 1)
      ⟨fun h => ⟨a, b, h1, h2, h⟩, fun ⟨a', b', h3, h4, h⟩ => by
        rw [h1] at h3; rw [h2] at h4; cases h3; cases h4; exact h⟩
  | none, _ => .isFalse fun ⟨a', b', h3, h4, h⟩ => by rw [h1] at h3; cases h3
  | _, none => .isFalse fun ⟨a', b', h3, h4, h⟩ => by rw [h2] at h4; cases h4

theorem wholeRange_iff (r : List StorageEntry) : WholeRange r ↔ secSpanOf r = 2 ^ 32 - 1 := by
  have hlt : ∀ e : StorageEntry, secsOf e < 2 ^ 32 := fun e => e.storageHeader.secs.toNat_lt
  unfold secSpanOf
  constructor
  · rintro ⟨a, b, h1, h2, h3, h4⟩
    rw [h1, h2]
    show secsOf b - secsOf a = _
    omega
  · intro h
    split at h
    · rename_i a b h1 h2
      have := hlt b
      exact ⟨a, b, h1, h2, by omega, by omega⟩
    · cases h

theorem count_wholeRange (runs : List (List StorageEntry)) :
    (runs.map secSpanOf).count (2 ^ 32 - 1) = (runs.filter fun r => decide (WholeRange r)).length := by
  rw [List.count, List.countP_map, List.countP_eq_length_filter]
  congr 1
  refine List.filter_congr fun r _ => ?_
  simp only [Function.comp_apply, wholeRange_iff]
  by_cases h : secSpanOf r = 2 ^ 32 - 1
  · rw [h]; rfl
  · simp [h]

theorem wholeRange_mem {runs : List (List StorageEntry)} : 2 ^ 32 - 1 ∈ runs.map secSpanOf ↔ ∃ r ∈ runs, WholeRange r := by
  rw [List.mem_map]
  exact exists_congr fun r => and_congr_right fun _ => (wholeRange_iff r).symm

theorem bound_of {runs : List (List StorageEntry)} {m : List (Nat × Nat)} (h : IsHistogram (runs.map secSpanOf) m)
    (hn : ¬ ∃ r ∈ runs, WholeRange r) : ∀ e ∈ m, e.1 + 1 ≤ 2 ^ 32 - 1 := by
  intro e he
  obtain ⟨r, hr, hk⟩ := List.mem_map.1 (hist_key h he)
  have h1 := secSpanOf_lt r
  have h2 : secSpanOf r ≠ 2 ^ 32 - 1 := fun hs => hn ⟨r, hr, (wholeRange_iff r).2 hs⟩
  omega

theorem around_only {q0 : Res (OrdMap Nat Nat)} {x : Option (Res (OrdMap Nat Nat))} (h : x = some q0) {head : Bytes}
    {body : OrdMap Nat Nat → Bytes × Bool} {o : Bytes × Bool} (ho : around head q0 body = o) (out : Bytes × Bool) :
    (∃ q, x = some q ∧ out = around head q body) ↔ out = o := by
  subst h
  constructor
  · rintro ⟨q, hq, h⟩
    cases hq
    rw [h, ho]
  · rintro rfl
    exact ⟨q0, rfl, ho.symm⟩

theorem around_only_par {q0 : Res (OrdMap Nat Nat)} {P : Res (OrdMap Nat Nat) → Prop} (h : ∀ q, P q ↔ q = q0) {head : Bytes}
    {body : OrdMap Nat Nat → Bytes × Bool} {o : Bytes × Bool} (ho : around head q0 body = o) (out : Bytes × Bool) :
    (∃ q, P q ∧ out = around head q body) ↔ out = o := by
  constructor
  · rintro ⟨q, hq, h'⟩
    rw [(h q).1 hq] at h'
    rw [h', ho]
  · rintro rfl
    exact ⟨q0, (h _).2 rfl, ho.symm⟩

/-- **C146** `histogram_timestamp` prints the same in 32-bit builds as in 64-bit builds if no run of messages with
non-decreasing storage seconds starts in second 0 and ends in second `2^32 - 1`. Otherwise the debug build for 32 bits panics
in front of the last line, and the release build prints it with a wrong upper limit. -/
theorem C146_timestamp_iff (num : Nat) {bytes : Bytes} (hF : bytes.length < 2 ^ 31) (msgs : List StorageEntry)
    (hm : Messages bytes msgs) (runs : List (List StorageEntry)) (hr : MaximalRuns (fun a b => secsOf a ≤ secsOf b) msgs runs) :
      ((¬ ∃ r ∈ runs, WholeRange r) → ∀ A, ExactTo (2 ^ 32 - 1) A → ∀ out,
        (CmdTextA A num bytes .histogramTimestamp out ↔ CmdText num bytes .histogramTimestamp out)) ∧
      ((∃ r ∈ runs, WholeRange r) → Broken (runs.filter fun r => decide (WholeRange r)).length
        (CmdText num bytes .histogramTimestamp) (CmdTextA .debug32 num bytes .histogramTimestamp)
        (CmdTextA .release32 num bytes .histogramTimestamp)) := by
  have hR := Room.of32 hF
  obtain ⟨runs', m, h1, h2, h3, -⟩ := C46_timestamp_histogram bytes hR.fits msgs hm
  obtain rfl : runs = runs' := (secs_runs_unique hr).trans (secs_runs_unique h1).symm
  refine ⟨fun hn A hA out => ?_, fun hw => ?_⟩
  · refine commands_to hA hR (Nat.le_refl _) num _ out (fun _ m' h e he => ?_) (fun h => (by cases h))
    rw [h2] at h
    cases h
    exact bound_of h3 hn e he
  · obtain ⟨pre, p1, p2, p3⟩ := histogram_prints h3 (fun k hk => by
      obtain ⟨r, -, rfl⟩ := List.mem_map.1 hk
      exact secSpanOf_lt r) (wholeRange_mem.2 hw) (count_wholeRange runs) (text "Durations of periods where DLT storage header timestamps are continuous:\n")
    have key : ∀ A, ExactTo (2 ^ 32 - 1) A → timestampHistogramA A bytes = some (.ok m) := fun A hA => by
      obtain ⟨v, h4, h5⟩ := timestampHistogramA_eq hA hR
      rw [h5, ← h4, h2]
    exact ⟨pre, around_only h2 p1, around_only (key _ C146_builds.1) p2, around_only (key _ C146_builds.2) p3⟩

/-- **C146** the same for `par_histogram_timestamp`, with the runs in the slices of the threads, for every schedule. -/
theorem C146_par_timestamp_iff (num : Nat) (hnum : num ≠ 0) {bytes : Bytes} (hF : bytes.length < 2 ^ 31) :
    ∃ (slices : List Bytes) (runss : List (List (List StorageEntry))), partitionFrom dltStorage bytes num = .ok slices ∧
      Each (fun s runs => ∃ msgs, Messages s msgs ∧ MaximalRuns (fun a b => secsOf a ≤ secsOf b) msgs runs) slices runss ∧
      ((¬ ∃ r ∈ runss.flatten, WholeRange r) → ∀ A, ExactTo (2 ^ 32 - 1) A → ∀ out,
        (CmdTextA A num bytes .parHistogramTimestamp out ↔ CmdText num bytes .parHistogramTimestamp out)) ∧
      ((∃ r ∈ runss.flatten, WholeRange r) → Broken (runss.flatten.filter fun r => decide (WholeRange r)).length
        (CmdText num bytes .parHistogramTimestamp) (CmdTextA .debug32 num bytes .parHistogramTimestamp)
        (CmdTextA .release32 num bytes .parHistogramTimestamp)) := by
  have hR := Room.of32 hF
  obtain ⟨slices, runss, m, h1, h2, h3, h4⟩ := C35_par_histogram bytes num hnum hR.fits
  refine ⟨slices, runss, h1, h3, fun hn A hA out => ?_, fun hw => ?_⟩
  · refine commands_to hA hR (Nat.le_refl _) num _ out (fun h => (by cases h)) (fun _ m' h e he => ?_)
    cases (h2 _).1 h
    exact bound_of h4 hn e he
  · obtain ⟨pre, p1, p2, p3⟩ := histogram_prints h4 (fun k hk => by
      obtain ⟨r, -, rfl⟩ := List.mem_map.1 hk
      exact secSpanOf_lt r) (wholeRange_mem.2 hw) (count_wholeRange runss.flatten)
      (text "Durations of periods where DLT storage header timestamps are continuous:\n" ++ slicesLine num bytes)
    have key : ∀ A, ExactTo (2 ^ 32 - 1) A → ∀ q, ParTimestampHistogramA A bytes num q ↔ q = .ok m := fun A hA q => by
      rw [parTimestampHistogramA_iff hA hR num, h2]
    refine ⟨pre, around_only_par h2 p1, fun out => ?_, fun out => ?_⟩
    · have := around_only_par (key _ C146_builds.1) p2 out
      rw [← slicesLineA_eq C146_builds.1 hR] at this
      exact this
    · have := around_only_par (key _ C146_builds.2) p3 out
      rw [← slicesLineA_eq C146_builds.2 hR] at this
      exact this

/-- **C146** a run of `ripdlt` with another command prints the same and ends the same way in 32-bit and 64-bit builds: for every
file of fewer than `2^31` bytes, every command line and every number of threads. -/
theorem C146_ripdlt_partial (A : Arith) (hA : ExactTo (2 ^ 32 - 1) A) (num : Nat) (f : OsFile) (hf : Faithful f)
    (hF : f.contents.length < 2 ^ 31) (prog : String) (args : List String)
    (hc : ∀ m name rest, args ≠ m :: "histogram_timestamp" :: name :: rest ∧ args ≠ m :: "par_histogram_timestamp" :: name :: rest)
    (out : Bytes × Bool) : RipTextA A num f prog args out ↔ RipText num f prog args out := by
  match args, hc with
  | [], _ => exact Iff.rfl
  | [_], _ => exact Iff.rfl
  | [_, _], _ => exact Iff.rfl
  | m :: c :: name :: rest, hc =>
    unfold RipTextA RipText
    dsimp only
    have hfit : ∀ b, (if m = "mmap" then DltBuffer.mmapFile f else if m = "read" then DltBuffer.readFile f else none) = some b →
        b.asSlice.length < 2 ^ 31 := by
      intro b hb
      by_cases h1 : m = "mmap"
      · rw [if_pos h1] at hb
        rw [((C60_mmap_file f b).1 hb).2.2.2]
        exact hF
      · rw [if_neg h1] at hb
        by_cases h2 : m = "read"
        · rw [if_pos h2] at hb
          have h1 := ((C54_read_file_partial f hf).2 b hb).1.length_le
          omega
        · rw [if_neg h2] at hb; cases hb
    cases hb : (if m = "mmap" then DltBuffer.mmapFile f else if m = "read" then DltBuffer.readFile f else none) with
    | none => exact Iff.rfl
    | some b =>
      dsimp only
      cases hk : Cmd.ofString c with
      | none => exact Iff.rfl
      | some k =>
        have hk' : k ≠ .histogramTimestamp ∧ k ≠ .parHistogramTimestamp := by
          have h3 := (C64_names c k).1 hk
          constructor
          · rintro rfl
            exact (hc m name rest).1 (by rw [h3]; rfl)
          · rintro rfl
            exact (hc m name rest).2 (by rw [h3]; rfl)
        exact exists_congr fun o => and_congr_left fun _ => C146_commands_partial hA (hfit b hb) num k hk' o

/-- The case occurs: two messages from the first and from the last second, in front of two others. The 64-bit build prints
`0-1 secs: 1` and `4294967295-4294967296 secs: 1`. -/
example : ∃ runs, MaximalRuns (fun a b => secsOf a ≤ secsOf b) (four 0 0xFFFFFFFF 0 0) runs ∧
    Broken 1 (CmdText 1 (packed (four 0 0xFFFFFFFF 0 0)) .histogramTimestamp)
      (CmdTextA .debug32 1 (packed (four 0 0xFFFFFFFF 0 0)) .histogramTimestamp)
      (CmdTextA .release32 1 (packed (four 0 0xFFFFFFFF 0 0)) .histogramTimestamp) := by
  have hr := secs_runs (four 0 0xFFFFFFFF 0 0)
  have h := (C146_timestamp_iff 1 (by rw [four_len]; decide) _ (messages_packed (four_wf 0 0xFFFFFFFF 0 0)) _ hr).2
  have h1 : runsL (fun a b : StorageEntry => decide (a.secs ≤ b.secs)) (four 0 0xFFFFFFFF 0 0) =
      [[secMsg 0, secMsg 0xFFFFFFFF], [secMsg 0, secMsg 0]] := by decide
  refine ⟨_, hr, ?_⟩
  rw [h1] at h
  exact h ⟨_, List.mem_cons_self .., secMsg 0, secMsg 0xFFFFFFFF, rfl, rfl, rfl, rfl⟩

/-- A 32-bit release build counts the four messages of a file. -/
example : CmdTextA .release32 2 (packed (four 1 2 3 4)) .count (text "4 messages\n", true) := by
  rw [C146_commands_partial C146_builds.2 (by rw [four_len]; decide) 2 .count (by decide)]
  refine ⟨.ok 4, ?_, rfl⟩
  exact pullCount_eq (streams_dlt (four_fits 1 2 3 4) (messages_packed (four_wf 1 2 3 4))) (by decide)

end Verif
