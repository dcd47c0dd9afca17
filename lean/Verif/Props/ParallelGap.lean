import Verif.Props.Concat
import Verif.Props.ParallelPrefix

/-! # C115: how far the multithreaded commands can be off -/

set_option linter.unusedSimpArgs false

namespace Verif

open Spec

/-! ## Runs of the pieces of a list -/

section
variable {α : Type} (f : α → α → Bool)

theorem runsL_pieces_nil : ∀ mss : List (List α), mss.flatten = [] → (mss.map (runsL f)).flatten = []
  | [], _ => rfl
  | ms :: mss, h => by
    rw [List.flatten_cons, List.append_eq_nil_iff] at h
    rw [List.map_cons, List.flatten_cons, h.1, runsL_pieces_nil mss h.2]
    rfl

/-- Cutting a list adds at most one run per cut. -/
theorem runsL_pieces : ∀ mss : List (List α), (runsL f mss.flatten).length ≤ (mss.map (runsL f)).flatten.length ∧
    (mss.map (runsL f)).flatten.length ≤ (runsL f mss.flatten).length + (mss.length - 1)
  | [] => ⟨Nat.le_refl _, Nat.le_refl _⟩
  | ms :: mss => by
    obtain ⟨h1, h2⟩ := runsL_pieces mss
    rw [List.flatten_cons, List.map_cons, List.flatten_cons, List.length_append, List.length_cons, Nat.add_sub_cancel]
    cases hl : ms.getLast? with
    | none =>
      rw [List.getLast?_eq_none_iff.1 hl, List.nil_append]
      show _ ≤ 0 + _ ∧ 0 + _ ≤ _
      omega
    | some a =>
      cases hh : mss.flatten.head? with
      | none =>
        have hn := List.head?_eq_none_iff.1 hh
        rw [hn, runsL_pieces_nil f mss hn, List.append_nil]
        exact ⟨Nat.le_refl _, Nat.le_add_right _ _⟩
      | some b =>
        have h3 := runsL_append f ms mss.flatten a b hl hh
        have h4 : 0 < mss.length := by cases mss with | nil => simp at hh | cons => simp
        split at h3 <;> omega

theorem breaks_lt : ∀ xs : List α, xs ≠ [] → breaks f xs < xs.length
  | [], h => absurd rfl h
  | [_], _ => Nat.zero_lt_one
  | x :: y :: xs, _ => by
    have := breaks_lt (y :: xs) (by simp)
    show (if f x y then 0 else 1) + breaks f (y :: xs) < (y :: xs).length + 1
    split <;> omega

/-- A longer list has no fewer runs, and at most one more per element. -/
theorem runsL_prefix (xs ys : List α) : (runsL f xs).length ≤ (runsL f (xs ++ ys)).length ∧
    (runsL f (xs ++ ys)).length ≤ (runsL f xs).length + ys.length := by
  cases hl : xs.getLast? with
  | none =>
    rw [List.getLast?_eq_none_iff.1 hl, List.nil_append]
    refine ⟨Nat.zero_le _, ?_⟩
    cases ys with
    | nil => exact Nat.le_refl _
    | cons y ys =>
      have := runsL_length f (y :: ys) (by simp)
      have := breaks_lt f (y :: ys) (by simp)
      omega
  | some a =>
    cases ys with
    | nil => rw [List.append_nil]; exact ⟨Nat.le_refl _, Nat.le_refl _⟩
    | cons y ys =>
      have h3 := runsL_append f xs (y :: ys) a y hl rfl
      have := runsL_length f (y :: ys) (by simp)
      have := breaks_lt f (y :: ys) (by simp)
      split at h3 <;> omega

end

/-! ## The raw search -/

theorem runCmd_number {num : Nat} {bytes : Bytes} {m n : Nat} (h1 : RunCmd num bytes .countHelloWorldRaw (.ok (.number m)))
    (h2 : RunCmd num bytes .countHelloWorldRaw (.ok (.number n))) : m = n := by
  have : some (Res.ok (Report.number m)) = some (.ok (.number n)) := h1.symm.trans h2
  cases this
  rfl

/-- What `count_hello_world_raw` finds in a file cut into pieces. -/
theorem raw_pieces {num : Nat} : ∀ (ss : List Bytes) (ns : List Nat), Fits ss.flatten →
    Each (fun s n => RunCmd num s .countHelloWorldRaw (.ok (.number n))) ss ns →
    ∃ k, RunCmd num ss.flatten .countHelloWorldRaw (.ok (.number k)) ∧ ns.sum ≤ k ∧ k ≤ ns.sum + (ss.length - 1)
  | [], [], _, _ => ⟨0, printed_ok (a := 0) (by decide), Nat.le_refl _, Nat.le_refl _⟩
  | [], _ :: _, _, h => h.elim
  | _ :: _, [], _, h => h.elim
  | s :: ss, n :: ns, hF, h => by
    have hF' : Fits (s ++ ss.flatten) := hF
    obtain ⟨k, h1, h2, h3⟩ := raw_pieces ss ns (fits_parts hF').2 h.2
    obtain ⟨m, n', k', h4, h5, h6, h7, h8, -⟩ := C114_raw (num := num) s ss.flatten hF'
    cases runCmd_number h4 h.1
    cases runCmd_number h5 h1
    refine ⟨k', h6, ?_, ?_⟩
    · rw [List.sum_cons]; omega
    · rw [List.sum_cons, List.length_cons]
      cases ss with
      | nil =>
        have h9 : k' = n := by
          have h10 := h6
          rw [show s ++ ([] : List Bytes).flatten = s by simp] at h10
          exact runCmd_number h10 h.1
        simp only [List.length_nil]
        omega
      | cons => simp only [List.length_cons] at h3 ⊢; omega

/-- **C115** the raw search, on every file: `par_count_hello_world_raw` finds no more than `count_hello_world_raw`. What it
misses is what lies behind the slices, and at most one occurrence for each end of a slice. -/
theorem C115_raw (num : Nat) (hnum : num ≠ 0) (bytes : Bytes) (hF : Fits bytes) :
    ∃ slices n rest k, partitionFrom dltStorage bytes num = .ok slices ∧
      RunCmd num bytes .parCountHelloWorldRaw (.ok (.number n)) ∧
      RunCmd num (bytes.drop slices.flatten.length) .countHelloWorldRaw (.ok (.number rest)) ∧
      RunCmd num bytes .countHelloWorldRaw (.ok (.number k)) ∧
      n + rest ≤ k ∧ k ≤ n + rest + slices.length ∧ (slices.flatten = bytes → k ≤ n + (slices.length - 1)) := by
  obtain ⟨-, b, slices, -, -, hb, hp, -, -, hfl⟩ := C30_partition_contiguous bytes hF num hnum
  obtain ⟨slices', hp', h⟩ := C69_counters num hnum bytes hF .parCountHelloWorldRaw (.inr (.inr (.inl rfl)))
  rw [hp] at hp'
  cases hp'
  have hfit := (partition_fits hF hp).2
  rcases h with ⟨⟨s, hs, h1⟩, -⟩ | ⟨-, ns, h1, h2⟩
  · have h2 := printed_ok (f := numberReport) (C49_raw s (hfit s hs)).1
    have h1 : printed (countHelloWorldRaw s) numberReport = some .panic := h1
    rw [h2] at h1
    cases h1
  · have hjoin : bytes = slices.flatten ++ bytes.drop slices.flatten.length := by
      rw [hfl, List.length_take, Nat.min_eq_left hb, List.take_append_drop]
    have hF' : Fits (slices.flatten ++ bytes.drop slices.flatten.length) := by rw [← hjoin]; exact hF
    obtain ⟨k, h3, h4, h5⟩ := raw_pieces (num := num) slices ns (fits_parts hF').1 h1
    obtain ⟨m, rest, k', h6, h7, h8, h9, h10, -⟩ := C114_raw (num := num) _ _ hF'
    rw [← hjoin] at h8
    cases runCmd_number h3 h6
    refine ⟨slices, ns.sum, rest, k', hp, (h2 _).2 rfl, h7, h8, by omega, ?_, fun hall => ?_⟩
    · cases slices with
      | nil =>
        have : k' = rest := runCmd_number h8 h7
        simp only [List.length_nil] at h5 ⊢
        omega
      | cons => simp only [List.length_cons] at h5 ⊢; omega
    · rw [hall] at h6
      cases runCmd_number h8 h6
      omega

/-! ## The other commands, on logs -/

namespace Spec

/-- How many messages of the log start behind the slices. -/
def missed (segs : List (Bytes × StorageEntry)) (slices : List Bytes) : Nat :=
  ((messagesAt 0 segs).filter fun x => decide (slices.flatten.length ≤ x.1)).length

/-- The periods a histogram of periods shows. -/
def periods (ls : List (Nat × Nat × Nat)) : Nat := (ls.map (·.2.2)).sum

end Spec

section
variable {segs : List (Bytes × StorageEntry)} {t : Bytes}

theorem filter_length_add {α : Type} (p : α → Bool) : ∀ xs : List α,
    (xs.filter p).length + (xs.filter fun x => !p x).length = xs.length
  | [] => rfl
  | x :: xs => by
    have := filter_length_add p xs
    simp only [List.filter_cons, List.length_cons]
    cases p x <;> simp <;> omega

theorem each_messages_unique : ∀ {ss : List Bytes} {a b : List (List StorageEntry)}, Each Messages ss a → Each Messages ss b →
    a = b
  | [], [], [], _, _ => rfl
  | [], _ :: _, _, h, _ => h.elim
  | [], _, _ :: _, _, h => h.elim
  | _ :: _, [], _, h, _ => h.elim
  | _ :: _, _ :: _, [], _, h => h.elim
  | _ :: _, _ :: _, _ :: _, h1, h2 => by rw [messages_unique h1.1 h2.1, each_messages_unique h1.2 h2.2]

theorem each_length {α β : Type} {P : α → β → Prop} : ∀ {l : List α} {l' : List β}, Each P l l' → l'.length = l.length
  | [], [], _ => rfl
  | [], _ :: _, h => h.elim
  | _ :: _, [], h => h.elim
  | _ :: _, _ :: _, h => by rw [List.length_cons, List.length_cons, each_length h.2]

/-- Numbers of the slices that are additive in the messages. -/
theorem sum_of_slices {P : Bytes → Nat → Prop} (g : List StorageEntry → Nat) (hadd : ∀ xs ys, g (xs ++ ys) = g xs + g ys)
    (h0 : g [] = 0) : ∀ {ss : List Bytes} {mss : List (List StorageEntry)} {ns : List Nat}, (∀ s ∈ ss, Fits s) →
    Each Messages ss mss → Each P ss ns → (∀ s ms n, Fits s → Messages s ms → P s n → n = g ms) → ns.sum = g mss.flatten
  | [], [], [], _, _, _, _ => h0.symm
  | [], _ :: _, _, _, h, _, _ => h.elim
  | [], [], _ :: _, _, _, h, _ => h.elim
  | _ :: _, [], _, _, h, _, _ => h.elim
  | _ :: _, _ :: _, [], _, _, h, _ => h.elim
  | s :: ss, ms :: mss, n :: ns, hf, h1, h2, hP => by
    rw [List.sum_cons, List.flatten_cons, hadd, hP s ms n (hf s (by simp)) h1.1 h2.1,
      sum_of_slices g hadd h0 (fun s hs => hf s (List.mem_cons_of_mem _ hs)) h1.2 h2.2 hP]

/-- The messages of the slices, and the others. -/
theorem log_messages (hc : Clean segs t) (hF : Fits (fileOf segs t)) (hmax : AtMost 65536 (messagesAt 0 segs))
    (hns : NoStraddle (fileOf segs t) (messagesAt 0 segs)) (num : Nat) (hnum : num ≠ 0) :
    ∃ slices mss ys, partitionFrom dltStorage (fileOf segs t) num = .ok slices ∧ Each Messages slices mss ∧
      segs.map (·.2) = mss.flatten ++ ys ∧ ys.length = missed segs slices := by
  obtain ⟨slices, b, mss, h1, h2, h3, h4, h5, ⟨ys, h6⟩⟩ := C72_slices_hold_a_prefix segs t hc hF hmax hns num hnum
  refine ⟨slices, mss, ys, h1, h4, h6.symm, ?_⟩
  have hb : slices.flatten.length = b := by rw [h2, List.length_take, Nat.min_eq_left h3]
  have e1 := congrArg List.length h6
  rw [h5] at e1
  have e2 : (segs.map (·.2)).length = (messagesAt 0 segs).length := by rw [← messagesAt_map segs 0, List.length_map]
  rw [List.length_append, List.length_map, e2] at e1
  have e3 := filter_length_add (fun x : Nat × StorageEntry => decide (x.1 < b)) (messagesAt 0 segs)
  have e4 : ((messagesAt 0 segs).filter fun x => !decide (x.1 < b)) = (messagesAt 0 segs).filter fun x => decide (b ≤ x.1) := by
    congr 1
    funext x
    by_cases h : x.1 < b <;> simp [h] <;> omega
  unfold missed
  rw [hb, ← e4]
  omega

/-- **C115** `par_count`, on a log: it misses exactly the messages that start behind the slices. -/
theorem C115_count (hc : Clean segs t) (hF : Fits (fileOf segs t)) (hmax : AtMost 65536 (messagesAt 0 segs))
    (hns : NoStraddle (fileOf segs t) (messagesAt 0 segs)) (num : Nat) (hnum : num ≠ 0) :
    ∃ slices n, partitionFrom dltStorage (fileOf segs t) num = .ok slices ∧
      RunCmd num (fileOf segs t) .parCount (.ok (.number n)) ∧
      RunCmd num (fileOf segs t) .count (.ok (.number (n + missed segs slices))) := by
  obtain ⟨slices, mss, ys, h1, h2, h3, h4⟩ := log_messages hc hF hmax hns num hnum
  obtain ⟨slices', mss', h5, h6, h7⟩ := C34_par_count_never_panics (fileOf segs t) num hnum hF
  rw [h1] at h5
  cases h5
  obtain rfl := each_messages_unique h2 h6
  refine ⟨slices, _, h1, ⟨_, (h7 _).2 rfl, rfl⟩, printed_ok ?_⟩
  rw [C45_count _ hF _ (messages_fileOf hc), ← h4, ← List.length_append, ← h3]

open Classical in
/-- **C115** `par_count_hello_world`, on a log: it panics only if `count_hello_world` does; it counts no more, and misses
at most as many as there are messages behind the slices. -/
theorem C115_hello (hc : Clean segs t) (hF : Fits (fileOf segs t)) (hmax : AtMost 65536 (messagesAt 0 segs))
    (hns : NoStraddle (fileOf segs t) (messagesAt 0 segs)) (num : Nat) (hnum : num ≠ 0) :
    (RunCmd num (fileOf segs t) .parCountHelloWorld .panic → RunCmd num (fileOf segs t) .countHelloWorld .panic) ∧
    ∃ slices, partitionFrom dltStorage (fileOf segs t) num = .ok slices ∧
      ∀ k, RunCmd num (fileOf segs t) .countHelloWorld (.ok (.number k)) →
        ∃ n, RunCmd num (fileOf segs t) .parCountHelloWorld (.ok (.number n)) ∧ n ≤ k ∧ k ≤ n + missed segs slices := by
  obtain ⟨slices, mss, ys, h1, h2, h3, h4⟩ := log_messages hc hF hmax hns num hnum
  obtain ⟨slices', mss', h5, h6, h7⟩ := C69_parallel_panics num hnum (fileOf segs t) hF
  rw [h1] at h5
  cases h5
  obtain rfl := each_messages_unique h2 h6
  have hm := messages_fileOf hc
  have hpan : RunCmd num (fileOf segs t) .parCountHelloWorld .panic → RunCmd num (fileOf segs t) .countHelloWorld .panic := by
    rw [h7 _ rfl, C67_sequential_panics num _ hF _ hm _ rfl]
    rintro ⟨ms, hms, e, he, hn⟩
    exact ⟨e, by rw [h3]; exact List.mem_append_left _ (List.mem_flatten.2 ⟨ms, hms, he⟩), hn⟩
  refine ⟨hpan, slices, h1, fun k hk => ?_⟩
  obtain ⟨slices', h8, h9⟩ := C69_counters num hnum (fileOf segs t) hF .parCountHelloWorld (.inr (.inl rfl))
  rw [h1] at h8
  cases h8
  have hk' : k = _ := runs_prints hF hm rfl hk
  rcases h9 with ⟨-, h9⟩ | ⟨-, ns, h9, h10⟩
  · exfalso
    have := hpan ((h9 _).2 rfl)
    cases hk.symm.trans this
  · refine ⟨_, (h10 _).2 rfl, ?_⟩
    have hfit := (partition_fits hF h1).2
    have e1 : ns.sum = (mss.flatten.filter fun e => decide (hasText helloWorld e)).length :=
      sum_of_slices (fun ms => (ms.filter fun e => decide (hasText helloWorld e)).length) (fun _ _ => by
        rw [List.filter_append, List.length_append]) rfl hfit h2 h9 fun s ms n hs hms hr => runs_prints hs hms rfl hr
    rw [hk', h3, List.filter_append, List.length_append, ← e1, ← h4]
    have := List.length_filter_le (fun e => decide (hasText helloWorld e)) ys
    omega

/-- **C115** `par_histogram_timestamp`, on a log: it shows at most one period more for each cut, and misses at most as many
as there are messages behind the slices. -/
theorem C115_periods (hc : Clean segs t) (hF : Fits (fileOf segs t)) (hmax : AtMost 65536 (messagesAt 0 segs))
    (hns : NoStraddle (fileOf segs t) (messagesAt 0 segs)) (num : Nat) (hnum : num ≠ 0) :
    ∃ slices ps ss, partitionFrom dltStorage (fileOf segs t) num = .ok slices ∧
      RunCmd num (fileOf segs t) .parHistogramTimestamp (.ok (.buckets ps)) ∧
      RunCmd num (fileOf segs t) .histogramTimestamp (.ok (.buckets ss)) ∧
      periods ps ≤ periods ss + (slices.length - 1) ∧ periods ss ≤ periods ps + missed segs slices := by
  obtain ⟨slices, mss, ys, h1, h2, h3, h4⟩ := log_messages hc hF hmax hns num hnum
  obtain ⟨slices', runss, m, h5, h6, h7, h8⟩ := C35_par_histogram (fileOf segs t) num hnum hF
  rw [h1] at h5
  cases h5
  have hm := messages_fileOf hc
  have htot : ∀ m : List (Nat × Nat), periods (m.map fun e => (e.1, e.1 + 1, e.2)) = (m.map (·.2)).sum := fun m => by
    unfold periods; rw [List.map_map]; rfl
  have hb : bucketReport m = .ok (.buckets (m.map fun e => (e.1, e.1 + 1, e.2))) := by
    unfold bucketReport
    rw [bucketLines_ok m fun e he => ?_]
    · rfl
    · obtain ⟨h9, h10⟩ := (h8.mem e.1 e.2).1 he
      obtain ⟨r, -, hr⟩ := List.mem_map.1 (List.count_pos_iff.1 (h10 ▸ h9))
      rw [← hr]
      exact secSpanOf_lt r
  rcases sequential_outcome num _ hF _ hm .histogramTimestamp rfl with ⟨h, -⟩ | ⟨-, rep, h9, h10⟩
  · cases h
  cases rep with
  | buckets ss =>
    refine ⟨slices, _, ss, h1, ⟨_, (h6 _).2 rfl, hb.symm⟩, (h10 _).2 rfl, ?_⟩
    obtain ⟨r, m', h11, h12, rfl⟩ := h9
    have e1 : r = runsL (fun a b : StorageEntry => decide (a.secs ≤ b.secs)) (segs.map (·.2)) :=
      secs_runs_unique h11
    have e2 := runss_of_messages h2 h7
    rw [htot, htot, isHistogram_total h8, isHistogram_total h12, List.length_map, List.length_map, e1, e2, h3, ← h4]
    have p1 := runsL_pieces (fun a b : StorageEntry => decide (a.secs ≤ b.secs)) mss
    have p2 := runsL_prefix (fun a b : StorageEntry => decide (a.secs ≤ b.secs)) mss.flatten ys
    have p3 : mss.length = slices.length := each_length h2
    omega
  | _ => cases h9

/-- The lifecycles of at least half an hour. -/
def longRuns (xs : List StorageEntry) : Nat :=
  ((runsL (fun a b : StorageEntry => decide (time a ≤ time b)) xs).filter fun r => decide (halfHour ≤ timeSpanOf r)).length

theorem longRuns_le (xs : List StorageEntry) : longRuns xs ≤ xs.length := by
  have h := (runsL_prefix (fun a b : StorageEntry => decide (time a ≤ time b)) [] xs).2
  rw [List.nil_append] at h
  have : (runsL (fun a b : StorageEntry => decide (time a ≤ time b)) []).length = 0 := rfl
  refine Nat.le_trans (List.length_filter_le _ _) ?_
  omega

theorem longRuns_append (xs ys : List StorageEntry) : longRuns xs ≤ longRuns (xs ++ ys) ∧
    longRuns (xs ++ ys) ≤ longRuns xs + ys.length ∧ longRuns (xs ++ ys) ≤ longRuns xs + longRuns ys + 1 ∧
    longRuns xs + longRuns ys ≤ longRuns (xs ++ ys) + 1 := by
  cases hl : xs.getLast? with
  | none =>
    rw [List.getLast?_eq_none_iff.1 hl, List.nil_append, show longRuns [] = 0 from rfl]
    have := longRuns_le ys
    omega
  | some e =>
    cases hh : ys.head? with
    | none =>
      rw [List.head?_eq_none_iff.1 hh, List.append_nil, show longRuns [] = 0 from rfl]
      omega
    | some e' =>
      have hy : ys ≠ [] := by rintro rfl; simp at hh
      have hyl := (runsL_prefix (fun a b : StorageEntry => decide (time a ≤ time b)) [] ys).2
      rw [List.nil_append, show (runsL (fun a b : StorageEntry => decide (time a ≤ time b)) []).length = 0 from rfl] at hyl
      by_cases hf : time e ≤ time e'
      · obtain ⟨A, l, h, B, e4, e5, e6⟩ := runsL_append_joined (fun a b : StorageEntry => decide (time a ≤ time b)) _ _ e e' hl hh
          (decide_eq_true hf)
        have hm := maximalRuns_runsL (fun a b : StorageEntry => decide (time a ≤ time b)) (xs ++ ys)
        have hj : (l ++ h).Pairwise fun a b => time a ≤ time b :=
          chain_pairwise (R := fun a b : StorageEntry => time a ≤ time b) (fun _ _ _ => Nat.le_trans) fun i a b h1 h2 =>
            of_decide_eq_true (hm.related (l ++ h) (by rw [e6]; simp) i a b h1 h2)
        have s1 : timeSpanOf l ≤ timeSpanOf (l ++ h) := by
          simpa using timeSpan_mono (u := []) (r := l) (v := h) (by simpa using hj)
        have s2 : timeSpanOf h ≤ timeSpanOf (l ++ h) := by
          simpa using timeSpan_mono (u := l) (r := h) (v := []) (by simpa using hj)
        rw [e5, List.length_cons] at hyl
        have hB := List.length_filter_le (fun r => decide (halfHour ≤ timeSpanOf r)) B
        unfold longRuns
        rw [e4, e5, e6]
        simp only [List.filter_append, List.filter_cons, List.filter_nil, List.length_append]
        refine ⟨?_, ?_, ?_, ?_⟩ <;> by_cases c1 : halfHour ≤ timeSpanOf (l ++ h) <;> by_cases c2 : halfHour ≤ timeSpanOf l <;>
          by_cases c3 : halfHour ≤ timeSpanOf h <;> simp [c1, c2, c3] <;> omega
      · have e6 := runsL_append_apart (fun a b : StorageEntry => decide (time a ≤ time b)) _ _ e e' hl hh (by simpa using hf)
        have e7 : longRuns (xs ++ ys) = longRuns xs + longRuns ys := by
          unfold longRuns
          rw [e6, List.filter_append, List.length_append]
        have := longRuns_le ys
        omega

theorem longRuns_pieces : ∀ mss : List (List StorageEntry),
    (mss.map longRuns).sum ≤ longRuns mss.flatten + (mss.length - 1) ∧
    longRuns mss.flatten ≤ (mss.map longRuns).sum + (mss.length - 1)
  | [] => ⟨Nat.zero_le _, Nat.zero_le _⟩
  | [ms] => by simp
  | ms :: ms' :: mss => by
    have h1 := longRuns_pieces (ms' :: mss)
    have h2 := longRuns_append ms (ms' :: mss).flatten
    rw [List.flatten_cons, List.map_cons, List.sum_cons]
    simp only [List.length_cons] at h1 ⊢
    omega

/-- **C115** `iter` on the slices of a log, as `par_iter` runs it: on a log on which `iter` does not panic it does not panic
on a slice either; all slices together have, but for one per cut, no more lifecycles, and lack at most one per cut and one
for each message behind the slices. -/
theorem C115_iter (hc : Clean segs t) (hF : Fits (fileOf segs t)) (hmax : AtMost 65536 (messagesAt 0 segs))
    (hns : NoStraddle (fileOf segs t) (messagesAt 0 segs)) (num : Nat) (hnum : num ≠ 0) (k : Nat)
    (hk : RunCmd num (fileOf segs t) .iter (.ok (.number k))) :
    ∃ slices ns, partitionFrom dltStorage (fileOf segs t) num = .ok slices ∧
      Each (fun s n => RunCmd num s .iter (.ok (.number n))) slices ns ∧
      ns.sum ≤ k + (slices.length - 1) ∧ k ≤ ns.sum + (slices.length - 1) + missed segs slices := by
  obtain ⟨slices, mss, ys, h1, h2, h3, h4⟩ := log_messages hc hF hmax hns num hnum
  have hm := messages_fileOf hc
  have hfit := (partition_fits hF h1).2
  obtain ⟨runs, hr, hk'⟩ := runs_prints hF hm rfl hk
  have htime : ∀ xs runs, MaximalRuns (fun a b => time a ≤ time b) xs runs →
      (runs.filter fun r => decide (halfHour ≤ timeSpanOf r)).length = longRuns xs := fun xs runs h => by
    unfold longRuns
    rw [runs_eq_runsL (fun a b : StorageEntry => decide (time a ≤ time b)) (fun a b => decide_eq_true_iff) h]
  rw [htime _ _ hr, h3, show timed (mss.flatten ++ ys) = timed mss.flatten ++ timed ys from List.filter_append _ _] at hk'
  have hslice : ∀ s ∈ slices, ∀ ms ∈ mss, Messages s ms →
      RunCmd num s .iter (.ok (.number (longRuns (timed ms)))) := by
    intro s hs ms hms hM
    rcases sequential_outcome num s (hfit s hs) _ hM .iter rfl with ⟨⟨e, he, hn⟩, -⟩ | ⟨-, rep, h5, h6⟩
    · exfalso
      have : RunCmd num (fileOf segs t) .iter .panic := by
        rw [C67_sequential_panics num _ hF _ hm _ rfl]
        refine ⟨e, ?_, hn⟩
        obtain ⟨he1, he2⟩ := List.mem_filter.1 he
        refine List.mem_filter.2 ⟨?_, he2⟩
        rw [h3]
        exact List.mem_append_left _ (List.mem_flatten.2 ⟨ms, hms, he1⟩)
      cases hk.symm.trans this
    · cases rep with
      | number n =>
        obtain ⟨runs, h7, h8⟩ := h5
        rw [htime _ _ h7] at h8
        rw [← h8]
        exact (h6 _).2 rfl
      | _ => cases h5
  refine ⟨slices, mss.map fun ms => longRuns (timed ms), h1, ?_, ?_⟩
  · have hall : ∀ (ss : List Bytes) (zs : List (List StorageEntry)), Each Messages ss zs → (∀ s ∈ ss, s ∈ slices) →
        (∀ z ∈ zs, z ∈ mss) → Each (fun s n => RunCmd num s .iter (.ok (.number n))) ss (zs.map fun ms => longRuns (timed ms)) := by
      intro ss
      induction ss with
      | nil =>
        intro zs hz _ _
        cases zs with
        | nil => trivial
        | cons => exact hz.elim
      | cons s ss ih =>
        intro zs hz i1 i2
        cases zs with
        | nil => exact hz.elim
        | cons z zs =>
          exact ⟨hslice s (i1 s (by simp)) z (i2 z (by simp)) hz.1,
            ih zs hz.2 (fun s hs => i1 s (List.mem_cons_of_mem _ hs)) fun z hz => i2 z (List.mem_cons_of_mem _ hz)⟩
    exact hall slices mss h2 (fun _ h => h) fun _ h => h
  · have p1 := longRuns_pieces (mss.map timed)
    have p2 := longRuns_append (timed mss.flatten) (timed ys)
    have p3 : mss.length = slices.length := each_length h2
    have p4 : timed mss.flatten = (mss.map timed).flatten := by
      unfold timed
      rw [List.filter_flatten]
    have p5 : (timed ys).length ≤ ys.length := List.length_filter_le _ _
    rw [List.map_map, ← p4, List.length_map] at p1
    have p6 : ((mss.map (longRuns ∘ timed))).sum = (mss.map fun ms => longRuns (timed ms)).sum := rfl
    omega

end

/-- **C115** at work: five messages in two slices; one is missed. -/
example : ∃ slices, partitionFrom dltStorage (packed five) 2 = .ok slices ∧
    missed (five.map fun e => (([] : Bytes), e)) slices = 1 ∧
    RunCmd 2 (packed five) .parCount (.ok (.number 4)) ∧ RunCmd 2 (packed five) .count (.ok (.number 5)) := by
  have hF := five_fits
  have hns := noStraddle_packed five_wf
  have hmx := five_max
  rw [← fileOf_packed] at hF hns
  rw [← messagesAt_packed] at hns hmx
  obtain ⟨slices, n, h1, h2, h3⟩ := C115_count (clean_packed five_wf) hF hmx hns 2 (by decide)
  rw [fileOf_packed] at h1 h2 h3
  have h4 := partitionFrom_of_ranges C31_partition_drops_the_tail
  have h5 := h4
  rw [h1] at h4
  cases h4
  have hm : missed (five.map fun e => (([] : Bytes), e)) ([(0, 40), (40, 80)].map fun r => ((packed five).take r.2).drop r.1) = 1 := by
    decide
  refine ⟨_, h5, hm, ?_, ?_⟩
  · obtain ⟨-, hw⟩ := C34_par_count_wrong
    exact ⟨_, (hw _).2 rfl, rfl⟩
  · exact printed_ok C34_par_count_wrong.1

end Verif
