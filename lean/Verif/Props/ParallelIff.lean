import Verif.Props.ParallelGap

/-! # C34, C36, C58: exactly when the multithreaded commands agree with the sequential ones -/

set_option linter.unusedSimpArgs false

namespace Verif

open Spec

/-- The messages of a log that start behind its slices. -/
def Spec.behind (segs : List (Bytes × StorageEntry)) (slices : List Bytes) : List StorageEntry :=
  ((messagesAt 0 segs).filter fun x => decide (slices.flatten.length ≤ x.1)).map (·.2)

section
variable {segs : List (Bytes × StorageEntry)} {t : Bytes}

theorem behind_length (slices : List Bytes) : (behind segs slices).length = missed segs slices := by
  unfold behind missed
  rw [List.length_map]

theorem filter_split {α : Type} (p : α → Bool) (xs : List α) (k : Nat) (h : xs.filter p = xs.take k) :
    xs = xs.filter p ++ xs.filter fun x => !p x := by
  have h1 : ∀ x ∈ xs.take k, p x = true := fun x hx => by rw [← h] at hx; exact (List.mem_filter.1 hx).2
  have h2 : (xs.take k).filter p = xs.take k := List.filter_eq_self.2 h1
  have h3 : (xs.drop k).filter p = [] := by
    have := congrArg (List.filter p) (List.take_append_drop k xs)
    rw [List.filter_append, h, h2] at this
    exact List.append_right_eq_self.1 this
  have h4 : xs.filter (fun x => !p x) = xs.drop k := by
    conv => lhs; rw [← List.take_append_drop k xs]
    rw [List.filter_append, List.filter_eq_nil_iff.2 (fun x hx => by simp [h1 x hx]), List.nil_append,
      List.filter_eq_self.2]
    intro x hx
    have := List.filter_eq_nil_iff.1 h3 x hx
    simpa using this
  rw [h, h4, List.take_append_drop]

theorem log_behind (hc : Clean segs t) (hF : Fits (fileOf segs t)) (hmax : AtMost 65536 (messagesAt 0 segs))
    (hns : NoStraddle (fileOf segs t) (messagesAt 0 segs)) (num : Nat) (hnum : num ≠ 0) :
    ∃ slices mss, partitionFrom dltStorage (fileOf segs t) num = .ok slices ∧ Each Messages slices mss ∧
      segs.map (·.2) = mss.flatten ++ behind segs slices := by
  obtain ⟨slices, b, mss, h1, h2, h3, h4, h5, -⟩ := C72_slices_hold_a_prefix segs t hc hF hmax hns num hnum
  refine ⟨slices, mss, h1, h4, ?_⟩
  have hb : slices.flatten.length = b := by rw [h2, List.length_take, Nat.min_eq_left h3]
  obtain ⟨⟨k, hk⟩, -⟩ := messages_behind segs t 0 b
  have := filter_split (fun x : Nat × StorageEntry => decide (x.1 < b)) (messagesAt 0 segs) k hk
  rw [h5, ← messagesAt_map segs 0]
  unfold behind
  rw [hb, ← List.map_append]
  congr 1
  conv => lhs; rw [this]
  congr 2
  funext x
  by_cases h : x.1 < b <;> simp [h] <;> omega

/-- **C34** exactly when the claim is true of a log: `par_count` does what `count` does if and only if no message starts
behind the slices. -/
theorem C34_par_count_iff (hc : Clean segs t) (hF : Fits (fileOf segs t)) (hmax : AtMost 65536 (messagesAt 0 segs))
    (hns : NoStraddle (fileOf segs t) (messagesAt 0 segs)) (num : Nat) (hnum : num ≠ 0) :
    ∃ slices, partitionFrom dltStorage (fileOf segs t) num = .ok slices ∧
      ((∀ r, RunCmd num (fileOf segs t) .parCount r ↔ RunCmd num (fileOf segs t) .count r) ↔ behind segs slices = []) := by
  obtain ⟨slices, n, h1, h2, h3⟩ := C115_count hc hF hmax hns num hnum
  refine ⟨slices, h1, ?_⟩
  obtain ⟨slices', mss', h5, h6, h7⟩ := C34_par_count_never_panics (fileOf segs t) num hnum hF
  have hdet : ∀ r, RunCmd num (fileOf segs t) .parCount r ↔ r = .ok (.number n) := by
    obtain ⟨q, hq, hr⟩ := h2
    have hq' := (h7 q).1 hq
    intro r
    constructor
    · rintro ⟨q', h8, rfl⟩
      rw [(h7 q').1 h8, ← hq', ← hr]
    · rintro rfl
      exact ⟨q, hq, hr⟩
  have hseq : ∀ r, RunCmd num (fileOf segs t) .count r ↔ r = .ok (.number (n + missed segs slices)) := fun r =>
    ⟨fun h => by cases h.symm.trans h3; rfl, fun h => h ▸ h3⟩
  rw [← List.length_eq_zero_iff, behind_length]
  constructor
  · intro h
    have := (hdet _).1 ((h _).2 h3)
    simp only [Res.ok.injEq, Report.number.injEq] at this
    omega
  · intro h r
    rw [hdet, hseq, h, Nat.add_zero]

open Classical in
/-- **C58** exactly when the claim is true of a log: `par_count_hello_world` does what `count_hello_world` does if and only
if a message in the slices is incomplete (both panic), or every message that starts behind the slices is complete and
does not have the text in its payload. -/
theorem C58_par_count_hello_world_iff (hc : Clean segs t) (hF : Fits (fileOf segs t))
    (hmax : AtMost 65536 (messagesAt 0 segs)) (hns : NoStraddle (fileOf segs t) (messagesAt 0 segs)) (num : Nat)
    (hnum : num ≠ 0) :
    ∃ slices mss, partitionFrom dltStorage (fileOf segs t) num = .ok slices ∧ Each Messages slices mss ∧
      ((∀ r, RunCmd num (fileOf segs t) .parCountHelloWorld r ↔ RunCmd num (fileOf segs t) .countHelloWorld r) ↔
        ((∃ ms ∈ mss, ∃ e ∈ ms, payloadOf e = none) ∨
          ∀ e ∈ behind segs slices, payloadOf e ≠ none ∧ ¬ hasText helloWorld e)) := by
  obtain ⟨slices, mss, h1, h2, h3⟩ := log_behind hc hF hmax hns num hnum
  refine ⟨slices, mss, h1, h2, ?_⟩
  obtain ⟨slices', h8, h9⟩ := C69_counters num hnum (fileOf segs t) hF .parCountHelloWorld (.inr (.inl rfl))
  rw [h1] at h8
  cases h8
  obtain ⟨slices', mss', h5, h6, h7⟩ := C69_parallel_panics num hnum (fileOf segs t) hF
  rw [h1] at h5
  cases h5
  obtain rfl := each_messages_unique h2 h6
  have hm := messages_fileOf hc
  have hfit := (partition_fits hF h1).2
  have hp := h7 .parCountHelloWorld rfl
  have hsp := C67_sequential_panics num _ hF _ hm .countHelloWorld rfl
  rcases h9 with ⟨-, h9⟩ | ⟨h11, ns, h9, h10⟩
  · have hpan := hp.1 ((h9 _).2 rfl)
    have hpan' : Panics (segs.map (·.2)) .countHelloWorld := by
      obtain ⟨ms, hms, e, he, hn⟩ := hpan
      exact ⟨e, by rw [h3]; exact List.mem_append_left _ (List.mem_flatten.2 ⟨ms, hms, he⟩), hn⟩
    have hs := hsp.2 hpan'
    constructor
    · intro _
      exact .inl hpan
    · intro _ r
      rw [h9]
      exact ⟨fun h => h ▸ hs, fun h => by cases h.symm.trans hs; rfl⟩
  · have hno : ¬ ∃ ms ∈ mss, ∃ e ∈ ms, payloadOf e = none := fun h => by
      have := hp.2 h
      rw [h10] at this
      cases this
    have e1 : ns.sum = (mss.flatten.filter fun e => decide (hasText helloWorld e)).length :=
      sum_of_slices (fun ms => (ms.filter fun e => decide (hasText helloWorld e)).length) (fun _ _ => by
        rw [List.filter_append, List.length_append]) rfl hfit h2 h9 fun s ms n hs hms hr => runs_prints hs hms rfl hr
    rcases sequential_outcome num _ hF _ hm .countHelloWorld rfl with ⟨h12, h13⟩ | ⟨h12, rep, h13, h14⟩
    · constructor
      · intro h
        have := (h10 _).1 ((h .panic).2 ((h13 _).2 rfl))
        cases this
      · rintro (h | h)
        · exact absurd h hno
        · exfalso
          obtain ⟨e, he, hn⟩ := h12
          rw [h3, List.mem_append] at he
          rcases he with he | he
          · obtain ⟨ms, hms, he⟩ := List.mem_flatten.1 he
            exact hno ⟨ms, hms, e, he, hn⟩
          · exact (h e he).1 hn
    · cases rep with
      | number k =>
        have hk : k = _ := h13
        rw [h3, List.filter_append, List.length_append, ← e1] at hk
        have hall : (∀ r, RunCmd num (fileOf segs t) .parCountHelloWorld r ↔ RunCmd num (fileOf segs t) .countHelloWorld r) ↔
            ns.sum = k := by
          constructor
          · intro h
            have := (h10 _).1 ((h _).2 ((h14 _).2 rfl))
            simp only [Res.ok.injEq, Report.number.injEq] at this
            exact this.symm
          · intro h r
            rw [h10, h14, h]
        rw [hall, hk]
        have hz : ns.sum = ns.sum + ((behind segs slices).filter fun e => decide (hasText helloWorld e)).length ↔
            ∀ e ∈ behind segs slices, ¬ hasText helloWorld e := by
          rw [show (ns.sum = ns.sum + ((behind segs slices).filter fun e => decide (hasText helloWorld e)).length) ↔
            ((behind segs slices).filter fun e => decide (hasText helloWorld e)).length = 0 by omega,
            List.length_eq_zero_iff, List.filter_eq_nil_iff]
          simp
        rw [hz]
        constructor
        · intro h
          refine .inr fun e he => ⟨fun hn => h12 ⟨e, ?_, hn⟩, h e he⟩
          rw [h3]
          exact List.mem_append_right _ he
        · rintro (h | h)
          · exact absurd h hno
          · exact fun e he => (h e he).2
      | _ => cases h13

end

theorem runsL_cuts {α : Type} (f : α → α → Bool) (mss : List (List α))
    (h : (runsL f mss.flatten).length = (mss.map (runsL f)).flatten.length) (pre post : List (List α)) (a b : α)
    (hm : mss = pre ++ post) (ha : pre.flatten.getLast? = some a) (hb : post.flatten.head? = some b) : f a b = false := by
  subst hm
  rw [List.flatten_append, List.map_append, List.flatten_append, List.length_append] at h
  have h1 := runsL_append f pre.flatten post.flatten a b ha hb
  have h2 := (runsL_pieces f pre).1
  have h3 := (runsL_pieces f post).1
  cases hf : f a b with
  | false => rfl
  | true =>
    rw [if_pos hf] at h1
    omega

/-- **C36** exactly when the claim is true of a log whose slices lose nothing: `par_histogram_timestamp` is
`histogram_timestamp` if and only if the seconds decrease from the last message in front of each cut to the first message
behind it. -/
theorem C36_par_histogram_iff (segs : List (Bytes × StorageEntry)) (t : Bytes) (hc : Clean segs t)
    (hF : Fits (fileOf segs t)) (hmax : AtMost 65536 (messagesAt 0 segs))
    (hns : NoStraddle (fileOf segs t) (messagesAt 0 segs)) (num : Nat) (hnum : num ≠ 0) (slices : List Bytes)
    (hp : partitionFrom dltStorage (fileOf segs t) num = .ok slices) (hcover : slices.flatten = fileOf segs t)
    (mss : List (List StorageEntry)) (hm : Each Messages slices mss) :
    (∀ r, ParTimestampHistogram (fileOf segs t) num r ↔ some r = timestampHistogram (fileOf segs t)) ↔
    ∀ pre post a b, mss = pre ++ post → pre.flatten.getLast? = some a → post.flatten.head? = some b →
      secsOf b < secsOf a := by
  refine ⟨fun h => ?_, fun hcuts r => C36_par_histogram_partial segs t hc hF hmax hns num hnum slices hp hcover mss hm hcuts r⟩
  obtain ⟨slices', runss, m, h1, h2, h3, h4⟩ := C35_par_histogram (fileOf segs t) num hnum hF
  rw [hp] at h1
  cases h1
  obtain ⟨m', h5, h6⟩ := timestampHistogram_runs hF
  have hmm : m = m' := by
    have := (h _).1 ((h2 _).2 rfl)
    rw [h5] at this
    simpa using this
  subst hmm
  rw [runsOfFile_eq hF (messages_fileOf hc), ← slices_messages segs t hc hF hmax hns num hnum slices hp hcover mss hm] at h6
  rw [runss_of_messages hm h3] at h4
  have e := (isHistogram_total h6).symm.trans (isHistogram_total h4)
  rw [List.length_map, List.length_map] at e
  intro pre post a b hpp ha hb
  have := runsL_cuts _ mss e pre post a b hpp ha hb
  simp only [decide_eq_false_iff_not] at this
  exact UInt32.not_le.1 this

/-- Five messages, two threads: the slices have 80 bytes, the last message is behind them, so the counts differ. -/
example : ¬ ∀ r, RunCmd 2 (packed five) .parCount r ↔ RunCmd 2 (packed five) .count r := by
  have hcl := clean_packed five_wf
  have hmx : AtMost 65536 (messagesAt 0 (five.map fun e => (([] : Bytes), e))) := by
    rw [messagesAt_packed]; exact five_max
  have hF := five_fits
  have hns : NoStraddle (fileOf (five.map fun e => (([] : Bytes), e)) []) (messagesAt 0 (five.map fun e => (([] : Bytes), e))) := by
    rw [messagesAt_packed, fileOf_packed]; exact noStraddle_packed five_wf
  rw [← fileOf_packed] at hF
  obtain ⟨slices, h1, h2⟩ := C34_par_count_iff hcl hF hmx hns 2 (by decide)
  rw [fileOf_packed] at h1 h2
  rw [h2]
  have h5 := partitionFrom_of_ranges C31_partition_drops_the_tail
  rw [h1] at h5
  simp only [Res.ok.injEq] at h5
  have hl : slices.flatten.length ≤ 80 := by
    rw [h5]
    simp only [List.map_cons, List.map_nil, List.flatten_cons, List.flatten_nil, List.length_append, List.length_nil,
      List.length_drop, List.length_take, five_len]
    omega
  unfold behind
  rw [messagesAt_packed, five_at]
  intro h
  rw [List.map_eq_nil_iff, List.filter_eq_nil_iff] at h
  exact absurd (by simpa using hl) (h (80, msg0) (by simp))

/-- Four messages in two slices of two: the histograms agree exactly if the third message was stored in an earlier second
than the second. -/
example (a b c d : UInt32) :
    (∀ r, ParTimestampHistogram (packed (four a b c d)) 2 r ↔ some r = timestampHistogram (packed (four a b c d))) ↔
    c < b := by
  have hw := four_wf a b c d
  have hF := four_fits a b c d
  have hmx := four_max a b c d
  have hns := noStraddle_packed hw
  have hsl := four_slices a b c d
  rw [← fileOf_packed] at hF hns hsl
  rw [← messagesAt_packed] at hmx hns
  have h := C36_par_histogram_iff _ [] (clean_packed hw) hF hmx hns 2 (by decide) _ hsl.1 hsl.2 _ (four_messages a b c d)
  rw [fileOf_packed] at h
  rw [h]
  constructor
  · intro h
    exact h [[secMsg a, secMsg b]] [[secMsg c, secMsg d]] (secMsg b) (secMsg c) rfl rfl rfl
  · intro h pre post x y hp ha hb
    rcases pre with _ | ⟨p1, _ | ⟨p2, _ | ⟨p3, pre⟩⟩⟩
    · simp at ha
    · simp only [List.cons_append, List.nil_append, List.cons.injEq] at hp
      obtain ⟨rfl, rfl⟩ := hp
      simp at ha hb
      subst ha; subst hb
      exact h
    · simp only [List.cons_append, List.nil_append, List.cons.injEq] at hp
      obtain ⟨rfl, rfl, rfl⟩ := hp
      simp at hb
    · simp at hp

end Verif
