import Verif.Spec.Main
import Verif.Props.Buffer
import Verif.Props.HelloExact
import Verif.Props.Utf8
import Verif.Props.ParallelCount

/-! # C64–C68: the command line of `ripdlt` -/

set_option linter.unusedSimpArgs false
set_option linter.unusedVariables false

namespace Verif

open Spec

/-! ## The sequential commands -/

theorem printed_ok {α β : Type} {r : Option (Res α)} {f : α → Res β} {a : α} (h : r = some (.ok a)) :
    printed r f = some (f a) := by rw [h]; rfl

theorem printed_panic {α β : Type} {r : Option (Res α)} {f : α → Res β} (h : r = some .panic) :
    printed r f = some .panic := by rw [h]; rfl

theorem sizeLines_ok (m : List (Nat × Nat)) : ∀ t, t + (m.map fun e => e.1 * e.2).sum ≤ usizeMax →
    sizeLines t m = .ok (m.map (fun e => (e.1, e.2, e.1 * e.2 / 1024)), t + (m.map fun e => e.1 * e.2).sum) := by
  induction m with
  | nil => intro t _; rfl
  | cons e m ih =>
    intro t h
    obtain ⟨k, v⟩ := e
    simp only [List.map_cons, List.sum_cons] at h ⊢
    have h1 : umul k v = .ok (k * v) := by unfold umul; rw [if_pos (by omega)]
    have h2 : uadd t (k * v) = .ok (t + k * v) := uadd_ok (by omega)
    unfold sizeLines
    rw [h1, Res.ok_bind', h2, Res.ok_bind', ih (t + k * v) (by omega), Res.ok_bind', Nat.add_assoc]

theorem sizeReport_ok {m : List (Nat × Nat)} (h : (m.map fun e => e.1 * e.2).sum ≤ usizeMax) :
    sizeReport m = .ok (.sizes (m.map fun e => (e.1, e.2, e.1 * e.2 / 1024)) ((m.map fun e => e.1 * e.2).sum / 1024)) := by
  unfold sizeReport
  rw [sizeLines_ok m 0 (by omega), Res.ok_bind', Nat.zero_add]

theorem ecuReport_of {m : List (B4 × (OrdMap UInt32 Nat × Nat))} :
    (ecuReport m = .panic ↔ ∃ e ∈ m, ¬ Utf8 e.1.toBytes) ∧
    ((∀ e ∈ m, Utf8 e.1.toBytes) → ecuReport m = .ok (.ecus (m.map fun e => (e.1.toBytes, e.2)))) := by
  have h := ecuLines_eq m
  unfold ecuReport
  constructor
  · rw [← h.1]
    cases ecuLines m with
    | panic => exact ⟨fun _ => rfl, fun _ => rfl⟩
    | ok a => exact ⟨fun h => (by cases h), fun h => (by cases h)⟩
  · intro hu
    rw [h.2 hu]
    rfl

theorem sum_map_le {α : Type} {f g : α → Nat} (l : List α) (h : ∀ x, f x ≤ g x) : (l.map f).sum ≤ (l.map g).sum := by
  induction l with
  | nil => exact Nat.le_refl _
  | cons x l ih => simp only [List.map_cons, List.sum_cons]; have := h x; omega

theorem payload_le (e : StorageEntry) : ((payloadOf e).getD []).length ≤ (encode e).length := by
  have h6 : e.dlt.tail.length ≤ (encode e).length := by
    simp only [encode, List.length_append]
    omega
  unfold payloadOf
  split
  · simp only [Option.getD_some, List.length_drop]; omega
  · simp

/-- The run of a command with one possible outcome. -/
def Outcome (num : Nat) (bytes : Bytes) (msgs : List StorageEntry) (c : Cmd) : Prop :=
  (Panics msgs c ∧ ∀ r, RunCmd num bytes c r ↔ r = .panic) ∨
  (¬ Panics msgs c ∧ ∃ rep, Prints bytes msgs c rep ∧ ∀ r, RunCmd num bytes c r ↔ r = .ok rep)

theorem some_iff {α : Type} {o : Option α} {a : α} (h : o = some a) (r : α) : o = some r ↔ r = a := by
  rw [h, Option.some.injEq, eq_comm]

theorem not_complete {msgs : List StorageEntry} : ¬ TimesComplete msgs ↔ ∃ e ∈ timed msgs, timeOf e = none := by
  unfold TimesComplete
  constructor
  · intro h
    apply Classical.byContradiction
    intro hn
    exact h fun e he => by
      cases hq : timeOf e with
      | some p => rfl
      | none => exact absurd ⟨e, he, hq⟩ hn
  · rintro ⟨e, he, hn⟩ h
    have := h e he
    rw [hn] at this
    cases this

theorem sequential_outcome (num : Nat) (bytes : Bytes) (hF : Fits bytes) (msgs : List StorageEntry)
    (h : Messages bytes msgs) (c : Cmd) (hc : sequential c = true) : Outcome num bytes msgs c := by
  have hfit := fits_le hF
  cases c <;> first | (exact absurd hc (by decide)) | skip
  case histogramLifecycles =>
    obtain ⟨h1, h2⟩ := C48_lifecycle_histogram_partial bytes hF msgs h
    by_cases ht : TimesComplete msgs
    · obtain ⟨runs, m, a, b, c, d, e⟩ := h2 ht
      refine .inr ⟨fun hp => not_complete.2 hp ht, .buckets _, ⟨runs, m, a, c, rfl⟩, some_iff ?_⟩
      rw [printed_ok b]
      unfold bucketReport
      rw [e]
      rfl
    · exact .inl ⟨not_complete.1 ht, some_iff (printed_panic (h1.2 ht))⟩
  case splitLifecycles =>
    obtain ⟨h1, h2⟩ := C48_lifecycle_split_partial bytes hF msgs h
    by_cases ht : TimesComplete msgs
    · obtain ⟨m, a, b, c⟩ := h2 ht
      have hk := histogram_keys b (fun k => ¬ Utf8 k.toBytes)
      have hl := ecuReport_of (m := m)
      by_cases hu : ∃ e ∈ timed msgs, ¬ Utf8 e.storageHeader.ecu.toBytes
      · obtain ⟨e, he, hn⟩ := hu
        refine .inl ⟨⟨e, he, .inr hn⟩, some_iff ?_⟩
        rw [printed_ok a]
        refine congrArg some (hl.1.2 (hk.2 ⟨_, List.mem_map.2 ⟨e, he, rfl⟩, hn⟩))
      · refine .inr ⟨?_, .ecus _, ⟨m, b, fun ecu hist n hm => (c ecu hist n hm).2, rfl⟩, some_iff ?_⟩
        · rintro ⟨e, he, hn | hn⟩
          · exact not_complete.2 ⟨e, he, hn⟩ ht
          · exact hu ⟨e, he, hn⟩
        · rw [printed_ok a]
          refine congrArg some (hl.2 fun e he => ?_)
          apply Classical.byContradiction
          intro hn
          obtain ⟨k, hk1, hk2⟩ := hk.1 ⟨e, he, hn⟩
          obtain ⟨x, hx, rfl⟩ := List.mem_map.1 hk1
          exact hu ⟨x, hx, hk2⟩
    · obtain ⟨e, he, hn⟩ := not_complete.1 ht
      exact .inl ⟨⟨e, he, .inl hn⟩, some_iff (printed_panic (h1.2 ht))⟩
  case splitTimestamp =>
    obtain ⟨m, a, b, -, c⟩ := C47_split_timestamp bytes hF msgs h
    have hk := histogram_keys b (fun k => ¬ Utf8 k.toBytes)
    have hl := ecuReport_of (m := m)
    by_cases hu : ∃ e ∈ msgs, ¬ Utf8 e.storageHeader.ecu.toBytes
    · obtain ⟨e, he, hn⟩ := hu
      refine .inl ⟨⟨e, he, hn⟩, some_iff ?_⟩
      rw [printed_ok a]
      refine congrArg some (hl.1.2 (hk.2 ⟨_, List.mem_map.2 ⟨e, he, rfl⟩, hn⟩))
    · refine .inr ⟨hu, .ecus _, ⟨m, b, fun ecu hist n hm => (c ecu hist n hm).2, rfl⟩, some_iff ?_⟩
      rw [printed_ok a]
      refine congrArg some (hl.2 fun e he => ?_)
      apply Classical.byContradiction
      intro hn
      obtain ⟨k, hk1, hk2⟩ := hk.1 ⟨e, he, hn⟩
      obtain ⟨x, hx, rfl⟩ := List.mem_map.1 hk1
      exact hu ⟨x, hx, hk2⟩
  case histogramTimestamp =>
    obtain ⟨runs, m, a, b, c, -, -, d⟩ := C46_timestamp_histogram bytes hF msgs h
    refine .inr ⟨id, .buckets _, ⟨runs, m, a, c, rfl⟩, some_iff ?_⟩
    rw [printed_ok b]
    unfold bucketReport
    rw [d]
    rfl
  case histogramMessageType =>
    obtain ⟨h1, h2⟩ := C50_message_types_partial bytes hF msgs h
    by_cases hp : ∃ e ∈ msgs, flag e.dlt 0 = true ∧ e.dlt.tail.length < optLen e.dlt + 10
    · exact .inl ⟨hp, some_iff (printed_panic (h1.2 hp))⟩
    · obtain ⟨m, a, b, -⟩ := h2 fun e he hf => Nat.le_of_not_lt fun hlt => hp ⟨e, he, hf, hlt⟩
      exact .inr ⟨hp, .infos m, b, some_iff (printed_ok a)⟩
  case histogramPayloadSize =>
    obtain ⟨h1, h2⟩ := C50_payload_sizes_partial bytes hF msgs h
    by_cases hp : ∃ e ∈ msgs, flag e.dlt 0 = true ∧ e.dlt.tail.length < optLen e.dlt
    · exact .inl ⟨hp, some_iff (printed_panic (h1.2 hp))⟩
    · obtain ⟨m, a, b, -, -⟩ := h2 fun e he hf => Nat.le_of_not_lt fun hlt => hp ⟨e, he, hf, hlt⟩
      have hsum := isHistogram_sum id b
      simp only [List.map_id, id] at hsum
      have hle : (msgs.map fun e => ((payloadOf e).getD []).length).sum ≤ bytes.length := by
        refine Nat.le_trans ?_ (messages_sum h).1
        exact sum_map_le msgs payload_le
      refine .inr ⟨hp, .sizes _ _, ⟨m, b, rfl, rfl⟩, some_iff ?_⟩
      rw [printed_ok a, sizeReport_ok (by rw [hsum]; unfold usizeMax; omega), hsum]
  case histogramMessageSize =>
    obtain ⟨m, a, b, -, c, d, -⟩ := C45_message_sizes bytes hF msgs h
    refine .inr ⟨id, .sizes _ _, ⟨m, b, rfl, rfl⟩, some_iff ?_⟩
    rw [printed_ok a, sizeReport_ok (by rw [c]; unfold usizeMax; omega), c]
  case count => exact .inr ⟨id, .number _, rfl, some_iff (printed_ok (C45_count bytes hF msgs h))⟩
  case histogramHelloWorld =>
    obtain ⟨hits, m, a, d, e, g⟩ := hello_histogram_report bytes hF
    obtain ⟨b, c⟩ := hits_sound hF a
    refine .inr ⟨id, .offsets _, ⟨hits, m, a, b, c, e, rfl⟩, some_iff ?_⟩
    rw [printed_ok d]
    unfold offsetReport
    rw [g]
    rfl
  case countHelloWorld =>
    obtain ⟨h1, h2⟩ := C49_count_hello_world_partial bytes hF msgs h
    by_cases hp : ∃ e ∈ msgs, payloadOf e = none
    · exact .inl ⟨hp, some_iff (printed_panic (h1.2 hp))⟩
    · refine .inr ⟨hp, .number _, rfl, some_iff (printed_ok (h2 fun e he => ?_))⟩
      cases hq : payloadOf e with
      | some p => rfl
      | none => exact absurd ⟨e, he, hq⟩ hp
  case countHelloWorldRaw =>
    obtain ⟨a, b, c⟩ := C49_raw bytes hF
    exact .inr ⟨id, .number _, ⟨_, b, c, rfl⟩, some_iff (printed_ok a)⟩
  case countHelloWorldGrepit =>
    obtain ⟨hits, a, b⟩ := (C62_grepit_exact bytes hF _).1 rfl
    obtain ⟨c, d⟩ := hits_sound hF a
    exact .inr ⟨id, .number _, ⟨hits, a, c, d, rfl⟩, some_iff (printed_ok b)⟩
  case iter =>
    obtain ⟨h1, h2⟩ := C48_lifecycle_iter_partial bytes hF msgs h
    by_cases ht : TimesComplete msgs
    · obtain ⟨runs, a, b⟩ := h2 ht
      refine .inr ⟨fun hp => not_complete.2 hp ht, .number _, ⟨runs, a, rfl⟩, some_iff ?_⟩
      rw [printed_ok b]
      unfold numberReport
      congr
    · exact .inl ⟨not_complete.1 ht, some_iff (printed_panic (h1.2 ht))⟩
  case itertools =>
    obtain ⟨h1, h2⟩ := C57_lifecycle_itertools_partial bytes hF msgs h
    by_cases hp : ∃ e ∈ (timed msgs).dropLast, timeOf e = none
    · exact .inl ⟨hp, some_iff (printed_panic (h1.2 (by
        obtain ⟨e, he, hn⟩ := hp
        exact ⟨e, he, by rw [hn]; simp⟩)))⟩
    · refine .inr ⟨hp, .number _, rfl, some_iff ?_⟩
      rw [printed_ok (h2 fun e he => ?_)]
      · unfold numberReport
        congr
      · cases hq : timeOf e with
        | some p => rfl
        | none => exact absurd ⟨e, he, hq⟩ hp

/-- **C67** a sequential command panics exactly on the files `Panics` describes by their messages. -/
theorem C67_sequential_panics (num : Nat) (bytes : Bytes) (hF : Fits bytes) (msgs : List StorageEntry)
    (h : Messages bytes msgs) (c : Cmd) (hc : sequential c = true) :
    RunCmd num bytes c .panic ↔ Panics msgs c := by
  rcases sequential_outcome num bytes hF msgs h c hc with ⟨hp, hr⟩ | ⟨hp, rep, -, hr⟩
  · rw [hr]; exact ⟨fun _ => hp, fun _ => rfl⟩
  · rw [hr]; exact ⟨fun h => (by cases h), fun h => absurd h hp⟩

/-- **C68** a sequential command that does not panic prints one report, and that report is right. -/
theorem C68_sequential_prints (num : Nat) (bytes : Bytes) (hF : Fits bytes) (msgs : List StorageEntry)
    (h : Messages bytes msgs) (c : Cmd) (hc : sequential c = true) (hn : ¬ Panics msgs c) :
    ∃ rep, Prints bytes msgs c rep ∧ ∀ r, RunCmd num bytes c r ↔ r = .ok rep := by
  rcases sequential_outcome num bytes hF msgs h c hc with ⟨hp, hr⟩ | ⟨hp, rep, h1, hr⟩
  · exact absurd hp hn
  · exact ⟨rep, h1, hr⟩

/-- **C67** no sequential command panics on a file whose messages are complete and whose ECU ids are text. -/
theorem C67_complete_files (num : Nat) (bytes : Bytes) (hF : Fits bytes) (msgs : List StorageEntry)
    (h : Messages bytes msgs) (hcomplete : ∀ e ∈ msgs, (payloadOf e).isSome)
    (htext : ∀ e ∈ msgs, Utf8 e.storageHeader.ecu.toBytes) (c : Cmd) (hc : sequential c = true) :
    ¬ RunCmd num bytes c .panic := by
  rw [C67_sequential_panics num bytes hF msgs h c hc]
  have hpl : ∀ e ∈ msgs, preLen e ≤ e.dlt.tail.length := fun e he => by
    have := hcomplete e he
    unfold payloadOf at this
    split at this
    · assumption
    · cases this
  have htime : ∀ e ∈ timed msgs, timeOf e ≠ none := fun e he => by
    obtain ⟨h1, h2⟩ := List.mem_filter.1 he
    have h3 := hpl e h1
    have h4 : 4 ≤ (e.dlt.tail.drop (Spec.four (flag e.dlt 2) + Spec.four (flag e.dlt 3))).length := by
      rw [List.length_drop]
      unfold preLen optLen at h3
      rw [h2] at h3
      simp only [Spec.four] at h3 ⊢
      simp only [if_true] at h3
      omega
    unfold timeOf
    rw [if_pos h2]
    match hd : e.dlt.tail.drop (Spec.four (flag e.dlt 2) + Spec.four (flag e.dlt 3)) with
    | a :: b :: c :: d :: _ => simp
    | [] | [_] | [_, _] | [_, _, _] => rw [hd] at h4; simp at h4
  cases c <;> first | (exact id) | skip
  case histogramLifecycles => rintro ⟨e, he, hn⟩; exact htime e he hn
  case iter => rintro ⟨e, he, hn⟩; exact htime e he hn
  case itertools => rintro ⟨e, he, hn⟩; exact htime e (List.dropLast_subset _ he) hn
  case splitLifecycles =>
    rintro ⟨e, he, hn | hn⟩
    · exact htime e he hn
    · exact hn (htext e (List.mem_filter.1 he).1)
  case splitTimestamp => rintro ⟨e, he, hn⟩; exact hn (htext e he)
  case histogramMessageType =>
    rintro ⟨e, he, hf, hn⟩
    have := hpl e he
    unfold preLen at this
    rw [if_pos hf] at this
    omega
  case histogramPayloadSize =>
    rintro ⟨e, he, hf, hn⟩
    have := hpl e he
    unfold preLen at this
    rw [if_pos hf] at this
    omega
  case countHelloWorld =>
    rintro ⟨e, he, hn⟩
    have := hcomplete e he
    rw [hn] at this
    cases this

/-! ## All commands -/

theorem grepit_total (s : Bytes) (h : Fits s) : countHelloWorldGrepit helloRegex s ≠ none := by
  obtain ⟨hits, h1, -⟩ := C61_count_grepit s h
  rw [h1]; simp

theorem bind_unique {α β : Type} {P : Res α → Prop} {f : α → Res β} {q : Res α} (h : ∀ q', P q' ↔ q' = q) (r : Res β) :
    (∃ q, P q ∧ r = q.bind f) ↔ r = q.bind f := by
  constructor
  · rintro ⟨q', h1, h2⟩; rw [(h q').1 h1] at h2; exact h2
  · intro h2; exact ⟨q, (h q).2 rfl, h2⟩

/-- **C66** every command ends on every file, and has exactly one result, whatever the schedule of the threads. -/
theorem C66_one_result (num : Nat) (hnum : num ≠ 0) (bytes : Bytes) (hF : Fits bytes) (c : Cmd) :
    ∃ r, ∀ r', RunCmd num bytes c r' ↔ r' = r := by
  obtain ⟨msgs, hm, -⟩ := messages_of_file bytes hF
  by_cases hc : sequential c = true
  · rcases sequential_outcome num bytes hF msgs hm c hc with ⟨-, hr⟩ | ⟨-, rep, -, hr⟩
    · exact ⟨_, hr⟩
    · exact ⟨_, hr⟩
  · have hcount : ∀ (f : Bytes → Option (Res Nat)) (g : Nat → Res Report), (∀ s, Fits s → f s ≠ none) →
        ∃ r, ∀ r', (∃ q, Multithreaded f bytes num q ∧ r' = q.bind g) ↔ r' = r := fun f g hf => by
      obtain ⟨q, hq⟩ := C35_counters f bytes num hF hf
      exact ⟨_, bind_unique hq⟩
    cases c <;> first | (exact absurd rfl hc) | skip
    case parSplitTimestamp =>
      obtain ⟨-, -, m, -, h2, -⟩ := C35_par_split bytes num hnum hF
      exact ⟨_, bind_unique h2⟩
    case parHistogramTimestamp =>
      obtain ⟨-, -, m, -, h2, -⟩ := C35_par_histogram bytes num hnum hF
      exact ⟨_, bind_unique h2⟩
    case parCount => exact hcount _ _ ripCount_total
    case parCountHelloWorld => exact hcount _ _ countHelloWorld_total
    case parCountHelloWorldRaw => exact hcount _ _ countHelloWorldRaw_total
    case parCountHelloWorldGrepit => exact hcount _ _ grepit_total
    case parIter => exact hcount _ _ lifecycleIter_total

/-! ## The multithreaded commands -/

theorem each_sum_le {slices : List Bytes} {ns : List Nat} {P : Bytes → Nat → Prop} (hle : ∀ s ∈ slices, ∀ n, P s n → n ≤ s.length)
    (h : Each P slices ns) : ns.sum ≤ slices.flatten.length := by
  induction slices generalizing ns with
  | nil => cases ns with
    | nil => exact Nat.le_refl _
    | cons => exact h.elim
  | cons s slices ih => cases ns with
    | nil => exact h.elim
    | cons n ns =>
      have h1 := ih (fun s hs => hle s (List.mem_cons_of_mem _ hs)) h.2
      have h2 := hle s (List.mem_cons_self ..) n h.1
      simp only [List.sum_cons, List.flatten_cons, List.length_append]
      omega

theorem each_fun {slices : List Bytes} {ns : List Nat} {f : Bytes → Option (Res Nat)}
    (h : Each (fun s n => f s = some (.ok n)) slices ns) :
    (∀ s ∈ slices, f s = some (.ok (match f s with | some (.ok n) => n | _ => 0))) ∧
    slices.map (fun s => match f s with | some (.ok n) => n | _ => 0) = ns := by
  induction slices generalizing ns with
  | nil => cases ns with
    | nil => exact ⟨fun s hs => (by cases hs), rfl⟩
    | cons => exact h.elim
  | cons s slices ih => cases ns with
    | nil => exact h.elim
    | cons n ns =>
      obtain ⟨h1, h2⟩ := ih h.2
      have h0 : f s = some (.ok n) := h.1
      constructor
      · intro s' hs'
        rcases List.mem_cons.1 hs' with rfl | hs'
        · simp only [h0]
        · exact h1 s' hs'
      · rw [List.map_cons, h2, h0]

theorem each_exists {α β : Type} {P : α → β → Prop} : ∀ {l : List α}, (∀ x ∈ l, ∃ y, P x y) → ∃ l', Each P l l'
  | [], _ => ⟨[], trivial⟩
  | x :: l, h => by
    obtain ⟨y, hy⟩ := h x (List.mem_cons_self ..)
    obtain ⟨l', hl⟩ := each_exists fun x hx => h x (List.mem_cons_of_mem _ hx)
    exact ⟨y :: l', hy, hl⟩

/-- A counter over slices: it panics exactly if it panics on a slice; otherwise it is the sum. -/
theorem multithreaded_counter {f : Bytes → Option (Res Nat)} {bytes : Bytes} {num : Nat} (hF : Fits bytes) {slices : List Bytes}
    (hp : partitionFrom dltStorage bytes num = .ok slices) (ht : ∀ s, Fits s → f s ≠ none)
    (hle : ∀ s, Fits s → ∀ n, f s = some (.ok n) → n ≤ s.length) :
    ((∃ s ∈ slices, f s = some .panic) ∧ ∀ r, Multithreaded f bytes num r ↔ r = .panic) ∨
    ((¬ ∃ s ∈ slices, f s = some .panic) ∧ ∃ ns, Each (fun s n => f s = some (.ok n)) slices ns ∧
      ∀ r, Multithreaded f bytes num r ↔ r = .ok ns.sum) := by
  have hfit := (partition_fits hF hp).2
  have hs := C35_counters_sum f bytes num hF slices hp ht
  by_cases hpan : ∃ s ∈ slices, f s = some .panic
  · exact .inl ⟨hpan, hs.1 hpan⟩
  · refine .inr ⟨hpan, ?_⟩
    obtain ⟨ns, hns⟩ : ∃ ns, Each (fun s n => f s = some (.ok n)) slices ns := by
      refine each_exists fun s hs' => ?_
      cases h1 : f s with
      | none => exact absurd h1 (ht s (hfit s hs'))
      | some r =>
        cases r with
        | panic => exact absurd ⟨s, hs', h1⟩ hpan
        | ok n => exact ⟨n, rfl⟩
    obtain ⟨h1, h2⟩ := each_fun hns
    have h3 := hs.2 _ h1 (by
      have h4 := each_sum_le (fun s hs n hn => hle s (hfit s hs) n hn) hns
      have h5 := (partition_fits hF hp).1
      have h6 := fits_le hF
      rw [h2]
      unfold usizeMax
      omega)
    rw [h2] at h3
    exact ⟨ns, hns, h3⟩

theorem ripCount_le (s : Bytes) (h : Fits s) (n : Nat) (hn : ripCount s = some (.ok n)) : n ≤ s.length := by
  obtain ⟨msgs, hm, -⟩ := messages_of_file s h
  rw [C45_count s h msgs hm] at hn
  cases hn
  exact (messages_length h hm).1

theorem countHelloWorld_le (s : Bytes) (h : Fits s) (n : Nat) (hn : countHelloWorld s = some (.ok n)) : n ≤ s.length := by
  obtain ⟨msgs, hm, -⟩ := messages_of_file s h
  obtain ⟨h1, h2⟩ := C49_count_hello_world_partial s h msgs hm
  by_cases hp : ∃ e ∈ msgs, payloadOf e = none
  · rw [h1.2 hp] at hn; cases hn
  · rw [h2 fun e he => by
      cases hq : payloadOf e with
      | some p => rfl
      | none => exact absurd ⟨e, he, hq⟩ hp] at hn
    cases hn
    exact Nat.le_trans (List.length_filter_le _ _) (messages_length h hm).1

theorem countHelloWorldRaw_le (s : Bytes) (h : Fits s) (n : Nat) (hn : countHelloWorldRaw s = some (.ok n)) : n ≤ s.length := by
  obtain ⟨a, b, c⟩ := C49_raw s h
  rw [a] at hn
  cases hn
  refine pairwise_lt_length b fun i hi => ?_
  have h1 := ((c i).1 hi).length_le
  rw [List.length_drop] at h1
  have : helloWorld.length = 11 := rfl
  omega

theorem grepit_le (s : Bytes) (h : Fits s) (n : Nat) (hn : countHelloWorldGrepit helloRegex s = some (.ok n)) : n ≤ s.length := by
  obtain ⟨hits, a, b, c⟩ := C61_count_grepit s h
  rw [a] at hn
  cases hn
  rw [← List.length_map (f := fun x : Nat × StorageEntry => x.1)]
  refine pairwise_lt_length (List.pairwise_map.2 b) fun i hi => ?_
  obtain ⟨x, hx, rfl⟩ := List.mem_map.1 hi
  have := (readableAt_iff_msgAt.2 (c x hx).1).bounds dlt_lawful
  omega

theorem lifecycleIter_le (s : Bytes) (h : Fits s) (n : Nat) (hn : lifecycleIter s = some (.ok n)) : n ≤ s.length := by
  obtain ⟨msgs, hm, -⟩ := messages_of_file s h
  obtain ⟨h1, h2⟩ := C48_lifecycle_iter_partial s h msgs hm
  by_cases hp : TimesComplete msgs
  · obtain ⟨runs, a, b⟩ := h2 hp
    rw [b] at hn
    cases hn
    have h3 := runs_length_le a
    have h4 : (timed msgs).length ≤ msgs.length := List.length_filter_le _ _
    have h5 := (messages_length h hm).1
    have h6 := List.length_filter_le (fun r => decide (halfHour ≤ timeSpanOf r)) runs
    omega
  · rw [h1.2 hp] at hn; cases hn

theorem each_iff {α β : Type} {P Q : α → β → Prop} (h : ∀ a b, P a b ↔ Q a b) : ∀ {l : List α} {l' : List β}, Each P l l' → Each Q l l'
  | [], [], _ => trivial
  | _ :: _, _ :: _, hh => ⟨(h _ _).1 hh.1, each_iff h hh.2⟩
  | [], _ :: _, hh => hh.elim
  | _ :: _, [], hh => hh.elim

/-- **C69** the multithreaded counters: `par_count`, `par_count_hello_world`, `par_count_hello_world_raw`,
`par_count_hello_world_grepit` panic exactly if the sequential command panics on some slice, and otherwise print the sum of
what the sequential command prints on the slices. -/
theorem C69_counters (num : Nat) (hnum : num ≠ 0) (bytes : Bytes) (hF : Fits bytes) (c : Cmd)
    (hc : c = .parCount ∨ c = .parCountHelloWorld ∨ c = .parCountHelloWorldRaw ∨ c = .parCountHelloWorldGrepit) :
    ∃ slices, partitionFrom dltStorage bytes num = .ok slices ∧
      (((∃ s ∈ slices, RunCmd num s (onSlices c) .panic) ∧ ∀ r, RunCmd num bytes c r ↔ r = .panic) ∨
       ((¬ ∃ s ∈ slices, RunCmd num s (onSlices c) .panic) ∧ ∃ ns,
        Each (fun s n => RunCmd num s (onSlices c) (.ok (.number n))) slices ns ∧
        ∀ r, RunCmd num bytes c r ↔ r = .ok (.number ns.sum))) := by
  obtain ⟨rs, b, slices, -, -, -, hp, -⟩ := C30_partition_contiguous bytes hF num hnum
  refine ⟨slices, hp, ?_⟩
  have key : ∀ f : Bytes → Option (Res Nat), (∀ s, Fits s → f s ≠ none) →
      (∀ s, Fits s → ∀ n, f s = some (.ok n) → n ≤ s.length) →
      (((∃ s ∈ slices, printed (f s) numberReport = some .panic) ∧
        ∀ r, (∃ q, Multithreaded f bytes num q ∧ r = q.bind numberReport) ↔ r = .panic) ∨
       ((¬ ∃ s ∈ slices, printed (f s) numberReport = some .panic) ∧ ∃ ns,
        Each (fun s n => printed (f s) numberReport = some (.ok (.number n))) slices ns ∧
        ∀ r, (∃ q, Multithreaded f bytes num q ∧ r = q.bind numberReport) ↔ r = .ok (.number ns.sum))) := by
    intro f ht hle
    have hpr : ∀ s, printed (f s) numberReport = some .panic ↔ f s = some .panic := fun s => by
      cases h : f s with
      | none => exact ⟨fun h => (by cases h), fun h => (by cases h)⟩
      | some r =>
        cases r with
        | panic => exact ⟨fun _ => rfl, fun _ => rfl⟩
        | ok n => exact ⟨fun h => (by cases h), fun h => (by cases h)⟩
    have hok : ∀ s n, f s = some (.ok n) ↔ printed (f s) numberReport = some (.ok (.number n)) := fun s n => by
      cases h : f s with
      | none => exact ⟨fun h => (by cases h), fun h => (by cases h)⟩
      | some r =>
        cases r with
        | panic => exact ⟨fun h => (by cases h), fun h => (by cases h)⟩
        | ok m =>
          constructor
          · intro h; cases h; rfl
          · intro h
            have h' : some (Res.ok (Report.number m)) = some (.ok (.number n)) := h
            cases h'
            rfl
    simp only [hpr]
    rcases multithreaded_counter hF hp ht hle with ⟨h1, h2⟩ | ⟨h1, ns, h2, h3⟩
    · exact .inl ⟨h1, bind_unique h2⟩
    · exact .inr ⟨h1, ns, each_iff hok h2, bind_unique h3⟩
  rcases hc with rfl | rfl | rfl | rfl
  · exact key _ ripCount_total ripCount_le
  · exact key _ countHelloWorld_total countHelloWorld_le
  · exact key _ countHelloWorldRaw_total countHelloWorldRaw_le
  · exact key _ grepit_total grepit_le

theorem secSpanOf_lt (r : List StorageEntry) : secSpanOf r < 2 ^ 32 := by
  unfold secSpanOf
  split
  · rename_i a b _ _
    have := b.storageHeader.secs.toNat_lt
    unfold secsOf
    omega
  · decide

/-- **C69** the messages of the slices decide whether a multithreaded command panics. -/
theorem C69_parallel_panics (num : Nat) (hnum : num ≠ 0) (bytes : Bytes) (hF : Fits bytes) :
    ∃ slices mss, partitionFrom dltStorage bytes num = .ok slices ∧ Each Messages slices mss ∧
      ∀ c, sequential c = false → (RunCmd num bytes c .panic ↔ ∃ msgs ∈ mss, Panics msgs (onSlices c)) := by
  obtain ⟨slices, mss, m, hp, hm, hq, hpan, hok⟩ := C56_par_split_timestamp_partial bytes num hnum hF
  have hfit := (partition_fits hF hp).2
  refine ⟨slices, mss, hp, hm, fun c hc => ?_⟩
  have hslice : ∀ k, sequential k = true → ((∃ s ∈ slices, RunCmd num s k .panic) ↔ ∃ msgs ∈ mss, Panics msgs k) := by
    intro k hk
    constructor
    · rintro ⟨s, hs, hr⟩
      obtain ⟨ms, hms, h1⟩ := each_left hm s hs
      exact ⟨ms, hms, (C67_sequential_panics num s (hfit s hs) ms h1 k hk).1 hr⟩
    · rintro ⟨ms, hms, hr⟩
      obtain ⟨s, hs, h1⟩ := each_right hm ms hms
      exact ⟨s, hs, (C67_sequential_panics num s (hfit s hs) ms h1 k hk).2 hr⟩
  have hcount : ∀ k, (k = .parCount ∨ k = .parCountHelloWorld ∨ k = .parCountHelloWorldRaw ∨ k = .parCountHelloWorldGrepit) →
      sequential (onSlices k) = true → (RunCmd num bytes k .panic ↔ ∃ msgs ∈ mss, Panics msgs (onSlices k)) := by
    intro k hk hs
    rw [← hslice _ hs]
    obtain ⟨slices', hp', h1⟩ := C69_counters num hnum bytes hF k hk
    rw [hp] at hp'
    cases hp'
    rcases h1 with ⟨h1, h2⟩ | ⟨h1, ns, -, h2⟩
    · rw [h2]; exact ⟨fun _ => h1, fun _ => rfl⟩
    · rw [h2]; exact ⟨fun h => (by cases h), fun h => absurd h h1⟩
  cases c <;> first | (exact absurd hc (by decide)) | skip
  case parCount => exact hcount _ (.inl rfl) rfl
  case parCountHelloWorld => exact hcount _ (.inr (.inl rfl)) rfl
  case parCountHelloWorldRaw => exact hcount _ (.inr (.inr (.inl rfl))) rfl
  case parCountHelloWorldGrepit => exact hcount _ (.inr (.inr (.inr rfl))) rfl
  case parIter =>
    show (∃ q, Multithreaded lifecycleIter bytes num q ∧ Res.panic = q.bind fun _ => .ok Report.nothing) ↔ _
    rw [← hslice (onSlices .parIter) rfl]
    have hpr : ∀ s, RunCmd num s (onSlices .parIter) .panic ↔ lifecycleIter s = some .panic := fun s => by
      show printed (lifecycleIter s) numberReport = some .panic ↔ _
      cases h : lifecycleIter s with
      | none => exact ⟨fun h => (by cases h), fun h => (by cases h)⟩
      | some r =>
        cases r with
        | panic => exact ⟨fun _ => rfl, fun _ => rfl⟩
        | ok n => exact ⟨fun h => (by cases h), fun h => (by cases h)⟩
    simp only [hpr]
    rcases multithreaded_counter hF hp lifecycleIter_total lifecycleIter_le with ⟨h1, h2⟩ | ⟨h1, ns, -, h2⟩
    · rw [bind_unique h2]; exact ⟨fun _ => h1, fun _ => rfl⟩
    · rw [bind_unique h2]; exact ⟨fun h => (by cases h), fun h => absurd h h1⟩
  case parHistogramTimestamp =>
    obtain ⟨slices', runss, m', -, h2, h3, h4⟩ := C35_par_histogram bytes num hnum hF
    have hno : ¬ ∃ msgs ∈ mss, Panics msgs (onSlices .parHistogramTimestamp) := fun ⟨_, _, h⟩ => h
    refine ⟨fun h => ?_, fun h => absurd h hno⟩
    exfalso
    rw [show RunCmd num bytes .parHistogramTimestamp .panic ↔ _ from bind_unique h2 _] at h
    have hb := bucket_keys h4 (fun k hk => by
      obtain ⟨r, -, rfl⟩ := List.mem_map.1 hk
      exact secSpanOf_lt r)
    rw [show (Res.ok m').bind bucketReport = bucketReport m' from rfl] at h
    unfold bucketReport at h
    rw [hb] at h
    cases h
  case parSplitTimestamp =>
    rw [show RunCmd num bytes .parSplitTimestamp .panic ↔ _ from bind_unique hq _,
      show (Res.ok m).bind ecuReport = ecuReport m from rfl, eq_comm, ecuReport_of.1, ← (ecuLines_eq m).1, hpan]
    constructor
    · rintro ⟨e, he, hn⟩
      obtain ⟨ms, hms, he⟩ := List.mem_flatten.1 he
      exact ⟨ms, hms, e, he, hn⟩
    · rintro ⟨ms, hms, e, he, hn⟩
      exact ⟨e, List.mem_flatten.2 ⟨ms, hms, he⟩, hn⟩

/-! ## The command line -/

theorem ite_some {α : Type} {p : Prop} [Decidable p] {a c : α} {o : Option α} (h : (if p then some a else o) = some c) :
    (p ∧ a = c) ∨ o = some c := by
  by_cases hp : p
  · rw [if_pos hp] at h; cases h; exact .inl ⟨hp, rfl⟩
  · rw [if_neg hp] at h; exact .inr h

/-- **C64** the commands are exactly the documented names. -/
theorem C64_names (s : String) (c : Cmd) : Cmd.ofString s = some c ↔ s = cmdName c := by
  constructor
  · intro h
    unfold Cmd.ofString at h
    iterate 21
      replace h := ite_some h
      rcases h with ⟨hs, rfl⟩ | h
      · exact hs
    cases h
  · rintro rfl
    cases c <;> rfl

theorem cmdName_ne_none (s : String) : Cmd.ofString s = none ↔ ∀ c, s ≠ cmdName c := by
  constructor
  · intro h c hs
    rw [(C64_names s c).2 hs] at h
    cases h
  · intro h
    cases hc : Cmd.ofString s with
    | none => rfl
    | some c => exact absurd ((C64_names s c).1 hc) (h c)

/-- **C64** with fewer than three arguments the program prints its usage. -/
theorem C64_usage (num : Nat) (f : OsFile) (args : List String) (hlen : args.length < 3) (e : RipEnd) :
    RipMain num f args e ↔ e = .usage := by
  match args, hlen with
  | [], _ => exact Iff.rfl
  | [_], _ => exact Iff.rfl
  | [_, _], _ => exact Iff.rfl

/-- **C64** with three or more arguments it panics if the access method or the command has a wrong name, or the file
cannot be opened, or `mmap` is asked for an empty file; the arguments behind the third are ignored. -/
theorem C64_rejects (num : Nat) (f : OsFile) (m c name : String) (rest : List String) (e : RipEnd)
    (hbad : (m ≠ "mmap" ∧ m ≠ "read") ∨ (∀ k, c ≠ cmdName k) ∨ f.opens = false ∨ (m = "mmap" ∧ f.contents = []) ∨
      (m = "mmap" ∧ f.maps = false)) :
    RipMain num f (m :: c :: name :: rest) e ↔ e = .panicked := by
  unfold RipMain
  dsimp only
  split
  · exact Iff.rfl
  · rename_i b hb
    have hc : Cmd.ofString c = none := by
      rw [cmdName_ne_none]
      rcases hbad with ⟨h1, h2⟩ | h | h | ⟨h1, h⟩ | ⟨h1, h⟩
      · rw [if_neg h1, if_neg h2] at hb; cases hb
      · exact h
      · split at hb
        · rw [C60_mmap_file, h] at hb; cases hb.1
        · split at hb
          · unfold DltBuffer.readFile at hb; rw [h] at hb; cases hb
          · cases hb
      · rw [if_pos h1, C60_mmap_file] at hb; exact absurd h hb.2.2.1
      · rw [if_pos h1, C60_mmap_file, h] at hb; cases hb.2.1
    rw [hc]

/-- How the result of a command ends the program. -/
def ending : Res Report → RipEnd
  | .panic => .panicked
  | .ok r => .report r

theorem ending_eq (r : Res Report) : (match r with
    | .panic => RipEnd.panicked
    | .ok r => .report r) = ending r := by cases r <;> rfl

/-- **C64** otherwise it runs the command on the contents of the buffer. -/
theorem C64_runs (num : Nat) (f : OsFile) (m name : String) (rest : List String) (c : Cmd) (b : DltBuffer)
    (hb : m = "mmap" ∧ DltBuffer.mmapFile f = some b ∨ m = "read" ∧ DltBuffer.readFile f = some b) (e : RipEnd) :
    RipMain num f (m :: cmdName c :: name :: rest) e ↔
      (RunCmd num b.asSlice c .panic ∧ e = .panicked) ∨ ∃ rep, RunCmd num b.asSlice c (.ok rep) ∧ e = .report rep := by
  have h1 : (if m = "mmap" then DltBuffer.mmapFile f else if m = "read" then DltBuffer.readFile f else none) = some b := by
    rcases hb with ⟨rfl, h⟩ | ⟨rfl, h⟩
    · rw [if_pos rfl]; exact h
    · rw [if_neg (by decide), if_pos rfl]; exact h
  unfold RipMain
  dsimp only
  rw [h1, (C64_names _ c).2 rfl]
  dsimp only
  constructor
  · rintro ⟨r, h, he⟩
    cases r with
    | panic => exact .inl ⟨h, he⟩
    | ok rep => exact .inr ⟨rep, h, he⟩
  · rintro (⟨h, he⟩ | ⟨rep, h, he⟩)
    · exact ⟨_, h, he⟩
    · exact ⟨_, h, he⟩

/-- **C65** `mmap` and `read` make no difference on a file that can be mapped and is read without an error. -/
theorem C65_mmap_or_read (num : Nat) (f : OsFile) (hf : Faithful f) (hopen : f.opens = true) (hmap : f.maps = true)
    (hne : f.contents ≠ []) (hno : ReadEvent.error ∉ f.reads) (c name : String) (rest : List String) (e : RipEnd) :
    RipMain num f ("mmap" :: c :: name :: rest) e ↔ RipMain num f ("read" :: c :: name :: rest) e := by
  have h1 := (C60_mmap_file f (.mmap f.contents)).2 ⟨hopen, hmap, hne, rfl⟩
  obtain ⟨b, h2⟩ : ∃ b, DltBuffer.readFile f = some b := by
    unfold DltBuffer.readFile; rw [hopen]; exact ⟨_, rfl⟩
  have h3 := (C55_read_and_mmap_agree f hf hno _ b h1 h2).2.1
  by_cases hc : ∃ k, c = cmdName k
  · obtain ⟨k, rfl⟩ := hc
    rw [C64_runs num f _ name rest k _ (.inl ⟨rfl, h1⟩), C64_runs num f _ name rest k _ (.inr ⟨rfl, h2⟩), h3]
    rfl
  · have hc' : ∀ k, c ≠ cmdName k := fun k hk => hc ⟨k, hk⟩
    rw [C64_rejects num f _ c name rest e (.inr (.inl hc')), C64_rejects num f _ c name rest e (.inr (.inl hc'))]

/-- **C66** the program always ends, in exactly one way. -/
theorem C66_program_ends (num : Nat) (hnum : num ≠ 0) (f : OsFile) (hf : Faithful f) (hF : Fits f.contents)
    (args : List String) : ∃ e, ∀ e', RipMain num f args e' ↔ e' = e := by
  by_cases hlen : args.length < 3
  · exact ⟨_, C64_usage num f args hlen⟩
  match args, hlen with
  | [], h => exact absurd (by simp) h
  | [_], h => exact absurd (by simp) h
  | [_, _], h => exact absurd (by simp) h
  | m :: c :: name :: rest, _ =>
    have hgood : ∀ b k, c = cmdName k → (m = "mmap" ∧ DltBuffer.mmapFile f = some b ∨ m = "read" ∧ DltBuffer.readFile f = some b) →
        Fits b.asSlice → ∃ e, ∀ e', RipMain num f (m :: c :: name :: rest) e' ↔ e' = e := by
      intro b k hk hb hfit
      subst hk
      obtain ⟨r, hr⟩ := C66_one_result num hnum b.asSlice hfit k
      refine ⟨ending r, fun e' => ?_⟩
      rw [C64_runs num f m name rest k b hb, hr]
      cases r with
      | panic =>
        constructor
        · rintro (⟨-, h⟩ | ⟨rep, h, -⟩)
          · exact h
          · rw [hr] at h; cases h
        · exact fun h => .inl ⟨rfl, h⟩
      | ok rep =>
        constructor
        · rintro (⟨h, -⟩ | ⟨rep', h, he⟩)
          · cases h
          · rw [hr] at h; cases h; exact he
        · exact fun h => .inr ⟨rep, (hr _).2 rfl, h⟩
    by_cases hc : ∃ k, c = cmdName k
    · obtain ⟨k, hk⟩ := hc
      by_cases hm1 : m = "mmap"
      · cases hb : DltBuffer.mmapFile f with
        | none =>
          refine ⟨_, fun e' => C64_rejects num f m c name rest e' ?_⟩
          by_cases ho : f.opens = true
          · by_cases hmp : f.maps = true
            · by_cases hne : f.contents = []
              · exact .inr (.inr (.inr (.inl ⟨hm1, hne⟩)))
              · rw [(C60_mmap_file f (.mmap f.contents)).2 ⟨ho, hmp, hne, rfl⟩] at hb; cases hb
            · exact .inr (.inr (.inr (.inr ⟨hm1, by simpa using hmp⟩)))
          · exact .inr (.inr (.inl (by simpa using ho)))
        | some b =>
          refine hgood b k hk (.inl ⟨hm1, hb⟩) ?_
          rw [((C60_mmap_file f b).1 hb).2.2.2]
          exact hF
      · by_cases hm2 : m = "read"
        · cases hb : DltBuffer.readFile f with
          | none =>
            exact ⟨_, (C64_rejects num f m c name rest · (.inr (.inr (.inl ((C54_read_file_partial f hf).1.1 hb)))))⟩
          | some b =>
            refine hgood b k hk (.inr ⟨hm2, hb⟩) ?_
            have h1 := ((C54_read_file_partial f hf).2 b hb).1.length_le
            unfold Fits at hF ⊢
            omega
        · exact ⟨_, (C64_rejects num f m c name rest · (.inl ⟨hm1, hm2⟩))⟩
    · exact ⟨_, (C64_rejects num f m c name rest · (.inr (.inl fun k hk => hc ⟨k, hk⟩)))⟩

/-! ## The hypotheses are met -/

/-- `ripdlt mmap count file` on a file with four messages. -/
example (e : RipEnd) : RipMain 2 ⟨true, [], packed (four 1 2 3 4), true⟩ ["mmap", "count", "file"] e ↔
    e = .report (.number 4) := by
  have hm := messages_packed (four_wf 1 2 3 4)
  obtain ⟨rep, h1, h2⟩ := C68_sequential_prints 2 _ (four_fits 1 2 3 4) _ hm .count rfl id
  have h3 := C64_runs 2 ⟨true, [], packed (four 1 2 3 4), true⟩ "mmap" "file" [] .count (.mmap (packed (four 1 2 3 4)))
    (.inl ⟨rfl, (C60_mmap_file _ _).2 ⟨rfl, rfl, by decide, rfl⟩⟩) e
  have h4 : RunCmd 2 (packed (four 1 2 3 4)) .count (.ok (.number 4)) := by
    rw [h2]
    cases rep with
    | number n => have : n = 4 := h1; rw [this]
    | _ => exact h1.elim
  rw [show ["mmap", "count", "file"] = "mmap" :: cmdName .count :: "file" :: [] from rfl, h3]
  have h5 := (h2 _).1 h4
  rw [show (DltBuffer.mmap (packed (four 1 2 3 4))).asSlice = packed (four 1 2 3 4) from rfl]
  simp only [h2, ← h5]
  constructor
  · rintro (⟨h, -⟩ | ⟨r, h, he⟩)
    · cases h
    · cases h; exact he
  · exact fun h => .inr ⟨_, rfl, h⟩

/-- The messages of that file are complete and their ECU ids are text; one with a cut extended header makes commands
panic. -/
example : (∀ e ∈ four 1 2 3 4, (payloadOf e).isSome) ∧ (∀ e ∈ four 1 2 3 4, Utf8 e.storageHeader.ecu.toBytes) ∧
    Panics [msgNoExt] .countHelloWorld ∧ Panics [msgNoExt] .iter ∧ Panics [latinMsg] .splitTimestamp ∧
    ¬ Panics [latinMsg] .countHelloWorld := by
  refine ⟨by decide, ?_, ⟨msgNoExt, by simp, by decide⟩, ⟨msgNoExt, by decide, by decide⟩,
    ⟨latinMsg, by simp, latin_not_utf8⟩, ?_⟩
  · intro e he
    rw [← utf8Valid_iff]
    revert e
    decide
  · rintro ⟨e, he, hn⟩
    have : e = latinMsg := by simpa using he
    subst this
    exact absurd hn (by decide)

/-- Both access methods on one file. -/
example (c : String) (e : RipEnd) : RipMain 2 ⟨true, [.data 68 [76], .interrupted, .data 84 [1]], [68, 76, 84, 1], true⟩
    ["mmap", c, "file"] e ↔ RipMain 2 ⟨true, [.data 68 [76], .interrupted, .data 84 [1]], [68, 76, 84, 1], true⟩
    ["read", c, "file"] e :=
  C65_mmap_or_read 2 ⟨true, [.data 68 [76], .interrupted, .data 84 [1]], [68, 76, 84, 1], true⟩ (.data 68 [76] (.interrupted (.data 84 [1] .eof))) rfl rfl (by decide) (by decide) c "file" [] e

end Verif
