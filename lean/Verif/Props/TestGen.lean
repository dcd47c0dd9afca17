import Verif.Spec.TestGen
import Verif.Props.EndToEnd
import Verif.Props.Concat
import Verif.Props.Consistent
import Verif.Props.Parallel
import Verif.Props.ParallelPrefix
import Verif.Props.DdPartition

/-!
# C120: the files test/test_gen.sh makes

Several runs of `dd_dlt` whose outputs are appended to one file, and `dd_dlt` run on its own output. The comments of the
script say what the files contain; here this is proved for all inputs.
-/

set_option linter.unusedSimpArgs false

namespace Verif

open Spec

section
variable {bd : Build} {addr : Ctor → UInt8}

/-- The message info of all messages. -/
abbrev ddType (addr : Ctor → UInt8) : MessageType := MessageType.create addr true (.log .info)

/-- What a run wrote, as messages. -/
structure Wrote (addr : Ctor → UInt8) (r : DdRun) (msgs : List StorageEntry) : Prop where
  packed : r.output = packed msgs
  wf : ∀ e ∈ msgs, WF e
  file : ∃ ecu : B4, ecu.toBytes = r.ecuid ∧ DdFile ecu (ddType addr) r.n r.pieces msgs
  each : ∀ i e, msgs[i]? = some e → DdMessage r.ecuid r.appid (ddType addr) i (chunk r.n r.input i) e

theorem count_eq (r : DdRun) : r.count = r.input.length / r.n := by
  unfold DdRun.count DdRun.pieces chunks
  rw [List.length_map, List.length_range]

theorem Spec.DdRun.Ran.wrote {r : DdRun} (h : r.Ran bd addr) : ∃ msgs, Wrote addr r msgs := by
  have hk : r.input.length / r.n ≤ 42949673 := by rw [← count_eq]; exact h.few
  obtain ⟨output, msgs, h3, h4, h5, h6, hF, hwf, h7⟩ := C51_round_trip_partial bd addr r.ecuid r.appid r.size r.input [] r.n
    h.ecuid h.appid h.size h.pos h.small (.inr hk) fun i hi => h.fit _ (List.mem_map.2 ⟨i, List.mem_range.2 hi, rfl⟩)
  obtain ⟨e, he⟩ := h.ran
  obtain ⟨rfl, -⟩ := (h3 _ _).1 he
  obtain ⟨ecu, -, hb⟩ := ofBytes_length h.ecuid
  exact ⟨msgs, h6, hwf, ⟨ecu, hb.symm, ddFile_of hb.symm hk h5 h7⟩, h7⟩

theorem packed_flatten (mss : List (List StorageEntry)) : packed mss.flatten = (mss.map packed).flatten := by
  induction mss with
  | nil => rfl
  | cons ms mss ih => rw [List.flatten_cons, List.map_cons, List.flatten_cons, ← ih]; unfold packed; simp

/-- The runs with their messages. -/
theorem wrote_all {runs : List DdRun} (h : ∀ r ∈ runs, r.Ran bd addr) :
    ∃ ps : List (DdRun × List StorageEntry), ps.map (·.1) = runs ∧ (∀ p ∈ ps, Wrote addr p.1 p.2) ∧
      appended runs = packed (ps.flatMap (·.2)) ∧ Messages (appended runs) (ps.flatMap (·.2)) := by
  have h1 : ∃ ps : List (DdRun × List StorageEntry), ps.map (·.1) = runs ∧ (∀ p ∈ ps, Wrote addr p.1 p.2) := by
    induction runs with
    | nil => exact ⟨[], rfl, fun p hp => by cases hp⟩
    | cons r runs ih =>
      obtain ⟨ps, h2, h3⟩ := ih fun r hr => h r (List.mem_cons_of_mem _ hr)
      obtain ⟨msgs, hm⟩ := (h r List.mem_cons_self).wrote
      refine ⟨(r, msgs) :: ps, by rw [List.map_cons, h2], ?_⟩
      intro p hp
      rcases List.mem_cons.1 hp with rfl | hp
      · exact hm
      · exact h3 p hp
  obtain ⟨ps, rfl, h3⟩ := h1
  refine ⟨ps, rfl, h3, ?_⟩
  suffices h4 : appended (ps.map (·.1)) = packed (ps.flatMap (·.2)) by
    refine ⟨h4, ?_⟩
    rw [h4]
    refine messages_packed fun e he => ?_
    obtain ⟨p, hp, he⟩ := List.mem_flatMap.1 he
    exact (h3 p hp).wf e he
  have h4 : appended (ps.map (·.1)) = packed (ps.flatMap (·.2)) := by
    unfold appended
    rw [List.flatMap, packed_flatten, List.map_map, List.map_map]
    congr 1
    exact List.map_congr_left fun p hp => (h3 p hp).packed
  exact h4

/-! ## Appended outputs -/

/-- What holds of every message of every run. -/
structure DdAll (msgs : List StorageEntry) : Prop where
  timed : Spec.timed msgs = msgs
  stamp : ∀ e ∈ msgs, timeOf e ≠ none
  full : ∀ e ∈ msgs, optLen e.dlt + 10 ≤ e.dlt.tail.length
  pay : ∀ e ∈ msgs, payloadOf e ≠ none

theorem wrote_every {ps : List (DdRun × List StorageEntry)} (h : ∀ p ∈ ps, Wrote addr p.1 p.2) : DdAll (ps.flatMap (·.2)) := by
  have key : ∀ e ∈ ps.flatMap (·.2), ∃ p ∈ ps, e ∈ p.2 := fun e he => List.mem_flatMap.1 he
  constructor
  · refine List.filter_eq_self.2 fun e he => ?_
    obtain ⟨p, hp, he⟩ := key e he
    obtain ⟨_, -, hf⟩ := (h p hp).file
    exact hf.timed e he
  · intro e he hn
    obtain ⟨p, hp, he⟩ := key e he
    obtain ⟨_, -, hf⟩ := (h p hp).file
    obtain ⟨i, hi⟩ := List.getElem?_of_mem he
    rw [hf.time i e hi] at hn
    cases hn
  · intro e he
    obtain ⟨p, hp, he⟩ := key e he
    obtain ⟨_, -, hf⟩ := (h p hp).file
    exact hf.full e he
  · intro e he hn
    obtain ⟨p, hp, he⟩ := key e he
    obtain ⟨_, -, hf⟩ := (h p hp).file
    obtain ⟨q, -, h2⟩ := dd_payload hf he
    rw [hn] at h2; cases h2

theorem ddAll_no_panic {msgs : List StorageEntry} (h : DdAll msgs) (c : Cmd)
    (hu : c = .splitLifecycles ∨ c = .splitTimestamp → ∀ e ∈ msgs, Utf8 e.storageHeader.ecu.toBytes) : ¬ Panics msgs c := by
  cases c
  case histogramLifecycles => rintro ⟨e, he, h1⟩; rw [h.timed] at he; exact h.stamp e he h1
  case iter => rintro ⟨e, he, h1⟩; rw [h.timed] at he; exact h.stamp e he h1
  case itertools => rintro ⟨e, he, h1⟩; rw [h.timed] at he; exact h.stamp e ((List.dropLast_sublist _).subset he) h1
  case splitLifecycles =>
    rintro ⟨e, he, h1 | h1⟩
    · rw [h.timed] at he; exact h.stamp e he h1
    · rw [h.timed] at he; exact h1 (hu (.inl rfl) e he)
  case splitTimestamp => rintro ⟨e, he, h1⟩; exact h1 (hu (.inr rfl) e he)
  case histogramMessageType => rintro ⟨e, he, -, h1⟩; have := h.full e he; omega
  case histogramPayloadSize => rintro ⟨e, he, -, h1⟩; have := h.full e he; omega
  case countHelloWorld => rintro ⟨e, he, h1⟩; exact h.pay e he h1
  all_goals exact id

/-- Lists that break where they are joined are the maximal runs of their concatenation. -/
theorem runs_flat {α : Type} {R : α → α → Prop} {mss : List (List α)} (hne : ∀ ms ∈ mss, ms ≠ [])
    (hrel : ∀ ms ∈ mss, ∀ i a b, ms[i]? = some a → ms[i + 1]? = some b → R a b)
    (hb : ∀ ms ∈ mss, ∀ ms' ∈ mss, ∀ a b, ms.getLast? = some a → ms'.head? = some b → ¬ R a b) :
    MaximalRuns R mss.flatten mss :=
  ⟨rfl, hne, hrel, fun _ r r' a b h1 h2 h3 h4 => hb r (List.mem_of_getElem? h1) r' (List.mem_of_getElem? h2) a b h3 h4⟩

variable {num : Nat} {runs : List DdRun}

open Classical in
/-- **C120** the outputs of any runs of `dd_dlt`, appended: `count` says as many messages as the inputs have complete pieces
together, `count_hello_world` the number of pieces with the text, `histogram_message_type` one line. -/
theorem C120_counts (h : ∀ r ∈ runs, r.Ran bd addr) (hF : Fits (appended runs)) :
    (∀ x, RunCmd num (appended runs) .count x ↔ x = .ok (.number (runs.map DdRun.count).sum)) ∧
    (∀ x, RunCmd num (appended runs) .countHelloWorld x ↔
      x = .ok (.number ((runs.flatMap DdRun.pieces).filter fun p => decide (helloWorld <:+: p)).length)) ∧
    (∀ x, RunCmd num (appended runs) .histogramMessageType x ↔ x = .ok (.infos (oneLine (runs.map DdRun.count).sum
      ((ddType addr).info, (runs.map DdRun.count).sum)))) := by
  obtain ⟨ps, rfl, h1, -, hm⟩ := wrote_all h
  have hall := wrote_every h1
  have hlen : (ps.flatMap (·.2)).length = ((ps.map (·.1)).map DdRun.count).sum := by
    rw [List.length_flatMap, List.map_map]
    congr 1
    refine List.map_congr_left fun p hp => ?_
    obtain ⟨_, -, hf⟩ := (h1 p hp).file
    exact hf.count
  refine ⟨?_, ?_, ?_⟩
  · obtain ⟨rep, h2, h3⟩ := C68_sequential_prints num _ hF _ hm .count rfl (ddAll_no_panic hall _ (by simp))
    cases rep <;> try (exact absurd h2 id)
    intro x
    rw [h3, ← hlen, show _ = _ from h2]
  · obtain ⟨rep, h2, h3⟩ := C68_sequential_prints num _ hF _ hm .countHelloWorld rfl (ddAll_no_panic hall _ (by simp))
    cases rep <;> try (exact absurd h2 id)
    intro x
    rw [h3, show _ = _ from h2]
    have e1 := filter_len_map payloadOf
      (fun o : Option Bytes => @decide (∃ p, o = some p ∧ helloWorld <:+: p) (Classical.propDecidable _)) (ps.flatMap (·.2))
    have e2 : (ps.flatMap (·.2)).map payloadOf = ((ps.map (·.1)).flatMap DdRun.pieces).map some := by
      rw [List.map_flatMap, List.flatMap_map, List.map_flatMap]
      rw [List.flatMap, List.flatMap]
      congr 1
      refine List.map_congr_left fun p hp => ?_
      obtain ⟨_, -, hf⟩ := (h1 p hp).file
      exact hf.payloads
    rw [e2, ← filter_len_map some] at e1
    have e3 : ((ps.flatMap (·.2)).filter fun e => decide (hasText helloWorld e)).length =
        (((ps.map (·.1)).flatMap DdRun.pieces).filter fun p => decide (helloWorld <:+: p)).length := by
      refine e1.trans ?_
      congr 2
      funext p
      congr 1
      exact propext ⟨fun ⟨q, h2, h3⟩ => by injection h2 with h2; subst h2; exact h3, fun h2 => ⟨p, rfl, h2⟩⟩
    rw [e3]
  · obtain ⟨rep, h2, h3⟩ := C68_sequential_prints num _ hF _ hm .histogramMessageType rfl (ddAll_no_panic hall _ (by simp))
    cases rep <;> try (exact absurd h2 id)
    intro x
    have h4 : IsHistogram _ _ := h2
    have key : ∀ e ∈ ps.flatMap (·.2), flag e.dlt 0 = true ∧ infoByte e = (ddType addr).msin := by
      intro e he
      obtain ⟨p, hp, he⟩ := List.mem_flatMap.1 he
      obtain ⟨_, -, hf⟩ := (h1 p hp).file
      exact ⟨hf.ext e he, hf.info e he⟩
    rw [List.filter_eq_self.2 fun e he => (key e he).1] at h4
    rw [h3, hist_const h4 (map_const (b := MessageType.info (ddType addr)) fun e he => by rw [(key e he).2]), hlen]

/-- The messages of the runs are the maximal runs, if the relation holds along each of them and breaks between them. -/
theorem wrote_runs {ps : List (DdRun × List StorageEntry)} {R : StorageEntry → StorageEntry → Prop}
    (f : StorageEntry → StorageEntry → Bool) (hfR : ∀ a b, f a b = true ↔ R a b)
    (hne : ∀ p ∈ ps, p.2 ≠ []) (hrel : ∀ p ∈ ps, ∀ i a b, p.2[i]? = some a → p.2[i + 1]? = some b → R a b)
    (hb : ∀ p ∈ ps, ∀ q ∈ ps, ∀ a b, p.2[p.2.length - 1]? = some a → q.2[0]? = some b → ¬ R a b)
    {runs : List (List StorageEntry)} (hr : MaximalRuns R (ps.flatMap (·.2)) runs) : runs = ps.map (·.2) := by
  have h1 : MaximalRuns R (ps.map (·.2)).flatten (ps.map (·.2)) := by
    refine runs_flat ?_ ?_ ?_
    · intro ms hms
      obtain ⟨p, hp, rfl⟩ := List.mem_map.1 hms
      exact hne p hp
    · intro ms hms
      obtain ⟨p, hp, rfl⟩ := List.mem_map.1 hms
      exact hrel p hp
    · intro ms hms ms' hms' a b ha hb'
      obtain ⟨p, hp, rfl⟩ := List.mem_map.1 hms
      obtain ⟨q, hq, rfl⟩ := List.mem_map.1 hms'
      rw [List.getLast?_eq_getElem?] at ha
      rw [List.head?_eq_getElem?] at hb'
      exact hb p hp q hq a b ha hb'
  rw [runs_eq_runsL f hfR hr, runs_eq_runsL f hfR h1]
  rfl

theorem wrote_count {r : DdRun} {msgs : List StorageEntry} (h : Wrote addr r msgs) : msgs.length = r.count := by
  obtain ⟨_, -, hf⟩ := h.file
  exact hf.count

/-- **C120** "ten lifecycles": if every run wrote at least two messages, `histogram_lifecycles` counts one lifecycle for each
run, as long as the run ((k - 1) / 100 seconds for k messages), whatever the ids; and `iter` counts the runs of more than
180000 messages. -/
theorem C120_lifecycles (h : ∀ r ∈ runs, r.Ran bd addr) (hF : Fits (appended runs)) (h2 : ∀ r ∈ runs, 2 ≤ r.count) :
    (∃ m, IsHistogram (runs.map fun r => (r.count - 1) / 100) m ∧ (m.map (·.2)).sum = runs.length ∧
      ∀ x, RunCmd num (appended runs) .histogramLifecycles x ↔ x = .ok (.buckets (m.map fun e => (e.1, e.1 + 1, e.2)))) ∧
    ∀ x, RunCmd num (appended runs) .iter x ↔
      x = .ok (.number (runs.filter fun r => decide (180000 < r.count)).length) := by
  obtain ⟨ps, rfl, h1, -, hm⟩ := wrote_all h
  have hall := wrote_every h1
  have hc : ∀ p ∈ ps, 2 ≤ p.2.length := fun p hp => by
    rw [wrote_count (h1 p hp)]; exact h2 p.1 (List.mem_map.2 ⟨p, hp, rfl⟩)
  have hne : ∀ p ∈ ps, p.2 ≠ [] := fun p hp hn => by have := hc p hp; rw [hn] at this; cases this
  have htime : ∀ p ∈ ps, ∀ i e, p.2[i]? = some e → Spec.time e = 100 * i := fun p hp i e he => by
    obtain ⟨_, -, hf⟩ := (h1 p hp).file
    exact dd_time hf he
  have hecu : ∀ p ∈ ps, ∀ e ∈ p.2, flag e.dlt 2 = false := fun p hp e he => by
    obtain ⟨_, -, hf⟩ := (h1 p hp).file
    exact hf.noEcu e he
  have hspan : ∀ p ∈ ps, timeSpanOf p.2 = 100 * (p.1.count - 1) := fun p hp => by
    obtain ⟨_, -, hf⟩ := (h1 p hp).file
    exact dd_timeSpan hf
  constructor
  · obtain ⟨rep, h3, h4⟩ := C68_sequential_prints num _ hF _ hm .histogramLifecycles rfl (ddAll_no_panic hall _ (by simp))
    cases rep <;> try (exact absurd h3 id)
    obtain ⟨rs, m, h5, h6, rfl⟩ := h3
    rw [hall.timed] at h5
    have e := wrote_runs (fun a b => decide (ecuOf a = ecuOf b ∧ Spec.time a ≤ Spec.time b)) (fun a b => decide_eq_true_iff) hne
      (fun p hp i a b ha hb => by
        refine ⟨by unfold ecuOf; rw [hecu p hp a (List.mem_of_getElem? ha), hecu p hp b (List.mem_of_getElem? hb)]; rfl, ?_⟩
        rw [htime p hp _ _ ha, htime p hp _ _ hb]
        omega)
      (fun p hp q hq a b ha hb hR => by
        have h7 := hR.2
        rw [htime p hp _ _ ha, htime q hq _ _ hb] at h7
        have := hc p hp
        omega) h5
    subst e
    have e2 : ((ps.map (·.2)).map fun r => timeSpanOf r / 10000) = (ps.map (·.1)).map fun r => (r.count - 1) / 100 := by
      rw [List.map_map, List.map_map]
      refine List.map_congr_left fun p hp => ?_
      show timeSpanOf p.2 / 10000 = _
      rw [hspan p hp]
      show _ = (p.1.count - 1) / 100
      omega
    rw [e2] at h6
    refine ⟨m, h6, ?_, h4⟩
    have := isHistogram_sum (fun _ => 1) h6
    simp only [Nat.one_mul, List.map_const', List.sum_replicate_nat, List.length_map, Nat.mul_one] at this ⊢
    exact this
  · obtain ⟨rep, h3, h4⟩ := C68_sequential_prints num _ hF _ hm .iter rfl (ddAll_no_panic hall _ (by simp))
    cases rep <;> try (exact absurd h3 id)
    obtain ⟨rs, h5, rfl⟩ := h3
    rw [hall.timed] at h5
    have e := wrote_runs (fun a b => decide (Spec.time a ≤ Spec.time b)) (fun a b => decide_eq_true_iff) hne
      (fun p hp i a b ha hb => by
        show Spec.time a ≤ Spec.time b
        rw [htime p hp _ _ ha, htime p hp _ _ hb]
        omega)
      (fun p hp q hq a b ha hb hR => by
        have h7 : Spec.time a ≤ Spec.time b := hR
        rw [htime p hp _ _ ha, htime q hq _ _ hb] at h7
        have := hc p hp
        omega) h5
    subst e
    intro x
    rw [h4, List.filter_map, List.filter_map, List.length_map, List.length_map]
    have : ps.filter ((fun r => decide (halfHour ≤ timeSpanOf r)) ∘ fun p => p.2) =
        ps.filter ((fun r => decide (180000 < r.count)) ∘ fun p => p.1) := by
      refine List.filter_congr fun p hp => ?_
      show decide (halfHour ≤ timeSpanOf p.2) = decide (180000 < p.1.count)
      rw [hspan p hp]
      unfold halfHour
      exact decide_eq_decide.2 (by omega)
    rw [this]

/-- **C120** the storage times: if every run wrote more than 100 messages, `histogram_timestamp` counts one period for each
run. -/
theorem C120_periods (h : ∀ r ∈ runs, r.Ran bd addr) (hF : Fits (appended runs)) (h2 : ∀ r ∈ runs, 100 < r.count) :
    ∃ m, IsHistogram (runs.map fun r => (r.count - 1) / 100) m ∧ (m.map (·.2)).sum = runs.length ∧
      ∀ x, RunCmd num (appended runs) .histogramTimestamp x ↔ x = .ok (.buckets (m.map fun e => (e.1, e.1 + 1, e.2))) := by
  obtain ⟨ps, rfl, h1, -, hm⟩ := wrote_all h
  have hall := wrote_every h1
  have hc : ∀ p ∈ ps, 100 < p.2.length := fun p hp => by
    rw [wrote_count (h1 p hp)]; exact h2 p.1 (List.mem_map.2 ⟨p, hp, rfl⟩)
  have hne : ∀ p ∈ ps, p.2 ≠ [] := fun p hp hn => by have := hc p hp; rw [hn] at this; cases this
  have hsecs : ∀ p ∈ ps, ∀ i e, p.2[i]? = some e → secsOf e = i / 100 := fun p hp i e he => by
    obtain ⟨_, -, hf⟩ := (h1 p hp).file
    exact hf.secs i e he
  obtain ⟨rep, h3, h4⟩ := C68_sequential_prints num _ hF _ hm .histogramTimestamp rfl (ddAll_no_panic hall _ (by simp))
  cases rep <;> try (exact absurd h3 id)
  obtain ⟨rs, m, h5, h6, rfl⟩ := h3
  have e := wrote_runs (fun a b => decide (secsOf a ≤ secsOf b)) (fun a b => decide_eq_true_iff) hne
    (fun p hp i a b ha hb => by
      show secsOf a ≤ secsOf b
      rw [hsecs p hp _ _ ha, hsecs p hp _ _ hb]
      omega)
    (fun p hp q hq a b ha hb hR => by
      have h7 : secsOf a ≤ secsOf b := hR
      rw [hsecs p hp _ _ ha, hsecs q hq _ _ hb] at h7
      have := hc p hp
      omega) h5
  subst e
  have e2 : (ps.map (·.2)).map secSpanOf = (ps.map (·.1)).map fun r => (r.count - 1) / 100 := by
    rw [List.map_map, List.map_map]
    refine List.map_congr_left fun p hp => ?_
    obtain ⟨_, -, hf⟩ := (h1 p hp).file
    exact dd_secSpan hf
  rw [e2] at h6
  refine ⟨m, h6, ?_, h4⟩
  have := isHistogram_sum (fun _ => 1) h6
  simp only [Nat.one_mul, List.map_const', List.sum_replicate_nat, List.length_map, Nat.mul_one] at this ⊢
  exact this

/-- If the runs wrote equally many messages, the histogram is one line. -/
theorem C120_equal_lifecycles (h : ∀ r ∈ runs, r.Ran bd addr) (hF : Fits (appended runs)) {k : Nat} (hk : 2 ≤ k)
    (h2 : ∀ r ∈ runs, r.count = k) (x : Res Report) :
    RunCmd num (appended runs) .histogramLifecycles x ↔
      x = .ok (.buckets (oneLine runs.length ((k - 1) / 100, (k - 1) / 100 + 1, runs.length))) := by
  obtain ⟨⟨m, h3, -, h4⟩, -⟩ := C120_lifecycles (num := num) h hF fun r hr => by rw [h2 r hr]; exact hk
  rw [h4, hist_const h3 (map_const (b := (k - 1) / 100) fun r hr => by rw [h2 r hr]), oneLine_map]

/-- **C120** the condition is needed: runs of one message each make one lifecycle together. -/
theorem C120_single_messages_merge (h : ∀ r ∈ runs, r.Ran bd addr) (hF : Fits (appended runs)) (hne : runs ≠ [])
    (h2 : ∀ r ∈ runs, r.count = 1) (x : Res Report) :
    RunCmd num (appended runs) .histogramLifecycles x ↔ x = .ok (.buckets [(0, 1, 1)]) := by
  obtain ⟨ps, rfl, h1, -, hm⟩ := wrote_all h
  have hall := wrote_every h1
  have hzero : ∀ e ∈ ps.flatMap (·.2), Spec.time e = 0 ∧ flag e.dlt 2 = false := fun e he => by
    obtain ⟨p, hp, he⟩ := List.mem_flatMap.1 he
    obtain ⟨_, -, hf⟩ := (h1 p hp).file
    obtain ⟨i, hi⟩ := List.getElem?_of_mem he
    refine ⟨?_, hf.noEcu e he⟩
    rw [dd_time hf hi]
    have h3 := (List.getElem?_eq_some_iff.1 hi).1
    rw [wrote_count (h1 p hp), h2 p.1 (List.mem_map.2 ⟨p, hp, rfl⟩)] at h3
    omega
  have hne' : ps.flatMap (·.2) ≠ [] := by
    intro hn
    obtain ⟨r, hr⟩ := List.exists_mem_of_ne_nil _ hne
    obtain ⟨p, hp, rfl⟩ := List.mem_map.1 hr
    have h3 := wrote_count (h1 p hp)
    rw [h2 _ hr, List.flatMap_eq_nil_iff.1 hn p hp] at h3
    cases h3
  obtain ⟨rep, h3, h4⟩ := C68_sequential_prints num _ hF _ hm .histogramLifecycles rfl (ddAll_no_panic hall _ (by simp))
  cases rep <;> try (exact absurd h3 id)
  obtain ⟨rs, m, h5, h6, rfl⟩ := h3
  rw [hall.timed] at h5
  have e := runs_one h5 fun i a b ha hb => by
    obtain ⟨a1, a2⟩ := hzero a (List.mem_of_getElem? ha)
    obtain ⟨b1, b2⟩ := hzero b (List.mem_of_getElem? hb)
    refine ⟨by unfold ecuOf; rw [a2, b2]; rfl, ?_⟩
    rw [a1, b1]
    exact Nat.le_refl _
  rw [if_neg hne'] at e
  subst e
  have hspan : timeSpanOf (ps.flatMap (·.2)) = 0 := by
    unfold timeSpanOf
    rw [List.head?_eq_some_head hne', List.getLast?_eq_some_getLast hne']
    show Spec.time _ - Spec.time _ = 0
    rw [(hzero _ (List.getLast_mem hne')).1, (hzero _ (List.head_mem hne')).1]
  rw [List.map_cons, List.map_nil, hspan] at h6
  rw [h4, hist_const (k := 1) (a := 0) h6 rfl]
  rfl

/-! ## ECUs -/

theorem filter_flatMap_one {α β κ : Type} {f : β → Bool} {g : α → List β} {key : α → κ} : ∀ {ps : List α} {p : α}, p ∈ ps →
    (ps.map key).Nodup → (∀ b ∈ g p, f b = true) → (∀ q ∈ ps, key q ≠ key p → ∀ b ∈ g q, f b = false) →
    (ps.flatMap g).filter f = g p
  | [], p, hp, _, _, _ => by cases hp
  | q :: ps, p, hp, hn, hi, ho => by
    rw [List.map_cons, List.nodup_cons] at hn
    rw [List.flatMap_cons, List.filter_append]
    rcases List.mem_cons.1 hp with rfl | hp
    · rw [List.filter_eq_self.2 hi, List.filter_eq_nil_iff.2, List.append_nil]
      intro b hb
      obtain ⟨q, hq, hb⟩ := List.mem_flatMap.1 hb
      rw [ho q (List.mem_cons_of_mem _ hq) (fun h => hn.1 (List.mem_map.2 ⟨q, hq, h⟩)) b hb]
      exact Bool.false_ne_true
    · rw [List.filter_eq_nil_iff.2, List.nil_append]
      · exact filter_flatMap_one hp hn.2 hi fun q hq => ho q (List.mem_cons_of_mem _ hq)
      · intro b hb
        rw [ho q List.mem_cons_self (fun h => hn.1 (List.mem_map.2 ⟨p, hp, h.symm⟩)) b hb]
        exact Bool.false_ne_true

theorem B4.toBytes_inj {a b : B4} (h : a.toBytes = b.toBytes) : a = b := by
  have h1 := (ofBytes_iff a.toBytes a).2 rfl
  rw [h, (ofBytes_iff b.toBytes b).2 rfl] at h1
  injection h1 with h1
  exact h1.symm

/-- The lines per ECU, one for each run. -/
theorem wrote_ecus {ps : List (DdRun × List StorageEntry)} (h1 : ∀ p ∈ ps, Wrote addr p.1 p.2)
    (hnd : (ps.map fun p => p.1.ecuid).Nodup) (hne : ∀ p ∈ ps, p.2 ≠ [])
    {m : List (B4 × (OrdMap UInt32 Nat × Nat))}
    (hm : IsHistogram ((ps.flatMap (·.2)).map fun e => e.storageHeader.ecu) (m.map fun e => (e.1, e.2.2)))
    (hh : ∀ p ∈ ps, ∀ ecu hist k, (ecu, hist, k) ∈ m → ecu.toBytes = p.1.ecuid → ofEcu ecu (ps.flatMap (·.2)) = p.2 →
      hist = [(UInt32.ofNat ((p.1.count - 1) / 100), 1)]) :
    (m.map fun e => e.1.toBytes).Nodup ∧ ∀ l, l ∈ (m.map fun e => (e.1.toBytes, e.2)) ↔
      ∃ p ∈ ps, l = (p.1.ecuid, [(UInt32.ofNat ((p.1.count - 1) / 100), 1)], p.1.count) := by
  have hone : ∀ p ∈ ps, ∀ ecu : B4, ecu.toBytes = p.1.ecuid → ofEcu ecu (ps.flatMap (·.2)) = p.2 := by
    intro p hp ecu he
    refine filter_flatMap_one (key := fun p => p.1.ecuid) (g := fun p : DdRun × List StorageEntry => p.2) hp hnd ?_ ?_
    · intro e h2
      obtain ⟨ecu', h3, hf⟩ := (h1 p hp).file
      rw [hf.ecuHeader e h2, decide_eq_true_iff]
      exact B4.toBytes_inj (h3.trans he.symm)
    · intro q hq hqp e h2
      obtain ⟨ecu', h3, hf⟩ := (h1 q hq).file
      rw [hf.ecuHeader e h2, decide_eq_false_iff_not]
      rintro rfl
      exact hqp (h3.symm.trans he)
  have hcount : ∀ ecu : B4, ((ps.flatMap (·.2)).map fun e => e.storageHeader.ecu).count ecu = (ofEcu ecu (ps.flatMap (·.2))).length := by
    intro ecu
    unfold ofEcu
    rw [List.count, List.countP_map, List.countP_eq_length_filter]
    congr 2
  constructor
  · rw [List.Nodup, List.pairwise_map]
    have := hm.1
    rw [List.pairwise_map] at this
    refine this.imp fun {a b} h2 h3 => ?_
    rw [B4.toBytes_inj h3] at h2
    exact absurd h2 (Nat.lt_irrefl _)
  · intro l
    rw [List.mem_map]
    constructor
    · rintro ⟨⟨ecu, hist, k⟩, h2, rfl⟩
      have h3 := (hm.2 ecu k).1 (List.mem_map.2 ⟨_, h2, rfl⟩)
      rw [hcount] at h3
      obtain ⟨h4, h5⟩ := h3
      have h6 : ofEcu ecu (ps.flatMap (·.2)) ≠ [] := by intro h; rw [h] at h5; rw [h5] at h4; exact Nat.lt_irrefl _ h4
      obtain ⟨e, h7⟩ := List.exists_mem_of_ne_nil _ h6
      obtain ⟨h8, h9⟩ := List.mem_filter.1 h7
      rw [decide_eq_true_iff] at h9
      obtain ⟨p, hp, h10⟩ := List.mem_flatMap.1 h8
      obtain ⟨ecu', h11, hf⟩ := (h1 p hp).file
      have h12 : ecu.toBytes = p.1.ecuid := by rw [← h9, hf.ecuHeader e h10, h11]
      have h13 := hone p hp ecu h12
      refine ⟨p, hp, ?_⟩
      rw [hh p hp _ _ _ h2 h12 h13, h5, h13, wrote_count (h1 p hp), ← h12]
    · rintro ⟨p, hp, rfl⟩
      obtain ⟨ecu, h11, hf⟩ := (h1 p hp).file
      have h13 := hone p hp ecu h11
      have h14 : (ecu, p.2.length) ∈ m.map fun e => (e.1, e.2.2) := by
        refine (hm.2 _ _).2 ⟨List.length_pos_iff.2 (hne p hp), ?_⟩
        rw [hcount, h13]
      obtain ⟨⟨ecu', hist, k⟩, h15, h16⟩ := List.mem_map.1 h14
      injection h16 with h16 h17
      simp only at h16 h17
      subst h16; subst h17
      exact ⟨_, h15, by rw [hh p hp _ _ _ h15 h11 h13, h11, wrote_count (h1 p hp)]⟩

/-- **C120** runs with different ECU ids (valid UTF-8) that wrote something: `split_timestamp` and `split_lifecycles` print
one line for each run: its id, one period (lifecycle) as long as the run, and its number of messages. -/
theorem C120_ecus (h : ∀ r ∈ runs, r.Ran bd addr) (hF : Fits (appended runs)) (hnd : (runs.map (·.ecuid)).Nodup)
    (hu : ∀ r ∈ runs, Utf8 r.ecuid) (h2 : ∀ r ∈ runs, 1 ≤ r.count) (c : Cmd) (hc : c = .splitTimestamp ∨ c = .splitLifecycles) :
    ∃ ls, (ls.map (·.1)).Nodup ∧
      (∀ l, l ∈ ls ↔ ∃ r ∈ runs, l = (r.ecuid, [(UInt32.ofNat ((r.count - 1) / 100), 1)], r.count)) ∧
      ∀ x, RunCmd num (appended runs) c x ↔ x = .ok (.ecus ls) := by
  obtain ⟨ps, rfl, h1, -, hm⟩ := wrote_all h
  have hall := wrote_every h1
  rw [List.map_map] at hnd
  have hne : ∀ p ∈ ps, p.2 ≠ [] := fun p hp hn => by
    have h3 := wrote_count (h1 p hp)
    have h4 := h2 p.1 (List.mem_map.2 ⟨p, hp, rfl⟩)
    rw [hn] at h3
    rw [← h3] at h4
    cases h4
  have hutf : ∀ e ∈ ps.flatMap (·.2), Utf8 e.storageHeader.ecu.toBytes := fun e he => by
    obtain ⟨p, hp, he⟩ := List.mem_flatMap.1 he
    obtain ⟨ecu, h3, hf⟩ := (h1 p hp).file
    rw [hf.ecuHeader e he, h3]
    exact hu p.1 (List.mem_map.2 ⟨p, hp, rfl⟩)
  have fin : ∀ {m : List (B4 × (OrdMap UInt32 Nat × Nat))}, _ → _ → ∃ ls, (ls.map (·.1)).Nodup ∧
      (∀ l, l ∈ ls ↔ ∃ r ∈ ps.map (·.1), l = (r.ecuid, [(UInt32.ofNat ((r.count - 1) / 100), 1)], r.count)) ∧
      ls = m.map fun e => (e.1.toBytes, e.2) := fun {m} h3 h4 => by
    obtain ⟨h5, h6⟩ := wrote_ecus (m := m) h1 hnd hne h3 h4
    refine ⟨_, by rw [List.map_map]; exact h5, fun l => ?_, rfl⟩
    rw [h6]
    constructor
    · rintro ⟨p, hp, rfl⟩; exact ⟨p.1, List.mem_map.2 ⟨p, hp, rfl⟩, rfl⟩
    · rintro ⟨r, hr, rfl⟩
      obtain ⟨p, hp, rfl⟩ := List.mem_map.1 hr
      exact ⟨p, hp, rfl⟩
  rcases hc with rfl | rfl
  · obtain ⟨rep, h3, h4⟩ := C68_sequential_prints num _ hF _ hm .splitTimestamp rfl (ddAll_no_panic hall _ fun _ => hutf)
    cases rep <;> try (exact absurd h3 id)
    obtain ⟨m, h5, h6, h7⟩ := h3
    obtain ⟨ls, h8, h9, h10⟩ := fin h5 fun p hp ecu hist k hmem hE ho => by
      obtain ⟨rs, spans, h11, h12⟩ := h6 _ _ _ hmem
      obtain ⟨ecu', -, hf⟩ := (h1 p hp).file
      rw [ho] at h11
      rw [dd_spans hf h11 (hne p hp)] at h12
      exact hist_u32 h12
    exact ⟨ls, h8, h9, fun x => by rw [h4, h7, h10]⟩
  · obtain ⟨rep, h3, h4⟩ := C68_sequential_prints num _ hF _ hm .splitLifecycles rfl (ddAll_no_panic hall _ fun _ => hutf)
    cases rep <;> try (exact absurd h3 id)
    obtain ⟨m, h5, h6, h7⟩ := h3
    rw [hall.timed] at h5 h6
    obtain ⟨ls, h8, h9, h10⟩ := fin h5 fun p hp ecu hist k hmem hE ho => by
      obtain ⟨rs, h11, h12⟩ := h6 _ _ _ hmem
      obtain ⟨ecu', -, hf⟩ := (h1 p hp).file
      rw [ho] at h11
      have hr := dd_runs_time hf h11
      rw [if_neg (hne p hp)] at hr
      subst hr
      rw [List.map_cons, List.map_nil, dd_timeSpan hf] at h12
      have e : 100 * (p.1.pieces.length - 1) / 10000 = (p.1.count - 1) / 100 := by
        show 100 * (p.1.count - 1) / 10000 = _
        omega
      rw [e] at h12
      exact hist_u32 h12
    exact ⟨ls, h8, h9, fun x => by rw [h4, h7, h10]⟩

/-! ## Slices -/

theorem wrote_wf {ps : List (DdRun × List StorageEntry)} (h1 : ∀ p ∈ ps, Wrote addr p.1 p.2) : ∀ e ∈ ps.flatMap (·.2), WF e := by
  intro e he
  obtain ⟨p, hp, he⟩ := List.mem_flatMap.1 he
  exact (h1 p hp).wf e he

theorem wrote_total {ps : List (DdRun × List StorageEntry)} (h1 : ∀ p ∈ ps, Wrote addr p.1 p.2) :
    (ps.flatMap (·.2)).length = ((ps.map (·.1)).map DdRun.count).sum := by
  rw [List.length_flatMap, List.map_map]
  congr 1
  exact List.map_congr_left fun p hp => wrote_count (h1 p hp)

/-- **C120** `par_count` on the appended outputs, with payloads up to 65502 bytes and slices not smaller than a message: it
never counts too many, and misses fewer than a twentieth of the slice size in bytes. -/
theorem C120_par_count (h : ∀ r ∈ runs, r.Ran bd addr) (hF : Fits (appended runs)) (h2 : ∀ r ∈ runs, r.n ≤ 65502)
    (hnum : num ≠ 0) (hpos : num ≤ (appended runs).length) (hsmall : ∀ r ∈ runs, 34 + r.n ≤ (appended runs).length / num) :
    ∃ n, (∀ x, RunCmd num (appended runs) .parCount x ↔ x = .ok (.number n)) ∧ n ≤ (runs.map DdRun.count).sum ∧
      ((runs.map DdRun.count).sum - n) * 20 < (appended runs).length / num := by
  obtain ⟨ps, rfl, h1, hpk, hm⟩ := wrote_all h
  have hw := wrote_wf h1
  have hlen : ∀ e ∈ ps.flatMap (·.2), ∃ r ∈ ps.map (·.1), (encode e).length = 34 + r.n := fun e he => by
    obtain ⟨p, hp, he⟩ := List.mem_flatMap.1 he
    obtain ⟨_, -, hf⟩ := (h1 p hp).file
    exact ⟨p.1, List.mem_map.2 ⟨p, hp, rfl⟩, hf.length e he⟩
  have hns := noStraddle_packed hw
  rw [← wrote_total h1]
  rw [hpk] at hF hpos hsmall ⊢
  rw [← fileOf_packed] at hF hpos hsmall hns ⊢
  rw [← messagesAt_packed] at hns
  have hmax : ∀ L, (∀ r ∈ ps.map (·.1), 34 + r.n ≤ L) →
      AtMost L (messagesAt 0 ((ps.flatMap (·.2)).map fun e => (([] : Bytes), e))) := by
    intro L hL x hx
    rw [messagesAt_packed] at hx
    obtain ⟨r, hr, h3⟩ := hlen _ (packedAt_mem hx)
    rw [h3]
    exact hL r hr
  obtain ⟨n, h3, h4, h5⟩ := C72_par_count_bounds _ _ (clean_packed hw) hF (hmax _ fun r hr => by have := h2 r hr; omega) hns num hnum
    hpos (hmax _ hsmall)
  rw [List.length_map] at h4 h5
  refine ⟨n, fun x => ?_, h4, h5⟩
  constructor
  · rintro ⟨q, h6, rfl⟩
    rw [(h3 _).1 h6]
    rfl
  · rintro rfl
    exact ⟨_, (h3 _).2 rfl, rfl⟩

/-! ## `dd_dlt` on its own output -/

/-- **C120** the payloads are the input, cut into pieces; what is left is not written. -/
theorem C120_payloads {r : DdRun} (h : r.Ran bd addr) : ∃ msgs : List StorageEntry, Messages r.output msgs ∧
    msgs.length = r.input.length / r.n ∧
    ∀ i (e : StorageEntry), msgs[i]? = some e → e.dlt.payload = .ok (some ((r.input.drop (i * r.n)).take r.n)) := by
  obtain ⟨msgs, hm⟩ := h.wrote
  refine ⟨msgs, by rw [hm.packed]; exact messages_packed hm.wf, by rw [wrote_count hm, count_eq], fun i e he => ?_⟩
  exact (hm.each i e he).pay

theorem packed_cons (e : StorageEntry) (es : List StorageEntry) : packed (e :: es) = encode e ++ packed es := rfl

theorem packed_drop {L : Nat} : ∀ (k : Nat) (es : List StorageEntry), (∀ e ∈ es, (encode e).length = L) →
    (packed es).drop (k * L) = packed (es.drop k)
  | 0, es, _ => by rw [Nat.zero_mul]; rfl
  | k + 1, [], _ => by rw [List.drop_nil]; exact List.drop_nil
  | k + 1, e :: es, h => by
    rw [packed_cons, List.drop_succ_cons, ← packed_drop k es fun e he => h e (List.mem_cons_of_mem _ he), Nat.succ_mul,
      Nat.add_comm, List.drop_append, ← h e List.mem_cons_self]
    have e1 : (encode e).drop ((encode e).length + k * (encode e).length) = [] := List.drop_eq_nil_of_le (Nat.le_add_right _ _)
    rw [e1, List.nil_append]
    congr 1
    omega

theorem packed_take {L : Nat} : ∀ (k : Nat) (es : List StorageEntry), (∀ e ∈ es, (encode e).length = L) →
    (packed es).take (k * L) = packed (es.take k)
  | 0, es, _ => by rw [Nat.zero_mul]; rfl
  | k + 1, [], _ => by rw [List.take_nil]; exact List.take_nil
  | k + 1, e :: es, h => by
    rw [packed_cons, List.take_succ_cons, packed_cons, ← packed_take k es fun e he => h e (List.mem_cons_of_mem _ he), Nat.succ_mul,
      Nat.add_comm, List.take_append, ← h e List.mem_cons_self, List.take_of_length_le (Nat.le_add_right _ _)]
    congr 2
    omega

/-- **C120** "embeds DLT messages in payload": `dd_dlt` on the appended outputs of earlier runs with payloads of `m` bytes,
with payloads of `p * (34 + m)` bytes: each payload is itself a DLT file of `p` of the earlier messages, in order, and reads
as such; the outer file reads as one message per `p` inner ones. -/
theorem C120_nested {r : DdRun} {m p : Nat} (h : ∀ q ∈ runs, q.Ran bd addr) (hm : ∀ q ∈ runs, q.n = m) (hr : r.Ran bd addr)
    (hin : r.input = appended runs) (hp : r.n = p * (34 + m)) :
    ∃ inner outer : List StorageEntry, Messages (appended runs) inner ∧ inner.length = (runs.map DdRun.count).sum ∧
      Messages r.output outer ∧ outer.length = inner.length / p ∧
      ∀ i (e : StorageEntry), outer[i]? = some e →
        ∃ pay, e.dlt.payload = .ok (some pay) ∧ Messages pay ((inner.drop (i * p)).take p) := by
  obtain ⟨ps, rfl, h1, hpk, hms⟩ := wrote_all h
  obtain ⟨outer, ho, hl, hpay⟩ := C120_payloads hr
  have hlen : ∀ e ∈ ps.flatMap (·.2), (encode e).length = 34 + m := fun e he => by
    obtain ⟨q, hq, he⟩ := List.mem_flatMap.1 he
    obtain ⟨_, -, hf⟩ := (h1 q hq).file
    rw [hf.length e he, hm q.1 (List.mem_map.2 ⟨q, hq, rfl⟩)]
  refine ⟨_, outer, hms, wrote_total h1, ho, ?_, fun i e he => ⟨_, hpay i e he, ?_⟩⟩
  · rw [hl, hp, hin, hpk, packed_length _ _ hlen, Nat.mul_div_mul_right _ _ (by omega)]
  · rw [hp, hin, hpk, ← Nat.mul_assoc, packed_drop _ _ hlen,
      packed_take _ _ fun e he => hlen e (List.mem_of_mem_drop he)]
    exact messages_packed fun e he => wrote_wf h1 e (List.mem_of_mem_drop (List.mem_of_mem_take he))

/-! ## The runs of the script -/

/-- **C120** the runs exist: for ids of four bytes, payload sizes up to 1024 (1025) bytes and any input of at most 42949673
payloads there is exactly one output. -/
theorem C120_runs_exist (bd : Build) (addr : Ctor → UInt8) (ecuid appid size input : Bytes) (n : Nat) (hecu : ecuid.length = 4)
    (happ : appid.length = 4) (hsize : Decimal size n) (h1 : 1 ≤ n) (h2 : n ≤ roomBehind bd.late + 1)
    (hk : input.length / n ≤ 42949673) :
    ∃ output, ∀ out, (⟨ecuid, appid, size, n, input, out⟩ : DdRun).Ran bd addr ↔ out = output := by
  have hsmall : n ≤ 65517 := by have := roomBehind_le bd.late; omega
  obtain ⟨output, msgs, h3, -⟩ := C51_round_trip_small_partial bd addr ecuid appid size input [] n hecu happ hsize h1 h2 hk
  refine ⟨output, fun out => ⟨fun h => ?_, ?_⟩⟩
  · obtain ⟨e, he⟩ := h.ran
    exact ((h3 _ _).1 he).1
  · rintro rfl
    refine ⟨hecu, happ, hsize, h1, hsmall, by rw [count_eq]; exact hk, fun p hp => ?_, _, (h3 _ _).2 ⟨rfl, rfl⟩⟩
    obtain ⟨i, -, rfl⟩ := List.mem_map.1 hp
    exact linesFit_short h2 _ i

theorem appended_length (h : ∀ r ∈ runs, r.Ran bd addr) :
    (appended runs).length = (runs.map fun r => r.count * (34 + r.n)).sum := by
  obtain ⟨ps, rfl, h1, hpk, hm⟩ := wrote_all h
  unfold appended
  rw [List.length_flatten, List.map_map, List.map_map, List.map_map]
  congr 1
  refine List.map_congr_left fun p hp => ?_
  obtain ⟨_, -, hf⟩ := (h1 p hp).file
  show p.1.output.length = _
  rw [(h1 p hp).packed, packed_length _ _ hf.length, wrote_count (h1 p hp)]
  rfl

theorem appended_one (r : DdRun) : appended [r] = r.output := by
  unfold appended; simp

/-- A text repeated: the pieces of its length are the text. -/
theorem pieces_repeated {r : DdRun} {t : Bytes} {k : Nat} (hn : r.n = t.length) (hpos : 1 ≤ r.n)
    (hin : r.input = (List.replicate k t).flatten) : r.pieces = List.replicate k t := by
  have hl : r.input.length = k * r.n := by rw [hin, hn]; simp
  have hd : ∀ i (k : Nat), i < k → ((List.replicate k t).flatten.drop (i * t.length)).take t.length = t := by
    intro i
    induction i with
    | zero =>
      intro k hk
      obtain ⟨k, rfl⟩ : ∃ j, k = j + 1 := ⟨k - 1, by omega⟩
      rw [Nat.zero_mul, List.drop_zero, List.replicate_succ, List.flatten_cons, List.take_left]
    | succ i ih =>
      intro k hk
      obtain ⟨k, rfl⟩ : ∃ j, k = j + 1 := ⟨k - 1, by omega⟩
      rw [List.replicate_succ, List.flatten_cons, Nat.succ_mul, Nat.add_comm, List.drop_length_add_append]
      exact ih k (by omega)
  unfold DdRun.pieces chunks
  rw [hl, Nat.mul_div_cancel _ hpos, List.eq_replicate_iff]
  refine ⟨by rw [List.length_map, List.length_range], fun b hb => ?_⟩
  obtain ⟨i, hi, rfl⟩ := List.mem_map.1 hb
  unfold chunk
  rw [hin, hn]
  exact hd i k (List.mem_range.1 hi)

theorem payload_infix {e : StorageEntry} {p : Bytes} (h : payloadOf e = some p) : p <:+: encode e := by
  unfold payloadOf at h
  split at h
  · injection h with h
    subst h
    refine List.IsSuffix.isInfix ((List.drop_suffix _ _).trans ?_)
    unfold encode
    exact List.suffix_append _ _
  · cases h

/-- Pieces that hold earlier messages hold their payloads. -/
theorem nested_pieces {r : DdRun} {m p : Nat} {t : Bytes} (h : ∀ q ∈ runs, q.Ran bd addr) (hm : ∀ q ∈ runs, q.n = m)
    (hr : r.Ran bd addr) (hin : r.input = appended runs) (hp : r.n = p * (34 + m)) (ht : ∀ q ∈ runs, ∀ x ∈ q.pieces, t <:+: x) :
    r.count = (runs.map DdRun.count).sum / p ∧ ∀ x ∈ r.pieces, t <:+: x := by
  obtain ⟨ps, rfl, h1, hpk, hms⟩ := wrote_all h
  have hlen : ∀ e ∈ ps.flatMap (·.2), (encode e).length = 34 + m := fun e he => by
    obtain ⟨q, hq, he⟩ := List.mem_flatMap.1 he
    obtain ⟨_, -, hf⟩ := (h1 q hq).file
    rw [hf.length e he, hm q.1 (List.mem_map.2 ⟨q, hq, rfl⟩)]
  have hpos := hr.pos
  have hp1 : 1 ≤ p := by
    rcases Nat.eq_zero_or_pos p with h0 | h0
    · rw [h0, Nat.zero_mul] at hp; omega
    · exact h0
  have hc : r.count = (ps.flatMap (·.2)).length / p := by
    rw [count_eq, hp, hin, hpk, packed_length _ _ hlen, Nat.mul_div_mul_right _ _ (by omega)]
  refine ⟨by rw [hc, wrote_total h1], fun x hx => ?_⟩
  obtain ⟨i, hi, rfl⟩ := List.mem_map.1 hx
  rw [List.mem_range, ← count_eq, hc] at hi
  have hi' : i * p < (ps.flatMap (·.2)).length := by
    have h3 := Nat.div_mul_le_self (ps.flatMap (·.2)).length p
    have h4 : (i + 1) * p ≤ (ps.flatMap (·.2)).length / p * p := Nat.mul_le_mul_right _ hi
    rw [Nat.succ_mul] at h4
    omega
  unfold chunk
  rw [hp, hin, hpk, ← Nat.mul_assoc, packed_drop _ _ hlen, packed_take _ _ fun e he => hlen e (List.mem_of_mem_drop he),
    List.drop_eq_getElem_cons hi']
  obtain ⟨p, rfl⟩ : ∃ j, p = j + 1 := ⟨p - 1, by omega⟩
  rw [List.take_succ_cons, packed_cons]
  have hmem := List.getElem_mem hi'
  generalize (ps.flatMap (·.2))[i * (p + 1)] = e at hmem
  obtain ⟨q, hq, he⟩ := List.mem_flatMap.1 hmem
  obtain ⟨_, -, hf⟩ := (h1 q hq).file
  obtain ⟨y, hy, h5⟩ := dd_payload hf he
  exact ((ht q.1 (List.mem_map.2 ⟨q, hq, rfl⟩) y hy).trans (payload_infix h5)).trans (List.prefix_append _ _).isInfix

theorem sum_map_const {α : Type} {f : α → Nat} {c : Nat} {xs : List α} (h : ∀ x ∈ xs, f x = c) : (xs.map f).sum = xs.length * c := by
  rw [map_const h, List.sum_replicate_nat]

theorem filter_all_length {α : Type} {P : α → Prop} [DecidablePred P] {xs : List α} (h : ∀ x ∈ xs, P x) : (xs.filter fun x => decide (P x)).length = xs.length := by
  rw [List.filter_eq_self.2 fun x hx => decide_eq_true (h x hx)]

/-- The numbers of a run whose payloads all have the text. -/
theorem hello_run (h : ∀ r ∈ runs, r.Ran bd addr) (hF : Fits (appended runs)) (ht : ∀ q ∈ runs, ∀ x ∈ q.pieces, helloWorld <:+: x)
    {k : Nat} (hk : (runs.map DdRun.count).sum = k) :
    (∀ x, RunCmd num (appended runs) .count x ↔ x = .ok (.number k)) ∧
    (∀ x, RunCmd num (appended runs) .countHelloWorld x ↔ x = .ok (.number k)) := by
  obtain ⟨h1, h2, -⟩ := C120_counts (num := num) h hF
  refine ⟨fun x => by rw [h1, hk], fun x => ?_⟩
  rw [h2, filter_all_length (P := fun p => helloWorld <:+: p) fun x hx => ?_, List.length_flatMap]
  · rw [← hk]; rfl
  · obtain ⟨q, hq, hx⟩ := List.mem_flatMap.1 hx
    exact ht q hq x hx

/-- **C120** the part of the script with "Hello World" messages, as it is there: ten runs of 10000 payloads of 11 bytes, one
run of 45 byte payloads on these, one run of 158 byte payloads on that. The comments of the script are right: 10 lifecycles
with 10000 messages each (of 99 seconds), 100000 messages, 50000 messages; and all of them are "hello world" messages. -/
theorem C120_script (hello : List DdRun) (nasty nasty2 : DdRun) (h10 : hello.length = 10)
    (h : ∀ r ∈ hello, r.Ran bd addr) (hn : ∀ r ∈ hello, r.n = 11)
    (hin : ∀ r ∈ hello, r.input = (List.replicate 10000 helloWorld).flatten)
    (h1 : nasty.Ran bd addr) (hn1 : nasty.n = 45) (hin1 : nasty.input = appended hello)
    (h2 : nasty2.Ran bd addr) (hn2 : nasty2.n = 158) (hin2 : nasty2.input = nasty.output) :
    (∀ x, RunCmd num (appended hello) .histogramLifecycles x ↔ x = .ok (.buckets [(99, 100, 10)])) ∧
    (∀ c, c = .count ∨ c = .countHelloWorld → (∀ x, RunCmd num (appended hello) c x ↔ x = .ok (.number 100000)) ∧
      (∀ x, RunCmd num nasty.output c x ↔ x = .ok (.number 100000)) ∧
      (∀ x, RunCmd num nasty2.output c x ↔ x = .ok (.number 50000))) := by
  have hlen : helloWorld.length = 11 := rfl
  have hpc : ∀ r ∈ hello, r.pieces = List.replicate 10000 helloWorld := fun r hr =>
    pieces_repeated (by rw [hn r hr, hlen]) (by rw [hn r hr]; decide) (hin r hr)
  have hc : ∀ r ∈ hello, r.count = 10000 := fun r hr => by unfold DdRun.count; rw [hpc r hr, List.length_replicate]
  have ht : ∀ q ∈ hello, ∀ x ∈ q.pieces, helloWorld <:+: x := fun q hq x hx => by
    rw [hpc q hq] at hx
    rw [List.eq_of_mem_replicate hx]
    exact List.infix_rfl
  have hs : (hello.map DdRun.count).sum = 100000 := by rw [sum_map_const hc, h10]
  have hF : Fits (appended hello) := by
    unfold Fits
    rw [appended_length h, sum_map_const (c := 10000 * 45) fun r hr => by rw [hc r hr, hn r hr], h10]
    decide
  obtain ⟨hc1, ht1⟩ := nested_pieces (p := 1) h hn h1 hin1 (by rw [hn1]) ht
  rw [hs] at hc1
  have hone1 : ∀ r ∈ [nasty], r.Ran bd addr := fun r hr => by rw [List.mem_singleton.1 hr]; exact h1
  have hone2 : ∀ r ∈ [nasty2], r.Ran bd addr := fun r hr => by rw [List.mem_singleton.1 hr]; exact h2
  have ht1' : ∀ q ∈ [nasty], ∀ x ∈ q.pieces, helloWorld <:+: x := fun q hq => by rw [List.mem_singleton.1 hq]; exact ht1
  obtain ⟨hc2, ht2⟩ := nested_pieces (p := 2) (m := 45) hone1 (fun q hq => by rw [List.mem_singleton.1 hq]; exact hn1) h2
    (by rw [hin2, appended_one]) (by rw [hn2]) ht1'
  have hs1 : (([nasty] : List DdRun).map DdRun.count).sum = 100000 := by
    rw [List.map_cons, List.map_nil, List.sum_cons, List.sum_nil, hc1, Nat.div_one, Nat.add_zero]
  rw [hs1] at hc2
  have hs2 : (([nasty2] : List DdRun).map DdRun.count).sum = 50000 := by
    rw [List.map_cons, List.map_nil, List.sum_cons, List.sum_nil, hc2]
    decide
  have hF1 : Fits (appended [nasty]) := by
    unfold Fits
    rw [appended_length hone1, List.map_cons, List.map_nil, List.sum_cons, List.sum_nil, hc1, hn1]
    decide
  have hF2 : Fits (appended [nasty2]) := by
    unfold Fits
    rw [appended_length hone2, List.map_cons, List.map_nil, List.sum_cons, List.sum_nil, hc2, hn2]
    decide
  constructor
  · intro x
    rw [C120_equal_lifecycles h hF (by decide) hc, h10]
    rfl
  · have a0 := hello_run (num := num) h hF ht hs
    have a1 := hello_run (num := num) hone1 hF1 ht1' hs1
    have a2 := hello_run (num := num) hone2 hF2
      (fun q hq => by rw [List.mem_singleton.1 hq]; exact ht2) hs2
    rw [appended_one] at a1 a2
    rintro c (rfl | rfl)
    · exact ⟨a0.1, a1.1, a2.1⟩
    · exact ⟨a0.2, a1.2, a2.2⟩

/-- **C120** the random payloads of the script, as they are there: ten runs on any 100000 (10000000) bytes with payloads of
1 (100) bytes make ten lifecycles with 100000 messages each (of 999 seconds). -/
theorem C120_script_random (random : List DdRun) (n : Nat) (hn1 : 1 ≤ n) (hn2 : n ≤ 65517) (h10 : random.length = 10) (h : ∀ r ∈ random, r.Ran bd addr)
    (hn : ∀ r ∈ random, r.n = n) (hin : ∀ r ∈ random, r.input.length = 100000 * n) :
    (∀ x, RunCmd num (appended random) .histogramLifecycles x ↔ x = .ok (.buckets [(999, 1000, 10)])) ∧
    (∀ x, RunCmd num (appended random) .count x ↔ x = .ok (.number 1000000)) := by
  have hc : ∀ r ∈ random, r.count = 100000 := fun r hr => by
    rw [count_eq, hin r hr, hn r hr, Nat.mul_div_cancel _ hn1]
  have hF : Fits (appended random) := by
    unfold Fits
    rw [appended_length h, sum_map_const (c := 100000 * (34 + n)) fun r hr => by rw [hc r hr, hn r hr], h10]
    have : (2 : Nat) ^ 63 = 9223372036854775808 := by decide
    omega
  constructor
  · intro x
    rw [C120_equal_lifecycles h hF (by decide) hc, h10]
    rfl
  · intro x
    rw [(C120_counts (num := num) h hF).1, sum_map_const hc, h10]

end

/-! ## Damaged files -/

/-- Texts, each followed by some messages. -/
def segmentsOf (parts : List (Bytes × List StorageEntry)) : List (Bytes × StorageEntry) :=
  parts.flatMap fun p => match p.2 with
    | [] => []
    | e :: es => (p.1, e) :: es.map fun e => ([], e)

/-- **C120** `skipped.dlt`: messages with other texts in front, in between and behind (without the start marker): the
messages are read, all of them and nothing else. -/
theorem C120_skipped (parts : List (Bytes × List StorageEntry)) (last : Bytes)
    (h : ∀ p ∈ parts, ¬ dltMarker <:+: p.1 ∧ p.2 ≠ [] ∧ ∀ e ∈ p.2, WF e) (hlast : ¬ dltMarker <:+: last)
    (hF : Fits ((parts.map fun p => p.1 ++ (p.2.map encode).flatten).flatten ++ last)) (num : Nat) :
    Messages ((parts.map fun p => p.1 ++ (p.2.map encode).flatten).flatten ++ last) (parts.flatMap (·.2)) ∧
    ∀ x, RunCmd num ((parts.map fun p => p.1 ++ (p.2.map encode).flatten).flatten ++ last) .count x ↔
      x = .ok (.number (parts.map (·.2.length)).sum) := by
  have hm : Messages ((parts.map fun p => p.1 ++ (p.2.map encode).flatten).flatten ++ last) (parts.flatMap (·.2)) := by
    have e1 : (parts.map fun p => p.1 ++ (p.2.map encode).flatten).flatten ++ last = fileOf (segmentsOf parts) last := by
      unfold fileOf segmentsOf
      congr 1
      clear hF hlast
      induction parts with
      | nil => rfl
      | cons p parts ih =>
      rw [List.map_cons, List.flatten_cons, ih fun q hq => h q (List.mem_cons_of_mem _ hq), List.flatMap_cons, List.map_append,
        List.flatten_append]
      congr 1
      have hp : p ∈ p :: parts := List.mem_cons_self
      obtain ⟨w, es⟩ := p
      obtain ⟨-, hne, -⟩ := h _ hp
      match es, hne with
      | e :: es, _ => simp [List.flatMap_map, List.flatten_eq_flatMap]
    have e2 : parts.flatMap (·.2) = (segmentsOf parts).map (·.2) := by
      unfold segmentsOf
      rw [List.map_flatMap, List.flatMap, List.flatMap]
      congr 1
      refine List.map_congr_left fun p _ => ?_
      obtain ⟨w, es⟩ := p
      cases es <;> simp [Function.comp_def]
    rw [e1, e2]
    refine messages_fileOf ⟨?_, hlast⟩
    intro s hs
    obtain ⟨p, hp, h2⟩ := List.mem_flatMap.1 hs
    obtain ⟨h3, -, h4⟩ := h p hp
    obtain ⟨w, es⟩ := p
    cases es with
    | nil => cases h2
    | cons e es =>
      rcases List.mem_cons.1 h2 with rfl | h2
      · exact ⟨h3, h4 e List.mem_cons_self⟩
      · obtain ⟨e', h5, rfl⟩ := List.mem_map.1 h2
        exact ⟨by show ¬ dltMarker <:+: []; decide, h4 e' (List.mem_cons_of_mem _ h5)⟩
  refine ⟨hm, ?_⟩
  obtain ⟨rep, h3, h4⟩ := C68_sequential_prints num _ hF _ hm .count rfl id
  cases rep <;> try (exact absurd h3 id)
  intro x
  rw [h4, show _ = _ from h3, List.length_flatMap]

/-! ## At work -/

/-- Two runs: "a newline b" in payloads of one byte, and four bytes in payloads of two. -/
example (bd : Build) (addr : Ctor → UInt8) : ∃ runs : List DdRun, (∀ r ∈ runs, r.Ran bd addr) ∧
    runs.map DdRun.count = [3, 2] ∧ (runs.map (·.ecuid)).Nodup ∧ Fits (appended runs) ∧
    (∀ num x, RunCmd num (appended runs) .count x ↔ x = .ok (.number 5)) ∧
    (∀ num x, RunCmd num (appended runs) .histogramLifecycles x ↔ x = .ok (.buckets [(0, 1, 2)])) := by
  have hb : 2 ≤ roomBehind bd.late + 1 := by unfold roomBehind; split <;> decide
  have run : ∀ (ecuid size input : Bytes) (n : Nat), ecuid.length = 4 → Decimal size n → 1 ≤ n → n ≤ 2 → input.length ≤ 10 →
      ∃ r : DdRun, r.Ran bd addr ∧ r.ecuid = ecuid ∧ r.n = n ∧ r.count = input.length / n := by
    intro ecuid size input n h1 h2 h3 h4 h5
    obtain ⟨o, ho⟩ := C120_runs_exist bd addr ecuid [97, 112, 112, 48] size input n h1 rfl h2 h3 (by omega)
      (Nat.le_trans (Nat.div_le_self _ _) (by omega))
    exact ⟨_, (ho _).2 rfl, rfl, rfl, count_eq _⟩
  obtain ⟨r1, a1, a2, a3, a4⟩ := run [101, 99, 117, 48] [49] [97, 10, 98] 1 rfl ⟨[1], by decide, by decide, rfl, .inl rfl⟩
    (by decide) (by decide) (by decide)
  obtain ⟨r2, b1, b2, b3, b4⟩ := run [101, 99, 117, 49] [50] [1, 2, 3, 4] 2 rfl ⟨[2], by decide, by decide, rfl, .inl rfl⟩
    (by decide) (by decide) (by decide)
  have c1 : r1.count = 3 := a4
  have c2 : r2.count = 2 := b4
  have hran : ∀ r ∈ [r1, r2], r.Ran bd addr := by
    intro r hr
    rcases List.mem_cons.1 hr with rfl | hr
    · exact a1
    · rw [List.mem_singleton.1 hr]; exact b1
  have hc : [r1, r2].map DdRun.count = [3, 2] := by rw [List.map_cons, List.map_cons, List.map_nil, c1, c2]
  have hF : Fits (appended [r1, r2]) := by
    unfold Fits
    rw [appended_length hran, List.map_cons, List.map_cons, List.map_nil, c1, c2, a3, b3]
    decide
  refine ⟨[r1, r2], hran, hc, ?_, hF, fun num x => ?_, fun num x => ?_⟩
  · rw [List.map_cons, List.map_cons, List.map_nil, a2, b2]
    decide
  · rw [(C120_counts hran hF).1, hc]
    rfl
  · obtain ⟨⟨m, h3, -, h4⟩, -⟩ := C120_lifecycles (num := num) hran hF (by
      intro r hr
      rcases List.mem_cons.1 hr with rfl | hr
      · omega
      · rw [List.mem_singleton.1 hr]; omega)
    rw [List.map_cons, List.map_cons, List.map_nil, c1, c2] at h3
    rw [h4, hist_const (k := 2) (a := 0) h3 rfl]
    rfl

/-- **C120_script** the runs of the script exist, for any ids. -/
example (bd : Build) (addr : Ctor → UInt8) (ids : Nat → Bytes × Bytes) (hid : ∀ i, (ids i).1.length = 4 ∧ (ids i).2.length = 4) :
    ∃ (hello : List DdRun) (nasty nasty2 : DdRun), hello.length = 10 ∧ (∀ r ∈ hello, r.Ran bd addr) ∧ (∀ r ∈ hello, r.n = 11) ∧
    (∀ r ∈ hello, r.input = (List.replicate 10000 helloWorld).flatten) ∧
    nasty.Ran bd addr ∧ nasty.n = 45 ∧ nasty.input = appended hello ∧
    nasty2.Ran bd addr ∧ nasty2.n = 158 ∧ nasty2.input = nasty.output := by
  have hb : 158 ≤ roomBehind bd.late + 1 := by unfold roomBehind; split <;> decide
  have run : ∀ (i : Nat) (size input : Bytes) (n : Nat), Decimal size n → 1 ≤ n → n ≤ 158 → input.length ≤ 42949673 →
      ∃ r : DdRun, r.Ran bd addr ∧ r.n = n ∧ r.input = input := by
    intro i size input n h2 h3 h4 h5
    obtain ⟨o, ho⟩ := C120_runs_exist bd addr (ids i).1 (ids i).2 size input n (hid i).1 (hid i).2 h2 h3 (by omega)
      (Nat.le_trans (Nat.div_le_self _ _) h5)
    exact ⟨_, (ho _).2 rfl, rfl, rfl⟩
  have hin : (List.replicate 10000 helloWorld).flatten.length = 110000 := by
    rw [List.length_flatten, List.map_replicate, List.sum_replicate_nat]; rfl
  have all : ∀ k, ∃ hello : List DdRun, hello.length = k ∧ (∀ r ∈ hello, r.Ran bd addr) ∧ (∀ r ∈ hello, r.n = 11) ∧
      ∀ r ∈ hello, r.input = (List.replicate 10000 helloWorld).flatten := by
    intro k
    induction k with
    | zero => exact ⟨[], rfl, fun r hr => (List.not_mem_nil hr).elim, fun r hr => (List.not_mem_nil hr).elim, fun r hr => (List.not_mem_nil hr).elim⟩
    | succ k ih =>
      obtain ⟨hello, h1, h2, h3, h4⟩ := ih
      obtain ⟨r, a1, a2, a3⟩ := run k [49, 49] (List.replicate 10000 helloWorld).flatten 11
        ⟨[1, 1], by decide, by decide, rfl, .inl rfl⟩ (by decide) (by decide) (by rw [hin]; decide)
      exact ⟨r :: hello, by rw [List.length_cons, h1], List.forall_mem_cons.2 ⟨a1, h2⟩, List.forall_mem_cons.2 ⟨a2, h3⟩,
        List.forall_mem_cons.2 ⟨a3, h4⟩⟩
  obtain ⟨hello, h1, h2, h3, h4⟩ := all 10
  have hl : (appended hello).length = 4500000 := by
    rw [appended_length h2, sum_map_const (c := 10000 * 45) fun r hr => by rw [count_eq, h4 r hr, hin, h3 r hr], h1]
  obtain ⟨nasty, a1, a2, a3⟩ := run 10 [52, 53] (appended hello) 45
    ⟨[4, 5], by decide, by decide, rfl, .inl rfl⟩ (by decide) (by decide) (by rw [hl]; decide)
  have hl1 : nasty.output.length = 7900000 := by
    rw [← appended_one, appended_length fun r hr => by rw [List.mem_singleton.1 hr]; exact a1, List.map_cons, List.map_nil,
      count_eq, a3, hl, a2]
    rfl
  obtain ⟨nasty2, b1, b2, b3⟩ := run 11 [49, 53, 56] nasty.output 158
    ⟨[1, 5, 8], by decide, by decide, rfl, .inl rfl⟩ (by decide) (by decide) (by rw [hl1]; decide)
  exact ⟨hello, nasty, nasty2, h1, h2, h3, h4, a1, a2, a3, b1, b2, b3⟩

/-- **C120_skipped** at work: two texts around a message. -/
example (num : Nat) : ∀ x, RunCmd num ([119, 114, 10] ++ encode (textMsg helloWorldPattern) ++ [101, 10]) .count x ↔
    x = .ok (.number 1) := by
  have h := (C120_skipped [([119, 114, 10], [textMsg helloWorldPattern])] [101, 10] (by
    intro p hp
    rw [List.mem_singleton.1 hp]
    refine ⟨by decide, List.cons_ne_nil _ _, fun e he => ?_⟩
    rw [List.mem_singleton.1 he]
    decide) (by decide) (by decide +kernel) num).2
  simpa using h

end Verif
