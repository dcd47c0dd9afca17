import Verif.Props.Order
import Verif.Lemmas.RunsLength

/-! # C113: the reports of the commands fit together -/

set_option linter.unusedSimpArgs false

namespace Verif

open Spec

/-- What a sequential command reports is what `Prints` says. -/
theorem runs_prints {num : Nat} {bytes : Bytes} (hF : Fits bytes) {msgs : List StorageEntry} (h : Messages bytes msgs)
    {c : Cmd} (hc : sequential c = true) {rep : Report} (hr : RunCmd num bytes c (.ok rep)) : Prints bytes msgs c rep := by
  rcases sequential_outcome num bytes hF msgs h c hc with ⟨-, h2⟩ | ⟨-, rep', h1, h2⟩
  · cases (h2 _).1 hr
  · cases (h2 _).1 hr
    exact h1

/-- **C113** sizes: the histograms of message and payload sizes count every message once, the totals they print are the
sums of their lines, messages take at most the file, and each message needs at least 20 bytes more than its payload. -/
theorem C113_sizes (num : Nat) (bytes : Bytes) (hF : Fits bytes) (n : Nat) (ms ps : List (Nat × Nat × Nat)) (mt pt : Nat)
    (hn : RunCmd num bytes .count (.ok (.number n)))
    (hm : RunCmd num bytes .histogramMessageSize (.ok (.sizes ms mt)))
    (hp : RunCmd num bytes .histogramPayloadSize (.ok (.sizes ps pt))) :
    (ms.map (·.2.1)).sum = n ∧ (ps.map (·.2.1)).sum = n ∧
    mt = (ms.map fun l => l.1 * l.2.1).sum / 1024 ∧ pt = (ps.map fun l => l.1 * l.2.1).sum / 1024 ∧
    (ps.map fun l => l.1 * l.2.1).sum + 20 * n ≤ (ms.map fun l => l.1 * l.2.1).sum ∧
    (ms.map fun l => l.1 * l.2.1).sum ≤ bytes.length := by
  obtain ⟨msgs, h⟩ := messages_exists hF
  obtain rfl : n = msgs.length := runs_prints hF h rfl hn
  obtain ⟨m, h1, rfl, rfl⟩ := runs_prints hF h rfl hm
  obtain ⟨p, h2, rfl, rfl⟩ := runs_prints hF h rfl hp
  have e1 := isHistogram_sum id h1
  have e2 := isHistogram_sum id h2
  have t1 := isHistogram_total h1
  have t2 := isHistogram_total h2
  simp only [List.map_id, id, List.length_map] at e1 e2 t1 t2
  have f : ∀ l : List (Nat × Nat), ((l.map fun e => (e.1, e.2, e.1 * e.2 / 1024)).map fun l => l.1 * l.2.1).sum =
      (l.map fun e => e.1 * e.2).sum := fun l => by rw [List.map_map]; rfl
  refine ⟨?_, ?_, by rw [f, e1], by rw [f, e2], ?_, ?_⟩
  · rw [List.map_map]; exact t1
  · rw [List.map_map]; exact t2
  · rw [f, f, e1, e2]
    clear h hn hm hp h1 h2 e1 e2 t1 t2
    induction msgs with
    | nil => exact Nat.le_refl _
    | cons e msgs ih =>
      have h1 := encode_length e
      have h2 : ((payloadOf e).getD []).length ≤ e.dlt.tail.length := by
        unfold payloadOf
        split
        · simp only [Option.getD_some, List.length_drop]; omega
        · simp
      simp only [List.map_cons, List.sum_cons, List.length_cons]
      omega
  · rw [f, e1]
    exact (messages_sum h).1

/-- **C113** kinds: the message type histogram counts no message twice; `split_timestamp` counts every message once. -/
theorem C113_kinds (num : Nat) (bytes : Bytes) (hF : Fits bytes) (n : Nat) (ts : List ((Bool × Option MsgType) × Nat))
    (es : List (Bytes × (OrdMap UInt32 Nat × Nat))) (hn : RunCmd num bytes .count (.ok (.number n))) :
    (RunCmd num bytes .histogramMessageType (.ok (.infos ts)) → (ts.map (·.2)).sum ≤ n) ∧
    (RunCmd num bytes .splitTimestamp (.ok (.ecus es)) → (es.map (·.2.2)).sum = n) := by
  obtain ⟨msgs, h⟩ := messages_exists hF
  obtain rfl : n = msgs.length := runs_prints hF h rfl hn
  constructor
  · intro hr
    have h1 : IsHistogram ((msgs.filter fun e => flag e.dlt 0).map fun e => MessageType.info ⟨infoByte e⟩) ts :=
      runs_prints hF h rfl hr
    rw [isHistogram_total h1, List.length_map]
    exact List.length_filter_le _ _
  · intro hr
    obtain ⟨m, h1, -, rfl⟩ := runs_prints hF h rfl hr
    have h2 := isHistogram_total h1
    rw [List.map_map, List.length_map] at h2
    rw [List.map_map]
    exact h2

theorem runs_eq_runsL {α : Type} {R : α → α → Prop} (f : α → α → Bool) (hf : ∀ a b, f a b = true ↔ R a b) {xs : List α}
    {runs : List (List α)} (h : MaximalRuns R xs runs) : runs = runsL f xs := by
  refine maximalRuns_eq (f := f) ?_
  have : (fun a b => f a b = true) = R := by funext a b; exact propext (hf a b)
  rw [this]
  exact h

/-- **C113** times: there are at most as many periods as messages and, if there is a message, at least one; the periods
of `histogram_lifecycles` are no more than the messages `split_lifecycles` counts, which are no more than all; `iter`
counts at most as many as there are in `histogram_lifecycles`; and a long step that `itertools` counts is part of a
lifecycle that `iter` counts. -/
theorem C113_times (num : Nat) (bytes : Bytes) (hF : Fits bytes) (n : Nat) (hn : RunCmd num bytes .count (.ok (.number n))) :
    (∀ bs, RunCmd num bytes .histogramTimestamp (.ok (.buckets bs)) →
      (bs.map (·.2.2)).sum ≤ n ∧ (0 < n → 0 < (bs.map (·.2.2)).sum)) ∧
    (∀ es, RunCmd num bytes .splitLifecycles (.ok (.ecus es)) → (es.map (·.2.2)).sum ≤ n) ∧
    (∀ bs es, RunCmd num bytes .histogramLifecycles (.ok (.buckets bs)) →
      RunCmd num bytes .splitLifecycles (.ok (.ecus es)) → (bs.map (·.2.2)).sum ≤ (es.map (·.2.2)).sum) ∧
    (∀ bs i, RunCmd num bytes .histogramLifecycles (.ok (.buckets bs)) → RunCmd num bytes .iter (.ok (.number i)) →
      i ≤ (bs.map (·.2.2)).sum) ∧
    (∀ i k, RunCmd num bytes .iter (.ok (.number i)) → RunCmd num bytes .itertools (.ok (.number k)) → 0 < k → 0 < i) := by
  obtain ⟨msgs, h⟩ := messages_exists hF
  obtain rfl : n = msgs.length := runs_prints hF h rfl hn
  have htot : ∀ m : List (Nat × Nat), ((m.map fun e => (e.1, e.1 + 1, e.2)).map (·.2.2)).sum = (m.map (·.2)).sum := fun m => by
    rw [List.map_map]; rfl
  refine ⟨?_, ?_, ?_, ?_, ?_⟩
  · intro bs hr
    obtain ⟨runs, m, h1, h2, rfl⟩ := runs_prints hF h rfl hr
    rw [htot, isHistogram_total h2, List.length_map]
    refine ⟨runs_length_le h1, fun hp => ?_⟩
    cases runs with
    | nil => rw [← h1.flatten] at hp; simp at hp
    | cons r rs => simp
  · intro es hr
    obtain ⟨m, h1, -, rfl⟩ := runs_prints hF h rfl hr
    have h2 := isHistogram_total h1
    rw [List.map_map, List.length_map] at h2
    rw [List.map_map]
    exact Nat.le_trans (Nat.le_of_eq h2) (List.length_filter_le _ _)
  · intro bs es hr hs
    obtain ⟨runs, m, h1, h2, rfl⟩ := runs_prints hF h rfl hr
    obtain ⟨m', h3, -, rfl⟩ := runs_prints hF h rfl hs
    have h4 := isHistogram_total h3
    rw [List.map_map, List.length_map] at h4
    rw [htot, isHistogram_total h2, List.length_map, List.map_map]
    exact Nat.le_trans (runs_length_le h1) (Nat.le_of_eq h4.symm)
  · intro bs i hr hi
    obtain ⟨runs, m, h1, h2, rfl⟩ := runs_prints hF h rfl hr
    obtain ⟨runs', h3, rfl⟩ := runs_prints hF h rfl hi
    rw [htot, isHistogram_total h2, List.length_map]
    refine Nat.le_trans (List.length_filter_le _ _) ?_
    rw [runs_eq_runsL (fun a b => decide (ecuOf a = ecuOf b ∧ time a ≤ time b)) (fun a b => decide_eq_true_iff) h1,
      runs_eq_runsL (fun a b => decide (time a ≤ time b)) (fun a b => decide_eq_true_iff) h3]
    exact runsL_mono _ _ (fun a b hab => decide_eq_true (of_decide_eq_true hab).2) _
  · intro i k hi hk hpos
    obtain ⟨runs, h1, rfl⟩ := runs_prints hF h rfl hi
    have h2 : k = _ := runs_prints hF h rfl hk
    rw [h2] at hpos
    obtain ⟨p, hp⟩ := List.exists_mem_of_length_pos hpos
    obtain ⟨hp1, hp2⟩ := List.mem_filter.1 hp
    have hlong : halfHour ≤ time p.2 - time p.1 := of_decide_eq_true hp2
    have hh : 0 < halfHour := by decide
    have hruns := runs_eq_runsL (fun a b => decide (time a ≤ time b)) (fun a b => decide_eq_true_iff) h1
    obtain ⟨r, hr, u, v, huv⟩ := runsL_neighbours (fun a b => decide (time a ≤ time b)) _ p hp1 (decide_eq_true (by omega))
    rw [← hruns] at hr
    have hchain := chain_pairwise (R := fun a b : StorageEntry => time a ≤ time b) (fun _ _ _ => Nat.le_trans) (h1.related r hr)
    refine List.length_pos_of_mem (a := r) (List.mem_filter.2 ⟨hr, decide_eq_true ?_⟩)
    refine Nat.le_trans hlong ?_
    have hfirst : ∃ a, r.head? = some a ∧ time a ≤ time p.1 := by
      cases u with
      | nil => exact ⟨p.1, by rw [huv]; rfl, Nat.le_refl _⟩
      | cons a u =>
        refine ⟨a, by rw [huv]; rfl, ?_⟩
        rw [huv] at hchain
        exact (List.pairwise_cons.1 hchain).1 p.1 (by simp)
    have hlast : ∃ b, r.getLast? = some b ∧ time p.2 ≤ time b := by
      rw [huv] at hchain ⊢
      have h3 : (p.2 :: v).Pairwise fun a b : StorageEntry => time a ≤ time b :=
        (List.pairwise_cons.1 (List.pairwise_append.1 hchain).2.1).2
      cases hv : v.getLast? with
      | none =>
        refine ⟨p.2, ?_, Nat.le_refl _⟩
        rw [List.getLast?_eq_none_iff.1 hv]
        simp
      | some b =>
        refine ⟨b, ?_, (List.pairwise_cons.1 h3).1 b (last_mem hv)⟩
        rw [List.getLast?_append, List.getLast?_cons, List.getLast?_cons, hv]
        rfl
    obtain ⟨a, ha1, ha2⟩ := hfirst
    obtain ⟨b, hb1, hb2⟩ := hlast
    unfold timeSpanOf
    rw [ha1, hb1]
    show _ ≤ time b - time a
    omega

/-- The occurrences of a text in the payloads of messages that do not overlap. -/
theorem text_positions {text bytes : Bytes} (ht : 0 < text.length) : ∀ items : List (Nat × StorageEntry),
    (∀ x ∈ items, MsgAt bytes x.1 x.2) → (items.Pairwise fun a b => a.1 + a.2.len ≤ b.1) →
    ∃ ps : List Nat, ps.Pairwise (· < ·) ∧ (open Classical in
      ps.length = ((items.map (·.2)).filter fun e => decide (hasText text e)).length) ∧
      ∀ p ∈ ps, text <+: bytes.drop p ∧ ∃ x ∈ items, x.1 ≤ p ∧ p < x.1 + x.2.len
  | [], _, _ => ⟨[], .nil, by simp, by simp⟩
  | x :: items, hm, hd => by
    classical
    obtain ⟨hd1, hd2⟩ := List.pairwise_cons.1 hd
    obtain ⟨ps, h1, h2, h3⟩ := text_positions ht items (fun y hy => hm y (List.mem_cons_of_mem _ hy)) hd2
    have h3' : ∀ p ∈ ps, text <+: bytes.drop p ∧ ∃ y ∈ x :: items, y.1 ≤ p ∧ p < y.1 + y.2.len := fun p hp => by
      obtain ⟨a, y, hy, b⟩ := h3 p hp
      exact ⟨a, y, List.mem_cons_of_mem _ hy, b⟩
    by_cases hx : hasText text x.2
    · obtain ⟨hwf, pre, post, hbytes, hpre⟩ := hm x List.mem_cons_self
      obtain ⟨q, hq1, u, v, huv⟩ := hx
      unfold payloadOf at hq1
      split at hq1
      · rename_i hle
        injection hq1 with hq1
        have hlen := encode_len x.2 hwf
        have hlen2 := encode_length x.2
        -- the payload is the end of the message
        have hsplit : ∃ w, encode x.2 = w ++ q ∧ w.length = 20 + preLen x.2 := by
          refine ⟨(encode x.2).take (20 + preLen x.2), ?_, by rw [List.length_take]; omega⟩
          rw [← hq1]
          have hdrop : (encode x.2).drop 20 = x.2.dlt.tail := rfl
          rw [← hdrop, List.drop_drop, List.take_append_drop]
        obtain ⟨w, hw1, hw2⟩ := hsplit
        have hql : w.length + q.length = x.2.len := by rw [← hlen, hw1, List.length_append]
        have hul : u.length + text.length ≤ q.length := by rw [← huv]; simp only [List.length_append]; omega
        have hocc : text <+: bytes.drop (pre.length + (w.length + u.length)) := by
          rw [hbytes, hw1, ← huv]
          simp only [List.append_assoc]
          rw [List.drop_append, List.drop_eq_nil_of_le (by omega), List.nil_append,
            show pre.length + (w.length + u.length) - pre.length = w.length + u.length by omega,
            List.drop_append, List.drop_eq_nil_of_le (by omega), List.nil_append,
            show w.length + u.length - w.length = u.length by omega, List.drop_left]
          exact List.prefix_append _ _
        refine ⟨(pre.length + (w.length + u.length)) :: ps, List.pairwise_cons.2 ⟨?_, h1⟩, ?_, ?_⟩
        · intro p hp
          obtain ⟨-, y, hy, h4, -⟩ := h3 p hp
          have := hd1 y hy
          omega
        · have hx : hasText text x.2 := ⟨q, by unfold payloadOf; rw [if_pos hle, hq1], u, v, huv⟩
          rw [List.map_cons, List.filter_cons_of_pos (by simpa using hx)]
          simp only [List.length_cons, h2]
        · intro p hp
          rcases List.mem_cons.1 hp with rfl | hp
          · exact ⟨hocc, x, List.mem_cons_self, by omega, by omega⟩
          · exact h3' p hp
      · cases hq1
    · refine ⟨ps, h1, ?_, h3'⟩
      rw [List.map_cons, List.filter_cons_of_neg (by simpa using hx)]
      exact h2

/-- **C113** texts: `count_hello_world` counts at most every message, and at most the occurrences that
`count_hello_world_raw` counts; the lines of `histogram_hello_world` add up to what `count_hello_world_grepit` prints. -/
theorem C113_texts (num : Nat) (bytes : Bytes) (hF : Fits bytes) (n k r g : Nat) (os : List (Nat × Nat × Nat))
    (hn : RunCmd num bytes .count (.ok (.number n))) (hr : RunCmd num bytes .countHelloWorldRaw (.ok (.number r)))
    (hg : RunCmd num bytes .countHelloWorldGrepit (.ok (.number g)))
    (ho : RunCmd num bytes .histogramHelloWorld (.ok (.offsets os))) :
    (RunCmd num bytes .countHelloWorld (.ok (.number k)) → k ≤ n ∧ k ≤ r) ∧ (os.map (·.2.2)).sum = g := by
  obtain ⟨msgs, h⟩ := messages_exists hF
  obtain rfl : n = msgs.length := runs_prints hF h rfl hn
  constructor
  · intro hk
    have h1 : k = _ := runs_prints hF h rfl hk
    obtain ⟨at_, h2, h3, rfl⟩ := runs_prints hF h rfl hr
    constructor
    · rw [h1]; exact List.length_filter_le _ _
    · obtain ⟨items, hs, rfl⟩ := h
      obtain ⟨ps, h4, h5, h6⟩ := text_positions (text := helloWorld) (by decide) items
        (fun x hx => readableAt_iff_msgAt.1 (hs.readable x hx)) hs.disjoint.1
      rw [h1, ← h5]
      exact increasing_length_le h4 h2 fun p hp => (h3 p).2 (h6 p hp).1
  · obtain ⟨hits, m, h1, -, -, h2, h3, h4, h5⟩ := C63_histogram_hello_world bytes hF
    change printed _ _ = some _ at hg ho
    rw [printed_ok h1] at hg
    rw [printed_ok h2] at ho
    unfold offsetReport at ho
    rw [h5] at ho
    injection hg with hg
    injection hg with hg
    injection hg with hg
    injection ho with ho
    injection ho with ho
    injection ho with ho
    rw [← ho, ← hg, ← h4, List.map_map]
    rfl

/-- **C113** at work: a file on which all these commands report, so that all of C113 applies to it. -/
example (num : Nat) : ∃ n ms mt ps pt ts es bs ls fs i k t r g os,
    RunCmd num (encode msg0 ++ encode msg1) .count (.ok (.number n)) ∧ n = 2 ∧
    RunCmd num (encode msg0 ++ encode msg1) .histogramMessageSize (.ok (.sizes ms mt)) ∧
    RunCmd num (encode msg0 ++ encode msg1) .histogramPayloadSize (.ok (.sizes ps pt)) ∧
    RunCmd num (encode msg0 ++ encode msg1) .histogramMessageType (.ok (.infos ts)) ∧
    RunCmd num (encode msg0 ++ encode msg1) .splitTimestamp (.ok (.ecus es)) ∧
    RunCmd num (encode msg0 ++ encode msg1) .histogramTimestamp (.ok (.buckets bs)) ∧
    RunCmd num (encode msg0 ++ encode msg1) .splitLifecycles (.ok (.ecus ls)) ∧
    RunCmd num (encode msg0 ++ encode msg1) .histogramLifecycles (.ok (.buckets fs)) ∧
    RunCmd num (encode msg0 ++ encode msg1) .iter (.ok (.number i)) ∧
    RunCmd num (encode msg0 ++ encode msg1) .itertools (.ok (.number k)) ∧
    RunCmd num (encode msg0 ++ encode msg1) .countHelloWorld (.ok (.number t)) ∧
    RunCmd num (encode msg0 ++ encode msg1) .countHelloWorldRaw (.ok (.number r)) ∧
    RunCmd num (encode msg0 ++ encode msg1) .countHelloWorldGrepit (.ok (.number g)) ∧
    RunCmd num (encode msg0 ++ encode msg1) .histogramHelloWorld (.ok (.offsets os)) := by
  have hF : Fits (encode msg0 ++ encode msg1) := by decide
  have key : ∀ c, sequential c = true → ∃ rep, Prints (encode msg0 ++ encode msg1) [msg0, msg1] c rep ∧
      RunCmd num (encode msg0 ++ encode msg1) c (.ok rep) := by
    intro c hc
    obtain ⟨rep, h1, h2⟩ := C68_sequential_prints num _ hF _ two_messages.1 c hc fun hp =>
      C67_complete_files num _ hF _ two_messages.1 (by decide)
        (fun e he => by
          have : utf8Valid e.storageHeader.ecu.toBytes = true := by revert e; decide
          exact (utf8Valid_iff _).1 this) c hc
        ((C67_sequential_panics num _ hF _ two_messages.1 c hc).2 hp)
    exact ⟨rep, h1, (h2 _).2 rfl⟩
  have hnum : ∀ c, sequential c = true → (∀ rep, Prints (encode msg0 ++ encode msg1) [msg0, msg1] c rep → ∃ n, rep = .number n) →
      ∃ n, RunCmd num (encode msg0 ++ encode msg1) c (.ok (.number n)) := by
    intro c hc hp
    obtain ⟨rep, h1, h2⟩ := key c hc
    obtain ⟨n, rfl⟩ := hp rep h1
    exact ⟨n, h2⟩
  obtain ⟨n, hn⟩ := hnum .count rfl fun rep h => by cases rep <;> first | exact ⟨_, rfl⟩ | cases h
  obtain ⟨i, hi⟩ := hnum .iter rfl fun rep h => by cases rep <;> first | exact ⟨_, rfl⟩ | cases h
  obtain ⟨k, hk⟩ := hnum .itertools rfl fun rep h => by cases rep <;> first | exact ⟨_, rfl⟩ | cases h
  obtain ⟨t, ht⟩ := hnum .countHelloWorld rfl fun rep h => by cases rep <;> first | exact ⟨_, rfl⟩ | cases h
  obtain ⟨r, hr⟩ := hnum .countHelloWorldRaw rfl fun rep h => by cases rep <;> first | exact ⟨_, rfl⟩ | cases h
  obtain ⟨g, hg⟩ := hnum .countHelloWorldGrepit rfl fun rep h => by cases rep <;> first | exact ⟨_, rfl⟩ | cases h
  obtain ⟨r1, p1, h1⟩ := key .histogramMessageSize rfl
  obtain ⟨r2, p2, h2⟩ := key .histogramPayloadSize rfl
  obtain ⟨r3, p3, h3⟩ := key .histogramMessageType rfl
  obtain ⟨r4, p4, h4⟩ := key .splitTimestamp rfl
  obtain ⟨r5, p5, h5⟩ := key .histogramTimestamp rfl
  obtain ⟨r6, p6, h6⟩ := key .splitLifecycles rfl
  obtain ⟨r7, p7, h7⟩ := key .histogramLifecycles rfl
  obtain ⟨r8, p8, h8⟩ := key .histogramHelloWorld rfl
  cases r1 <;> try cases p1
  cases r2 <;> try cases p2
  cases r3 <;> try cases p3
  cases r4 <;> try cases p4
  cases r5 <;> try cases p5
  cases r6 <;> try cases p6
  cases r7 <;> try cases p7
  cases r8 <;> try cases p8
  exact ⟨n, _, _, _, _, _, _, _, _, _, i, k, t, r, g, _, hn, runs_prints hF two_messages.1 rfl hn, h1, h2, h3, h4, h5, h6, h7,
    hi, hk, ht, hr, hg, h8⟩

end Verif
