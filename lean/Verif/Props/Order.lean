import Verif.Props.Footprint

/-! # C111, C112: what the order of the messages in a file matters for -/

set_option linter.unusedSimpArgs false

namespace Verif

open Spec

/-! ## C111: the counting commands do not see the order -/

namespace Spec

/-- The commands that treat each message on its own. -/
def orderBlind : Cmd → Bool
  | .count | .histogramMessageSize | .histogramPayloadSize | .histogramMessageType | .countHelloWorld => true
  | _ => false

end Spec

section
variable {a b : Bytes} {xs ys : List StorageEntry}

theorem count_perm (ha : Fits a) (hb : Fits b) (hx : Messages a xs) (hy : Messages b ys) (h : xs.Perm ys) :
    ripCount a = ripCount b := by
  rw [C45_count a ha xs hx, C45_count b hb ys hy, h.length_eq]

theorem message_size_perm (ha : Fits a) (hb : Fits b) (hx : Messages a xs) (hy : Messages b ys) (h : xs.Perm ys) :
    histogramMessage a = histogramMessage b := by
  obtain ⟨m, h1, h2, -⟩ := C45_message_sizes a ha xs hx
  obtain ⟨m', h3, h4, -⟩ := C45_message_sizes b hb ys hy
  rw [h1, h3, isHistogram_unique (isHistogram_perm h2 (h.map _)) h4]

theorem payload_size_perm (ha : Fits a) (hb : Fits b) (hx : Messages a xs) (hy : Messages b ys) (h : xs.Perm ys) :
    histogramPayload a = histogramPayload b := by
  obtain ⟨p1, q1⟩ := C50_payload_sizes_partial a ha xs hx
  obtain ⟨p2, q2⟩ := C50_payload_sizes_partial b hb ys hy
  by_cases hp : ∃ e ∈ xs, flag e.dlt 0 = true ∧ e.dlt.tail.length < optLen e.dlt
  · obtain ⟨e, he, h'⟩ := hp
    rw [p1.2 ⟨e, he, h'⟩, p2.2 ⟨e, h.mem_iff.1 he, h'⟩]
  · have hc : ∀ e ∈ xs, flag e.dlt 0 = true → optLen e.dlt ≤ e.dlt.tail.length := fun e he hf =>
      Nat.le_of_not_lt fun hlt => hp ⟨e, he, hf, hlt⟩
    obtain ⟨m, h1, h2, -⟩ := q1 hc
    obtain ⟨m', h3, h4, -⟩ := q2 fun e he => hc e (h.mem_iff.2 he)
    rw [h1, h3, isHistogram_unique (isHistogram_perm h2 (h.map _)) h4]

theorem message_type_perm (ha : Fits a) (hb : Fits b) (hx : Messages a xs) (hy : Messages b ys) (h : xs.Perm ys) :
    mstpInfoHistogram a = mstpInfoHistogram b := by
  obtain ⟨p1, q1⟩ := C50_message_types_partial a ha xs hx
  obtain ⟨p2, q2⟩ := C50_message_types_partial b hb ys hy
  by_cases hp : ∃ e ∈ xs, flag e.dlt 0 = true ∧ e.dlt.tail.length < optLen e.dlt + 10
  · obtain ⟨e, he, h'⟩ := hp
    rw [p1.2 ⟨e, he, h'⟩, p2.2 ⟨e, h.mem_iff.1 he, h'⟩]
  · have hc : ∀ e ∈ xs, flag e.dlt 0 = true → optLen e.dlt + 10 ≤ e.dlt.tail.length := fun e he hf =>
      Nat.le_of_not_lt fun hlt => hp ⟨e, he, hf, hlt⟩
    obtain ⟨m, h1, h2, -⟩ := q1 hc
    obtain ⟨m', h3, h4, -⟩ := q2 fun e he => hc e (h.mem_iff.2 he)
    rw [h1, h3, isHistogram_unique (isHistogram_perm h2 ((h.filter _).map _)) h4]

theorem hello_perm (ha : Fits a) (hb : Fits b) (hx : Messages a xs) (hy : Messages b ys) (h : xs.Perm ys) :
    countHelloWorld a = countHelloWorld b := by
  obtain ⟨p1, q1⟩ := C49_count_hello_world_partial a ha xs hx
  obtain ⟨p2, q2⟩ := C49_count_hello_world_partial b hb ys hy
  by_cases hp : ∃ e ∈ xs, payloadOf e = none
  · obtain ⟨e, he, h'⟩ := hp
    rw [p1.2 ⟨e, he, h'⟩, p2.2 ⟨e, h.mem_iff.1 he, h'⟩]
  · have hc : ∀ e ∈ xs, (payloadOf e).isSome := fun e he => by
      cases hq : payloadOf e with
      | some p => rfl
      | none => exact absurd ⟨e, he, hq⟩ hp
    rw [q1 hc, q2 fun e he => hc e (h.mem_iff.2 he), (h.filter _).length_eq]

end

/-- **C111** the commands that treat each message on its own report and print the same, or panic alike, on two files
that hold the same messages in any order. -/
theorem C111_order_blind (c : Cmd) (hc : orderBlind c = true) (a b : Bytes) (ha : Fits a) (hb : Fits b)
    (xs ys : List StorageEntry) (hx : Messages a xs) (hy : Messages b ys) (h : xs.Perm ys) (num : Nat) :
    (∀ r, RunCmd num a c r ↔ RunCmd num b c r) ∧ ∀ out, CmdText num a c out ↔ CmdText num b c out := by
  cases c
  case count => simp only [RunCmd, CmdText, count_perm ha hb hx hy h, implies_true, and_self]
  case histogramMessageSize => simp only [RunCmd, CmdText, message_size_perm ha hb hx hy h, implies_true, and_self]
  case histogramPayloadSize => simp only [RunCmd, CmdText, payload_size_perm ha hb hx hy h, implies_true, and_self]
  case histogramMessageType => simp only [RunCmd, CmdText, message_type_perm ha hb hx hy h, implies_true, and_self]
  case countHelloWorld => simp only [RunCmd, CmdText, hello_perm ha hb hx hy h, implies_true, and_self]
  all_goals exact absurd hc (by decide)

theorem two_messages : Messages (encode msg0 ++ encode msg1) [msg0, msg1] ∧ Messages (encode msg1 ++ encode msg0) [msg1, msg0] :=
  ⟨⟨_, dltit_scan (by decide) (items := [(0, msg0), (20, msg1)]) ⟨5, by decide +kernel⟩, rfl⟩,
    ⟨_, dltit_scan (by decide) (items := [(0, msg1), (41, msg0)]) ⟨5, by decide +kernel⟩, rfl⟩⟩

/-- **C111** at work: two messages, swapped. -/
example (num : Nat) (r : Res Report) : RunCmd num (encode msg0 ++ encode msg1) .histogramMessageSize r ↔
    RunCmd num (encode msg1 ++ encode msg0) .histogramMessageSize r :=
  (C111_order_blind .histogramMessageSize rfl _ _ (by decide) (by decide) _ _ two_messages.1 two_messages.2
    (List.Perm.swap _ _ _) num).1 r

/-- **C111 (not the commands about time)** the same two messages in the other order are two periods, not one. -/
theorem C111_time_sees_order : ∃ (a b : Bytes) (xs ys : List StorageEntry), Messages a xs ∧ Messages b ys ∧ xs.Perm ys ∧
    (∀ ecu, ofEcu ecu xs = ofEcu ecu ys) ∧
    ∀ num r, RunCmd num a .histogramTimestamp r → ¬ RunCmd num b .histogramTimestamp r := by
  refine ⟨_, _, _, _, two_messages.1, two_messages.2, List.Perm.swap _ _ _, ?_, ?_⟩
  · intro ecu
    unfold ofEcu
    by_cases h0 : msg0.storageHeader.ecu = ecu
    · have h1 : ¬ msg1.storageHeader.ecu = ecu := by rw [← h0]; decide
      simp [List.filter, h0, h1]
    · by_cases h1 : msg1.storageHeader.ecu = ecu
      · simp [List.filter, h0, h1]
      · simp [List.filter, h0, h1]
  · intro num r ha hb
    obtain ⟨runs, m, h1, h2, -, -, h3, h4⟩ := C46_timestamp_histogram (encode msg0 ++ encode msg1) (by decide) _ two_messages.1
    obtain ⟨runs', m', h1', h2', -, -, h3', h4'⟩ :=
      C46_timestamp_histogram (encode msg1 ++ encode msg0) (by decide) _ two_messages.2
    have e1 := maximalRuns_eq (f := fun a b => decide (secsOf a ≤ secsOf b)) (by simpa only [decide_eq_true_eq] using h1)
    have e2 := maximalRuns_eq (f := fun a b => decide (secsOf a ≤ secsOf b)) (by simpa only [decide_eq_true_eq] using h1')
    have l1 : runs.length = 1 := by rw [e1]; decide
    have l2 : runs'.length = 2 := by rw [e2]; decide
    have key : ∀ (bs : Bytes) (mm : OrdMap Nat Nat), timestampHistogram bs = some (.ok mm) →
        bucketLines mm = .ok (mm.map fun e => (e.1, e.1 + 1, e.2)) → RunCmd num bs .histogramTimestamp r →
        r = .ok (.buckets (mm.map fun e => (e.1, e.1 + 1, e.2))) := by
      intro bs mm p q hr
      change printed (timestampHistogram bs) bucketReport = some r at hr
      rw [printed_ok p] at hr
      unfold bucketReport at hr
      rw [q] at hr
      injection hr with hr
      exact hr.symm
    have hr := key _ m h2 h4 ha
    rw [key _ m' h2' h4' hb] at hr
    injection hr with hr
    injection hr with hr
    have hs : ∀ mm : OrdMap Nat Nat, (mm.map (·.2)).sum = ((mm.map fun e => (e.1, e.1 + 1, e.2)).map (·.2.2)).sum := by
      intro mm; rw [List.map_map]; rfl
    rw [hs] at h3 h3'
    rw [← hr] at h3
    omega

/-! ## C112: the split commands see the order per ECU only -/

/-- `split` is determined by the inputs of each key. -/
theorem runRed_split_per_key {α κ ρ : Type} [Key κ] [DecidableEq κ] {keyfn : α → Res κ} {key : α → κ}
    {redfn : κ → Red α ρ} (xs ys : List α) (hx : ∀ x ∈ xs, keyfn x = .ok (key x)) (hy : ∀ y ∈ ys, keyfn y = .ok (key y))
    (h : ∀ k, (xs.filter fun x => decide (key x = k)) = ys.filter fun x => decide (key x = k)) (m : OrdMap κ ρ) :
    runRed (splitRed keyfn redfn) xs = some (.ok m) ↔ runRed (splitRed keyfn redfn) ys = some (.ok m) := by
  have hk : ∀ k, k ∈ xs.map key ↔ k ∈ ys.map key := fun k => by
    have h1 : ∀ l : List α, k ∈ l.map key ↔ (l.filter fun x => decide (key x = k)) ≠ [] := fun l => by
      rw [Ne, List.filter_eq_nil_iff, List.mem_map]
      constructor
      · rintro ⟨x, h1, h2⟩ h3
        exact h3 x h1 (decide_eq_true h2)
      · intro h1
        apply Classical.byContradiction
        intro h2
        exact h1 fun x hx hd => h2 ⟨x, hx, of_decide_eq_true hd⟩
    rw [h1, h1, h k]
  rw [runRed_split_iff xs hx, runRed_split_iff ys hy]
  simp only [hk, h]

theorem split_timestamp_per_ecu {a b : Bytes} {xs ys : List StorageEntry} (ha : Fits a) (hb : Fits b) (hx : Messages a xs)
    (hy : Messages b ys) (h : ∀ ecu, ofEcu ecu xs = ofEcu ecu ys) : timestampSplit a = timestampSplit b := by
  obtain ⟨m, h1, -⟩ := C47_split_timestamp a ha xs hx
  have hrun : ∀ (bs : Bytes) (ms : List StorageEntry), Fits bs → Messages bs ms → timestampSplit bs =
      runRed (splitRed (fun e : StorageEntry => .ok e.storageHeader.ecu)
        fun _ => reducer (forkRed spanRed (genCount StorageEntry)) (nilStage StorageEntry)) ms := by
    intro bs ms hF hm
    unfold timestampSplit pullSplit
    rw [pullReduce_eq _ (streams_dlt hF hm)]
    rfl
  rw [h1, hrun b ys hb hy, eq_comm, ← runRed_split_per_key (key := fun e : StorageEntry => e.storageHeader.ecu) xs ys
    (fun _ _ => rfl) (fun _ _ => rfl) h, ← hrun a xs ha hx, h1]

theorem ofEcu_timed (ecu : B4) (xs : List StorageEntry) : ofEcu ecu (timed xs) = timed (ofEcu ecu xs) := by
  unfold ofEcu timed
  rw [List.filter_filter, List.filter_filter]
  congr 1
  funext e
  exact Bool.and_comm _ _

theorem timed_per_ecu {xs ys : List StorageEntry} (h : ∀ ecu, ofEcu ecu xs = ofEcu ecu ys) (ecu : B4) :
    ofEcu ecu (timed xs) = ofEcu ecu (timed ys) := by rw [ofEcu_timed, ofEcu_timed, h]

theorem mem_per_ecu {xs ys : List StorageEntry} (h : ∀ ecu, ofEcu ecu xs = ofEcu ecu ys) {e : StorageEntry} (he : e ∈ xs) :
    e ∈ ys := by
  have : e ∈ ofEcu e.storageHeader.ecu ys := by
    rw [← h]
    exact List.mem_filter.2 ⟨he, decide_eq_true rfl⟩
  exact (List.mem_filter.1 this).1

theorem split_lifecycles_per_ecu {a b : Bytes} {xs ys : List StorageEntry} (ha : Fits a) (hb : Fits b) (hx : Messages a xs)
    (hy : Messages b ys) (h : ∀ ecu, ofEcu ecu xs = ofEcu ecu ys) : lifecycleSplit a = lifecycleSplit b := by
  have ht := timed_per_ecu h
  have hrun : ∀ (bs : Bytes) (ms : List StorageEntry), Fits bs → Messages bs ms → lifecycleSplit bs =
      runRed (splitRed (fun e : StorageEntry => .ok e.storageHeader.ecu)
        fun _ => reducer (forkRed lifeRed (genCount StorageEntry)) (nilStage StorageEntry)) (timed ms) := by
    intro bs ms hF hm
    unfold lifecycleSplit pullSplit
    rw [pullReduce_eq _ (streams_timed hF hm)]
    rfl
  by_cases hc : TimesComplete xs
  · obtain ⟨m, h1, -⟩ := (C48_lifecycle_split_partial a ha xs hx).2 hc
    rw [h1, hrun b ys hb hy, eq_comm, ← runRed_split_per_key (key := fun e : StorageEntry => e.storageHeader.ecu) (timed xs)
      (timed ys) (fun _ _ => rfl) (fun _ _ => rfl) ht, ← hrun a xs ha hx, h1]
  · have hc' : ¬ TimesComplete ys := fun h' => hc fun e he => h' e (mem_per_ecu ht he)
    rw [(C48_lifecycle_split_partial a ha xs hx).1.2 hc, (C48_lifecycle_split_partial b hb ys hy).1.2 hc']

/-- **C112** however the messages of different ECUs are interleaved: if two files hold, for every ECU id in the storage
headers, the same messages in the same order, then `split_timestamp` and `split_lifecycles` report and print the same, or
panic alike. -/
theorem C112_interleaving (c : Cmd) (hc : c = .splitTimestamp ∨ c = .splitLifecycles) (a b : Bytes) (ha : Fits a)
    (hb : Fits b) (xs ys : List StorageEntry) (hx : Messages a xs) (hy : Messages b ys)
    (h : ∀ ecu, ofEcu ecu xs = ofEcu ecu ys) (num : Nat) :
    (∀ r, RunCmd num a c r ↔ RunCmd num b c r) ∧ ∀ out, CmdText num a c out ↔ CmdText num b c out := by
  rcases hc with rfl | rfl
  · simp only [RunCmd, CmdText, split_timestamp_per_ecu ha hb hx hy h, implies_true, and_self]
  · simp only [RunCmd, CmdText, split_lifecycles_per_ecu ha hb hx hy h, implies_true, and_self]

/-- **C112** at work: messages of two ECUs, in either order. -/
example (num : Nat) (r : Res Report) : RunCmd num (encode msg0 ++ encode msg1) .splitTimestamp r ↔
    RunCmd num (encode msg1 ++ encode msg0) .splitTimestamp r := by
  refine (C112_interleaving .splitTimestamp (.inl rfl) _ _ (by decide) (by decide) _ _ two_messages.1 two_messages.2
    (fun ecu => ?_) num).1 r
  unfold ofEcu
  by_cases h0 : msg0.storageHeader.ecu = ecu
  · have h1 : ¬ msg1.storageHeader.ecu = ecu := by rw [← h0]; decide
    simp [List.filter, h0, h1]
  · by_cases h1 : msg1.storageHeader.ecu = ecu
    · simp [List.filter, h0, h1]
    · simp [List.filter, h0, h1]

end Verif
