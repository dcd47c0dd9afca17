import Verif.Props.Stats
import Verif.Lemmas.Total

/-!
# C48: lifecycle statistics

`timed msgs`: the messages with the time stamp flag. The functions panic exactly if one of them has an incomplete
time stamp.
-/

set_option linter.unusedSimpArgs false

namespace Verif

open Spec

/-- The value of `timestamp()`. -/
def stamp (e : StorageEntry) : Option UInt32 :=
  match e.dlt.timestamp with
  | .ok r => r
  | .panic => none

theorem timestamp_stamp (e : StorageEntry) : e.dlt.timestamp = .ok (stamp e) := by
  obtain ⟨r, hr, -⟩ := C09_timestamp e.dlt
  unfold stamp
  rw [hr]

theorem beAt_iff_drop {bs : Bytes} {i : Nat} {t : UInt32} :
    BeAt bs i t ↔ i ≤ bs.length ∧ ∃ a b c d rest, bs.drop i = a :: b :: c :: d :: rest ∧ t.toNat = beVal a b c d := by
  constructor
  · rintro ⟨pre, a, b, c, d, post, rfl, rfl, ht⟩
    refine ⟨by simp, a, b, c, d, post, ?_, ht⟩
    simp
  · rintro ⟨hi, a, b, c, d, rest, h, ht⟩
    refine ⟨bs.take i, a, b, c, d, rest, ?_, by simp; omega, ht⟩
    have := List.take_append_drop i bs
    rw [h] at this
    simp only [List.append_assoc, List.cons_append, List.nil_append]
    exact this.symm

theorem stamp_timeOf (e : StorageEntry) : (stamp e).map UInt32.toNat = timeOf e := by
  obtain ⟨r, hr, h⟩ := C09_timestamp e.dlt
  have hs : stamp e = r := by unfold stamp; rw [hr]
  rw [hs]
  cases r with
  | some t =>
    obtain ⟨h1, h2⟩ := (h t).1 rfl
    obtain ⟨-, a, b, c, d, rest, h3, h4⟩ := beAt_iff_drop.1 h2
    unfold timeOf
    rw [if_pos h1, h3]
    simp [h4]
  | none =>
    unfold timeOf
    by_cases h1 : flag e.dlt 4 = true
    · rw [if_pos h1]
      split
      · next a b c d rest h3 =>
        have hl : four (flag e.dlt 2) + four (flag e.dlt 3) ≤ e.dlt.tail.length := by
          have := congrArg List.length h3
          simp only [List.length_drop, List.length_cons] at this
          omega
        have := (h (be32 ⟨a, b, c, d⟩)).2 ⟨h1, beAt_iff_drop.2 ⟨hl, a, b, c, d, rest, h3, be32_beVal _ _ _ _⟩⟩
        simp at this
      · rfl
    · rw [if_neg h1]; rfl

theorem stamp_time {e : StorageEntry} {t : UInt32} (h : stamp e = some t) : t.toNat = time e := by
  unfold time
  rw [← stamp_timeOf, h]; rfl

theorem stamp_isSome (e : StorageEntry) : (stamp e).isSome = (timeOf e).isSome := by
  rw [← stamp_timeOf]; cases stamp e <;> rfl

theorem stamp_none {e : StorageEntry} : stamp e = none ↔ ¬ (timeOf e).isSome := by
  rw [← stamp_isSome]; cases stamp e <;> simp

theorem timePredicate_eq (a b : StorageEntry) : timePredicate a b = .ok (optGe (stamp b) (stamp a)) := by
  unfold timePredicate
  rw [timestamp_stamp, timestamp_stamp]; rfl

theorem timeDelta_eq (r : StorageEntry × StorageEntry) : timeDelta r =
    match stamp r.2, stamp r.1 with
    | some t1, some t0 => subU32 t1 t0
    | _, _ => .panic := by
  unfold timeDelta
  rw [timestamp_stamp, timestamp_stamp]
  cases stamp r.2 <;> cases stamp r.1 <;> rfl

theorem timeDelta_panic_of_none {r : StorageEntry × StorageEntry} (h : stamp r.1 = none) : timeDelta r = .panic := by
  rw [timeDelta_eq, h]; cases stamp r.2 <;> rfl

theorem optGe_refl (t : Option UInt32) : optGe t t = true := by
  cases t <;> simp [optGe]

theorem optGe_trans {a b c : Option UInt32} (h1 : optGe b a = true) (h2 : optGe c b = true) : optGe c a = true := by
  cases a <;> cases b <;> cases c <;> simp [optGe] at * <;> exact UInt32.le_trans h1 h2

theorem optGe_none {a : Option UInt32} (h : optGe none a = true) : a = none := by
  cases a with
  | none => rfl
  | some a => simp [optGe] at h

theorem optGe_times {a b : StorageEntry} (ha : (timeOf a).isSome) (hb : (timeOf b).isSome) :
    optGe (stamp b) (stamp a) = decide (time a ≤ time b) := by
  rw [← stamp_isSome] at ha hb
  obtain ⟨ta, ha⟩ := Option.isSome_iff_exists.1 ha
  obtain ⟨tb, hb⟩ := Option.isSome_iff_exists.1 hb
  rw [ha, hb, ← stamp_time ha, ← stamp_time hb]
  simp only [optGe, UInt32.le_iff_toNat_le]

/-- In a run the first message is not later than any other. -/
theorem run_first {α : Type} {R : α → α → Prop} (hr : ∀ a, R a a) (ht : ∀ a b c, R a b → R b c → R a c)
    {r : List α} (h : ∀ i a b, r[i]? = some a → r[i + 1]? = some b → R a b) {a x : α} (ha : r.head? = some a)
    (hx : x ∈ r) : R a x := by
  induction r generalizing a with
  | nil => simp at ha
  | cons y r ih =>
    simp only [List.head?_cons, Option.some.injEq] at ha
    subst ha
    rcases List.mem_cons.1 hx with h' | h'
    · subst h'; exact hr _
    · cases r with
      | nil => simp at h'
      | cons z r => exact ht y z x (h 0 y z rfl rfl) (ih (fun i a b h1 h2 => h (i + 1) a b h1 h2) rfl h')

theorem run_nonempty_ends {α : Type} {r : List α} (h : r ≠ []) : ∃ a b, r.head? = some a ∧ r.getLast? = some b := by
  cases r with
  | nil => exact absurd rfl h
  | cons a r =>
    exact ⟨a, (a :: r).getLast (by simp), rfl, List.getLast?_eq_some_getLast (by simp)⟩

/-- An incomplete time stamp makes the first message of its run incomplete. -/
theorem incomplete_run {f : StorageEntry → StorageEntry → Bool} {xs : List StorageEntry}
    (hf : ∀ a b, f a b = true → optGe (stamp b) (stamp a) = true) (hr : ∀ a, f a a = true)
    (ht : ∀ a b c, f a b = true → f b c = true → f a c = true) {x : StorageEntry} (hx : x ∈ xs) (hn : stamp x = none) :
    ∃ p ∈ (runsL f xs).filterMap ends, stamp p.1 = none := by
  have hm := maximalRuns_runsL f xs
  rw [← hm.flatten] at hx
  obtain ⟨r, hr', hxr⟩ := List.mem_flatten.1 hx
  obtain ⟨a, b, ha, hb⟩ := run_nonempty_ends (hm.nonempty r hr')
  refine ⟨(a, b), ends_mem hr' ha hb, ?_⟩
  have := run_first (R := fun a b => f a b = true) hr ht (hm.related r hr') ha hxr
  have := hf _ _ this
  rw [hn] at this
  exact optGe_none this

theorem maximalRuns_congr {α : Type} {R R' : α → α → Prop} {xs : List α} {runs : List (List α)} (h : MaximalRuns R xs runs)
    (hR : ∀ a ∈ xs, ∀ b ∈ xs, R a b ↔ R' a b) : MaximalRuns R' xs runs := by
  refine ⟨h.flatten, h.nonempty, ?_, ?_⟩
  · intro r hr i a b ha hb
    exact (hR a (runs_mem h hr (List.mem_of_getElem? ha)) b (runs_mem h hr (List.mem_of_getElem? hb))).1 (h.related r hr i a b ha hb)
  · intro i r r' a b h1 h2 ha hb hc
    exact h.maximal i r r' a b h1 h2 ha hb ((hR a (runs_mem h (List.mem_of_getElem? h1) (last_mem ha)) b
      (runs_mem h (List.mem_of_getElem? h2) (head_mem hb))).2 hc)

theorem timed_eq (msgs : List StorageEntry) :
    msgs.filter (fun e => e.dlt.header.headerType.isWithTimestamp) = timed msgs := by
  unfold timed
  congr 1
  funext e
  exact flag_tim e.dlt

theorem streams_timed {bytes : Bytes} (hF : Fits bytes) {msgs : List StorageEntry} (h : Messages bytes msgs) :
    Streams (pullFilter (fun e => .ok e.dlt.header.headerType.isWithTimestamp) (dltPull bytes)) 0 (.ok (timed msgs)) := by
  have := streams_filter_on (streams_dlt hF h) (F := fun e => .ok e.dlt.header.headerType.isWithTimestamp)
    (f := fun e => e.dlt.header.headerType.isWithTimestamp) (fun _ _ => rfl)
  rw [timed_eq] at this
  exact this

theorem timed_length {bytes : Bytes} (hF : Fits bytes) {msgs : List StorageEntry} (h : Messages bytes msgs) :
    (timed msgs).length ≤ usizeMax :=
  Nat.le_trans (List.length_filter_le _ _) (messages_length hF h).2

theorem exists_incomplete {msgs : List StorageEntry} (h : ¬ TimesComplete msgs) : ∃ x ∈ timed msgs, stamp x = none := by
  unfold TimesComplete at h
  simp only [Classical.not_forall] at h
  obtain ⟨x, hx, hn⟩ := h
  exact ⟨x, hx, stamp_none.2 hn⟩

theorem timeSpanOf_eq {r : List StorageEntry} {a b : StorageEntry} (ha : r.head? = some a) (hb : r.getLast? = some b) :
    timeSpanOf r = time b - time a := by
  unfold timeSpanOf; rw [ha, hb]

/-- With complete time stamps, the difference of the ends of a run. -/
theorem timeDelta_ok {p : StorageEntry × StorageEntry} (ha : (timeOf p.1).isSome) (hb : (timeOf p.2).isSome)
    (hle : time p.1 ≤ time p.2) : ∃ d : UInt32, timeDelta p = .ok d ∧ d.toNat = time p.2 - time p.1 := by
  rw [← stamp_isSome] at ha hb
  obtain ⟨ta, ha⟩ := Option.isSome_iff_exists.1 ha
  obtain ⟨tb, hb⟩ := Option.isSome_iff_exists.1 hb
  rw [← stamp_time ha, ← stamp_time hb] at hle ⊢
  have hle' : ta ≤ tb := UInt32.le_iff_toNat_le.2 hle
  refine ⟨tb - ta, ?_, UInt32.toNat_sub_of_le _ _ hle'⟩
  rw [timeDelta_eq, ha, hb]
  unfold subU32
  simp only [if_pos hle']

/-! ## Runs of non-decreasing time stamps -/

def timeF (a b : StorageEntry) : Bool := optGe (stamp b) (stamp a)

/-- The runs of non-decreasing time stamps. -/
theorem time_runs {xs : List StorageEntry} (hc : ∀ e ∈ xs, (timeOf e).isSome) :
    MaximalRuns (fun a b => time a ≤ time b) xs (runsL timeF xs) := by
  refine maximalRuns_congr (maximalRuns_runsL timeF xs) ?_
  intro a ha b hb
  unfold timeF
  rw [optGe_times (hc a ha) (hc b hb), decide_eq_true_eq]

theorem time_run_delta {R : StorageEntry → StorageEntry → Prop} {xs : List StorageEntry} {runs : List (List StorageEntry)}
    (hc : ∀ e ∈ xs, (timeOf e).isSome) (hm : MaximalRuns R xs runs) (hR : ∀ a b, R a b → time a ≤ time b)
    {r : List StorageEntry} (hr : r ∈ runs) {a b : StorageEntry} (ha : r.head? = some a) (hb : r.getLast? = some b) :
    ∃ d : UInt32, timeDelta (a, b) = .ok d ∧ d.toNat = timeSpanOf r := by
  have hle : time a ≤ time b := run_first_last (R := fun a b => time a ≤ time b) (fun _ => Nat.le_refl _)
    (fun _ _ _ => Nat.le_trans) (fun i x y hx hy => hR _ _ (hm.related r hr i x y hx hy)) ha hb
  obtain ⟨d, h1, h2⟩ := timeDelta_ok (p := (a, b)) (hc a (runs_mem hm hr (head_mem ha))) (hc b (runs_mem hm hr (last_mem hb))) hle
  exact ⟨d, h1, by rw [h2, timeSpanOf_eq ha hb]⟩

/-- The differences, as a total function. -/
def deltaOf (p : StorageEntry × StorageEntry) : UInt32 :=
  match timeDelta p with
  | .ok d => d
  | .panic => 0

theorem deltaOf_eq {p : StorageEntry × StorageEntry} {d : UInt32} (h : timeDelta p = .ok d) : deltaOf p = d := by
  unfold deltaOf; rw [h]

theorem filterMap_ends_length {α : Type} {runs : List (List α)} (h : ∀ r ∈ runs, r ≠ []) :
    (runs.filterMap ends).length = runs.length := by
  have := congrArg List.length (map_ends (fun p : α × α => ()) (fun _ => ()) h (fun _ _ _ _ _ _ => rfl))
  simpa using this

/-! ## `histogram_lifecycles` -/

/-- The value of `ecu_id()` (if it does not panic). -/
def ecuVal (e : StorageEntry) : Option UInt32 :=
  match e.dlt.ecuId with
  | .ok r => r
  | .panic => none

theorem ecuVal_ecuOf (e : StorageEntry) : (ecuVal e).map UInt32.toNat = ecuOf e := by
  obtain ⟨h1, h2, h3⟩ := C08_ecu_id_exact_partial e.dlt
  unfold ecuVal ecuOf
  cases hf : flag e.dlt 2 with
  | false => rw [h1 hf]; rfl
  | true =>
    by_cases hl : 4 ≤ e.dlt.tail.length
    · obtain ⟨t, ht, hb⟩ := h2 hf hl
      rw [ht]
      obtain ⟨-, a, b, c, d, rest, h4, h5⟩ := beAt_iff_drop.1 hb
      rw [List.drop_zero] at h4
      rw [h4]
      simp [h5]
    · rw [(h3 hf).2 (by omega)]
      simp only [if_true, Option.map_none]
      split
      · next h => rw [h] at hl; simp at hl
      · rfl

theorem ecuVal_eq_iff (a b : StorageEntry) : ecuVal a = ecuVal b ↔ ecuOf a = ecuOf b := by
  rw [← ecuVal_ecuOf, ← ecuVal_ecuOf]
  constructor
  · intro h; rw [h]
  · intro h
    cases ha : ecuVal a <;> cases hb : ecuVal b <;> rw [ha, hb] at h <;> simp at h
    rw [UInt32.toNat_inj.1 h]

/-- A panic of `ecu_id()` on a message with time stamp flag means that the time stamp is incomplete. -/
theorem ecu_panic_incomplete {e : StorageEntry} (h : e.dlt.ecuId = .panic) : stamp e = none := by
  obtain ⟨h1, -, h3⟩ := C08_ecu_id_exact_partial e.dlt
  cases hf : flag e.dlt 2 with
  | false => rw [h1 hf] at h; simp at h
  | true =>
    have hl := (h3 hf).1 h
    cases hs : stamp e with
    | none => rfl
    | some t =>
      have := (C09_timestamp_some_iff e.dlt).1 ⟨t, by rw [timestamp_stamp, hs]⟩
      rw [hf] at this
      have h4 : four true = 4 := rfl
      omega

def lifecycleF (a b : StorageEntry) : Bool := decide (ecuVal a = ecuVal b) && optGe (stamp b) (stamp a)

theorem lifecyclePredicate_ok {a b : StorageEntry} (ha : a.dlt.ecuId ≠ .panic) (hb : b.dlt.ecuId ≠ .panic) :
    lifecyclePredicate a b = .ok (lifecycleF a b) := by
  have h : ∀ e : StorageEntry, e.dlt.ecuId ≠ .panic → e.dlt.ecuId = .ok (ecuVal e) := by
    intro e he
    unfold ecuVal
    cases hh : e.dlt.ecuId with
    | panic => exact absurd hh he
    | ok r => rfl
  unfold lifecyclePredicate lifecycleF
  rw [h a ha, h b hb, timePredicate_eq]
  simp only [Res.ok_bind]
  by_cases hab : ecuVal a = ecuVal b <;> simp [hab]

theorem lifecyclePredicate_panic {a b : StorageEntry} (h : ¬ a.dlt.ecuId ≠ .panic ∨ ¬ b.dlt.ecuId ≠ .panic) :
    lifecyclePredicate a b = .panic := by
  unfold lifecyclePredicate
  simp only [ne_eq, Decidable.not_not] at h
  rcases h with h | h
  · rw [h]; rfl
  · rw [h]; cases a.dlt.ecuId <;> rfl

theorem lifecycleF_trans {a b c : StorageEntry} (h1 : lifecycleF a b = true) (h2 : lifecycleF b c = true) :
    lifecycleF a c = true := by
  unfold lifecycleF at *
  simp only [Bool.and_eq_true, decide_eq_true_eq] at *
  exact ⟨h1.1.trans h2.1, optGe_trans h1.2 h2.2⟩

theorem lifecycleF_refl (a : StorageEntry) : lifecycleF a a = true := by
  unfold lifecycleF; simp [optGe_refl]

/-- Buckets of ten thousand units: at most `u32::MAX / 10000`. -/
theorem bucket_keys {keys : List Nat} {m : OrdMap Nat Nat} (h : IsHistogram keys m) (hk : ∀ k ∈ keys, k < 2 ^ 32) :
    bucketLines m = .ok (m.map fun e => (e.1, e.1 + 1, e.2)) := by
  refine bucketLines_ok m ?_
  rintro ⟨k, v⟩ he
  obtain ⟨h3, h4⟩ := (h.mem k v).1 he
  exact hk k (List.count_pos_iff.1 (h4 ▸ h3))

/-- **C48 (exact)** `histogram_lifecycles` panics exactly if some message has the time stamp flag and no complete
time stamp; otherwise it is the histogram of the durations (in seconds) of the maximal runs of messages with the
same ECU id and non-decreasing time stamps. -/
theorem C48_lifecycle_histogram_partial (bytes : Bytes) (hF : Fits bytes) (msgs : List StorageEntry)
    (h : Messages bytes msgs) :
    (lifecycleHistogram bytes = some .panic ↔ ¬ TimesComplete msgs) ∧
    (TimesComplete msgs → ∃ runs m,
      MaximalRuns (fun a b => ecuOf a = ecuOf b ∧ time a ≤ time b) (timed msgs) runs ∧
      lifecycleHistogram bytes = some (.ok m) ∧ IsHistogram (runs.map fun r => timeSpanOf r / 10000) m ∧
      (m.map (·.2)).sum = runs.length ∧ bucketLines m = .ok (m.map fun e => (e.1, e.1 + 1, e.2))) := by
  have hpos : TimesComplete msgs → ∃ runs m,
      MaximalRuns (fun a b => ecuOf a = ecuOf b ∧ time a ≤ time b) (timed msgs) runs ∧
      lifecycleHistogram bytes = some (.ok m) ∧ IsHistogram (runs.map fun r => timeSpanOf r / 10000) m ∧
      (m.map (·.2)).sum = runs.length ∧ bucketLines m = .ok (m.map fun e => (e.1, e.1 + 1, e.2)) := by
    intro hc
    have hnp : ∀ e ∈ timed msgs, e.dlt.ecuId ≠ .panic := fun e he hp => by
      have := ecu_panic_incomplete hp
      exact stamp_none.1 this (hc e he)
    have hm : MaximalRuns (fun a b => ecuOf a = ecuOf b ∧ time a ≤ time b) (timed msgs) (runsL lifecycleF (timed msgs)) := by
      refine maximalRuns_congr (maximalRuns_runsL lifecycleF _) ?_
      intro a ha b hb
      unfold lifecycleF
      rw [optGe_times (hc a ha) (hc b hb), Bool.and_eq_true, decide_eq_true_eq, decide_eq_true_eq, ecuVal_eq_iff]
    have hs := streams_groupBy_on (streams_timed hF h) (F := lifecyclePredicate) (f := lifecycleF)
      (fun a ha b hb => lifecyclePredicate_ok (hnp a ha) (hnp b hb)) (fun x _ => lifecycleF_refl x)
    have hd : ∀ r ∈ runsL lifecycleF (timed msgs), ∀ a b, r.head? = some a → r.getLast? = some b →
        ∃ d : UInt32, timeDelta (a, b) = .ok d ∧ d.toNat = timeSpanOf r := fun r hr a b ha hb =>
      time_run_delta hc hm (fun _ _ h => h.2) hr ha hb
    have hmap := streams_map_on hs (F := timeDelta) (f := deltaOf) (by
      rintro ⟨a, b⟩ hp
      obtain ⟨r, hr, ha, hb⟩ := mem_ends hp
      obtain ⟨d, h1, -⟩ := hd r hr a b ha hb
      rw [h1, deltaOf_eq h1])
    have hkeys : (((runsL lifecycleF (timed msgs)).filterMap ends).map deltaOf).map (fun d : UInt32 => d.toNat / 10000) =
        (runsL lifecycleF (timed msgs)).map fun r => timeSpanOf r / 10000 := by
      rw [List.map_map]
      refine map_ends _ _ hm.nonempty ?_
      intro r hr a b ha hb
      obtain ⟨d, h1, h2⟩ := hd r hr a b ha hb
      simp only [Function.comp, deltaOf_eq h1, h2]
    have hlen : (((runsL lifecycleF (timed msgs)).filterMap ends).map deltaOf).length ≤ usizeMax := by
      rw [List.length_map, filterMap_ends_length hm.nonempty]
      exact Nat.le_trans (runs_length_le hm) (timed_length hF h)
    obtain ⟨m, h1, h2⟩ := pullSplit_hist (keyfn := fun d : UInt32 => .ok (d.toNat / 10000))
      (key := fun d : UInt32 => d.toNat / 10000) hmap (fun _ _ => rfl) hlen
    refine ⟨_, m, hm, h1, hkeys ▸ h2, ?_, bucket_keys h2 ?_⟩
    · rw [isHistogram_total h2, hkeys, List.length_map]
    · intro k hk
      obtain ⟨d, -, rfl⟩ := List.mem_map.1 hk
      have := d.toNat_lt
      omega
  refine ⟨?_, hpos⟩
  constructor
  · intro hp hc
    obtain ⟨_, m, -, h1, -⟩ := hpos hc
    rw [hp] at h1
    simp at h1
  · intro hc
    obtain ⟨_, hx, hn⟩ := exists_incomplete hc
    unfold lifecycleHistogram pullSplit
    by_cases hP : ∃ e ∈ timed msgs, ¬ e.dlt.ecuId ≠ .panic
    · have h1 := streams_fromAdapt (good_groupby lifecyclePredicate) (streams_timed hF h)
        (outs_groupBy_panic (P := fun e : StorageEntry => e.dlt.ecuId ≠ .panic)
          (fun a b hab => lifecyclePredicate_panic hab) _ hP)
      exact pullReduce_panic (streams_map timeDelta h1) _
    · have hnp : ∀ e ∈ timed msgs, e.dlt.ecuId ≠ .panic := fun e he hp => hP ⟨e, he, by simp [hp]⟩
      have hs := streams_groupBy_on (streams_timed hF h) (F := lifecyclePredicate) (f := lifecycleF)
        (fun a ha b hb => lifecyclePredicate_ok (hnp a ha) (hnp b hb)) (fun x _ => lifecycleF_refl x)
      obtain ⟨p, hp, hpn⟩ := incomplete_run (f := lifecycleF) (xs := timed msgs)
        (fun a b hab => by unfold lifecycleF at hab; simp only [Bool.and_eq_true] at hab; exact hab.2)
        lifecycleF_refl (fun _ _ _ => lifecycleF_trans) hx hn
      have hmap := streams_map timeDelta hs
      simp only [Res.bind] at hmap
      rw [mapR_panic.2 ⟨p, hp, timeDelta_panic_of_none hpn⟩] at hmap
      exact pullReduce_panic hmap _

/-! ## `iter` -/

theorem streams_time_runs {it : Pull StorageEntry} {s : it.σ} {xs : List StorageEntry} (h : Streams it s (.ok xs)) :
    Streams (pullGroupBy timePredicate it) (.empty, s) (.ok ((runsL timeF xs).filterMap ends)) :=
  streams_groupBy_on h (F := timePredicate) (f := timeF) (fun a _ b _ => timePredicate_eq a b)
    (fun _ _ => optGe_refl _)

theorem timeF_trans {a b c : StorageEntry} (h1 : timeF a b = true) (h2 : timeF b c = true) : timeF a c = true :=
  optGe_trans h1 h2

theorem filter_ends_length {α : Type} (p : α × α → Bool) (P : List α → Bool) {runs : List (List α)}
    (hne : ∀ r ∈ runs, r ≠ []) (h : ∀ r ∈ runs, ∀ a b, r.head? = some a → r.getLast? = some b → p (a, b) = P r) :
    ((runs.filterMap ends).filter p).length = (runs.filter P).length := by
  have := map_ends (fun q => p q) P hne h
  rw [← List.countP_eq_length_filter, ← List.countP_eq_length_filter]
  have h1 : ∀ (l : List (α × α)), l.countP p = (l.map p).countP id := by intro l; rw [List.countP_map]; rfl
  have h2 : ∀ (l : List (List α)), l.countP P = (l.map P).countP id := by intro l; rw [List.countP_map]; rfl
  rw [h1, h2]
  exact congrArg _ this

/-- **C48 (exact)** `iter` (`lifecycle_iter`) panics exactly if some message has the time stamp flag and no
complete time stamp; otherwise it counts the maximal runs of non-decreasing time stamps that last at least half an
hour. -/
theorem C48_lifecycle_iter_partial (bytes : Bytes) (hF : Fits bytes) (msgs : List StorageEntry) (h : Messages bytes msgs) :
    (lifecycleIter bytes = some .panic ↔ ¬ TimesComplete msgs) ∧
    (TimesComplete msgs → ∃ runs, MaximalRuns (fun a b => time a ≤ time b) (timed msgs) runs ∧
      lifecycleIter bytes = some (.ok (runs.filter fun r => decide (halfHour ≤ timeSpanOf r)).length)) := by
  have hs := streams_time_runs (streams_timed hF h)
  have hpos : TimesComplete msgs → ∃ runs, MaximalRuns (fun a b => time a ≤ time b) (timed msgs) runs ∧
      lifecycleIter bytes = some (.ok (runs.filter fun r => decide (halfHour ≤ timeSpanOf r)).length) := by
    intro hc
    have hm := time_runs hc
    have hd : ∀ r ∈ runsL timeF (timed msgs), ∀ a b, r.head? = some a → r.getLast? = some b →
        ∃ d : UInt32, timeDelta (a, b) = .ok d ∧ d.toNat = timeSpanOf r := fun r hr a b ha hb =>
      time_run_delta hc hm (fun _ _ h => h) hr ha hb
    have hf := streams_filter_on hs (F := longEnough) (f := fun p => decide (18000000 ≤ deltaOf p)) (by
      rintro ⟨a, b⟩ hp
      obtain ⟨r, hr, ha, hb⟩ := mem_ends hp
      obtain ⟨d, h1, -⟩ := hd r hr a b ha hb
      unfold longEnough
      rw [h1, deltaOf_eq h1]; rfl)
    refine ⟨_, hm, ?_⟩
    have hl := filter_ends_length (fun p : StorageEntry × StorageEntry => decide (18000000 ≤ deltaOf p))
      (fun r => decide (halfHour ≤ timeSpanOf r)) hm.nonempty (by
        intro r hr a b ha hb
        obtain ⟨d, h1, h2⟩ := hd r hr a b ha hb
        rw [deltaOf_eq h1, ← h2]
        simp only [UInt32.le_iff_toNat_le]
        rfl)
    rw [← hl]
    refine pullCount_eq hf ?_
    rw [hl]
    exact Nat.le_trans (List.length_filter_le _ _) (Nat.le_trans (runs_length_le hm) (timed_length hF h))
  refine ⟨⟨?_, ?_⟩, hpos⟩
  · intro hp hc
    obtain ⟨_, -, h1⟩ := hpos hc
    rw [hp] at h1
    simp at h1
  · intro hc
    obtain ⟨_, hx, hn⟩ := exists_incomplete hc
    obtain ⟨p, hp, hpn⟩ := incomplete_run (f := timeF) (xs := timed msgs) (fun _ _ hab => hab)
      (fun a => optGe_refl _) (fun _ _ _ => timeF_trans) hx hn
    have hmap := streams_filter longEnough hs
    simp only [Res.bind] at hmap
    rw [filterR_panic.2 ⟨p, hp, by unfold longEnough; rw [timeDelta_panic_of_none hpn]; rfl⟩] at hmap
    exact pullReduce_panic hmap _

/-! ## `split_lifecycles` -/

/-- The chain in front of the histogram of `lifecycle_splitit`. -/
def lifeChain : Chain StorageEntry UInt32 :=
  .map (.groupby .nil timePredicate) fun r => (timeDelta r).bind fun d => .ok (d / 10000)

/-- The first branch of its fork. -/
@[reducible] def lifeRed : Red StorageEntry (OrdMap UInt32 Nat) :=
  reducer (splitRed (fun k : UInt32 => .ok k) fun _ => genCount UInt32)
    (adapter (mapStage fun r => (timeDelta r).bind fun d => .ok (d / 10000))
      (adapter (groupByStage timePredicate) (nilStage StorageEntry)))

theorem lifeRed_total : Total lifeRed :=
  total_reducer (total_split fun _ => total_count) (good_chain lifeChain)

theorem collected_time_runs (xs : List StorageEntry) :
    collected (Chain.groupby Chain.nil timePredicate) xs = some (.ok ((runsL timeF xs).filterMap ends)) :=
  collected_behind (good_groupby _) rfl (C37_nil_chain xs)
    (outs_groupBy_on (P := fun _ => True) (fun a b _ _ => timePredicate_eq a b) xs (fun _ _ => trivial) (fun _ _ => optGe_refl _))

theorem lifeRed_panic {xs : List StorageEntry} {x : StorageEntry} (hx : x ∈ xs) (hn : stamp x = none) :
    runRed lifeRed xs = some .panic := by
  obtain ⟨p, hp, hpn⟩ := incomplete_run (f := timeF) (fun _ _ hab => hab) (fun a => optGe_refl _)
    (fun _ _ _ => timeF_trans) hx hn
  have h1 : collected lifeChain xs = some .panic := by
    refine collected_behind (good_map _) rfl (collected_time_runs xs) ?_
    have := outs_map (fun r : StorageEntry × StorageEntry => (timeDelta r).bind fun d => .ok (d / 10000)) ((runsL timeF xs).filterMap ends)
    rw [mapR_panic.2 ⟨p, hp, by rw [timeDelta_panic_of_none hpn]; rfl⟩] at this
    exact this
  exact C37_reducer_panic lifeChain _ xs h1

theorem lifeRed_spec (xs : List StorageEntry) (hl : xs.length ≤ usizeMax) (hc : ∀ e ∈ xs, (timeOf e).isSome) :
    ∃ runs hist, MaximalRuns (fun a b => time a ≤ time b) xs runs ∧ runRed lifeRed xs = some (.ok hist) ∧
      IsHistogram (runs.map fun r => timeSpanOf r / 10000) (hist.map fun e => (e.1.toNat, e.2)) := by
  have hm := time_runs hc
  have hd : ∀ r ∈ runsL timeF xs, ∀ a b, r.head? = some a → r.getLast? = some b →
      ∃ d : UInt32, timeDelta (a, b) = .ok d ∧ d.toNat = timeSpanOf r := fun r hr a b ha hb =>
    time_run_delta hc hm (fun _ _ h => h) hr ha hb
  have h1 : collected lifeChain xs = some (.ok (((runsL timeF xs).filterMap ends).map fun p => deltaOf p / 10000)) := by
    refine collected_behind (good_map _) rfl (collected_time_runs xs) ?_
    have hmap : mapR (fun r : StorageEntry × StorageEntry => (timeDelta r).bind fun d => .ok (d / 10000))
        ((runsL timeF xs).filterMap ends) = .ok (((runsL timeF xs).filterMap ends).map fun p => deltaOf p / 10000) := by
      rw [← mapR_pure (fun p => deltaOf p / 10000)]
      refine mapR_congr ?_
      rintro ⟨a, b⟩ hp
      obtain ⟨r, hr, ha, hb⟩ := mem_ends hp
      obtain ⟨d, h1, -⟩ := hd r hr a b ha hb
      rw [h1, deltaOf_eq h1]; rfl
    rw [← hmap]
    exact outs_map _ _
  have hlen : (((runsL timeF xs).filterMap ends).map fun p => deltaOf p / 10000).length ≤ usizeMax := by
    rw [List.length_map, filterMap_ends_length hm.nonempty]
    exact Nat.le_trans (runs_length_le hm) hl
  obtain ⟨hist, h7, h8⟩ := runRed_split_hist (keyfn := fun k : UInt32 => .ok k) (key := id)
    (((runsL timeF xs).filterMap ends).map fun p => deltaOf p / 10000) (fun _ _ => rfl) hlen
  rw [List.map_id] at h8
  refine ⟨_, hist, hm, (C37_reducer_on_collected lifeChain _ xs _ h1).trans h7, ?_⟩
  have h9 := isHistogram_toNat h8
  rw [List.map_map] at h9
  rwa [map_ends _ (fun r => timeSpanOf r / 10000) hm.nonempty] at h9
  intro r hr a b ha hb
  obtain ⟨d, h1, h2⟩ := hd r hr a b ha hb
  simp only [Function.comp, deltaOf_eq h1, UInt32.toNat_div, h2]
  rfl

/-- **C48 (exact)** `split_lifecycles` panics exactly if some message has the time stamp flag and no complete
time stamp; otherwise its keys are the ECU ids of the messages with time stamp, each with the number of these
messages and the histogram of the durations (in seconds) of their maximal runs of non-decreasing time stamps. -/
theorem C48_lifecycle_split_partial (bytes : Bytes) (hF : Fits bytes) (msgs : List StorageEntry) (h : Messages bytes msgs) :
    (lifecycleSplit bytes = some .panic ↔ ¬ TimesComplete msgs) ∧
    (TimesComplete msgs → ∃ m, lifecycleSplit bytes = some (.ok m) ∧
      IsHistogram ((timed msgs).map fun e => e.storageHeader.ecu) (m.map fun e => (e.1, e.2.2)) ∧
      ∀ ecu hist n, (ecu, hist, n) ∈ m → n = (ofEcu ecu (timed msgs)).length ∧
        ∃ runs, MaximalRuns (fun a b => time a ≤ time b) (ofEcu ecu (timed msgs)) runs ∧
          IsHistogram (runs.map fun r => timeSpanOf r / 10000) (hist.map fun e => (e.1.toNat, e.2))) := by
  have hl := timed_length hF h
  have hfl : ∀ ecu, (ofEcu ecu (timed msgs)).length ≤ usizeMax := fun ecu => Nat.le_trans (List.length_filter_le _ _) hl
  have hrun : lifecycleSplit bytes = runRed (splitRed (fun e : StorageEntry => .ok e.storageHeader.ecu)
      fun _ => reducer (forkRed lifeRed (genCount StorageEntry)) (nilStage StorageEntry)) (timed msgs) := by
    unfold lifecycleSplit pullSplit
    rw [pullReduce_eq _ (streams_timed hF h)]
    rfl
  have hred : ∀ xs : List StorageEntry, xs.length ≤ usizeMax → ∀ v,
      runRed (reducer (forkRed lifeRed (genCount StorageEntry)) (nilStage StorageEntry)) xs = some (.ok v) ↔
        runRed lifeRed xs = some (.ok v.1) ∧ v.2 = xs.length := by
    intro xs hx v
    rw [runRed_nil_reducer]
    have := runRed_fork_iff (r1 := lifeRed) (r2 := genCount StorageEntry) xs v.1 v.2
    rw [this, runRed_genCount, if_pos hx]
    simp only [Option.some.injEq, Res.ok.injEq, eq_comm]
  have hpos : TimesComplete msgs → ∃ m, lifecycleSplit bytes = some (.ok m) ∧
      IsHistogram ((timed msgs).map fun e => e.storageHeader.ecu) (m.map fun e => (e.1, e.2.2)) ∧
      ∀ ecu hist n, (ecu, hist, n) ∈ m → n = (ofEcu ecu (timed msgs)).length ∧
        ∃ runs, MaximalRuns (fun a b => time a ≤ time b) (ofEcu ecu (timed msgs)) runs ∧
          IsHistogram (runs.map fun r => timeSpanOf r / 10000) (hist.map fun e => (e.1.toNat, e.2)) := by
    intro hc
    have hce : ∀ ecu, ∀ e ∈ ofEcu ecu (timed msgs), (timeOf e).isSome := fun ecu e he => hc e (List.mem_filter.1 he).1
    obtain ⟨m, hm⟩ := C42_split_total (fun e : StorageEntry => e.storageHeader.ecu)
      (fun _ => reducer (forkRed lifeRed (genCount StorageEntry)) (nilStage StorageEntry)) (timed msgs) (by
        intro x _
        obtain ⟨runs, hist, -, h2, -⟩ := lifeRed_spec _ (hfl x.storageHeader.ecu) (hce _)
        exact ⟨(hist, _), (hred _ (hfl _) _).2 ⟨h2, rfl⟩⟩)
    have hspec := (runRed_split_iff (timed msgs) (fun _ _ => rfl) m).1 hm
    obtain ⟨hs, hk, hv⟩ := hspec
    have hn : ∀ ecu hist n, (ecu, hist, n) ∈ m →
        runRed lifeRed (ofEcu ecu (timed msgs)) = some (.ok hist) ∧ n = (ofEcu ecu (timed msgs)).length := by
      intro ecu hist n he
      exact (hred _ (hfl ecu) (hist, n)).1 (hv ecu (hist, n) he)
    refine ⟨m, hrun.trans hm, ?_, ?_⟩
    · refine isHistogram_of_split hs hk ?_
      intro ecu hist n he
      rw [count_map_eq]
      exact (hn ecu hist n he).2
    · intro ecu hist n he
      obtain ⟨h1, h2⟩ := hn ecu hist n he
      obtain ⟨runs, hist', h3, h4, h5⟩ := lifeRed_spec _ (hfl ecu) (hce ecu)
      rw [h1] at h4
      simp only [Option.some.injEq, Res.ok.injEq] at h4
      subst h4
      exact ⟨h2, runs, h3, h5⟩
  refine ⟨⟨?_, ?_⟩, hpos⟩
  · intro hp hc
    obtain ⟨_, h1, -⟩ := hpos hc
    rw [hp] at h1
    simp at h1
  · intro hc
    obtain ⟨x, hx, hn⟩ := exists_incomplete hc
    rw [hrun]
    have htot : Total (reducer (forkRed lifeRed (genCount StorageEntry)) (nilStage StorageEntry)) :=
      total_reducer (total_fork lifeRed_total total_count) (good_nil _)
    refine split_panic (key := fun e : StorageEntry => e.storageHeader.ecu) (fun _ => htot) _ (fun _ _ => rfl) hx ?_
    refine total_panic htot fun v hv => ?_
    have := ((hred _ (hfl x.storageHeader.ecu) v).1 hv).1
    have hp := lifeRed_panic (xs := ofEcu x.storageHeader.ecu (timed msgs)) (x := x)
      (List.mem_filter.2 ⟨hx, by simp⟩) hn
    rw [hp] at this
    simp at this

/-! ## `itertools` -/

theorem streams_nil {α : Type} {it : Pull α} {s : it.σ} (h : Streams it s (.ok [])) : Exhausted it s := by
  have key : ∀ q, Streams it s q → q = .ok [] → Exhausted it s := by
    intro q hq he
    cases hq with
    | done h => exact h
    | @item _ s' x r h1 h2 => cases r <;> simp [Res.bind] at he
    | panic h => simp at he
  exact key _ h rfl

theorem streams_cons {α : Type} {it : Pull α} {s : it.σ} {x : α} {xs : List α} (h : Streams it s (.ok (x :: xs))) :
    ∃ s', it.next s = some (.ok (s', some x)) ∧ Streams it s' (.ok xs) := by
  have key : ∀ q, Streams it s q → q = .ok (x :: xs) → ∃ s', it.next s = some (.ok (s', some x)) ∧ Streams it s' (.ok xs) := by
    intro q hq he
    cases hq with
    | done h => simp at he
    | @item _ s' y r h1 h2 =>
      cases r with
      | panic => simp [Res.bind] at he
      | ok ys =>
        simp only [Res.bind, Res.ok.injEq, List.cons.injEq] at he
        obtain ⟨rfl, rfl⟩ := he
        exact ⟨s', h1, h2⟩
    | panic h => simp at he
  exact key _ h rfl

/-- Windows of two: every pair of consecutive items. -/
theorem streams_tupleWindows {α : Type} {it : Pull α} {s : it.σ} {xs : List α} (h : Streams it s (.ok xs)) :
    Streams (tupleWindows it) (none, s) (.ok (xs.zip xs.tail)) := by
  have hex : ∀ (p : Option (α × α)) (s : it.σ), Exhausted it s → Exhausted (tupleWindows it) (p, s) := by
    intro p s hs
    refine exhausted_of_inv (it := tupleWindows it) (fun q => Exhausted it q.2) ?_ hs
    rintro ⟨p, s⟩ hs
    obtain ⟨s', h1, h2⟩ := exhausted_next hs
    exact ⟨(p, s'), by simp only [tupleWindows, h1], h2⟩
  have hlast : ∀ (xs : List α) (s : it.σ) (p : α × α), Streams it s (.ok xs) →
      Streams (tupleWindows it) (some p, s) (.ok ((p.2 :: xs).zip xs)) := by
    intro xs
    induction xs with
    | nil =>
      intro s p h
      have h1 := streams_nil h
      exact .done (hex _ _ h1)
    | cons x xs ih =>
      intro s p h
      obtain ⟨s', h1, h2⟩ := streams_cons h
      obtain ⟨a, b⟩ := p
      have := Streams.item (it := tupleWindows it) (s := (some (a, b), s)) (s' := (some (b, x), s')) (x := (b, x))
        (by simp only [tupleWindows, h1]) (ih s' (b, x) h2)
      exact this
  cases xs with
  | nil => exact .done (hex _ _ (streams_nil h))
  | cons x xs =>
    obtain ⟨s', h1, h2⟩ := streams_cons h
    cases xs with
    | nil =>
      have h3 := streams_nil h2
      obtain ⟨s'', h4, h5⟩ := exhausted_next h3
      refine .done ?_
      refine exhausted_of_inv (it := tupleWindows it) (fun q => Exhausted it q.2 ∨ q = (none, s)) ?_ (Or.inr rfl)
      rintro ⟨p, t⟩ (hs | hs)
      · obtain ⟨t', h6, h7⟩ := exhausted_next hs
        exact ⟨(p, t'), by simp only [tupleWindows, h6], Or.inl h7⟩
      · simp only [Prod.mk.injEq] at hs
        obtain ⟨rfl, rfl⟩ := hs
        exact ⟨(none, s''), by simp only [tupleWindows, h1, h4], Or.inl h5⟩
    | cons y xs =>
      obtain ⟨s'', h3, h4⟩ := streams_cons h2
      have := Streams.item (it := tupleWindows it) (s := (none, s)) (s' := (some (x, y), s'')) (x := (x, y))
        (by simp only [tupleWindows, h1, h3]) (hlast xs s'' (x, y) h4)
      exact this

theorem zip_tail_fst {α : Type} (xs : List α) : ∀ x ∈ xs.dropLast, ∃ y, (x, y) ∈ xs.zip xs.tail := by
  induction xs with
  | nil => simp
  | cons a xs ih =>
    cases xs with
    | nil => simp
    | cons b xs =>
      intro x hx
      rw [List.dropLast_cons_of_ne_nil (by simp)] at hx
      rcases List.mem_cons.1 hx with h' | h'
      · subst h'; exact ⟨b, by simp⟩
      · obtain ⟨y, hy⟩ := ih x h'
        exact ⟨y, by
          show (x, y) ∈ (a, b) :: (b :: xs).zip xs
          exact List.mem_cons_of_mem _ hy⟩

theorem zip_tail_mem {α : Type} (xs : List α) : ∀ p ∈ xs.zip xs.tail, p.1 ∈ xs.dropLast := by
  induction xs with
  | nil => simp
  | cons a xs ih =>
    cases xs with
    | nil => simp
    | cons b xs =>
      rintro p hp
      have hp' : p ∈ (a, b) :: (b :: xs).zip xs := hp
      rw [List.dropLast_cons_of_ne_nil (by simp)]
      rcases List.mem_cons.1 hp' with h' | h'
      · subst h'; exact List.mem_cons_self
      · exact List.mem_cons_of_mem _ (ih p h')

/-- **C57 (exact)** `itertools` (`lifecycle_itertools`) panics exactly if a message other than the last one with the
time stamp flag has no complete time stamp; otherwise it counts the pairs of consecutive messages with time
stamp flag whose time stamps are at least half an hour apart. -/
theorem C57_lifecycle_itertools_partial (bytes : Bytes) (hF : Fits bytes) (msgs : List StorageEntry)
    (h : Messages bytes msgs) :
    (lifecycleItertools bytes = some .panic ↔ ∃ e ∈ (timed msgs).dropLast, ¬ (timeOf e).isSome) ∧
    ((∀ e ∈ (timed msgs).dropLast, (timeOf e).isSome) →
      lifecycleItertools bytes = some (.ok (((timed msgs).zip (timed msgs).tail).filter
        fun p => decide (halfHour ≤ time p.2 - time p.1)).length)) := by
  have hs := streams_tupleWindows (streams_timed hF h)
  have h1 := streams_filter_on hs (F := fun r => timePredicate r.1 r.2) (f := fun r => timeF r.1 r.2)
    (fun r _ => timePredicate_eq r.1 r.2)
  have hpos : (∀ e ∈ (timed msgs).dropLast, (timeOf e).isSome) →
      lifecycleItertools bytes = some (.ok (((timed msgs).zip (timed msgs).tail).filter
        fun p => decide (halfHour ≤ time p.2 - time p.1)).length) := by
    intro hc
    have h2 := streams_filter_on h1 (F := longEnough) (f := fun p => decide (halfHour ≤ time p.2 - time p.1)) (by
      rintro ⟨a, b⟩ hp
      obtain ⟨hp1, hp2⟩ := List.mem_filter.1 hp
      simp only at hp2 ⊢
      have ha := hc a (zip_tail_mem _ _ hp1)
      have hb : (timeOf b).isSome := by
        rw [← stamp_isSome] at ha ⊢
        unfold timeF at hp2
        cases hb : stamp b with
        | none => rw [hb] at hp2; rw [optGe_none hp2] at ha; simp at ha
        | some t => rfl
      unfold timeF at hp2
      rw [optGe_times ha hb, decide_eq_true_eq] at hp2
      obtain ⟨d, h3, h4⟩ := timeDelta_ok (p := (a, b)) ha hb hp2
      unfold longEnough
      rw [h3]
      simp only [Res.bind, UInt32.le_iff_toNat_le, h4]
      rfl)
    rw [List.filter_filter] at h2
    have h3 : ((timed msgs).zip (timed msgs).tail).filter (fun p => decide (halfHour ≤ time p.2 - time p.1) && timeF p.1 p.2) =
        ((timed msgs).zip (timed msgs).tail).filter fun p => decide (halfHour ≤ time p.2 - time p.1) := by
      refine List.filter_congr ?_
      rintro ⟨a, b⟩ hp
      have ha := hc a (zip_tail_mem _ _ hp)
      by_cases hh : halfHour ≤ time b - time a
      · simp only [hh, decide_true, Bool.true_and]
        have hb : (timeOf b).isSome := by
          cases hb : timeOf b with
          | some t => rfl
          | none =>
            have : time b = 0 := by unfold time; rw [hb]; rfl
            rw [this] at hh
            unfold halfHour at hh
            omega
        unfold timeF
        rw [optGe_times ha hb, decide_eq_true_eq]
        unfold halfHour at hh
        omega
      · simp [hh]
    rw [h3] at h2
    refine pullCount_eq h2 (Nat.le_trans (List.length_filter_le _ _) ?_)
    rw [List.length_zip]
    have := timed_length hF h
    omega
  refine ⟨⟨?_, ?_⟩, hpos⟩
  · intro hp
    apply Classical.byContradiction
    intro hc
    have : ∀ e ∈ (timed msgs).dropLast, (timeOf e).isSome := fun e he => Classical.byContradiction fun hn => hc ⟨e, he, hn⟩
    rw [hpos this] at hp
    simp at hp
  · rintro ⟨a, ha, hn⟩
    obtain ⟨b, hb⟩ := zip_tail_fst _ a ha
    have hna := stamp_none.2 hn
    have hmap := streams_filter longEnough h1
    simp only [Res.bind] at hmap
    have hge : timeF a b = true := by unfold timeF; rw [hna]; cases stamp b <;> rfl
    have hlong : longEnough (a, b) = .panic := by
      unfold longEnough
      rw [timeDelta_panic_of_none (r := (a, b)) hna]
      rfl
    rw [filterR_panic.2 ⟨(a, b), List.mem_filter.2 ⟨hb, hge⟩, hlong⟩] at hmap
    exact pullReduce_panic hmap _

/-- Messages with complete time stamps, one of them without the flag. -/
example : TimesComplete [msg1, secMsg 3, msg1] ∧ timed [msg1, secMsg 3, msg1] = [msg1, msg1] ∧ time msg1 = 258 := by
  refine ⟨?_, ?_, ?_⟩
  · unfold TimesComplete; decide
  · decide
  · decide

/-- **C48 (violated)** a file that is one readable message on which all three functions panic. -/
theorem C48_lifecycles_can_panic : ∃ bytes, Fits bytes ∧ Messages bytes [msgNoExt] ∧
    lifecycleHistogram bytes = some .panic ∧ lifecycleSplit bytes = some .panic ∧ lifecycleIter bytes = some .panic := by
  have hF : Fits (fileOf [([], msgNoExt)] []) := by unfold Fits; decide
  have hm : Messages (fileOf [([], msgNoExt)] []) [msgNoExt] := by
    refine ⟨messagesAt 0 [([], msgNoExt)], ?_, rfl⟩
    have := scan_fileOf [] [([], msgNoExt)] [] (by unfold Clean; decide)
    simpa using this
  have hc : ¬ TimesComplete [msgNoExt] := by unfold TimesComplete; decide
  exact ⟨_, hF, hm, (C48_lifecycle_histogram_partial _ hF _ hm).1.2 hc, (C48_lifecycle_split_partial _ hF _ hm).1.2 hc,
    (C48_lifecycle_iter_partial _ hF _ hm).1.2 hc⟩

end Verif
