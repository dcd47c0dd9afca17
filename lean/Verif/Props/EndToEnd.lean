import Verif.Spec.EndToEnd
import Verif.Props.DdDlt
import Verif.Props.Text

/-! # C95: `dd_dlt` and then `ripdlt` -/

set_option linter.unusedSimpArgs false

namespace Verif

open Spec

/-- The histogram of equal keys. -/
theorem hist_const {κ : Type} [Key κ] [DecidableEq κ] {keys : List κ} {m : List (κ × Nat)} {a : κ} {k : Nat}
    (h : IsHistogram keys m) (hk : keys = List.replicate k a) : m = oneLine k (a, k) := by
  subst hk
  refine isHistogram_unique h ?_
  unfold oneLine
  cases k with
  | zero => exact isHistogram_nil
  | succ k =>
    rw [if_neg (by omega)]
    refine ⟨List.pairwise_singleton .., fun b v => ?_⟩
    rw [List.mem_singleton, List.count_replicate]
    constructor
    · intro h; injection h with h1 h2; subst h1; subst h2
      exact ⟨by omega, by rw [if_pos (by exact beq_self_eq_true b)]⟩
    · rintro ⟨h1, h2⟩
      by_cases hab : a = b
      · subst hab; rw [if_pos (by exact beq_self_eq_true a)] at h2; rw [h2]
      · rw [if_neg (by simpa using hab)] at h2; omega

/-- Related neighbours make one run. -/
theorem runs_one {α : Type} {R : α → α → Prop} {xs : List α} {runs : List (List α)} (h : MaximalRuns R xs runs)
    (hr : ∀ i a b, xs[i]? = some a → xs[i + 1]? = some b → R a b) : runs = if xs = [] then [] else [xs] := by
  match runs, h with
  | [], h =>
    have := h.flatten
    rw [List.flatten_nil] at this
    rw [if_pos this.symm]
  | [r], h =>
    have h1 : r = xs := by have := h.flatten; simpa using this
    have h2 := h.nonempty r List.mem_cons_self
    subst h1
    rw [if_neg h2]
  | r :: r' :: rest, h =>
    exfalso
    have h1 := h.nonempty r List.mem_cons_self
    have h2 := h.nonempty r' (List.mem_cons_of_mem _ List.mem_cons_self)
    obtain ⟨b, t, rfl⟩ := List.exists_cons_of_ne_nil h2
    have h3 := List.getLast?_eq_some_getLast h1
    refine h.maximal 0 r (b :: t) _ b rfl rfl h3 rfl (hr (r.length - 1) _ _ ?_ ?_)
    · rw [← h.flatten, List.flatten_cons, List.getElem?_append_left (by have := List.length_pos_iff.2 h1; omega),
        ← h3, List.getLast?_eq_getElem?]
    · rw [← h.flatten, List.flatten_cons, Nat.sub_add_cancel (List.length_pos_iff.2 h1),
        List.getElem?_append_right (Nat.le_refl _), Nat.sub_self]
      rfl

/-- What is used about the messages. -/
structure DdFile (ecu : B4) (info : MessageType) (n : Nat) (pieces : List Bytes) (msgs : List StorageEntry) : Prop where
  count : msgs.length = pieces.length
  few : pieces.length ≤ 42949673
  size : ∀ p ∈ pieces, p.length = n
  ecuHeader : ∀ e ∈ msgs, e.storageHeader.ecu = ecu
  ext : ∀ e ∈ msgs, flag e.dlt 0 = true
  timed : ∀ e ∈ msgs, flag e.dlt 4 = true
  noEcu : ∀ e ∈ msgs, flag e.dlt 2 = false
  length : ∀ e ∈ msgs, (encode e).length = 34 + n
  full : ∀ e ∈ msgs, optLen e.dlt + 10 ≤ e.dlt.tail.length
  info : ∀ e ∈ msgs, infoByte e = info.msin
  payloads : msgs.map payloadOf = pieces.map some
  secs : ∀ i e, msgs[i]? = some e → secsOf e = i / 100
  time : ∀ i e, msgs[i]? = some e → timeOf e = some (100 * i)

section
variable {ecu : B4} {info : MessageType} {n : Nat} {pieces : List Bytes} {msgs : List StorageEntry}

theorem map_const {α β : Type} {f : α → β} {b : β} {xs : List α} (h : ∀ x ∈ xs, f x = b) :
    xs.map f = List.replicate xs.length b := by
  rw [List.eq_replicate_iff]
  refine ⟨List.length_map .., fun y hy => ?_⟩
  obtain ⟨x, hx, rfl⟩ := List.mem_map.1 hy
  exact h x hx

theorem oneLine_map {α β : Type} (f : α → β) (k : Nat) (l : α) : (oneLine k l).map f = oneLine k (f l) := by
  unfold oneLine; split <;> rfl

theorem Spec.DdFile_timed (h : DdFile ecu info n pieces msgs) : Spec.timed msgs = msgs :=
  List.filter_eq_self.2 h.timed

theorem dd_time (h : DdFile ecu info n pieces msgs) {i : Nat} {e : StorageEntry} (he : msgs[i]? = some e) :
    Spec.time e = 100 * i := by
  unfold Spec.time; rw [h.time i e he]; rfl

theorem dd_runs_secs (h : DdFile ecu info n pieces msgs) {runs : List (List StorageEntry)}
    (hr : MaximalRuns (fun a b => secsOf a ≤ secsOf b) msgs runs) : runs = if msgs = [] then [] else [msgs] :=
  runs_one hr fun i a b h1 h2 => by
    show secsOf a ≤ secsOf b
    rw [h.secs i a h1, h.secs _ b h2]; omega

theorem dd_secSpan (h : DdFile ecu info n pieces msgs) : secSpanOf msgs = (pieces.length - 1) / 100 := by
  unfold secSpanOf
  cases hm : msgs with
  | nil =>
    have := h.count
    rw [hm] at this
    rw [← this]; rfl
  | cons a t =>
    rw [← hm]
    have h0 : msgs[0]? = some a := by rw [hm]; rfl
    have h1 : msgs.head? = some a := by rw [hm]; rfl
    have h2 : msgs ≠ [] := by rw [hm]; exact List.cons_ne_nil _ _
    have h3 := List.getLast?_eq_some_getLast h2
    have h4 := h3
    rw [List.getLast?_eq_getElem?] at h4
    rw [h1, h3]
    show secsOf _ - secsOf _ = _
    rw [h.secs _ _ h4, h.secs _ _ h0, h.count]
    omega

theorem dd_timeSpan (h : DdFile ecu info n pieces msgs) : timeSpanOf msgs = 100 * (pieces.length - 1) := by
  unfold timeSpanOf
  cases hm : msgs with
  | nil =>
    have := h.count
    rw [hm] at this
    rw [← this]; rfl
  | cons a t =>
    rw [← hm]
    have h0 : msgs[0]? = some a := by rw [hm]; rfl
    have h1 : msgs.head? = some a := by rw [hm]; rfl
    have h2 : msgs ≠ [] := by rw [hm]; exact List.cons_ne_nil _ _
    have h3 := List.getLast?_eq_some_getLast h2
    have h4 := h3
    rw [List.getLast?_eq_getElem?] at h4
    rw [h1, h3]
    show Spec.time _ - Spec.time _ = _
    rw [dd_time h h4, dd_time h h0, h.count]
    omega

theorem dd_empty (h : DdFile ecu info n pieces msgs) : msgs = [] ↔ pieces.length = 0 := by
  rw [← h.count, List.length_eq_zero_iff]

theorem dd_runs_time (h : DdFile ecu info n pieces msgs) {runs : List (List StorageEntry)}
    (hr : MaximalRuns (fun a b => Spec.time a ≤ Spec.time b) msgs runs) : runs = if msgs = [] then [] else [msgs] :=
  runs_one hr fun i a b h1 h2 => by
    show Spec.time a ≤ Spec.time b
    rw [dd_time h h1, dd_time h h2]; omega

theorem dd_buckets {f : List StorageEntry → Nat} {v : Nat} (h : DdFile ecu info n pieces msgs) (hv : f msgs = v)
    {runs : List (List StorageEntry)} (hr : runs = if msgs = [] then [] else [msgs]) {m : List (Nat × Nat)}
    (hm : IsHistogram (runs.map f) m) :
    (m.map fun e => (e.1, e.1 + 1, e.2)) = oneLine pieces.length (v, v + 1, 1) := by
  subst hr
  by_cases he : msgs = []
  · have h0 := (dd_empty h).1 he
    rw [if_pos he] at hm
    rw [hist_const (k := 0) (a := 0) hm rfl]
    unfold oneLine
    rw [if_pos h0]; rfl
  · have h0 : ¬ pieces.length = 0 := fun h1 => he ((dd_empty h).2 h1)
    rw [if_neg he] at hm
    rw [hist_const (k := 1) (a := v) hm (by rw [List.map_cons, hv]; rfl)]
    unfold oneLine
    rw [if_neg h0]; rfl

theorem dd_payload (h : DdFile ecu info n pieces msgs) {e : StorageEntry} (he : e ∈ msgs) :
    ∃ p ∈ pieces, payloadOf e = some p := by
  have h1 : payloadOf e ∈ msgs.map payloadOf := List.mem_map.2 ⟨e, he, rfl⟩
  rw [h.payloads] at h1
  obtain ⟨p, hp, h2⟩ := List.mem_map.1 h1
  exact ⟨p, hp, h2.symm⟩

theorem filter_len_map {α β : Type} (f : α → β) (q : β → Bool) (xs : List α) :
    (xs.filter fun x => q (f x)).length = ((xs.map f).filter q).length := by
  rw [List.filter_map, List.length_map]; rfl

theorem dd_sizes {f : StorageEntry → Nat} {v : Nat} (h : DdFile ecu info n pieces msgs) (hv : ∀ e ∈ msgs, f e = v)
    {m : List (Nat × Nat)} (hm : IsHistogram (msgs.map f) m) :
    (m.map fun e => (e.1, e.2, e.1 * e.2 / 1024)) = oneLine pieces.length (v, pieces.length, v * pieces.length / 1024) ∧
    (msgs.map f).sum / 1024 = v * pieces.length / 1024 := by
  rw [hist_const hm (map_const hv), h.count, oneLine_map]
  refine ⟨rfl, ?_⟩
  rw [map_const hv, List.sum_replicate_nat, h.count, Nat.mul_comm]

theorem dd_ofEcu (h : DdFile ecu info n pieces msgs) : ofEcu ecu msgs = msgs := by
  unfold ofEcu
  exact List.filter_eq_self.2 fun e he => decide_eq_true (h.ecuHeader e he)

/-- One line per ECU, where there is one ECU. -/
theorem dd_ecus (h : DdFile ecu info n pieces msgs) {m : List (B4 × (OrdMap UInt32 Nat × Nat))} {v : Nat}
    (hm : IsHistogram (msgs.map fun e => e.storageHeader.ecu) (m.map fun e => (e.1, e.2.2)))
    (hh : ∀ hist k, (ecu, hist, k) ∈ m → msgs ≠ [] → hist = [(UInt32.ofNat v, 1)]) :
    (m.map fun e => (e.1.toBytes, e.2)) = oneLine pieces.length (ecu.toBytes, [(UInt32.ofNat v, 1)], pieces.length) := by
  have h1 := hist_const hm (map_const h.ecuHeader)
  rw [h.count] at h1
  by_cases he : msgs = []
  · have h0 := (dd_empty h).1 he
    unfold oneLine at h1 ⊢
    rw [if_pos h0] at h1 ⊢
    rw [List.map_eq_nil_iff.1 h1]; rfl
  · have h0 : ¬ pieces.length = 0 := fun h1 => he ((dd_empty h).2 h1)
    unfold oneLine at h1 ⊢
    rw [if_neg h0] at h1 ⊢
    match m, h1 with
    | [(e, hist, k)], h1 =>
      injection h1 with h1 _
      injection h1 with h2 h3
      simp only at h2 h3
      subst h2; subst h3
      rw [hh hist _ List.mem_cons_self he]
      rfl

theorem hist_u32 {hist : OrdMap UInt32 Nat} {v : Nat} (h : IsHistogram [v] (hist.map fun e => (e.1.toNat, e.2))) :
    hist = [(UInt32.ofNat v, 1)] := by
  have h1 := hist_const (k := 1) h rfl
  unfold oneLine at h1
  rw [if_neg (by decide)] at h1
  match hist, h1 with
  | [(a, b)], h1 =>
    injection h1 with h1 _
    injection h1 with h2 h3
    simp only at h2 h3
    subst h2; subst h3
    rw [UInt32.ofNat_toNat]

/-- One run of seconds gives one span. -/
theorem dd_spans (h : DdFile ecu info n pieces msgs) {runs : List (List StorageEntry)} {spans : List (Nat × Nat)}
    (hs : EcuSpans msgs runs spans) (he : msgs ≠ []) : spans.map (fun s => s.2 - s.1) = [(pieces.length - 1) / 100] := by
  have hr := dd_runs_secs h hs.isRuns
  rw [if_neg he] at hr
  subst hr
  obtain ⟨a, t, hat⟩ := List.exists_cons_of_ne_nil he
  have h0 : msgs[0]? = some a := by rw [hat]; rfl
  have h1 : msgs.head? = some a := by rw [hat]; rfl
  have h3 := List.getLast?_eq_some_getLast he
  have h4 := h3
  rw [List.getLast?_eq_getElem?] at h4
  generalize msgs.getLast he = b at h3 h4
  have ha := h.secs _ _ h0
  have hb := h.secs _ _ h4
  rw [h.count] at hb
  have hcov : ∀ t, (∃ s ∈ spans, Covers s.1 s.2 t) ↔ t ≤ (pieces.length - 1) / 100 := by
    intro t
    rw [hs.cover]
    constructor
    · rintro ⟨r, hr, x, y, h5, h6, h7⟩
      rw [List.mem_singleton] at hr
      subst hr
      rw [h1] at h5; rw [h3] at h6
      injection h5 with h5; injection h6 with h6
      subst h5; subst h6
      rw [← hb]; exact h7.2
    · intro ht
      exact ⟨msgs, List.mem_singleton.2 rfl, a, b, h1, h3, by rw [ha]; omega, by rw [hb]; exact ht⟩
  have hfew := hs.few
  match spans, hfew, hcov, hs with
  | [], _, hcov, _ =>
    obtain ⟨s, hs, _⟩ := (hcov 0).2 (Nat.zero_le _)
    cases hs
  | [s], _, hcov, hs =>
    obtain ⟨s', hs', h5⟩ := (hcov 0).2 (Nat.zero_le _)
    rw [List.mem_singleton] at hs'; subst hs'
    obtain ⟨s'', hs'', h6⟩ := (hcov _).2 (Nat.le_refl _)
    rw [List.mem_singleton] at hs''; subst hs''
    have h7 := (hcov s''.2).1 ⟨s'', List.mem_singleton.2 rfl, hs.ordered s'' (List.mem_singleton.2 rfl), Nat.le_refl _⟩
    unfold Covers at h5 h6
    rw [List.map_cons, List.map_nil]
    congr 1
    omega

/-- The report of the specification is this one. -/
theorem dd_prints (h : DdFile ecu info n pieces msgs) {bytes : Bytes} {c : Cmd} {rep rep' : Report}
    (hp : Prints bytes msgs c rep) (hr : ddReport ecu.toBytes (MessageType.info info) n pieces c = some rep') : rep = rep' := by
  have htm := Spec.DdFile_timed h
  cases c
  case count =>
    cases rep <;> try (exact absurd hp id)
    injection hr with hr; subst hr
    show Report.number _ = .number _
    rw [show _ = _ from hp, h.count]
  case countHelloWorld =>
    cases rep <;> try (exact absurd hp id)
    injection hr with hr; subst hr
    show Report.number _ = .number _
    rw [show _ = _ from hp]
    congr 1
    have h1 := filter_len_map payloadOf
      (fun o : Option Bytes => @decide (∃ p, o = some p ∧ helloWorld <:+: p) (Classical.propDecidable _)) msgs
    refine h1.trans ?_
    rw [h.payloads, ← filter_len_map some]
    congr 2
    funext p
    congr 1
    exact propext ⟨fun ⟨q, h2, h3⟩ => by injection h2 with h2; subst h2; exact h3, fun h2 => ⟨p, rfl, h2⟩⟩
  case histogramMessageSize =>
    cases rep <;> try (exact absurd hp id)
    injection hr with hr; subst hr
    obtain ⟨m, h1, h2, h3⟩ := hp
    obtain ⟨h4, h5⟩ := dd_sizes h h.length h1
    rw [h2, h3, h4, h5]
  case histogramPayloadSize =>
    cases rep <;> try (exact absurd hp id)
    injection hr with hr; subst hr
    obtain ⟨m, h1, h2, h3⟩ := hp
    obtain ⟨h4, h5⟩ := dd_sizes (v := n) h (fun e he => by
      obtain ⟨p, hp, h6⟩ := dd_payload h he
      rw [h6]; exact h.size p hp) h1
    rw [h2, h3, h4, h5]
  case histogramMessageType =>
    cases rep <;> try (exact absurd hp id)
    injection hr with hr; subst hr
    have h1 : IsHistogram _ _ := hp
    rw [List.filter_eq_self.2 h.ext] at h1
    rw [hist_const h1 (map_const (b := MessageType.info info) fun e he => by rw [h.info e he]), h.count]
  case histogramTimestamp =>
    cases rep <;> try (exact absurd hp id)
    injection hr with hr; subst hr
    obtain ⟨runs, m, h1, h2, h3⟩ := hp
    rw [h3, dd_buckets h (dd_secSpan h) (dd_runs_secs h h1) h2]
  case histogramLifecycles =>
    cases rep <;> try (exact absurd hp id)
    injection hr with hr; subst hr
    obtain ⟨runs, m, h1, h2, h3⟩ := hp
    rw [htm] at h1
    have h4 := runs_one h1 fun i a b h5 h6 => by
      have ha := h.noEcu a (List.mem_of_getElem? h5)
      have hb := h.noEcu b (List.mem_of_getElem? h6)
      refine ⟨by unfold ecuOf; rw [ha, hb]; rfl, ?_⟩
      rw [dd_time h h5, dd_time h h6]; omega
    rw [h3, dd_buckets (f := fun r => timeSpanOf r / 10000) (v := (pieces.length - 1) / 100) h
      (by show timeSpanOf msgs / 10000 = _; rw [dd_timeSpan h]; omega) h4 h2]
  case splitTimestamp =>
    cases rep <;> try (exact absurd hp id)
    injection hr with hr; subst hr
    obtain ⟨m, h1, h2, h3⟩ := hp
    rw [h3, dd_ecus h h1 fun hist k hmem hne => ?_]
    obtain ⟨runs, spans, h4, h5⟩ := h2 _ _ _ hmem
    rw [dd_ofEcu h] at h4
    rw [dd_spans h h4 hne] at h5
    exact hist_u32 h5
  case splitLifecycles =>
    cases rep <;> try (exact absurd hp id)
    injection hr with hr; subst hr
    obtain ⟨m, h1, h2, h3⟩ := hp
    rw [htm] at h1 h2
    rw [h3, dd_ecus h h1 fun hist k hmem hne => ?_]
    obtain ⟨runs, h4, h5⟩ := h2 _ _ _ hmem
    rw [dd_ofEcu h] at h4
    have hr := dd_runs_time h h4
    rw [if_neg hne] at hr
    subst hr
    rw [List.map_cons, List.map_nil, dd_timeSpan h, show 100 * (pieces.length - 1) / 10000 = (pieces.length - 1) / 100 by omega] at h5
    exact hist_u32 h5
  case iter =>
    cases rep <;> try (exact absurd hp id)
    injection hr with hr; subst hr
    obtain ⟨runs, h1, h2⟩ := hp
    rw [htm] at h1
    have hr := dd_runs_time h h1
    subst hr
    rw [h2]
    by_cases he : msgs = []
    · have h0 := (dd_empty h).1 he
      rw [if_pos he, if_neg (by omega)]; rfl
    · have h0 : ¬ pieces.length = 0 := fun h1 => he ((dd_empty h).2 h1)
      rw [if_neg he, List.filter_cons]
      have h3 := dd_timeSpan h
      unfold halfHour
      by_cases h4 : 180000 < pieces.length
      · rw [if_pos (decide_eq_true (by rw [h3]; omega)), if_pos h4]; rfl
      · rw [if_neg (by rw [decide_eq_true_iff, h3]; omega), if_neg h4]; rfl
  case itertools =>
    cases rep <;> try (exact absurd hp id)
    injection hr with hr; subst hr
    have h1 : _ = _ := hp
    rw [h1, htm, List.filter_eq_nil_iff.2 fun p hp => ?_]
    · rfl
    · obtain ⟨i, hi⟩ := List.getElem?_of_mem hp
      obtain ⟨a, b⟩ := p
      rw [List.getElem?_zip_eq_some] at hi
      obtain ⟨h2, h3⟩ := hi
      rw [List.getElem?_tail] at h3
      rw [decide_eq_true_iff]
      rw [dd_time h h2, dd_time h h3]
      unfold halfHour
      omega
  all_goals cases hr

/-- None of these commands panics. -/
theorem dd_no_panic (h : DdFile ecu info n pieces msgs) (hu : Utf8 ecu.toBytes) (c : Cmd) : ¬ Panics msgs c := by
  have hstamp : ∀ e ∈ msgs, timeOf e ≠ none := fun e he h1 => by
    obtain ⟨i, hi⟩ := List.getElem?_of_mem he
    rw [h.time i e hi] at h1; cases h1
  have htext : ∀ e ∈ msgs, Utf8 e.storageHeader.ecu.toBytes := fun e he => by rw [h.ecuHeader e he]; exact hu
  have htm := Spec.DdFile_timed h
  cases c
  case histogramLifecycles => rintro ⟨e, he, h1⟩; rw [htm] at he; exact hstamp e he h1
  case iter => rintro ⟨e, he, h1⟩; rw [htm] at he; exact hstamp e he h1
  case itertools => rintro ⟨e, he, h1⟩; rw [htm] at he; exact hstamp e ((List.dropLast_sublist _).subset he) h1
  case splitLifecycles =>
    rintro ⟨e, he, h1 | h1⟩
    · rw [htm] at he; exact hstamp e he h1
    · rw [htm] at he; exact h1 (htext e he)
  case splitTimestamp => rintro ⟨e, he, h1⟩; exact h1 (htext e he)
  case histogramMessageType => rintro ⟨e, he, -, h1⟩; have := h.full e he; omega
  case histogramPayloadSize => rintro ⟨e, he, -, h1⟩; have := h.full e he; omega
  case countHelloWorld =>
    rintro ⟨e, he, h1⟩
    obtain ⟨p, -, h2⟩ := dd_payload h he
    rw [h1] at h2; cases h2
  all_goals exact id

end

theorem ddFile_of {ecuid appid input : Bytes} {info : MessageType} {n : Nat} {msgs : List StorageEntry} {ecu : B4}
    (hecu : ecu.toBytes = ecuid) (hk : input.length / n ≤ 42949673) (hl : msgs.length = input.length / n)
    (h : ∀ i e, msgs[i]? = some e → DdMessage ecuid appid info i (chunk n input i) e) :
    DdFile ecu info n (chunks n input) msgs := by
  have hcl : (chunks n input).length = input.length / n := by
    unfold chunks; rw [List.length_map, List.length_range]
  have hsize : ∀ i, i < input.length / n → (chunk n input i).length = n := fun i hi => chunk_length (index_le _ i rfl hi)
  have hget : ∀ e ∈ msgs, ∃ i, i < input.length / n ∧ msgs[i]? = some e ∧ DdMessage ecuid appid info i (chunk n input i) e := by
    intro e he
    obtain ⟨i, hi⟩ := List.getElem?_of_mem he
    refine ⟨i, ?_, hi, h i e hi⟩
    rw [← hl]; exact (List.getElem?_eq_some_iff.1 hi).1
  have hopt : ∀ e ∈ msgs, optLen e.dlt = 4 := fun e he => by
    obtain ⟨i, -, -, hm⟩ := hget e he
    obtain ⟨-, f2, f3, f4⟩ := hm.flags
    unfold optLen; rw [f2, f3, f4]; rfl
  have hext : ∀ e ∈ msgs, optLen e.dlt + 10 ≤ e.dlt.tail.length ∧ infoByte e = info.msin := fun e he => by
    obtain ⟨i, -, -, hm⟩ := hget e he
    obtain ⟨x, hx, h2, -, -⟩ := hm.ext
    obtain ⟨-, opt, rest, h3, h4⟩ := (C10_extended_header_iff _ _).1 hx
    have h5 : (encodeExt x).length = 10 := rfl
    constructor
    · rw [h3, List.length_append, List.length_append, h4, h5]; omega
    · unfold infoByte
      rw [← h4, h3, List.append_assoc, List.getD_eq_getElem?_getD, List.getElem?_append_right (Nat.le_refl _), Nat.sub_self]
      subst h2
      rfl
  have hpay : ∀ i e, msgs[i]? = some e → payloadOf e = some (chunk n input i) := fun i e he => by
    have h2 := (h i e he).pay
    have h3 := hext e (List.mem_of_getElem? he)
    rw [payload_payloadOf, if_neg (by omega)] at h2
    injection h2
  refine ⟨by rw [hl, hcl], by rw [hcl]; exact hk, ?_, ?_, ?_, ?_, ?_, ?_, fun e he => (hext e he).1, fun e he => (hext e he).2, ?_, ?_, ?_⟩
  · intro p hp
    obtain ⟨i, hi, rfl⟩ := List.mem_map.1 hp
    exact hsize i (List.mem_range.1 hi)
  · intro e he
    obtain ⟨i, -, -, hm⟩ := hget e he
    have h2 := hm.ecu
    rw [← hecu] at h2
    unfold B4.toBytes at h2
    injection h2 with a b; injection b with b c; injection c with c d; injection d with d _
    cases hx : e.storageHeader.ecu; cases ecu
    rw [hx] at a b c d
    simp only at a b c d
    subst a; subst b; subst c; subst d
    rfl
  · intro e he; obtain ⟨i, -, -, hm⟩ := hget e he; exact hm.flags.1
  · intro e he; obtain ⟨i, -, -, hm⟩ := hget e he; exact hm.flags.2.2.2
  · intro e he; obtain ⟨i, -, -, hm⟩ := hget e he; exact hm.flags.2.1
  · intro e he
    obtain ⟨i, hi, -, hm⟩ := hget e he
    rw [hm.size, hsize i hi]
  · apply List.ext_getElem?
    intro i
    rw [List.getElem?_map, List.getElem?_map]
    unfold chunks
    rw [List.getElem?_map]
    by_cases hi : i < input.length / n
    · rw [List.getElem?_range hi]
      obtain ⟨e, he⟩ : ∃ e, msgs[i]? = some e := ⟨_, List.getElem?_eq_getElem (by omega)⟩
      rw [he]
      show some (payloadOf e) = _
      rw [hpay i e he]; rfl
    · rw [List.getElem?_eq_none (by omega), List.getElem?_eq_none (by rw [List.length_range]; omega)]
      rfl
  · exact fun i e he => (h i e he).secs
  · intro i e he
    obtain ⟨t, h2, h3⟩ := (h i e he).timestamp
    have h4 : stamp e = some t := by unfold stamp; rw [h2]
    rw [← stamp_timeOf, h4]
    have hi := (List.getElem?_eq_some_iff.1 he).1
    show some t.toNat = _
    rw [h3, Nat.mod_eq_of_lt (by omega)]

/-- **C95** `dd_dlt` and then `ripdlt`: for four-byte ids, payload sizes from 1 to 65517 and inputs as in C51, `dd_dlt`
ends normally, and on its output every command that goes through the messages one by one ends with the report that
`ddReport` gives, computed from the input alone. -/
theorem C95_reports (bd : Build) (addr : Ctor → UInt8) (ecuid appid size input : Bytes) (rest : List Bytes) (n : Nat)
    (hecu : ecuid.length = 4) (hu : Utf8 ecuid) (happ : appid.length = 4) (hsize : Decimal size n) (h1 : 1 ≤ n) (h2 : n ≤ 65517)
    (hk : input.length / n ≤ 42949673) (hfit : ∀ p ∈ chunks n input, LinesFit (roomBehind bd.late) p) :
    ∃ output, (∀ out e, DdMain bd addr (ecuid :: appid :: size :: rest) input out e ↔
        out = output ∧ e = .finished (UInt32.ofNat (input.length / n))) ∧
      Fits output ∧ ∀ c rep, ddReport ecuid (MessageType.create addr true (.log .info)).info n (chunks n input) c = some rep →
        ∀ num r, RunCmd num output c r ↔ r = .ok rep := by
  obtain ⟨output, msgs, h3, h4, h5, h6, hF, hwf, h7⟩ := C51_round_trip_partial bd addr ecuid appid size input rest n hecu
    happ hsize h1 h2 (.inr hk) fun i hi => hfit _ (List.mem_map.2 ⟨i, List.mem_range.2 hi, rfl⟩)
  obtain ⟨ecu, -, he⟩ := ofBytes_length hecu
  have hd := ddFile_of he.symm hk h5 h7
  have hm : Messages output msgs := by rw [h6]; exact messages_packed hwf
  refine ⟨output, h3, hF, fun c rep hr num r => ?_⟩
  have hc : sequential c = true := by cases c <;> first | rfl | cases hr
  obtain ⟨rep', h8, h9⟩ := C68_sequential_prints num output hF msgs hm c hc (dd_no_panic hd (he ▸ hu) c)
  rw [h9, dd_prints hd h8 (by rw [← he]; exact hr)]

/-- **C95** the text: started on a file with that output (reading it without an error, or mapping it), `ripdlt` prints its
arguments, the title and the lines of the report, and ends normally. -/
theorem C95_texts (bd : Build) (addr : Ctor → UInt8) (ecuid appid size input : Bytes) (rest : List Bytes) (n : Nat)
    (hecu : ecuid.length = 4) (hu : Utf8 ecuid) (happ : appid.length = 4) (hsize : Decimal size n) (h1 : 1 ≤ n) (h2 : n ≤ 65517)
    (hk : input.length / n ≤ 42949673) (hfit : ∀ p ∈ chunks n input, LinesFit (roomBehind bd.late) p)
    (output : Bytes) (e : DdEnd) (hout : DdMain bd addr (ecuid :: appid :: size :: rest) input output e)
    (f : OsFile) (hf : Faithful f) (hopen : f.opens = true) (hcont : f.contents = output) (hno : ReadEvent.error ∉ f.reads)
    (method : String) (hm : method = "read" ∨ (method = "mmap" ∧ f.maps = true ∧ output ≠ []))
    (c : Cmd) (rep : Report) (hr : ddReport ecuid (MessageType.create addr true (.log .info)).info n (chunks n input) c = some rep)
    (num : Nat) (hnum : num ≠ 0) (prog name : String) (more : List String) (o : Bytes × Bool) :
    RipText num f prog (method :: cmdName c :: name :: more) o ↔
      o = (echoLine prog (method :: cmdName c :: name :: more) ++ (utf8 (titleOf c) ++ (linesOf c rep).flatten), true) := by
  obtain ⟨output', h3, hF, h4⟩ := C95_reports bd addr ecuid appid size input rest n hecu hu happ hsize h1 h2 hk hfit
  obtain ⟨rfl, -⟩ := (h3 _ _).1 hout
  have hrun := h4 c rep hr num
  have hc : sequential c = true := by cases c <;> first | rfl | cases hr
  have hcp : c ≠ .parIter := by rintro rfl; cases hc
  obtain ⟨b, hb, hbs⟩ : ∃ b : DltBuffer, (method = "mmap" ∧ DltBuffer.mmapFile f = some b ∨
      method = "read" ∧ DltBuffer.readFile f = some b) ∧ b.asSlice = output := by
    rcases hm with rfl | ⟨rfl, h5, h6⟩
    · obtain ⟨b, hb⟩ : ∃ b, DltBuffer.readFile f = some b := by
        unfold DltBuffer.readFile; rw [hopen]; exact ⟨_, rfl⟩
      exact ⟨b, .inr ⟨rfl, hb⟩, by rw [((C54_read_file_partial f hf).2 b hb).2 hno, hcont]⟩
    · refine ⟨.mmap f.contents, .inl ⟨rfl, (C60_mmap_file f _).2 ⟨hopen, h5, by rw [hcont]; exact h6, rfl⟩⟩, hcont⟩
  obtain ⟨-, -, slices, -, -, -, hp, -⟩ := C30_partition_contiguous output hF num hnum
  have hopening : openingOf num slices.length c = utf8 (titleOf c) := by
    unfold openingOf; rw [if_pos hc, List.append_nil]
  have htext := C88_text num output c hcp slices hp
  obtain ⟨out, ok⟩ := o
  rw [C88_runs num f prog method name more c b hb, hbs]
  constructor
  · rintro ⟨o, ho, rfl⟩
    cases ok with
    | false =>
      have := (C88_panics num output c hcp slices hp).1 ⟨o, ho⟩
      rw [hrun] at this; cases this
    | true =>
      obtain ⟨r, h5, rfl⟩ := (htext o).1 ho
      rw [hrun] at h5
      injection h5 with h5
      subst h5
      rw [hopening]
  · intro h5
    injection h5 with h5 h6
    subst h5; subst h6
    exact ⟨_, (htext _).2 ⟨rep, (hrun _).2 rfl, by rw [hopening]⟩, rfl⟩

/-- **C95** at work: 11 bytes in payloads of 4 are two messages; what `histogram_message_size` and `split_timestamp` say. -/
example (addr : Ctor → UInt8) : ∃ output,
    (∀ out e, DdMain ⟨true, false⟩ addr [[69, 67, 85, 49], [65, 80, 80, 49], [52]] helloWorld out e ↔ out = output ∧ e = .finished 2) ∧
    (∀ num r, RunCmd num output .histogramMessageSize r ↔ r = .ok (.sizes [(38, 2, 0)] 0)) ∧
    (∀ num r, RunCmd num output .splitTimestamp r ↔ r = .ok (.ecus [([69, 67, 85, 49], [(0, 1)], 2)])) := by
  obtain ⟨output, h1, -, h2⟩ := C95_reports ⟨true, false⟩ addr [69, 67, 85, 49] [65, 80, 80, 49] [52] helloWorld [] 4 rfl
    (.one 69 (by decide) rfl (.one 67 (by decide) rfl (.one 85 (by decide) rfl (.one 49 (by decide) rfl .nil)))) rfl
    ⟨[4], by decide, by decide, rfl, .inl rfl⟩ (by decide) (by decide) (by decide)
    (fun p hp => by
      obtain ⟨i, -, rfl⟩ := List.mem_map.1 hp
      exact linesFit_short (by decide) _ i)
  exact ⟨output, h1, h2 .histogramMessageSize _ rfl, h2 .splitTimestamp _ rfl⟩

end Verif
