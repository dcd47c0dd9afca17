import Verif.Spec.Restart
import Verif.Props.ParallelGap
import Verif.Props.Consistent
import Verif.Props.EndToEnd
import Verif.Props.DdParallel

/-!
# C132, C133: how many periods and lifecycles are reported, and logs in order of time
-/

set_option linter.unusedSimpArgs false

namespace Verif

open Spec

/-! ## Counting runs -/

theorem neighbours_cons {α : Type} (p : α → α → Bool) (x y : α) (xs : List α) :
    neighbours p (x :: y :: xs) = (if p x y then 1 else 0) + neighbours p (y :: xs) := by
  unfold neighbours
  simp only [List.tail_cons, List.zip_cons_cons, List.filter_cons]
  split <;> simp <;> omega

theorem runsL_count {α : Type} (f : α → α → Bool) (xs : List α) :
    (runsL f xs).length = if xs = [] then 0 else neighbours (fun a b => !f a b) xs + 1 := by
  induction xs with
  | nil => rfl
  | cons x xs ih =>
    rw [if_neg (by simp)]
    cases xs with
    | nil => rfl
    | cons y xs =>
      rw [if_neg (by simp)] at ih
      obtain ⟨r, rs, h⟩ := runsL_cons f y xs
      rw [runsL_cons_cons f x y xs r rs h, neighbours_cons]
      rw [h] at ih
      cases hf : f x y <;> simp [hf] at ih ⊢ <;> omega

theorem maximalRuns_length {α : Type} {R : α → α → Prop} (p : α → α → Bool) (hp : ∀ a b, p a b = true ↔ ¬ R a b)
    {xs : List α} {runs : List (List α)} (h : MaximalRuns R xs runs) :
    runs.length = if xs = [] then 0 else neighbours p xs + 1 := by
  rw [runs_eq_runsL (fun a b => !p a b) (fun a b => by
    rw [Bool.not_eq_true', ← Bool.not_eq_true, hp, Classical.not_not]) h, runsL_count]
  simp only [Bool.not_not]

theorem neighbours_zero {α : Type} {R : α → α → Prop} (p : α → α → Bool) (hp : ∀ a b, p a b = true ↔ ¬ R a b)
    (htr : ∀ a b c, R a b → R b c → R a c) (xs : List α) : neighbours p xs = 0 ↔ xs.Pairwise R := by
  induction xs with
  | nil => simp [neighbours]
  | cons x xs ih =>
    cases xs with
    | nil => simp [neighbours]
    | cons y xs =>
      rw [neighbours_cons, List.pairwise_cons]
      constructor
      · intro h
        have h1 : ¬ p x y = true := fun h1 => by rw [if_pos h1] at h; omega
        rw [if_neg h1] at h
        rw [hp, Classical.not_not] at h1
        have h2 := ih.1 (by omega)
        refine ⟨fun z hz => ?_, h2⟩
        rcases List.mem_cons.1 hz with rfl | hz
        · exact h1
        · exact htr _ _ _ h1 ((List.pairwise_cons.1 h2).1 z hz)
      · rintro ⟨h1, h2⟩
        have h3 : ¬ p x y = true := by rw [hp, Classical.not_not]; exact h1 y List.mem_cons_self
        rw [if_neg h3, ih.2 h2]

theorem pairwise_next {α : Type} {R : α → α → Prop} {xs : List α} (h : xs.Pairwise R) (i : Nat) (a b : α)
    (ha : xs[i]? = some a) (hb : xs[i + 1]? = some b) : R a b := by
  obtain ⟨h1, rfl⟩ := List.getElem?_eq_some_iff.1 ha
  obtain ⟨h2, rfl⟩ := List.getElem?_eq_some_iff.1 hb
  exact List.pairwise_iff_getElem.1 h i (i + 1) h1 h2 (by omega)

theorem periods_total (m : List (Nat × Nat)) : periods (m.map fun e => (e.1, e.1 + 1, e.2)) = (m.map (·.2)).sum := by
  unfold periods; rw [List.map_map]; rfl

theorem hist_total32 {keys : List Nat} {hist : OrdMap UInt32 Nat} (h : IsHistogram keys (hist.map fun e => (e.1.toNat, e.2))) :
    (hist.map (·.2)).sum = keys.length := by
  have := isHistogram_total h
  rw [List.map_map] at this
  exact this

/-! ## C132 -/

/-- **C132** `histogram_timestamp` shows one period, and one more for every message that is older than the one in front. -/
theorem C132_periods (num : Nat) (bytes : Bytes) (hF : Fits bytes) (msgs : List StorageEntry) (h : Messages bytes msgs)
    (bs : List (Nat × Nat × Nat)) (hr : RunCmd num bytes .histogramTimestamp (.ok (.buckets bs))) :
    periods bs = if msgs = [] then 0 else neighbours (fun a b => decide (secsOf b < secsOf a)) msgs + 1 := by
  obtain ⟨runs, m, h1, h2, rfl⟩ := runs_prints hF h rfl hr
  rw [periods_total, isHistogram_total h2, List.length_map]
  exact maximalRuns_length _ (fun a b => by simp) h1

/-- **C132** `histogram_lifecycles` shows one lifecycle, and one more for every message with a time stamp that is older than the
one in front or of another ECU. -/
theorem C132_lifecycles (num : Nat) (bytes : Bytes) (hF : Fits bytes) (msgs : List StorageEntry) (h : Messages bytes msgs)
    (bs : List (Nat × Nat × Nat)) (hr : RunCmd num bytes .histogramLifecycles (.ok (.buckets bs))) :
    periods bs = if timed msgs = [] then 0
      else neighbours (fun a b => decide (ecuOf a ≠ ecuOf b ∨ time b < time a)) (timed msgs) + 1 := by
  obtain ⟨runs, m, h1, h2, rfl⟩ := runs_prints hF h rfl hr
  rw [periods_total, isHistogram_total h2, List.length_map]
  refine maximalRuns_length _ (fun a b => ?_) h1
  rw [decide_eq_true_eq, Classical.not_and_iff_not_or_not, Nat.not_le]

/-- **C132** `split_lifecycles` shows for every ECU one lifecycle, and one more for every message with a time stamp that is older
than the message of this ECU in front of it; what other ECUs log in between does not count. -/
theorem C132_split (num : Nat) (bytes : Bytes) (hF : Fits bytes) (msgs : List StorageEntry) (h : Messages bytes msgs)
    (es : List (Bytes × (OrdMap UInt32 Nat × Nat))) (hr : RunCmd num bytes .splitLifecycles (.ok (.ecus es))) :
    ∀ id hist n, (id, hist, n) ∈ es → ∃ ecu : B4, id = ecu.toBytes ∧ n = (ofEcu ecu (timed msgs)).length ∧ 0 < n ∧
      (hist.map (·.2)).sum = neighbours (fun a b => decide (time b < time a)) (ofEcu ecu (timed msgs)) + 1 := by
  obtain ⟨m, h1, h2, rfl⟩ := runs_prints hF h rfl hr
  intro id hist n hm
  obtain ⟨⟨ecu, hist', n'⟩, h3, h4⟩ := List.mem_map.1 hm
  simp only [Prod.mk.injEq] at h4
  obtain ⟨rfl, rfl, rfl⟩ := h4
  have h5 := (h1.mem ecu n').1 (List.mem_map.2 ⟨_, h3, rfl⟩)
  have h6 : n' = (ofEcu ecu (timed msgs)).length := by
    rw [h5.2]
    unfold ofEcu
    rw [List.count_eq_length_filter, List.filter_map, List.length_map]
    rfl
  obtain ⟨runs, h7, h8⟩ := h2 ecu hist' n' h3
  refine ⟨ecu, rfl, h6, h5.1, ?_⟩
  rw [hist_total32 h8, List.length_map, maximalRuns_length (fun a b => decide (time b < time a)) (fun a b => by simp) h7,
    if_neg (by intro h9; rw [h9] at h6; have := h5.1; simp at h6; omega)]

/-- **C132** if every ECU's messages with time stamps are a sequence of boots, with a clock that does not go back within a boot
and starts lower than the boot in front ended, `split_lifecycles` shows exactly the boots, however the ECUs are interleaved. -/
theorem C132_boots (num : Nat) (bytes : Bytes) (hF : Fits bytes) (msgs : List StorageEntry) (h : Messages bytes msgs)
    (boots : B4 → List (List StorageEntry)) (hb : ∀ ecu, (boots ecu).flatten = ofEcu ecu (timed msgs))
    (hne : ∀ ecu, ∀ b ∈ boots ecu, b ≠ []) (hup : ∀ ecu, ∀ b ∈ boots ecu, b.Pairwise fun x y => time x ≤ time y)
    (hre : ∀ ecu i b b' x y, (boots ecu)[i]? = some b → (boots ecu)[i + 1]? = some b' → b.getLast? = some x →
      b'.head? = some y → time y < time x)
    (es : List (Bytes × (OrdMap UInt32 Nat × Nat))) (hr : RunCmd num bytes .splitLifecycles (.ok (.ecus es))) :
    ∀ id hist n, (id, hist, n) ∈ es → ∃ ecu : B4, id = ecu.toBytes ∧
      IsHistogram ((boots ecu).map fun b => timeSpanOf b / 10000) (hist.map fun e => (e.1.toNat, e.2)) := by
  obtain ⟨m, h1, h2, rfl⟩ := runs_prints hF h rfl hr
  intro id hist n hm
  obtain ⟨⟨ecu, hist', n'⟩, h3, h4⟩ := List.mem_map.1 hm
  simp only [Prod.mk.injEq] at h4
  obtain ⟨rfl, rfl, rfl⟩ := h4
  obtain ⟨runs, h7, h8⟩ := h2 ecu hist' n' h3
  have hB : MaximalRuns (fun a b => time a ≤ time b) (ofEcu ecu (timed msgs)) (boots ecu) :=
    ⟨hb ecu, hne ecu, fun r hr => pairwise_next (hup ecu r hr), fun i r r' a b g1 g2 g3 g4 => by
      have := hre ecu i r r' a b g1 g2 g3 g4; omega⟩
  have hd : ∀ a b : StorageEntry, decide (time a ≤ time b) = true ↔ time a ≤ time b := fun a b => decide_eq_true_iff
  refine ⟨ecu, rfl, ?_⟩
  rw [runs_eq_runsL _ hd hB, ← runs_eq_runsL _ hd h7]
  exact h8

/-! ## C133 -/

theorem inOrder_iff (msgs : List StorageEntry) :
    neighbours (fun a b => decide (secsOf b < secsOf a)) msgs = 0 ↔ TimeOrder msgs :=
  neighbours_zero (R := fun a b => secsOf a ≤ secsOf b) _ (fun a b => by simp) (fun _ _ _ => Nat.le_trans) msgs

theorem inOrder_runs {msgs : List StorageEntry} (h : TimeOrder msgs) {runs : List (List StorageEntry)}
    (hr : MaximalRuns (fun a b => secsOf a ≤ secsOf b) msgs runs) : runs = if msgs = [] then [] else [msgs] :=
  runs_one hr (pairwise_next h)

theorem single_histogram (d : Nat) : IsHistogram [d] [(d, 1)] := by
  refine ⟨List.pairwise_singleton .., fun k v => ?_⟩
  simp only [List.mem_singleton, Prod.mk.injEq, List.count_cons, List.count_nil]
  by_cases hk : d = k
  · subst hk; simp; omega
  · have : ¬ k = d := fun h => hk h.symm
    simp [hk, this]; omega

/-- **C133** `histogram_timestamp` shows a single period if and only if there is a message and the messages are in order of time;
and then it is the time from the first message to the last. -/
theorem C133_one_period_iff (num : Nat) (bytes : Bytes) (hF : Fits bytes) (msgs : List StorageEntry) (h : Messages bytes msgs)
    (bs : List (Nat × Nat × Nat)) (hr : RunCmd num bytes .histogramTimestamp (.ok (.buckets bs))) :
    (periods bs = 1 ↔ msgs ≠ [] ∧ TimeOrder msgs) ∧
    ∀ a b, msgs.head? = some a → msgs.getLast? = some b → TimeOrder msgs →
      bs = [(secsOf b - secsOf a, secsOf b - secsOf a + 1, 1)] := by
  constructor
  · rw [C132_periods num bytes hF msgs h bs hr, ← inOrder_iff]
    by_cases h0 : msgs = []
    · simp [h0]
    · rw [if_neg h0]; simp [h0]
  · intro a b ha hb ho
    obtain ⟨runs, m, h1, h2, rfl⟩ := runs_prints hF h rfl hr
    have h3 := inOrder_runs ho h1
    rw [if_neg (by rintro rfl; cases ha)] at h3
    subst h3
    have h4 : secSpanOf msgs = secsOf b - secsOf a := by unfold secSpanOf; rw [ha, hb]
    rw [List.map_singleton, h4] at h2
    rw [isHistogram_unique h2 (single_histogram _)]
    rfl

/-- One run gives one span. -/
theorem inOrder_spans {msgs : List StorageEntry} (ho : TimeOrder msgs) {runs : List (List StorageEntry)} {spans : List (Nat × Nat)}
    (hs : EcuSpans msgs runs spans) {a b : StorageEntry} (ha : msgs.head? = some a) (hb : msgs.getLast? = some b) :
    spans = [(secsOf a, secsOf b)] := by
  have hr := inOrder_runs ho hs.isRuns
  rw [if_neg (by rintro rfl; cases ha)] at hr
  subst hr
  have hab : secsOf a ≤ secsOf b := by
    cases msgs with
    | nil => cases ha
    | cons x xs =>
      injection ha with ha
      subst ha
      rcases List.mem_cons.1 (List.mem_of_getLast? hb) with h1 | h1
      · rw [h1]; exact Nat.le_refl _
      · exact (List.pairwise_cons.1 ho).1 b h1
  have hcov : ∀ t, (∃ s ∈ spans, Covers s.1 s.2 t) ↔ Covers (secsOf a) (secsOf b) t := by
    intro t
    rw [hs.cover]
    constructor
    · rintro ⟨r, hr, x, y, h5, h6, h7⟩
      rw [List.mem_singleton] at hr
      subst hr
      rw [ha] at h5; rw [hb] at h6
      injection h5 with h5; injection h6 with h6
      subst h5; subst h6
      exact h7
    · intro ht
      exact ⟨msgs, List.mem_singleton.2 rfl, a, b, ha, hb, ht⟩
  have hfew := hs.few
  match spans, hfew, hcov, hs with
  | [], _, hcov, _ =>
    obtain ⟨s, hs, _⟩ := (hcov (secsOf a)).2 ⟨Nat.le_refl _, hab⟩
    cases hs
  | [s], _, hcov, hs =>
    have hord := hs.ordered s List.mem_cons_self
    have key : ∀ t, Covers s.1 s.2 t ↔ Covers (secsOf a) (secsOf b) t := fun t => by rw [← hcov t]; simp
    have k1 := (key (secsOf a)).2 ⟨Nat.le_refl _, hab⟩
    have k2 := (key (secsOf b)).2 ⟨hab, Nat.le_refl _⟩
    have k3 := (key s.1).1 ⟨Nat.le_refl _, hord⟩
    have k4 := (key s.2).1 ⟨hord, Nat.le_refl _⟩
    unfold Covers at *
    congr 1
    exact Prod.ext (by simp only; omega) (by simp only; omega)
  | _ :: _ :: _, hfew, _, _ => simp at hfew

/-- **C133** in a log in order of time `split_timestamp` shows one period for each ECU, from its first message to its last. -/
theorem C133_split (num : Nat) (bytes : Bytes) (hF : Fits bytes) (msgs : List StorageEntry) (h : Messages bytes msgs)
    (ho : TimeOrder msgs) (es : List (Bytes × (OrdMap UInt32 Nat × Nat)))
    (hr : RunCmd num bytes .splitTimestamp (.ok (.ecus es))) :
    ∀ id hist n, (id, hist, n) ∈ es → ∃ (ecu : B4) (a b : StorageEntry), id = ecu.toBytes ∧
      (ofEcu ecu msgs).head? = some a ∧ (ofEcu ecu msgs).getLast? = some b ∧
      hist = [(b.storageHeader.secs - a.storageHeader.secs, 1)] := by
  obtain ⟨m, h1, h2, rfl⟩ := runs_prints hF h rfl hr
  intro id hist n hm
  obtain ⟨⟨ecu, hist', n'⟩, h3, h4⟩ := List.mem_map.1 hm
  simp only [Prod.mk.injEq] at h4
  obtain ⟨rfl, rfl, rfl⟩ := h4
  obtain ⟨runs, spans, h7, h8⟩ := h2 ecu hist' n' h3
  have h5 := (h1.mem ecu n').1 (List.mem_map.2 ⟨_, h3, rfl⟩)
  have hne : ofEcu ecu msgs ≠ [] := by
    have h6 : ecu ∈ msgs.map fun e => e.storageHeader.ecu := List.count_pos_iff.1 (h5.2 ▸ h5.1)
    obtain ⟨e, he, he'⟩ := List.mem_map.1 h6
    exact List.ne_nil_of_mem (a := e) (List.mem_filter.2 ⟨he, by simpa using he'⟩)
  obtain ⟨a, t, hat⟩ := List.exists_cons_of_ne_nil hne
  have ha : (ofEcu ecu msgs).head? = some a := by rw [hat]; rfl
  have hb := List.getLast?_eq_some_getLast hne
  generalize (ofEcu ecu msgs).getLast hne = b at hb
  have hoe : TimeOrder (ofEcu ecu msgs) := List.Pairwise.filter _ ho
  have hsp := inOrder_spans hoe h7 ha hb
  refine ⟨ecu, a, b, rfl, ha, hb, ?_⟩
  rw [hsp, List.map_singleton] at h8
  rw [hist_u32 h8]
  have hab : secsOf a ≤ secsOf b := h7.ordered (secsOf a, secsOf b) (by rw [hsp]; exact List.mem_cons_self)
  congr 2
  unfold secsOf at *
  apply UInt32.toNat_inj.1
  rw [UInt32.toNat_sub_of_le _ _ (UInt32.le_iff_toNat_le.2 hab), UInt32.toNat_ofNat_of_lt' (by
    have := b.storageHeader.secs.toNat_lt
    simp only [UInt32.size]
    omega)]

/-! ### On several threads -/

/-- The one line of an ECU in the table of a file in order of time. -/
theorem inOrder_table {s : Bytes} (hF : Fits s) {ms : List StorageEntry} (hm : Messages s ms) (ho : TimeOrder ms)
    {ecu : B4} {hist : OrdMap UInt32 Nat} {n : Nat} (he : (ecu, hist, n) ∈ tableOfFile s) :
    ofEcu ecu ms ≠ [] ∧ hist = [(UInt32.ofNat (secSpanOf (ofEcu ecu ms)), 1)] := by
  obtain ⟨m, h1, h2, h3, h4⟩ := C47_split_timestamp s hF ms hm
  have ht : tableOfFile s = m := by unfold tableOfFile; rw [h1]
  rw [ht] at he
  obtain ⟨h5, runs, spans, h7, h8⟩ := h4 ecu hist n he
  have h6 := ((h2.mem ecu n).1 (List.mem_map.2 ⟨_, he, rfl⟩)).1
  have hne : ofEcu ecu ms ≠ [] := by
    intro h0
    rw [h0] at h5
    simp at h5
    omega
  refine ⟨hne, ?_⟩
  obtain ⟨a, t, hat⟩ := List.exists_cons_of_ne_nil hne
  have ha : (ofEcu ecu ms).head? = some a := by rw [hat]; rfl
  have hb := List.getLast?_eq_some_getLast hne
  generalize (ofEcu ecu ms).getLast hne = b at hb
  have hoe : TimeOrder (ofEcu ecu ms) := List.Pairwise.filter _ ho
  rw [inOrder_spans hoe h7 ha hb, List.map_singleton] at h8
  rw [hist_u32 h8]
  have h9 : secSpanOf (ofEcu ecu ms) = secsOf b - secsOf a := by unfold secSpanOf; rw [ha, hb]
  rw [h9]

theorem keys_single {keys : List UInt32} {x : UInt32} (h : IsHistogram keys [(x, 1)]) : keys = [x] := by
  have h1 := isHistogram_total h
  simp only [List.map_cons, List.map_nil, List.sum_cons, List.sum_nil, Nat.add_zero] at h1
  match keys, h1 with
  | [y], _ =>
    have h2 := ((h.mem x 1).1 List.mem_cons_self).2
    have h3 : x ∈ [y] := List.count_pos_iff.1 (by omega)
    rw [List.mem_singleton.1 h3]

/-- The durations of an ECU in a slice in order of time. -/
theorem inOrder_items {s : Bytes} (hF : Fits s) {ms : List StorageEntry} (hm : Messages s ms) (ho : TimeOrder ms) (ecu : B4) :
    ((itemsOf (tableOfFile s)).filterMap fun x => if x.1 = ecu then x.2 else none) =
      (([ofEcu ecu ms].filter (· ≠ [])).map fun g => UInt32.ofNat (secSpanOf g)) := by
  have ht := (timestampSplit_table hF).2.1
  by_cases hk : ∃ v, (ecu, v) ∈ tableOfFile s
  · obtain ⟨⟨hist, n⟩, he⟩ := hk
    obtain ⟨h1, h2⟩ := inOrder_table hF hm ho he
    have h3 := ht.hist _ _ _ he
    rw [h2] at h3
    rw [keys_single h3]
    simp [h1]
  · have h0 : ofEcu ecu ms = [] := by
      obtain ⟨m, h1, h2, h3, h4⟩ := C47_split_timestamp s hF ms hm
      have htm : tableOfFile s = m := by unfold tableOfFile; rw [h1]
      rw [htm] at hk
      refine Classical.byContradiction fun hne => hk ?_
      obtain ⟨a, t, hat⟩ := List.exists_cons_of_ne_nil hne
      have ham : a ∈ ofEcu ecu ms := by rw [hat]; exact List.mem_cons_self
      have h5 := List.mem_filter.1 ham
      have h6 : a.storageHeader.ecu = ecu := by simpa using h5.2
      have h7 : 0 < (ms.map fun e => e.storageHeader.ecu).count ecu :=
        List.count_pos_iff.2 (List.mem_map.2 ⟨a, h5.1, h6⟩)
      obtain ⟨e, he, heq⟩ := List.mem_map.1 ((h2.mem ecu _).2 ⟨h7, rfl⟩)
      injection heq with h8 h9
      exact ⟨e.2, by rw [← h8]; exact he⟩
    have h1 : ∀ x ∈ itemsOf (tableOfFile s), ¬ x.1 = ecu := fun x hx hxe => hk ((ht.keys ecu).2 ⟨x, hx, hxe⟩)
    rw [List.filterMap_eq_nil_iff.2 fun x hx => by rw [if_neg (h1 x hx)], h0]
    rfl

theorem slices_items (ecu : B4) : ∀ {slices : List Bytes} {mss : List (List StorageEntry)}, (∀ s ∈ slices, Fits s) →
    Each Messages slices mss → (∀ ms ∈ mss, TimeOrder ms) →
    ((slices.map fun s => itemsOf (tableOfFile s)).flatten.filterMap fun x => if x.1 = ecu then x.2 else none) =
      (((mss.map (ofEcu ecu)).filter (· ≠ [])).map fun g => UInt32.ofNat (secSpanOf g))
  | [], [], _, _, _ => rfl
  | [], _ :: _, _, h, _ => h.elim
  | _ :: _, [], _, h, _ => h.elim
  | s :: slices, ms :: mss, hf, h, ho => by
    rw [List.map_cons, List.flatten_cons, List.filterMap_append, inOrder_items (hf s List.mem_cons_self) h.1 (ho ms List.mem_cons_self),
      slices_items ecu (fun s hs => hf s (List.mem_cons_of_mem _ hs)) h.2 (fun m hm => ho m (List.mem_cons_of_mem _ hm)),
      ← List.map_append, ← List.filter_append]
    rfl

/-- Durations as numbers. -/
theorem hist_ofU32 {keys : List Nat} (hk : ∀ k ∈ keys, k < 2 ^ 32) {hist : OrdMap UInt32 Nat}
    (h : IsHistogram (keys.map UInt32.ofNat) hist) : IsHistogram keys (hist.map fun e => (e.1.toNat, e.2)) := by
  have hcount : ∀ x : UInt32, (keys.map UInt32.ofNat).count x = keys.count x.toNat := by
    intro x
    clear h
    induction keys with
    | nil => rfl
    | cons b keys ih =>
      rw [List.map_cons, List.count_cons, List.count_cons, ih fun k hk' => hk k (List.mem_cons_of_mem _ hk')]
      congr 1
      have hb := hk b List.mem_cons_self
      by_cases hab : b = x.toNat
      · subst hab; simp
      · have : UInt32.ofNat b ≠ x := fun h1 => hab (by rw [← h1, UInt32.toNat_ofNat_of_lt' hb])
        rw [if_neg (by simpa using this), if_neg (by simpa using hab)]
  refine ⟨?_, fun k v => ?_⟩
  · rw [List.pairwise_map]
    exact h.sorted
  · rw [List.mem_map]
    constructor
    · rintro ⟨⟨x, v'⟩, hm, heq⟩
      injection heq with h1 h2
      simp only at h1 h2
      subst h1; subst h2
      have := (h.mem x v').1 hm
      rw [hcount] at this
      exact this
    · rintro ⟨h1, h2⟩
      have hkm : k ∈ keys := List.count_pos_iff.1 (by omega)
      have hk2 : (UInt32.ofNat k).toNat = k := UInt32.toNat_ofNat_of_lt' (hk k hkm)
      refine ⟨(UInt32.ofNat k, v), (h.mem _ _).2 ⟨h1, ?_⟩, by simp only [hk2]⟩
      rw [hcount, hk2]
      exact h2

theorem inOrder_slice {segs : List StorageEntry} (ho : TimeOrder segs) {mss : List (List StorageEntry)} {ys : List StorageEntry}
    (h : segs = mss.flatten ++ ys) : ∀ ms ∈ mss, TimeOrder ms := by
  intro ms hms
  subst h
  exact List.Pairwise.sublist (List.sublist_flatten_of_mem hms) (List.pairwise_append.1 ho).1

theorem inOrder_all_runs : ∀ {mss : List (List StorageEntry)}, (∀ ms ∈ mss, TimeOrder ms) →
    (mss.map (runsL fun a b : StorageEntry => decide (a.secs ≤ b.secs))).flatten = mss.filter (· ≠ [])
  | [], _ => rfl
  | ms :: mss, ho => by
    rw [List.map_cons, List.flatten_cons, inOrder_all_runs fun m hm => ho m (List.mem_cons_of_mem _ hm),
      inOrder_runs (ho ms List.mem_cons_self) (secs_runs ms)]
    by_cases h0 : ms = []
    · simp [h0]
    · simp [h0]

variable {segs : List (Bytes × StorageEntry)} {t : Bytes}

/-- **C133** on a log in order of time `par_histogram_timestamp` shows one period for each slice that holds a message, from its
first message to its last, where `histogram_timestamp` shows one period for the whole log. -/
theorem C133_par_periods (hc : Clean segs t) (hF : Fits (fileOf segs t)) (hmax : AtMost 65536 (messagesAt 0 segs))
    (hns : NoStraddle (fileOf segs t) (messagesAt 0 segs)) (num : Nat) (hnum : num ≠ 0) (ho : TimeOrder (segs.map (·.2))) :
    ∃ slices mss ps, partitionFrom dltStorage (fileOf segs t) num = .ok slices ∧ Each Messages slices mss ∧
      (∀ r, RunCmd num (fileOf segs t) .parHistogramTimestamp r ↔ r = .ok (.buckets ps)) ∧
      (∃ m, IsHistogram ((mss.filter (· ≠ [])).map secSpanOf) m ∧ ps = m.map fun e => (e.1, e.1 + 1, e.2)) ∧
      periods ps = (mss.filter (· ≠ [])).length := by
  obtain ⟨slices, mss, ys, h1, h2, h3, h4⟩ := log_messages hc hF hmax hns num hnum
  obtain ⟨slices', runss, m, h5, h6, h7, h8⟩ := C35_par_histogram (fileOf segs t) num hnum hF
  rw [h1] at h5
  cases h5
  rw [runss_of_messages h2 h7, inOrder_all_runs (inOrder_slice ho h3)] at h8
  have hb : bucketReport m = .ok (.buckets (m.map fun e => (e.1, e.1 + 1, e.2))) := by
    unfold bucketReport
    rw [bucketLines_ok m fun e he => ?_]
    · rfl
    · obtain ⟨h9, h10⟩ := (h8.mem e.1 e.2).1 he
      obtain ⟨r, -, hr⟩ := List.mem_map.1 (List.count_pos_iff.1 (h10 ▸ h9))
      rw [← hr]
      exact secSpanOf_lt r
  refine ⟨slices, mss, _, h1, h2, fun r => ?_, ⟨m, h8, rfl⟩, ?_⟩
  · constructor
    · rintro ⟨q, hq, rfl⟩
      rw [(h6 q).1 hq]
      exact hb
    · rintro rfl
      exact ⟨_, (h6 _).2 rfl, hb.symm⟩
  · rw [periods_total, isHistogram_total h8, List.length_map]

/-- **C133** on a log in order of time `par_split_timestamp` shows for each ECU one period for each slice that holds a message of
it, where `split_timestamp` shows one. -/
theorem C133_par_split (hc : Clean segs t) (hF : Fits (fileOf segs t)) (hmax : AtMost 65536 (messagesAt 0 segs))
    (hns : NoStraddle (fileOf segs t) (messagesAt 0 segs)) (num : Nat) (hnum : num ≠ 0) (ho : TimeOrder (segs.map (·.2)))
    (es : List (Bytes × (OrdMap UInt32 Nat × Nat))) (hr : RunCmd num (fileOf segs t) .parSplitTimestamp (.ok (.ecus es))) :
    ∃ slices mss, partitionFrom dltStorage (fileOf segs t) num = .ok slices ∧ Each Messages slices mss ∧
      ∀ id hist n, (id, hist, n) ∈ es → ∃ ecu : B4, id = ecu.toBytes ∧
        IsHistogram (((mss.map (ofEcu ecu)).filter (· ≠ [])).map secSpanOf) (hist.map fun e => (e.1.toNat, e.2)) ∧
        (hist.map (·.2)).sum = ((mss.map (ofEcu ecu)).filter (· ≠ [])).length := by
  obtain ⟨slices, mss, ys, h1, h2, h3, h4⟩ := log_messages hc hF hmax hns num hnum
  obtain ⟨m, h5, h6⟩ := par_split_table hF h1
  refine ⟨slices, mss, h1, h2, fun id hist n hm => ?_⟩
  obtain ⟨q, hq, hqr⟩ := hr
  rw [(h5 q).1 hq] at hqr
  have h7 : ecuReport m = .ok (.ecus es) := hqr.symm
  have hu : ∀ e ∈ m, Utf8 e.1.toBytes := by
    refine Classical.byContradiction fun hu => ?_
    have : ecuLines m = .panic := (ecuLines_eq m).1.2 (by
      refine Classical.byContradiction fun hn => hu fun e he => Classical.byContradiction fun hx => hn ⟨e, he, hx⟩)
    unfold ecuReport at h7
    rw [this] at h7
    cases h7
  unfold ecuReport at h7
  rw [(ecuLines_eq m).2 hu] at h7
  injection h7 with h7
  injection h7 with h7
  rw [← h7] at hm
  obtain ⟨⟨ecu, hist', n'⟩, h8, h9⟩ := List.mem_map.1 hm
  simp only [Prod.mk.injEq] at h9
  obtain ⟨rfl, rfl, rfl⟩ := h9
  have h10 := h6.hist _ _ _ h8
  rw [slices_items ecu (partition_fits hF h1).2 h2 (inOrder_slice ho h3)] at h10
  have h11 := hist_ofU32 (keys := ((mss.map (ofEcu ecu)).filter (· ≠ [])).map secSpanOf) (by
    intro k hk
    obtain ⟨g, -, rfl⟩ := List.mem_map.1 hk
    exact secSpanOf_lt g) (by rw [List.map_map]; exact h10)
  exact ⟨ecu, rfl, h11, by rw [hist_total32 h11, List.length_map]⟩

/-! ## Examples -/

/-- A message of ECU `x` with time stamp `s`. -/
def bootMsg (x s : UInt8) : StorageEntry :=
  ⟨⟨⟨68, 76, 84, 1⟩, 0, 0, ⟨69, 67, 85, x⟩⟩, ⟨⟨⟨0x34⟩, 0, 12⟩, [69, 67, 85, x, 0, 0, 0, s]⟩⟩

/-- Two ECUs in turns; the first of them starts again. -/
def twoEcus : List StorageEntry := [bootMsg 65 1, bootMsg 66 1, bootMsg 65 2, bootMsg 66 2, bootMsg 65 0, bootMsg 66 3]

theorem twoEcus_wf : ∀ e ∈ twoEcus, WF e := by decide
theorem twoEcus_fits : Fits (packed twoEcus) := by decide +kernel

/-- **C132** at work: `histogram_lifecycles` shows six lifecycles, since the messages come in turns, `split_lifecycles` two and
one. -/
example (num : Nat) : ∃ bs es, RunCmd num (packed twoEcus) .histogramLifecycles (.ok (.buckets bs)) ∧ periods bs = 6 ∧
    RunCmd num (packed twoEcus) .splitLifecycles (.ok (.ecus es)) ∧
    ∀ id hist n, (id, hist, n) ∈ es →
      (id = [69, 67, 85, 65] ∧ n = 3 ∧ (hist.map (·.2)).sum = 2) ∨ (id = [69, 67, 85, 66] ∧ n = 3 ∧ (hist.map (·.2)).sum = 1) := by
  have hF := twoEcus_fits
  have hm := messages_packed twoEcus_wf
  have key : ∀ c, sequential c = true → ∃ rep, Prints (packed twoEcus) twoEcus c rep ∧
      RunCmd num (packed twoEcus) c (.ok rep) := by
    intro c hc
    obtain ⟨rep, h1, h2⟩ := C68_sequential_prints num _ hF _ hm c hc fun hp =>
      C67_complete_files num _ hF _ hm (by decide)
        (fun e he => by
          have : utf8Valid e.storageHeader.ecu.toBytes = true := by revert e; decide
          exact (utf8Valid_iff _).1 this) c hc
        ((C67_sequential_panics num _ hF _ hm c hc).2 hp)
    exact ⟨rep, h1, (h2 _).2 rfl⟩
  obtain ⟨r1, p1, h1⟩ := key .histogramLifecycles rfl
  obtain ⟨r2, p2, h2⟩ := key .splitLifecycles rfl
  cases r1 <;> try cases p1
  cases r2 <;> try cases p2
  refine ⟨_, _, h1, ?_, h2, fun id hist n he => ?_⟩
  · rw [C132_lifecycles num _ hF _ hm _ h1]; decide
  · obtain ⟨ecu, e1, e2, e3, e4⟩ := C132_split num _ hF _ hm _ h2 id hist n he
    by_cases ha : ecu = ⟨69, 67, 85, 65⟩
    · subst ha; exact .inl ⟨e1, e2, e4⟩
    by_cases hb : ecu = ⟨69, 67, 85, 66⟩
    · subst hb; exact .inr ⟨e1, e2, e4⟩
    exfalso
    have : ofEcu ecu (timed twoEcus) = [] := by
      unfold ofEcu
      rw [List.filter_eq_nil_iff]
      have hall : ∀ e ∈ timed twoEcus, e.storageHeader.ecu = ⟨69, 67, 85, 65⟩ ∨ e.storageHeader.ecu = ⟨69, 67, 85, 66⟩ := by decide
      intro e hx hd
      rw [decide_eq_true_eq] at hd
      rcases hall e hx with h | h <;> rw [hd] at h
      · exact ha h
      · exact hb h
    rw [this] at e2
    simp at e2
    omega

/-- The boots of the two ECUs. -/
def twoBoots (ecu : B4) : List (List StorageEntry) :=
  if ecu = ⟨69, 67, 85, 65⟩ then [[bootMsg 65 1, bootMsg 65 2], [bootMsg 65 0]]
  else if ecu = ⟨69, 67, 85, 66⟩ then [[bootMsg 66 1, bootMsg 66 2, bootMsg 66 3]] else []

/-- **C132** these boots are as `C132_boots` requires. -/
example : (∀ ecu, (twoBoots ecu).flatten = ofEcu ecu (timed twoEcus)) ∧ (∀ ecu, ∀ b ∈ twoBoots ecu, b ≠ []) ∧
    (∀ ecu, ∀ b ∈ twoBoots ecu, b.Pairwise fun x y => time x ≤ time y) ∧
    (∀ ecu i b b' x y, (twoBoots ecu)[i]? = some b → (twoBoots ecu)[i + 1]? = some b' → b.getLast? = some x →
      b'.head? = some y → time y < time x) := by
  refine ⟨fun ecu => ?_, fun ecu => ?_, fun ecu => ?_, fun ecu i b b' x y h1 h2 h3 h4 => ?_⟩
  · unfold twoBoots
    split
    · next h => subst h; rfl
    · next ha =>
      split
      · next h => subst h; rfl
      · next hb =>
        symm
        unfold ofEcu
        rw [List.flatten_nil, List.filter_eq_nil_iff]
        have hall : ∀ e ∈ timed twoEcus, e.storageHeader.ecu = ⟨69, 67, 85, 65⟩ ∨ e.storageHeader.ecu = ⟨69, 67, 85, 66⟩ := by decide
        intro e hx hd
        rw [decide_eq_true_eq] at hd
        rcases hall e hx with h | h <;> rw [hd] at h
        · exact ha h
        · exact hb h
  · unfold twoBoots; split; · decide
    split <;> decide
  · unfold twoBoots; split; · decide
    split <;> decide
  · unfold twoBoots at h1 h2
    by_cases ha : ecu = ⟨69, 67, 85, 65⟩
    · rw [if_pos ha] at h1 h2
      match i, h1, h2 with
      | 0, h1, h2 =>
        cases h1; cases h2; cases h3; cases h4
        decide
      | 1, h1, h2 => cases h2
    rw [if_neg ha] at h1 h2
    by_cases hb : ecu = ⟨69, 67, 85, 66⟩
    · rw [if_pos hb] at h1 h2
      match i, h1, h2 with
      | 0, h1, h2 => cases h2
    · rw [if_neg hb] at h1; cases h1

/-- **C132** what does not show: an ECU that starts again with a clock as far on as before is one lifecycle. -/
example (bs : List (Nat × Nat × Nat))
    (hr : RunCmd 1 (packed [bootMsg 65 1, bootMsg 65 2, bootMsg 65 2, bootMsg 65 9]) .histogramLifecycles (.ok (.buckets bs))) :
    periods bs = 1 := by
  rw [C132_lifecycles 1 _ (by decide) _ (messages_packed (by decide)) bs hr]; decide

/-- **C133** at work: four messages in order of time, one period of 8 seconds, and two of 4 on two threads. -/
example : TimeOrder (four 1 5 5 9) ∧
    (∀ bs, RunCmd 1 (packed (four 1 5 5 9)) .histogramTimestamp (.ok (.buckets bs)) → bs = [(8, 9, 1)]) ∧
    ∃ ps, RunCmd 2 (packed (four 1 5 5 9)) .parHistogramTimestamp (.ok (.buckets ps)) ∧ periods ps = 2 := by
  have ho : TimeOrder (four 1 5 5 9) := by unfold TimeOrder; decide
  refine ⟨ho, fun bs hr => ?_, ?_⟩
  · exact (C133_one_period_iff 1 _ (four_fits 1 5 5 9) _ (messages_packed (four_wf 1 5 5 9)) bs hr).2 _ _ rfl rfl ho
  · have hF := four_fits 1 5 5 9
    have hns := noStraddle_packed (four_wf 1 5 5 9)
    have hmx := four_max 1 5 5 9
    rw [← fileOf_packed] at hF hns
    rw [← messagesAt_packed] at hns hmx
    obtain ⟨slices, mss, ps, h1, h2, h3, -, h4⟩ := C133_par_periods (clean_packed (four_wf 1 5 5 9)) hF hmx hns 2 (by decide) ho
    rw [fileOf_packed] at h1 h3
    rw [(four_slices 1 5 5 9).1] at h1
    cases h1
    rw [each_messages_unique h2 (four_messages 1 5 5 9)] at h4
    exact ⟨ps, (h3 _).2 rfl, h4⟩

end Verif
