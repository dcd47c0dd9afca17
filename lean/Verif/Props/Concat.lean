import Verif.Props.Consistent

/-! # C114: what the commands report on two logs written one after the other -/

set_option linter.unusedSimpArgs false

namespace Verif

open Spec

namespace Spec

/-- The number a histogram shows for a key (0 if it has no line for it). -/
def shown {κ : Type} [DecidableEq κ] (ls : List (κ × Nat)) (k : κ) : Nat := (ls.map fun l => if l.1 = k then l.2 else 0).sum

/-- The sequential reader reads the file to its last byte. -/
def ReadToEnd (bytes : Bytes) : Prop :=
  ∃ items, Collects (dltitOffsetNext bytes) 0 items ∧ endOf StorageEntry.len 0 items = bytes.length

end Spec

/-- The messages of the two files, one after the other. -/
theorem messages_concat {a b : Bytes} (hF : Fits (a ++ b)) (he : ReadToEnd a) {xs ys : List StorageEntry}
    (hx : Messages a xs) (hy : Messages b ys) : Messages (a ++ b) (xs ++ ys) := by
  have hl : a.length + b.length < 2 ^ 63 := by
    have := fits_le hF; rwa [List.length_append] at this
  have hFa : Fits a := by unfold Fits; omega
  obtain ⟨items, h1, h2⟩ := he
  have hs := dltit_scan hFa h1
  obtain ⟨jtems, h3, rfl⟩ := hy
  have := hs.append dlt_lawful h2 h3
  refine ⟨_, this, ?_⟩
  rw [messages_unique hx ⟨items, hs, rfl⟩, List.map_append]
  congr 1
  unfold Spec.shift
  rw [List.map_map]
  rfl

theorem shown_histogram {κ : Type} [Key κ] [DecidableEq κ] {keys : List κ} {m : OrdMap κ Nat} (h : IsHistogram keys m) (k : κ) :
    shown m k = keys.count k := by
  obtain ⟨h1, -, h2⟩ := isHistogram_iff.1 h
  rw [← h2 k, ← tot_sorted h1 k]
  rfl

theorem shown_histogram_append {κ : Type} [Key κ] [DecidableEq κ] {xs ys : List κ} {m p q : OrdMap κ Nat}
    (h1 : IsHistogram xs p) (h2 : IsHistogram ys q) (h : IsHistogram (xs ++ ys) m) (k : κ) :
    shown m k = shown p k + shown q k := by
  rw [shown_histogram h, shown_histogram h1, shown_histogram h2, List.count_append]

/-- Joining two sequences of messages: the number of periods, and their histogram if no two periods are joined. -/
theorem periods_join {f : StorageEntry → StorageEntry → Bool} {R : StorageEntry → StorageEntry → Prop} [DecidableRel R]
    (hf : ∀ a b, f a b = true ↔ R a b) {xs ys : List StorageEntry} {e e' : StorageEntry} (hl : xs.getLast? = some e)
    (hh : ys.head? = some e') {r1 r2 r3 : List (List StorageEntry)} (h1 : MaximalRuns R xs r1) (h2 : MaximalRuns R ys r2)
    (h3 : MaximalRuns R (xs ++ ys) r3) {g : List StorageEntry → Nat} {m1 m2 m3 : List (Nat × Nat)}
    (g1 : IsHistogram (r1.map g) m1) (g2 : IsHistogram (r2.map g) m2) (g3 : IsHistogram (r3.map g) m3) :
    ((m3.map fun l => (l.1, l.1 + 1, l.2)).map (·.2.2)).sum + (if R e e' then 1 else 0) =
      ((m1.map fun l => (l.1, l.1 + 1, l.2)).map (·.2.2)).sum + ((m2.map fun l => (l.1, l.1 + 1, l.2)).map (·.2.2)).sum ∧
    (¬ R e e' → ∀ k, shown ((m3.map fun l => (l.1, l.1 + 1, l.2)).map fun l => (l.1, l.2.2)) k =
      shown ((m1.map fun l => (l.1, l.1 + 1, l.2)).map fun l => (l.1, l.2.2)) k +
      shown ((m2.map fun l => (l.1, l.1 + 1, l.2)).map fun l => (l.1, l.2.2)) k) := by
  have htot : ∀ m : List (Nat × Nat), ((m.map fun e => (e.1, e.1 + 1, e.2)).map (·.2.2)).sum = (m.map (·.2)).sum := fun m => by
    rw [List.map_map]; rfl
  have hid : ∀ m : List (Nat × Nat), (m.map fun e => (e.1, e.1 + 1, e.2)).map (fun l => (l.1, l.2.2)) = m := fun m => by
    rw [List.map_map]; exact List.map_id _
  have e1 := runs_eq_runsL f hf h1
  have e2 := runs_eq_runsL f hf h2
  have e3 := runs_eq_runsL f hf h3
  constructor
  · rw [htot, htot, htot, isHistogram_total g1, isHistogram_total g2, isHistogram_total g3, List.length_map, List.length_map,
      List.length_map, e1, e2, e3, ← runsL_append f xs ys e e' hl hh]
    simp only [hf]
  · intro hn k
    rw [hid, hid, hid]
    refine shown_histogram_append g1 g2 ?_ k
    rw [← List.map_append, e1, e2, ← runsL_append_apart f xs ys e e' hl hh
      (by cases h : f e e' with | false => rfl | true => exact absurd ((hf _ _).1 h) hn), ← e3]
    exact g3

section
variable {a b : Bytes} {num : Nat}

theorem fits_parts (hF : Fits (a ++ b)) : Fits a ∧ Fits b := by
  have := fits_le hF
  rw [List.length_append] at this
  exact ⟨by unfold Fits; omega, by unfold Fits; omega⟩

/-- **C114** panics: on the joined log a command panics exactly if it panics on one of the two, except for `itertools`,
which does not need the time stamp of the last message and may need it if another one follows. -/
theorem C114_panics (hF : Fits (a ++ b)) (he : ReadToEnd a) (c : Cmd) (hc : sequential c = true) :
    (RunCmd num a c .panic ∨ RunCmd num b c .panic → RunCmd num (a ++ b) c .panic) ∧
    (c ≠ .itertools → RunCmd num (a ++ b) c .panic → RunCmd num a c .panic ∨ RunCmd num b c .panic) := by
  obtain ⟨hFa, hFb⟩ := fits_parts hF
  obtain ⟨xs, hx⟩ := messages_exists hFa
  obtain ⟨ys, hy⟩ := messages_exists hFb
  have hxy := messages_concat hF he hx hy
  rw [C67_sequential_panics num a hFa xs hx c hc, C67_sequential_panics num b hFb ys hy c hc,
    C67_sequential_panics num (a ++ b) hF _ hxy c hc]
  have ht : timed (xs ++ ys) = timed xs ++ timed ys := List.filter_append _ _
  cases c <;> first | (exact absurd hc (by decide)) | skip
  case itertools =>
    refine ⟨?_, fun h => absurd rfl h⟩
    rintro (⟨e, he, hn⟩ | ⟨e, he, hn⟩)
    · refine ⟨e, ?_, hn⟩
      rw [ht, List.dropLast_append]
      split
      · exact he
      · exact List.mem_append_left _ (List.dropLast_subset _ he)
    · refine ⟨e, ?_, hn⟩
      rw [ht, List.dropLast_append]
      split
      · rename_i hnil
        rw [List.isEmpty_iff.1 hnil] at he
        simp at he
      · exact List.mem_append_right _ he
  all_goals
    simp only [Panics, ht, List.mem_append, or_false, or_imp, exists_or, or_and_right, imp_self, implies_true, and_self,
      false_implies, ne_eq, not_false_eq_true]
  all_goals exact ⟨⟨.inl, .inr⟩, fun _ h => h⟩

/-- A command that reports on both logs reports on the joined log. -/
theorem runs_joined (hF : Fits (a ++ b)) (he : ReadToEnd a) {xs ys : List StorageEntry} (hx : Messages a xs)
    (hy : Messages b ys) (c : Cmd) (r s : Report) (hc : sequential c = true) (hne : c ≠ .itertools)
    (h1 : RunCmd num a c (.ok r)) (h2 : RunCmd num b c (.ok s)) :
    ∃ rep, Prints (a ++ b) (xs ++ ys) c rep ∧ RunCmd num (a ++ b) c (.ok rep) := by
  obtain ⟨hFa, hFb⟩ := fits_parts hF
  have hxy := messages_concat hF he hx hy
  rcases sequential_outcome num (a ++ b) hF _ hxy c hc with ⟨-, h3⟩ | ⟨-, rep, h3, h4⟩
  · exfalso
    rcases (C114_panics hF he c hc).2 hne ((h3 _).2 rfl) with h4 | h4
    · rcases sequential_outcome num a hFa _ hx c hc with ⟨-, h5⟩ | ⟨-, rep, -, h5⟩
      · cases (h5 _).1 h1
      · cases (h5 _).1 h4
    · rcases sequential_outcome num b hFb _ hy c hc with ⟨-, h5⟩ | ⟨-, rep, -, h5⟩
      · cases (h5 _).1 h2
      · cases (h5 _).1 h4
  · exact ⟨rep, h3, (h4 _).2 rfl⟩

/-- **C114** counts: on the joined log the numbers of messages and of messages with the text are the sums, and every line
of the histograms of message sizes, payload sizes and message types, and the number of messages of every ECU, is the sum of
the lines for the two logs. -/
theorem C114_counts (hF : Fits (a ++ b)) (he : ReadToEnd a) :
    (∀ c m n, c = .count ∨ c = .countHelloWorld → RunCmd num a c (.ok (.number m)) → RunCmd num b c (.ok (.number n)) →
      RunCmd num (a ++ b) c (.ok (.number (m + n)))) ∧
    (∀ c p s q t, c = .histogramMessageSize ∨ c = .histogramPayloadSize → RunCmd num a c (.ok (.sizes p s)) →
      RunCmd num b c (.ok (.sizes q t)) → ∃ m u, RunCmd num (a ++ b) c (.ok (.sizes m u)) ∧
        (∀ k, shown (m.map fun l => (l.1, l.2.1)) k =
          shown (p.map fun l => (l.1, l.2.1)) k + shown (q.map fun l => (l.1, l.2.1)) k) ∧
        s + t ≤ u ∧ u ≤ s + t + 1) ∧
    (∀ p q, RunCmd num a .histogramMessageType (.ok (.infos p)) → RunCmd num b .histogramMessageType (.ok (.infos q)) →
      ∃ m, RunCmd num (a ++ b) .histogramMessageType (.ok (.infos m)) ∧ ∀ k, shown m k = shown p k + shown q k) ∧
    (∀ c p q, c = .splitTimestamp ∨ c = .splitLifecycles → RunCmd num a c (.ok (.ecus p)) →
      RunCmd num b c (.ok (.ecus q)) → ∃ m, RunCmd num (a ++ b) c (.ok (.ecus m)) ∧
        ∀ k, shown (m.map fun l => (l.1, l.2.2)) k =
          shown (p.map fun l => (l.1, l.2.2)) k + shown (q.map fun l => (l.1, l.2.2)) k) := by
  obtain ⟨hFa, hFb⟩ := fits_parts hF
  obtain ⟨xs, hx⟩ := messages_exists hFa
  obtain ⟨ys, hy⟩ := messages_exists hFb
  have hxy := messages_concat hF he hx hy
  have joined := fun c r s h0 h1 h2 h3 => runs_joined (num := num) hF he hx hy c r s h0 h1 h2 h3
  refine ⟨?_, ?_, ?_, ?_⟩
  · rintro c m n (rfl | rfl) h1 h2
    · obtain ⟨rep, h3, h4⟩ := joined _ _ _ rfl (by simp) h1 h2
      have e1 : m = xs.length := runs_prints hFa hx rfl h1
      have e2 : n = ys.length := runs_prints hFb hy rfl h2
      cases rep <;> try cases h3
      rw [List.length_append, ← e1, ← e2] at h4
      exact h4
    · obtain ⟨rep, h3, h4⟩ := joined _ _ _ rfl (by simp) h1 h2
      have e1 : m = _ := runs_prints hFa hx rfl h1
      have e2 : n = _ := runs_prints hFb hy rfl h2
      cases rep <;> try cases h3
      rw [List.filter_append, List.length_append, ← e1, ← e2] at h4
      exact h4
  · have hlines : ∀ l : List (Nat × Nat), (l.map fun e => (e.1, e.2, e.1 * e.2 / 1024)).map (fun l => (l.1, l.2.1)) = l := by
      intro l
      rw [List.map_map]
      exact List.map_id _
    rintro c p s q t (rfl | rfl) h1 h2
    · obtain ⟨rep, h3, h4⟩ := joined _ _ _ rfl (by simp) h1 h2
      obtain ⟨p', h5, rfl, rfl⟩ := runs_prints hFa hx rfl h1
      obtain ⟨q', h6, rfl, rfl⟩ := runs_prints hFb hy rfl h2
      cases rep <;> try cases h3
      obtain ⟨h8, rfl, rfl⟩ := ‹_ ∧ _›
      rw [List.map_append] at h8
      refine ⟨_, _, h4, fun k => ?_, ?_, ?_⟩
      · rw [hlines, hlines, hlines]
        exact shown_histogram_append h5 h6 h8 k
      · rw [List.map_append, List.sum_append]; omega
      · rw [List.map_append, List.sum_append]; omega
    · obtain ⟨rep, h3, h4⟩ := joined _ _ _ rfl (by simp) h1 h2
      obtain ⟨p', h5, rfl, rfl⟩ := runs_prints hFa hx rfl h1
      obtain ⟨q', h6, rfl, rfl⟩ := runs_prints hFb hy rfl h2
      cases rep <;> try cases h3
      obtain ⟨h8, rfl, rfl⟩ := ‹_ ∧ _›
      rw [List.map_append] at h8
      refine ⟨_, _, h4, fun k => ?_, ?_, ?_⟩
      · rw [hlines, hlines, hlines]
        exact shown_histogram_append h5 h6 h8 k
      · rw [List.map_append, List.sum_append]; omega
      · rw [List.map_append, List.sum_append]; omega
  · intro p q h1 h2
    obtain ⟨rep, h3, h4⟩ := joined _ _ _ rfl (by simp) h1 h2
    have h5 : IsHistogram _ p := runs_prints hFa hx rfl h1
    have h6 : IsHistogram _ q := runs_prints hFb hy rfl h2
    cases rep with
    | infos m =>
      have h7 : IsHistogram _ m := h3
      rw [List.filter_append, List.map_append] at h7
      exact ⟨m, h4, shown_histogram_append h5 h6 h7⟩
    | _ => cases h3
  · have hkeys : ∀ l : List (B4 × (OrdMap UInt32 Nat × Nat)), ∀ k, shown (((l.map fun e => (e.1.toBytes, e.2))).map
        fun l => (l.1, l.2.2)) k = (l.map fun e => if e.1.toBytes = k then e.2.2 else 0).sum := fun l k => by
      unfold shown
      rw [List.map_map, List.map_map]
      rfl
    have hk4 : ∀ (l : List (B4 × (OrdMap UInt32 Nat × Nat))) (ecu : B4),
        (l.map fun e => if e.1.toBytes = ecu.toBytes then e.2.2 else 0).sum = shown (l.map fun e => (e.1, e.2.2)) ecu := by
      intro l ecu
      unfold shown
      rw [List.map_map]
      congr 1
      refine List.map_congr_left fun e _ => ?_
      show (if e.1.toBytes = ecu.toBytes then _ else _) = if e.1 = ecu then _ else _
      have : e.1.toBytes = ecu.toBytes ↔ e.1 = ecu := by
        obtain ⟨⟨b0, b1, b2, b3⟩, v⟩ := e
        obtain ⟨c0, c1, c2, c3⟩ := ecu
        simp [B4.toBytes]
      simp only [this]
    have hsum : ∀ (p q m : List (B4 × (OrdMap UInt32 Nat × Nat))),
        (∀ ecu, shown (m.map fun e => (e.1, e.2.2)) ecu = shown (p.map fun e => (e.1, e.2.2)) ecu +
          shown (q.map fun e => (e.1, e.2.2)) ecu) → ∀ k,
        shown (((m.map fun e => (e.1.toBytes, e.2))).map fun l => (l.1, l.2.2)) k =
          shown (((p.map fun e => (e.1.toBytes, e.2))).map fun l => (l.1, l.2.2)) k +
          shown (((q.map fun e => (e.1.toBytes, e.2))).map fun l => (l.1, l.2.2)) k := by
      intro p q m h k
      rw [hkeys, hkeys, hkeys]
      by_cases hk : ∃ ecu : B4, ecu.toBytes = k
      · obtain ⟨ecu, rfl⟩ := hk
        rw [hk4, hk4, hk4]
        exact h ecu
      · have hz : ∀ l : List (B4 × (OrdMap UInt32 Nat × Nat)), (l.map fun e => if e.1.toBytes = k then e.2.2 else 0).sum = 0 := by
          intro l
          induction l with
          | nil => rfl
          | cons e l ih =>
            rw [List.map_cons, List.sum_cons, if_neg fun h' => hk ⟨_, h'⟩, ih]
        rw [hz, hz, hz]
    rintro c p q (rfl | rfl) h1 h2
    · obtain ⟨rep, h3, h4⟩ := joined _ _ _ rfl (by simp) h1 h2
      obtain ⟨p', h5, -, rfl⟩ := runs_prints hFa hx rfl h1
      obtain ⟨q', h6, -, rfl⟩ := runs_prints hFb hy rfl h2
      cases rep with
      | ecus m =>
        obtain ⟨m', h7, -, rfl⟩ := h3
        rw [List.map_append] at h7
        exact ⟨_, h4, hsum p' q' m' (shown_histogram_append h5 h6 h7)⟩
      | _ => cases h3
    · obtain ⟨rep, h3, h4⟩ := joined _ _ _ rfl (by simp) h1 h2
      obtain ⟨p', h5, -, rfl⟩ := runs_prints hFa hx rfl h1
      obtain ⟨q', h6, -, rfl⟩ := runs_prints hFb hy rfl h2
      cases rep with
      | ecus m =>
        obtain ⟨m', h7, -, rfl⟩ := h3
        rw [show timed (xs ++ ys) = timed xs ++ timed ys from List.filter_append _ _, List.map_append] at h7
        exact ⟨_, h4, hsum p' q' m' (shown_histogram_append h5 h6 h7)⟩
      | _ => cases h3

/-- **C114** periods: on the joined log there are as many periods of continuous storage time as on the two together, less
one if the second log goes on where the first ends; if it does not, every line is the sum of the two lines. -/
theorem C114_periods (hF : Fits (a ++ b)) (he : ReadToEnd a) (xs ys : List StorageEntry) (hx : Messages a xs)
    (hy : Messages b ys) (e e' : StorageEntry) (hl : xs.getLast? = some e) (hh : ys.head? = some e')
    (p q : List (Nat × Nat × Nat)) (h1 : RunCmd num a .histogramTimestamp (.ok (.buckets p)))
    (h2 : RunCmd num b .histogramTimestamp (.ok (.buckets q))) :
    ∃ m, RunCmd num (a ++ b) .histogramTimestamp (.ok (.buckets m)) ∧
      (m.map (·.2.2)).sum + (if secsOf e ≤ secsOf e' then 1 else 0) = (p.map (·.2.2)).sum + (q.map (·.2.2)).sum ∧
      (secsOf e' < secsOf e → ∀ k, shown (m.map fun l => (l.1, l.2.2)) k =
        shown (p.map fun l => (l.1, l.2.2)) k + shown (q.map fun l => (l.1, l.2.2)) k) := by
  obtain ⟨hFa, hFb⟩ := fits_parts hF
  obtain ⟨rep, h3, h4⟩ := runs_joined (num := num) hF he hx hy _ _ _ rfl (by simp) h1 h2
  obtain ⟨r1, m1, h5, h6, rfl⟩ := runs_prints hFa hx rfl h1
  obtain ⟨r2, m2, h7, h8, rfl⟩ := runs_prints hFb hy rfl h2
  cases rep with
  | buckets m =>
    obtain ⟨r3, m3, h9, h10, rfl⟩ := h3
    obtain ⟨x, y⟩ := periods_join (f := fun a b => decide (secsOf a ≤ secsOf b)) (fun a b => decide_eq_true_iff) hl hh h5 h7
      h9 h6 h8 h10
    exact ⟨_, h4, x, fun h => y (Nat.not_le.2 h)⟩
  | _ => cases h3

/-- **C114** lifecycles: the same for `histogram_lifecycles` and the messages with time stamps. -/
theorem C114_lifecycles (hF : Fits (a ++ b)) (he : ReadToEnd a) (xs ys : List StorageEntry) (hx : Messages a xs)
    (hy : Messages b ys) (e e' : StorageEntry) (hl : (timed xs).getLast? = some e) (hh : (timed ys).head? = some e')
    (p q : List (Nat × Nat × Nat)) (h1 : RunCmd num a .histogramLifecycles (.ok (.buckets p)))
    (h2 : RunCmd num b .histogramLifecycles (.ok (.buckets q))) :
    ∃ m, RunCmd num (a ++ b) .histogramLifecycles (.ok (.buckets m)) ∧
      (m.map (·.2.2)).sum + (if ecuOf e = ecuOf e' ∧ time e ≤ time e' then 1 else 0) =
        (p.map (·.2.2)).sum + (q.map (·.2.2)).sum ∧
      (¬ (ecuOf e = ecuOf e' ∧ time e ≤ time e') → ∀ k, shown (m.map fun l => (l.1, l.2.2)) k =
        shown (p.map fun l => (l.1, l.2.2)) k + shown (q.map fun l => (l.1, l.2.2)) k) := by
  obtain ⟨hFa, hFb⟩ := fits_parts hF
  obtain ⟨rep, h3, h4⟩ := runs_joined (num := num) hF he hx hy _ _ _ rfl (by simp) h1 h2
  obtain ⟨r1, m1, h5, h6, rfl⟩ := runs_prints hFa hx rfl h1
  obtain ⟨r2, m2, h7, h8, rfl⟩ := runs_prints hFb hy rfl h2
  cases rep with
  | buckets m =>
    obtain ⟨r3, m3, h9, h10, rfl⟩ := h3
    rw [show timed (xs ++ ys) = timed xs ++ timed ys from List.filter_append _ _] at h9
    exact ⟨_, h4, periods_join (f := fun a b => decide (ecuOf a = ecuOf b ∧ time a ≤ time b)) (fun a b => decide_eq_true_iff)
      hl hh h5 h7 h9 h6 h8 h10⟩
  | _ => cases h3

theorem timeSpan_mono {u r v : List StorageEntry} (h : (u ++ r ++ v).Pairwise fun a b => time a ≤ time b) :
    timeSpanOf r ≤ timeSpanOf (u ++ r ++ v) := by
  cases hr : r.head? with
  | none =>
    unfold timeSpanOf
    rw [hr]
    exact Nat.zero_le _
  | some a =>
    cases hr' : r.getLast? with
    | none =>
      unfold timeSpanOf
      rw [hr, hr']
      exact Nat.zero_le _
    | some b =>
      have hru : r ≠ [] := by rintro rfl; simp at hr
      obtain ⟨h1, h2, h3⟩ := List.pairwise_append.1 h
      obtain ⟨h4, h5, h6⟩ := List.pairwise_append.1 h1
      have hfirst : ∃ x, (u ++ r ++ v).head? = some x ∧ time x ≤ time a := by
        cases u with
        | nil => exact ⟨a, by rw [List.nil_append, List.head?_append, hr]; rfl, Nat.le_refl _⟩
        | cons x u => exact ⟨x, rfl, h6 x List.mem_cons_self a (head_mem hr)⟩
      have hlast : ∃ y, (u ++ r ++ v).getLast? = some y ∧ time b ≤ time y := by
        cases hv : v.getLast? with
        | none =>
          refine ⟨b, ?_, Nat.le_refl _⟩
          rw [List.getLast?_append, hv, List.getLast?_append, hr']
          rfl
        | some y =>
          refine ⟨y, ?_, h3 b (List.mem_append_right _ (last_mem hr')) y (last_mem hv)⟩
          rw [List.getLast?_append, hv]
          rfl
      obtain ⟨x, hx1, hx2⟩ := hfirst
      obtain ⟨y, hy1, hy2⟩ := hlast
      unfold timeSpanOf
      rw [hr, hr', hx1, hy1]
      show time b - time a ≤ time y - time x
      omega

/-- **C114** `iter`: on the joined log it counts as many lifecycles as on the two together, one more or one less; the same
number if the time of the second log starts over. -/
theorem C114_iter (hF : Fits (a ++ b)) (he : ReadToEnd a) (xs ys : List StorageEntry) (hx : Messages a xs)
    (hy : Messages b ys) (e e' : StorageEntry) (hl : (timed xs).getLast? = some e) (hh : (timed ys).head? = some e')
    (m n : Nat) (h1 : RunCmd num a .iter (.ok (.number m))) (h2 : RunCmd num b .iter (.ok (.number n))) :
    ∃ k, RunCmd num (a ++ b) .iter (.ok (.number k)) ∧ k ≤ m + n + 1 ∧ m + n ≤ k + 1 ∧ (time e' < time e → k = m + n) := by
  obtain ⟨hFa, hFb⟩ := fits_parts hF
  obtain ⟨rep, h3, h4⟩ := runs_joined (num := num) hF he hx hy _ _ _ rfl (by simp) h1 h2
  obtain ⟨r1, h5, rfl⟩ := runs_prints hFa hx rfl h1
  obtain ⟨r2, h6, rfl⟩ := runs_prints hFb hy rfl h2
  cases rep with
  | number k =>
    obtain ⟨r3, h7, rfl⟩ := h3
    rw [show timed (xs ++ ys) = timed xs ++ timed ys from List.filter_append _ _] at h7
    refine ⟨_, h4, ?_⟩
    have e1 := runs_eq_runsL (fun a b => decide (time a ≤ time b)) (fun a b => decide_eq_true_iff) h5
    have e2 := runs_eq_runsL (fun a b => decide (time a ≤ time b)) (fun a b => decide_eq_true_iff) h6
    have e3 := runs_eq_runsL (fun a b => decide (time a ≤ time b)) (fun a b => decide_eq_true_iff) h7
    by_cases hf : time e ≤ time e'
    · obtain ⟨A, l, h, B, e4, e5, e6⟩ := runsL_append_joined (fun a b => decide (time a ≤ time b)) _ _ e e' hl hh
        (decide_eq_true hf)
      have hj : (l ++ h).Pairwise fun a b => time a ≤ time b :=
        chain_pairwise (R := fun a b : StorageEntry => time a ≤ time b) (fun _ _ _ => Nat.le_trans)
          (h7.related (l ++ h) (by rw [e3, e6]; simp))
      have s1 : timeSpanOf l ≤ timeSpanOf (l ++ h) := by simpa using timeSpan_mono (u := []) (r := l) (v := h) (by simpa using hj)
      have s2 : timeSpanOf h ≤ timeSpanOf (l ++ h) := by simpa using timeSpan_mono (u := l) (r := h) (v := []) (by simpa using hj)
      rw [e1, e2, e3, e4, e5, e6]
      simp only [List.filter_append, List.filter_cons, List.filter_nil, List.length_append]
      refine ⟨?_, ?_, fun h => absurd h (by omega)⟩
      · by_cases c1 : halfHour ≤ timeSpanOf (l ++ h) <;> by_cases c2 : halfHour ≤ timeSpanOf l <;>
          by_cases c3 : halfHour ≤ timeSpanOf h <;> simp [c1, c2, c3] <;> omega
      · by_cases c1 : halfHour ≤ timeSpanOf (l ++ h) <;> by_cases c2 : halfHour ≤ timeSpanOf l <;>
          by_cases c3 : halfHour ≤ timeSpanOf h <;> simp [c1, c2, c3] <;> omega
    · have e6 := runsL_append_apart (fun a b => decide (time a ≤ time b)) _ _ e e' hl hh (by simpa using hf)
      rw [e3, e6, ← e1, ← e2, List.filter_append, List.length_append]
      exact ⟨by omega, by omega, fun _ => rfl⟩
  | _ => cases h3

/-- The steps of a concatenation: the steps of both parts and the one between them. -/
theorem steps_append {α : Type} (p : α × α → Bool) : ∀ (xs ys : List α) (e e' : α), xs.getLast? = some e →
    ys.head? = some e' → (((xs ++ ys).zip (xs ++ ys).tail).filter p).length =
      ((xs.zip xs.tail).filter p).length + ((ys.zip ys.tail).filter p).length + (if p (e, e') = true then 1 else 0)
  | [], _, _, _, h, _ => by simp at h
  | [x], ys, e, e', h, h' => by
    cases ys with
    | nil => simp at h'
    | cons y ys =>
      simp only [List.getLast?_singleton, Option.some.injEq, List.head?_cons] at h h'
      subst h h'
      simp only [List.cons_append, List.nil_append, List.tail_cons, List.zip_cons_cons, List.zip_nil_right, List.filter_nil,
        List.length_nil, List.filter_cons]
      split <;> simp
  | x :: x' :: xs, ys, e, e', h, h' => by
    have ih := steps_append p (x' :: xs) ys e e' (by simpa using h) h'
    simp only [List.cons_append, List.tail_cons, List.zip_cons_cons, List.filter_cons] at ih ⊢
    split
    · simp only [List.length_cons]; omega
    · exact ih

/-- **C114** `itertools`: unless the second log has no message with a time stamp, it panics on the joined log exactly if a
message with a time stamp of the first log is too short for it or it panics on the second; otherwise it counts the sum,
and one more exactly if the step from the first log to the second is a long one. -/
theorem C114_itertools (hF : Fits (a ++ b)) (he : ReadToEnd a) (xs ys : List StorageEntry) (hx : Messages a xs)
    (hy : Messages b ys) (e e' : StorageEntry) (hl : (timed xs).getLast? = some e) (hh : (timed ys).head? = some e') :
    (RunCmd num (a ++ b) .itertools .panic ↔ (∃ x ∈ timed xs, timeOf x = none) ∨ RunCmd num b .itertools .panic) ∧
    ∀ k, RunCmd num (a ++ b) .itertools (.ok (.number k)) → ∃ m n, RunCmd num a .itertools (.ok (.number m)) ∧
      RunCmd num b .itertools (.ok (.number n)) ∧ k = m + n + if halfHour ≤ time e' - time e then 1 else 0 := by
  obtain ⟨hFa, hFb⟩ := fits_parts hF
  have hxy := messages_concat hF he hx hy
  have ht : timed (xs ++ ys) = timed xs ++ timed ys := List.filter_append _ _
  have hy0 : (timed ys).isEmpty = false := by cases h : timed ys with | nil => rw [h] at hh; cases hh | cons => rfl
  constructor
  · rw [C67_sequential_panics num b hFb ys hy _ rfl, C67_sequential_panics num (a ++ b) hF _ hxy _ rfl]
    show (∃ x ∈ (timed (xs ++ ys)).dropLast, timeOf x = none) ↔ _ ∨ ∃ x ∈ (timed ys).dropLast, timeOf x = none
    rw [ht, List.dropLast_append, hy0, if_neg (by decide)]
    simp only [List.mem_append, or_and_right, exists_or]
  · intro k hk
    have hk' : k = _ := runs_prints hF hxy rfl hk
    have part : ∀ (c : Bytes) (zs : List StorageEntry), Fits c → Messages c zs →
        (RunCmd num c .itertools .panic → RunCmd num (a ++ b) .itertools .panic) →
        RunCmd num c .itertools (.ok (.number (((timed zs).zip (timed zs).tail).filter
          fun p => decide (halfHour ≤ time p.2 - time p.1)).length)) := by
      intro c zs hFc hz hp
      rcases sequential_outcome num c hFc _ hz .itertools rfl with ⟨-, h3⟩ | ⟨-, rep, h3, h4⟩
      · exfalso
        have h4 := hp ((h3 _).2 rfl)
        rcases sequential_outcome num (a ++ b) hF _ hxy .itertools rfl with ⟨-, h5⟩ | ⟨-, rep, -, h5⟩
        · cases (h5 _).1 hk
        · cases (h5 _).1 h4
      · cases rep with
        | number n =>
          have : n = _ := h3
          rw [← this]
          exact (h4 _).2 rfl
        | _ => cases h3
    have hp := (C114_panics (num := num) hF he .itertools rfl).1
    refine ⟨_, _, part a xs hFa hx fun h => hp (.inl h), part b ys hFb hy fun h => hp (.inr h), ?_⟩
    rw [hk', ht, steps_append _ _ _ e e' hl hh]
    simp only [decide_eq_true_eq]

end

/-- **C114** `itertools` is the only exception: two logs on which it does not panic, and joined it does. -/
theorem C114_itertools_panics (num : Nat) : ∃ a b : Bytes, Fits (a ++ b) ∧ ReadToEnd a ∧ ¬ RunCmd num a .itertools .panic ∧
    ¬ RunCmd num b .itertools .panic ∧ RunCmd num (a ++ b) .itertools .panic := by
  have hF : Fits (encode msgNoExt ++ encode msg1) := by decide
  obtain ⟨hFa, hFb⟩ := fits_parts hF
  have he : ReadToEnd (encode msgNoExt) := ⟨[(0, msgNoExt)], ⟨5, by decide +kernel⟩, by decide⟩
  have hx : Messages (encode msgNoExt) [msgNoExt] := ⟨_, dltit_scan hFa (items := [(0, msgNoExt)]) ⟨5, by decide +kernel⟩, rfl⟩
  have hy : Messages (encode msg1) [msg1] := ⟨_, dltit_scan hFb (items := [(0, msg1)]) ⟨5, by decide +kernel⟩, rfl⟩
  refine ⟨_, _, hF, he, ?_, ?_, ?_⟩
  · rw [C67_sequential_panics num _ hFa _ hx _ rfl]
    rintro ⟨e, he, -⟩
    revert he
    rw [show (timed [msgNoExt]).dropLast = [] by decide]
    exact fun h => by cases h
  · rw [C67_sequential_panics num _ hFb _ hy _ rfl]
    rintro ⟨e, he, -⟩
    revert he
    rw [show (timed [msg1]).dropLast = [] by decide]
    exact fun h => by cases h
  · rw [C67_sequential_panics num _ hF _ (messages_concat hF he hx hy) _ rfl]
    exact ⟨msgNoExt, by decide, by decide⟩

theorem hello_apart {l : Bytes} {i j : Nat} (hi : helloWorld <+: l.drop i) (hj : helloWorld <+: l.drop j) (h : i < j) :
    i + 11 ≤ j := by
  apply Classical.byContradiction
  intro hlt
  obtain ⟨k, rfl⟩ : ∃ k, j = i + k := ⟨j - i, by omega⟩
  have hk : k < 11 := by omega
  have h1 : helloWorld.drop k <+: helloWorld := by
    rw [← List.drop_drop] at hj
    obtain ⟨t, ht⟩ := hi
    rw [← ht, List.drop_append_of_le_length (by show k ≤ 11; omega)] at hj
    exact List.prefix_of_prefix_length_le (List.prefix_append _ _) hj (by rw [List.length_drop]; omega)
  have key : ∀ k, k < 11 → 0 < k → ¬ helloWorld.drop k <+: helloWorld := by decide
  exact key k hk (by omega) h1

/-- **C114** the raw search: on joined files it finds what it finds in the two, and at most one occurrence more; none more
if the second file starts with a message. -/
theorem C114_raw {num : Nat} (a b : Bytes) (hF : Fits (a ++ b)) :
    ∃ m n k, RunCmd num a .countHelloWorldRaw (.ok (.number m)) ∧ RunCmd num b .countHelloWorldRaw (.ok (.number n)) ∧
      RunCmd num (a ++ b) .countHelloWorldRaw (.ok (.number k)) ∧ m + n ≤ k ∧ k ≤ m + n + 1 ∧
      (dltMarker <+: b → k = m + n) := by
  obtain ⟨hFa, hFb⟩ := fits_parts hF
  obtain ⟨p1, p2, p3⟩ := C49_raw a hFa
  obtain ⟨q1, q2, q3⟩ := C49_raw b hFb
  obtain ⟨r1, r2, r3⟩ := C49_raw (a ++ b) hF
  refine ⟨_, _, _, printed_ok p1, printed_ok q1, printed_ok r1, ?_⟩
  generalize findIter helloWorld a = P at *
  generalize findIter helloWorld b = Q at *
  generalize findIter helloWorld (a ++ b) = R at *
  have h11 : helloWorld.length = 11 := rfl
  have hPb : ∀ i ∈ P, i + 11 ≤ a.length := fun i hi => by
    have := ((p3 i).1 hi).length_le
    rw [h11, List.length_drop] at this
    omega
  have hPR : ∀ i, i + 11 ≤ a.length → (i ∈ P ↔ i ∈ R) := fun i hi => by
    rw [p3, r3, List.drop_append_of_le_length (by omega)]
    exact ⟨fun h => h.trans (List.prefix_append _ _), fun h =>
      List.prefix_of_prefix_length_le h (List.prefix_append _ _) (by rw [List.length_drop, h11]; omega)⟩
  have hQR : ∀ i, i ∈ Q ↔ a.length + i ∈ R := fun i => by
    have : (a ++ b).drop (a.length + i) = b.drop i := by rw [← List.drop_drop, List.drop_left]
    rw [q3, r3, this]
  have hshift : (Q.map (a.length + ·)).Pairwise (· < ·) := by
    rw [List.pairwise_map]
    exact q2.imp fun h => by omega
  let S := R.filter fun i => decide (i < a.length ∧ a.length < i + 11)
  have hS : S.Pairwise (· < ·) := r2.filter _
  have hSmem : ∀ i ∈ S, i ∈ R ∧ i < a.length ∧ a.length < i + 11 := fun i hi => by
    obtain ⟨h1, h2⟩ := List.mem_filter.1 hi
    exact ⟨h1, of_decide_eq_true h2⟩
  have hS1 : S.length ≤ 1 := by
    rcases hS' : S with _ | ⟨i, _ | ⟨j, s⟩⟩
    · exact Nat.zero_le _
    · exact Nat.le_refl _
    · exfalso
      rw [hS'] at hS hSmem
      have hij : i < j := (List.pairwise_cons.1 hS).1 j List.mem_cons_self
      obtain ⟨h1, h2, h3⟩ := hSmem i (by simp)
      obtain ⟨h4, h5, h6⟩ := hSmem j (by simp)
      have := hello_apart ((r3 i).1 h1) ((r3 j).1 h4) hij
      omega
  have low : P.length + Q.length ≤ R.length := by
    have := increasing_length_le (ps := P ++ Q.map (a.length + ·)) (qs := R)
      (List.pairwise_append.2 ⟨p2, hshift, fun i hi j hj => by
        obtain ⟨k, -, rfl⟩ := List.mem_map.1 hj
        have := hPb i hi
        omega⟩) r2 fun i hi => by
        rcases List.mem_append.1 hi with hi | hi
        · exact (hPR i (hPb i hi)).1 hi
        · obtain ⟨k, hk, rfl⟩ := List.mem_map.1 hi
          exact (hQR k).1 hk
    simpa using this
  have high : R.length ≤ P.length + S.length + Q.length := by
    have := increasing_length_le (ps := R) (qs := P ++ (S ++ Q.map (a.length + ·))) r2
      (List.pairwise_append.2 ⟨p2, List.pairwise_append.2 ⟨hS, hshift, fun i hi j hj => by
        obtain ⟨k, -, rfl⟩ := List.mem_map.1 hj
        have := hSmem i hi
        omega⟩, fun i hi j hj => by
        have := hPb i hi
        rcases List.mem_append.1 hj with hj | hj
        · have := hSmem j hj; omega
        · obtain ⟨k, -, rfl⟩ := List.mem_map.1 hj
          omega⟩) fun i hi => by
        by_cases c1 : i + 11 ≤ a.length
        · exact List.mem_append_left _ ((hPR i c1).2 hi)
        · refine List.mem_append_right _ ?_
          by_cases c2 : i < a.length
          · exact List.mem_append_left _ (List.mem_filter.2 ⟨hi, decide_eq_true ⟨c2, by omega⟩⟩)
          · refine List.mem_append_right _ (List.mem_map.2 ⟨i - a.length, (hQR _).2 ?_, by omega⟩)
            rw [show a.length + (i - a.length) = i by omega]
            exact hi
    simp only [List.length_append, List.length_map] at this
    omega
  refine ⟨low, by omega, fun hm => ?_⟩
  have hS0 : S = [] := by
    rcases hS' : S with _ | ⟨i, s⟩
    · rfl
    · exfalso
      rw [hS'] at hSmem
      obtain ⟨h1, h2, h3⟩ := hSmem i (by simp)
      obtain ⟨t, ht⟩ := (r3 i).1 h1
      obtain ⟨u, hu⟩ := hm
      have g1 : (a ++ b)[a.length]? = some 68 := by
        rw [List.getElem?_append_right (Nat.le_refl _), Nat.sub_self, ← hu]; rfl
      have g2 : ((a ++ b).drop i)[a.length - i]? = some 68 := by
        rw [List.getElem?_drop, show i + (a.length - i) = a.length by omega]; exact g1
      rw [← ht, List.getElem?_append_left (by rw [h11]; omega)] at g2
      have key : ∀ k, k < 11 → helloWorld[k]? ≠ some 68 := by decide
      exact key _ (by omega) g2
  rw [hS0] at high
  simp at high
  omega

/-- **C114** at work: a file that is read to its end, followed by another one; C114 gives what `count` prints. -/
example (num : Nat) : RunCmd num (encode msg0 ++ encode msg1) .count (.ok (.number 2)) ∧
    (∃ m, RunCmd num (encode msg0 ++ encode msg1) .histogramTimestamp (.ok (.buckets m)) ∧ (m.map (·.2.2)).sum = 1) := by
  have hF : Fits (encode msg0 ++ encode msg1) := by decide
  obtain ⟨hFa, hFb⟩ := fits_parts hF
  have he : ReadToEnd (encode msg0) := ⟨[(0, msg0)], ⟨5, by decide +kernel⟩, by decide⟩
  have hx : Messages (encode msg0) [msg0] := ⟨_, dltit_scan hFa (items := [(0, msg0)]) ⟨5, by decide +kernel⟩, rfl⟩
  have hy : Messages (encode msg1) [msg1] := ⟨_, dltit_scan hFb (items := [(0, msg1)]) ⟨5, by decide +kernel⟩, rfl⟩
  have c1 : RunCmd num (encode msg0) .count (.ok (.number 1)) := printed_ok (C45_count _ hFa _ hx)
  have c2 : RunCmd num (encode msg1) .count (.ok (.number 1)) := printed_ok (C45_count _ hFb _ hy)
  refine ⟨(C114_counts hF he).1 _ 1 1 (.inl rfl) c1 c2, ?_⟩
  have one : ∀ (bs : Bytes) (e : StorageEntry), Fits bs → Messages bs [e] → ∃ p,
      RunCmd num bs .histogramTimestamp (.ok (.buckets p)) ∧ (p.map (·.2.2)).sum = 1 := by
    intro bs e hFb hm
    rcases sequential_outcome num bs hFb _ hm .histogramTimestamp rfl with ⟨h, -⟩ | ⟨-, rep, h3, h4⟩
    · cases h
    · cases rep with
      | buckets p =>
        have hr := (h4 _).2 rfl
        have h5 := (C113_times num bs hFb 1 (printed_ok (C45_count _ hFb _ hm))).1 p hr
        exact ⟨p, hr, by omega⟩
      | _ => cases h3
  obtain ⟨p, hp, sp⟩ := one _ _ hFa hx
  obtain ⟨q, hq, sq⟩ := one _ _ hFb hy
  obtain ⟨m, h1, h2, -⟩ := C114_periods (num := num) hF he _ _ hx hy msg0 msg1 rfl rfl p q hp hq
  refine ⟨m, h1, ?_⟩
  rw [sp, sq, if_pos (by decide)] at h2
  omega

end Verif
