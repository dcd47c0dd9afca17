import Verif.Props.Periods
import Verif.Props.Order
import Verif.Props.Lifecycle
import Verif.Props.ConcatList
import Verif.Props.PerEcu

set_option linter.unusedSimpArgs false

/-! # C151: moved clocks -/

namespace Verif

namespace Spec

/-- The same message received by a recorder whose clock is `clock id` seconds ahead for the messages of the ECU `id`: same ECU and
microseconds, same message behind the storage header. -/
def Received (clock : B4 → Int) (e e' : StorageEntry) : Prop :=
  e'.storageHeader.ecu = e.storageHeader.ecu ∧ e'.dlt = e.dlt ∧
  (secsOf e' : Int) = secsOf e + clock e.storageHeader.ecu

/-- The same message of an ECU whose time stamps are `clock id` units of 0.1 ms ahead for the ECU `id`: same flags, same ids, a time
stamp that is that much later if the message has one. -/
def Stamped (clock : B4 → Int) (e e' : StorageEntry) : Prop :=
  e'.storageHeader.ecu = e.storageHeader.ecu ∧ ecuOf e' = ecuOf e ∧ flag e'.dlt 4 = flag e.dlt 4 ∧
  (timeOf e' = none ↔ timeOf e = none) ∧ (timeOf e ≠ none → (time e' : Int) = time e + clock e.storageHeader.ecu)

/-- The message with other seconds in the storage header. -/
def withSecs (secs : StorageEntry → UInt32) (e : StorageEntry) : StorageEntry :=
  { e with storageHeader := { e.storageHeader with secs := secs e } }

end Spec

open Spec

/-! ## Lists related value by value -/

section
variable {α β : Type} {R : α → β → Prop}

theorem runsL_alike {f : α → α → Bool} {g : β → β → Bool} (hfg : ∀ x x' y y', R x x' → R y y' → f x y = g x' y')
    {xs : List α} {ys : List β} (h : Pointwise R xs ys) : Pointwise (Pointwise R) (runsL f xs) (runsL g ys) := by
  induction h with
  | nil => exact .nil
  | @cons x x' xs ys h1 _ ih =>
    unfold runsL
    generalize runsL f xs = a at ih
    generalize runsL g ys = b at ih
    cases ih with
    | nil => exact .cons (.cons h1 .nil) .nil
    | @cons r r' rs rs' h2 h3 =>
      cases h2 with
      | nil => exact .cons (.cons h1 .nil) h3
      | cons h4 h5 =>
        dsimp only
        rw [hfg _ _ _ _ h1 h4]
        split
        · exact .cons (.cons h1 (.cons h4 h5)) h3
        · exact .cons (.cons h1 .nil) (.cons (.cons h4 h5) h3)

theorem maximal_alike {P : α → α → Prop} {Q : β → β → Prop} (hpq : ∀ x x' y y', R x x' → R y y' → (P x y ↔ Q x' y'))
    {xs : List α} {ys : List β} (h : Pointwise R xs ys) {runs : List (List α)} (hr : MaximalRuns P xs runs) :
    ∃ runs', MaximalRuns Q ys runs' ∧ Pointwise (Pointwise R) runs runs' := by
  classical
  rw [runs_eq_runsL (fun a b => decide (P a b)) (fun a b => by simp) hr]
  refine ⟨runsL (fun a b => decide (Q a b)) ys, ?_, runsL_alike (fun x x' y y' h1 h2 => ?_) h⟩
  · have := maximalRuns_runsL (fun a b => decide (Q a b)) ys
    simpa only [decide_eq_true_eq] using this
  · exact decide_eq_decide.2 (hpq x x' y y' h1 h2)

theorem last_alike {r : List α} {r' : List β} (h : Pointwise R r r') :
    (r = [] ∧ r' = []) ∨ ∃ a b, r.getLast? = some a ∧ r'.getLast? = some b ∧ R a b := by
  induction h with
  | nil => exact .inl ⟨rfl, rfl⟩
  | @cons x y xs ys h1 h2 ih =>
    right
    rcases ih with ⟨rfl, rfl⟩ | ⟨a, b, ha, hb, hab⟩
    · exact ⟨x, y, rfl, rfl, h1⟩
    · refine ⟨a, b, ?_, ?_, hab⟩
      · rw [List.getLast?_cons, ha]; rfl
      · rw [List.getLast?_cons, hb]; rfl

theorem ends_alike {r : List α} {r' : List β} (h : Pointwise R r r') :
    (r = [] ∧ r' = []) ∨ ∃ a a' b b', r.head? = some a ∧ r'.head? = some a' ∧ r.getLast? = some b ∧ r'.getLast? = some b' ∧
      R a a' ∧ R b b' := by
  have hl := last_alike h
  cases h with
  | nil => exact .inl ⟨rfl, rfl⟩
  | @cons x y xs ys h1 h2 =>
    rcases hl with ⟨h, -⟩ | ⟨a, b, ha, hb, hab⟩
    · cases h
    · exact .inr ⟨x, y, a, b, rfl, rfl, ha, hb, h1, hab⟩

theorem Spec.Pointwise.flip {xs : List α} {ys : List β} (h : Pointwise R xs ys) : Pointwise (fun b a => R a b) ys xs := by
  induction h with
  | nil => exact .nil
  | cons h1 _ ih => exact .cons h1 ih

end

/-! ## Spans -/

/-- A span moved by `d`. -/
def movedSpan (d : Nat) (s : Nat × Nat) : Nat × Nat := (s.1 + d, s.2 + d)

theorem movedSpan_inj {d : Nat} {s t : Nat × Nat} (h : movedSpan d s = movedSpan d t) : s = t := by
  obtain ⟨a, b⟩ := s
  obtain ⟨a', b'⟩ := t
  simp only [movedSpan, Prod.mk.injEq] at h ⊢
  omega

theorem meet_moved (d : Nat) (a b : Nat × Nat) : Meet (movedSpan d a) (movedSpan d b) ↔ Meet a b := by
  obtain ⟨a1, a2⟩ := a
  obtain ⟨b1, b2⟩ := b
  simp only [Meet, Covers, movedSpan]
  constructor
  · rintro ⟨t, h1, h2⟩
    exact ⟨t - d, by omega, by omega⟩
  · rintro ⟨t, h1, h2⟩
    exact ⟨t + d, by omega, by omega⟩

theorem mem_moved {d : Nat} {S : List (Nat × Nat)} {z : Nat × Nat} : z ∈ S.map (movedSpan d) ↔ ∃ s ∈ S, movedSpan d s = z :=
  List.mem_map

theorem absorbs_moved (d : Nat) {S S' : List (Nat × Nat)} {y : Nat × Nat} (h : Absorbs S y S') :
    Absorbs (S.map (movedSpan d)) (movedSpan d y) (S'.map (movedSpan d)) := by
  rcases h with ⟨h1, h2⟩ | ⟨p, h1, h2, h3, h4⟩
  · refine .inl ⟨?_, fun z => ?_⟩
    · intro z hz
      obtain ⟨s, hs, rfl⟩ := mem_moved.1 hz
      rw [meet_moved]
      exact h1 s hs
    · rw [mem_moved, mem_moved]
      constructor
      · rintro ⟨s, hs, rfl⟩
        rcases (h2 s).1 hs with rfl | hs
        · exact .inl rfl
        · exact .inr ⟨s, hs, rfl⟩
      · rintro (rfl | ⟨s, hs, rfl⟩)
        · exact ⟨y, (h2 y).2 (.inl rfl), rfl⟩
        · exact ⟨s, (h2 s).2 (.inr hs), rfl⟩
  · have hh : (min (movedSpan d p).1 (movedSpan d y).1, max (movedSpan d p).2 (movedSpan d y).2) =
        movedSpan d (min p.1 y.1, max p.2 y.2) := by
      simp only [movedSpan, Prod.mk.injEq]
      omega
    refine .inr ⟨movedSpan d p, mem_moved.2 ⟨p, h1, rfl⟩, (meet_moved d p y).2 h2, ?_, fun z => ?_⟩
    · intro q hq hm
      obtain ⟨s, hs, rfl⟩ := mem_moved.1 hq
      have := h3 s hs ((meet_moved d s y).1 hm)
      simp only [movedSpan]
      omega
    · rw [hh, mem_moved, mem_moved]
      constructor
      · rintro ⟨s, hs, rfl⟩
        rcases (h4 s).1 hs with rfl | ⟨hs, hn⟩
        · exact .inl rfl
        · exact .inr ⟨⟨s, hs, rfl⟩, fun h => hn (movedSpan_inj h)⟩
      · rintro (rfl | ⟨⟨s, hs, rfl⟩, hn⟩)
        · exact ⟨_, (h4 _).2 (.inl rfl), rfl⟩
        · exact ⟨s, (h4 s).2 (.inr ⟨hs, fun h => hn (by rw [h])⟩), rfl⟩

theorem absorbed_moved (d : Nat) {l S : List (Nat × Nat)} (h : Absorbed l S) :
    Absorbed (l.map (movedSpan d)) (S.map (movedSpan d)) := by
  induction h with
  | nil => exact .nil
  | snoc h1 h2 h3 ih =>
    rw [List.map_append]
    refine .snoc ih (absorbs_moved d h2) ?_
    rw [List.pairwise_map]
    exact h3.imp fun h => by simp only [movedSpan]; omega

/-! ## The reports -/

section
variable {clock : B4 → Int} {xs ys : List StorageEntry}

theorem received_flip (h : Pointwise (Received clock) xs ys) : Pointwise (Received fun id => - clock id) ys xs :=
  h.flip.imp fun e' e ⟨h1, h2, h3⟩ => ⟨h1.symm, h2.symm, by rw [h1]; show _ = _ + - clock _; omega⟩

theorem stamped_flip (h : Pointwise (Stamped clock) xs ys) : Pointwise (Stamped fun id => - clock id) ys xs :=
  h.flip.imp fun e' e ⟨h1, h2, h3, h4, h5⟩ => ⟨h1.symm, h2.symm, h3.symm, h4.symm, fun h6 => by
    have := h5 fun h7 => h6 (h4.2 h7)
    rw [h1]
    show _ = _ + - clock _
    omega⟩

/-- The messages of an ECU, received by a moved clock. -/
theorem received_ecu (h : Pointwise (Received clock) xs ys) (id : B4) :
    Pointwise (fun e e' => (secsOf e' : Int) = secsOf e + clock id) (ofEcu id xs) (ofEcu id ys) := by
  unfold ofEcu
  induction h with
  | nil => exact .nil
  | @cons x y xs ys h1 _ ih =>
    obtain ⟨h2, -, h3⟩ := h1
    by_cases hx : x.storageHeader.ecu = id
    · rw [List.filter_cons_of_pos (by simpa using hx), List.filter_cons_of_pos (by rw [h2]; simpa using hx)]
      exact .cons (hx ▸ h3) ih
    · rw [List.filter_cons_of_neg (by simpa using hx), List.filter_cons_of_neg (by rw [h2]; simpa using hx)]
      exact ih

/-- The messages with a time stamp, if no stamp is incomplete. -/
theorem stamped_timed (h : Pointwise (Stamped clock) xs ys) (hc : TimesComplete xs) :
    Pointwise (fun e e' => e'.storageHeader.ecu = e.storageHeader.ecu ∧ ecuOf e' = ecuOf e ∧
      (time e' : Int) = time e + clock e.storageHeader.ecu) (timed xs) (timed ys) := by
  have hc' : ∀ e ∈ xs, flag e.dlt 4 = true → timeOf e ≠ none := fun e he hf h0 => by
    have := hc e (List.mem_filter.2 ⟨he, hf⟩)
    rw [h0] at this
    cases this
  clear hc
  unfold timed
  induction h with
  | nil => exact .nil
  | @cons x y xs ys h1 _ ih =>
    obtain ⟨h2, h3, h4, -, h5⟩ := h1
    have ih := ih fun e he => hc' e (List.mem_cons_of_mem _ he)
    cases hx : flag x.dlt 4 with
    | true =>
      rw [List.filter_cons_of_pos (by simpa using hx), List.filter_cons_of_pos (by simpa [h4] using hx)]
      exact .cons ⟨h2, h3, h5 (hc' x List.mem_cons_self hx)⟩ ih
    | false =>
      rw [List.filter_cons_of_neg (by simp [hx]), List.filter_cons_of_neg (by simp [h4, hx])]
      exact ih

theorem timed_ecu (h : Pointwise (fun e e' => e'.storageHeader.ecu = e.storageHeader.ecu ∧ ecuOf e' = ecuOf e ∧
      (time e' : Int) = time e + clock e.storageHeader.ecu) xs ys) (id : B4) :
    Pointwise (fun e e' => (time e' : Int) = time e + clock id) (ofEcu id xs) (ofEcu id ys) := by
  unfold ofEcu
  induction h with
  | nil => exact .nil
  | @cons x y xs ys h1 _ ih =>
    obtain ⟨h2, -, h3⟩ := h1
    by_cases hx : x.storageHeader.ecu = id
    · rw [List.filter_cons_of_pos (by simpa using hx), List.filter_cons_of_pos (by rw [h2]; simpa using hx)]
      exact .cons (hx ▸ h3) ih
    · rw [List.filter_cons_of_neg (by simpa using hx), List.filter_cons_of_neg (by rw [h2]; simpa using hx)]
      exact ih

theorem secSpan_moved {d : Int} {r r' : List StorageEntry} (h : Pointwise (fun e e' => (secsOf e' : Int) = secsOf e + d) r r') :
    secSpanOf r = secSpanOf r' := by
  rcases ends_alike h with ⟨rfl, rfl⟩ | ⟨a, a', b, b', h1, h2, h3, h4, h5, h6⟩
  · rfl
  · simp only [secSpanOf, h1, h2, h3, h4]
    omega

theorem timeSpan_moved {d : Int} {r r' : List StorageEntry} (h : Pointwise (fun e e' => (time e' : Int) = time e + d) r r') :
    timeSpanOf r = timeSpanOf r' := by
  rcases ends_alike h with ⟨rfl, rfl⟩ | ⟨a, a', b, b', h1, h2, h3, h4, h5, h6⟩
  · rfl
  · simp only [timeSpanOf, h1, h2, h3, h4]
    omega

theorem secsPair_moved {d : Nat} {runs runs' : List (List StorageEntry)} (hn : ∀ r ∈ runs, r ≠ [])
    (h : Pointwise (Pointwise fun e e' => (secsOf e' : Int) = secsOf e + d) runs runs') :
    runs'.map secsPairOf = (runs.map secsPairOf).map (movedSpan d) := by
  induction h with
  | nil => rfl
  | @cons r r' rs rs' h1 _ ih =>
    rw [List.map_cons, List.map_cons, List.map_cons, ih fun r hr => hn r (List.mem_cons_of_mem _ hr)]
    congr 1
    rcases ends_alike h1 with ⟨h0, -⟩ | ⟨a, a', b, b', g1, g2, g3, g4, g5, g6⟩
    · exact absurd h0 (hn r List.mem_cons_self)
    · simp only [secsPairOf, g1, g2, g3, g4, movedSpan, Prod.mk.injEq]
      omega

/-- The lengths of the spans of an ECU do not change. -/
theorem spans_later {d : Nat} (h : Pointwise (fun e e' => (secsOf e' : Int) = secsOf e + d) xs ys)
    {runs runs' : List (List StorageEntry)} {spans spans' : List (Nat × Nat)} (h1 : EcuSpans xs runs spans)
    (h2 : EcuSpans ys runs' spans') : (spans'.map fun s => s.2 - s.1) = spans.map fun s => s.2 - s.1 := by
  obtain ⟨q, h3, h4⟩ := maximal_alike (P := fun a b => secsOf a ≤ secsOf b) (Q := fun a b => secsOf a ≤ secsOf b)
    (fun x x' y y' hx hy => by omega) h h1.isRuns
  obtain rfl := runs_same h3 h2.isRuns
  have h5 := h2.merged
  rw [secsPair_moved h1.isRuns.nonempty h4] at h5
  rw [absorbed_unique h5 (absorbed_moved d h1.merged), List.map_map]
  refine List.map_congr_left fun s _ => ?_
  simp only [Function.comp, movedSpan]
  omega

theorem spans_moved {d : Int} (h : Pointwise (fun e e' => (secsOf e' : Int) = secsOf e + d) xs ys)
    {runs runs' : List (List StorageEntry)} {spans spans' : List (Nat × Nat)} (h1 : EcuSpans xs runs spans)
    (h2 : EcuSpans ys runs' spans') : (spans'.map fun s => s.2 - s.1) = spans.map fun s => s.2 - s.1 := by
  rcases Int.le_total 0 d with hd | hd
  · exact spans_later (d := d.toNat) (h.imp fun e e' h => by omega) h1 h2
  · exact (spans_later (d := (-d).toNat) (h.flip.imp fun e e' h => by omega) h2 h1).symm

end

/-- A report is the same if the conditions for panics and reports are. -/
theorem same_of {num : Nat} {a b : Bytes} (ha : Fits a) (hb : Fits b) {xs ys : List StorageEntry} (hx : Messages a xs)
    (hy : Messages b ys) {c : Cmd} (hc : sequential c = true) (hp : Panics xs c ↔ Panics ys c)
    (h : ∀ rep, Prints a xs c rep → ∀ rep', Prints b ys c rep' → rep = rep') (r : Res Report) :
    RunCmd num a c r ↔ RunCmd num b c r := by
  rcases sequential_outcome num a ha xs hx c hc with ⟨h1, h2⟩ | ⟨h1, rep, h2, h3⟩ <;>
    rcases sequential_outcome num b hb ys hy c hc with ⟨g1, g2⟩ | ⟨g1, rep', g2, g3⟩
  · rw [h2, g2]
  · exact absurd (hp.1 h1) g1
  · exact absurd (hp.2 g1) h1
  · rw [h3, g3, h rep h2 rep' g2]

/-- **C151** how far the clock of the recorder is ahead makes no difference to any command that reports on messages, however many
seconds it is ahead for each ECU; only `histogram_timestamp`, which does not tell the ECUs apart, needs the same for all. -/
theorem C151_recorder (num : Nat) (c : Cmd) (hc : perMessage c = true) (clock : B4 → Int)
    (hk : c = .histogramTimestamp → ∃ d, ∀ id, clock id = d) (a b : Bytes) (ha : Fits a) (hb : Fits b)
    (xs ys : List StorageEntry) (hx : Messages a xs) (hy : Messages b ys) (h : Pointwise (Received clock) xs ys) :
    ∀ r, RunCmd num a c r ↔ RunCmd num b c r := by
  have hother : (∀ e e', Received clock e e' → SameFor c e e') → ∀ r, RunCmd num a c r ↔ RunCmd num b c r := fun hs =>
    (C93_footprint c hc a b ha hb xs ys hx hy (h.imp hs) num).1
  cases c
  case splitTimestamp =>
    refine same_of ha hb hx hy rfl ⟨?_, ?_⟩ ?_
    · rintro ⟨e, he, hu⟩
      obtain ⟨e', he', h1⟩ := h.mem_left e he
      exact ⟨e', he', h1.1 ▸ hu⟩
    · rintro ⟨e', he', hu⟩
      obtain ⟨e, he, h1⟩ := h.mem_right e' he'
      exact ⟨e, he, h1.1.symm ▸ hu⟩
    · intro rep hrep rep' hrep'
      cases rep <;> first | exact hrep.elim | skip
      cases rep' <;> first | exact hrep'.elim | skip
      obtain ⟨m, a1, a2, rfl⟩ := hrep
      obtain ⟨m', b1, b2, rfl⟩ := hrep'
      rw [← h.map_eq fun e e' h => h.1.symm] at b1
      rw [ecuTable_unique a1 b1 fun ecu hist n hist' n' g1 g2 => ?_]
      obtain ⟨r1, s1, c1, c2⟩ := a2 _ _ _ g1
      obtain ⟨r2, s2, d1, d2⟩ := b2 _ _ _ g2
      rw [spans_moved (received_ecu h ecu) c1 d1] at d2
      exact hist32_unique c2 d2
  case histogramTimestamp =>
    obtain ⟨d, hd⟩ := hk rfl
    refine same_of ha hb hx hy rfl ⟨id, id⟩ fun rep hrep rep' hrep' => ?_
    cases rep <;> first | exact hrep.elim | skip
    cases rep' <;> first | exact hrep'.elim | skip
    obtain ⟨r, m, a1, a2, rfl⟩ := hrep
    obtain ⟨r', m', b1, b2, rfl⟩ := hrep'
    have h' : Pointwise (fun e e' => (secsOf e' : Int) = secsOf e + d) xs ys := h.imp fun e e' h => by rw [h.2.2, hd]
    obtain ⟨q, h3, h4⟩ := maximal_alike (P := fun a b => secsOf a ≤ secsOf b) (Q := fun a b => secsOf a ≤ secsOf b)
      (fun x x' y y' hx hy => by omega) h' a1
    obtain rfl := runs_same h3 b1
    rw [← h4.map_eq fun _ _ h => secSpan_moved h] at b2
    rw [isHistogram_unique a2 b2]
  case count => exact hother fun _ _ _ => trivial
  case histogramMessageSize =>
    refine hother fun e e' h => ?_
    show (encode e).length = (encode e').length
    unfold encode
    rw [h.2.1]
    simp
  case iter => exact hother fun e e' h => by show flag e.dlt 4 = flag e'.dlt 4 ∧ timeOf e = timeOf e'; unfold timeOf; rw [h.2.1]; exact ⟨rfl, rfl⟩
  case itertools => exact hother fun e e' h => by show flag e.dlt 4 = flag e'.dlt 4 ∧ timeOf e = timeOf e'; unfold timeOf; rw [h.2.1]; exact ⟨rfl, rfl⟩
  case histogramLifecycles =>
    refine hother fun e e' h => ?_
    show flag e.dlt 4 = flag e'.dlt 4 ∧ (flag e.dlt 4 = true → timeOf e = timeOf e' ∧ ecuOf e = ecuOf e')
    unfold timeOf ecuOf
    rw [h.2.1]; exact ⟨rfl, fun _ => ⟨rfl, rfl⟩⟩
  case splitLifecycles =>
    refine hother fun e e' h => ?_
    show flag e.dlt 4 = flag e'.dlt 4 ∧ (flag e.dlt 4 = true → timeOf e = timeOf e' ∧ e.storageHeader.ecu = e'.storageHeader.ecu)
    unfold timeOf
    rw [h.2.1, h.1]; exact ⟨rfl, fun _ => ⟨rfl, rfl⟩⟩
  case histogramMessageType =>
    refine hother fun e e' h => ?_
    show flag e.dlt 0 = flag e'.dlt 0 ∧ (flag e.dlt 0 = true → infoOf e = infoOf e')
    unfold infoOf infoByte
    rw [h.2.1]; exact ⟨rfl, fun _ => rfl⟩
  case histogramPayloadSize =>
    refine hother fun e e' h => ?_
    show (_ ↔ _) ∧ ((payloadOf e).getD []).length = ((payloadOf e').getD []).length
    unfold payloadOf preLen
    rw [h.2.1]; exact ⟨Iff.rfl, rfl⟩
  case countHelloWorld =>
    refine hother fun e e' h => ?_
    show (payloadOf e = none ↔ payloadOf e' = none) ∧ (hasText helloWorld e ↔ hasText helloWorld e')
    unfold hasText payloadOf preLen
    rw [h.2.1]; exact ⟨Iff.rfl, Iff.rfl⟩
  all_goals cases hc

/-- The commands about the time stamps of the ECUs. -/
theorem stamped_panics {clock : B4 → Int} {xs ys : List StorageEntry} (h : Pointwise (Stamped clock) xs ys) {P : B4 → Prop} :
    (∃ e ∈ timed xs, timeOf e = none ∨ P e.storageHeader.ecu) → ∃ e ∈ timed ys, timeOf e = none ∨ P e.storageHeader.ecu := by
  rintro ⟨e, he, hu⟩
  obtain ⟨he, hf⟩ := List.mem_filter.1 he
  obtain ⟨e', he', h1, -, h2, h3, -⟩ := h.mem_left e he
  exact ⟨e', List.mem_filter.2 ⟨he', h2.trans hf⟩, hu.imp h3.2 fun h => h1.symm ▸ h⟩

/-- **C151** how far the clocks of the ECUs are ahead makes no difference to the commands about lifecycles: for `split_lifecycles`
it may be different for each ECU. -/
theorem C151_stamps (num : Nat) (c : Cmd) (hc : c = .splitLifecycles ∨ c = .histogramLifecycles ∨ c = .iter) (clock : B4 → Int)
    (hk : c ≠ .splitLifecycles → ∃ d, ∀ id, clock id = d) (a b : Bytes) (ha : Fits a) (hb : Fits b)
    (xs ys : List StorageEntry) (hx : Messages a xs) (hy : Messages b ys) (h : Pointwise (Stamped clock) xs ys) :
    ∀ r, RunCmd num a c r ↔ RunCmd num b c r := by
  have hcomplete : ¬ (∃ e ∈ timed xs, timeOf e = none) → TimesComplete xs := fun hn e he => by
    cases h0 : timeOf e with
    | none => exact absurd ⟨e, he, h0⟩ hn
    | some t => rfl
  have hplain : (∃ e ∈ timed xs, timeOf e = none) ↔ ∃ e ∈ timed ys, timeOf e = none := by
    have h1 := stamped_panics h (P := fun _ => False)
    have h2 := stamped_panics (stamped_flip h) (P := fun _ => False)
    simp only [or_false] at h1 h2
    exact ⟨h1, h2⟩
  have hpan : Panics xs c ↔ Panics ys c := by
    rcases hc with rfl | rfl | rfl
    · exact ⟨stamped_panics h (P := fun id => ¬ Utf8 id.toBytes), stamped_panics (stamped_flip h) (P := fun id => ¬ Utf8 id.toBytes)⟩
    · exact hplain
    · exact hplain
  by_cases hn : ∃ e ∈ timed xs, timeOf e = none
  · have hpx : Panics xs c := by
      rcases hc with rfl | rfl | rfl
      · obtain ⟨e, he, h0⟩ := hn; exact ⟨e, he, .inl h0⟩
      · exact hn
      · exact hn
    have hs : sequential c = true := by rcases hc with rfl | rfl | rfl <;> rfl
    intro r
    rcases sequential_outcome num a ha xs hx c hs with ⟨-, h2⟩ | ⟨h1, -⟩
    · rcases sequential_outcome num b hb ys hy c hs with ⟨-, g2⟩ | ⟨g1, -⟩
      · rw [h2, g2]
      · exact absurd (hpan.1 hpx) g1
    · exact absurd hpx h1
  · have ht := stamped_timed h (hcomplete hn)
    rcases hc with rfl | rfl | rfl
    · refine same_of ha hb hx hy rfl hpan fun rep hrep rep' hrep' => ?_
      cases rep <;> first | exact hrep.elim | skip
      cases rep' <;> first | exact hrep'.elim | skip
      obtain ⟨m, a1, a2, rfl⟩ := hrep
      obtain ⟨m', b1, b2, rfl⟩ := hrep'
      rw [← ht.map_eq fun e e' h => h.1.symm] at b1
      rw [ecuTable_unique a1 b1 fun ecu hist n hist' n' g1 g2 => ?_]
      obtain ⟨r1, c1, c2⟩ := a2 _ _ _ g1
      obtain ⟨r2, d1, d2⟩ := b2 _ _ _ g2
      obtain ⟨q, h3, h4⟩ := maximal_alike (P := fun a b => time a ≤ time b) (Q := fun a b => time a ≤ time b)
        (fun x x' y y' hx hy => by omega) (timed_ecu ht ecu) c1
      obtain rfl := runs_same h3 d1
      rw [← h4.map_eq (f := fun r => timeSpanOf r / 10000) fun _ _ h => by rw [timeSpan_moved h]] at d2
      exact hist32_unique c2 d2
    · obtain ⟨d, hd⟩ := hk (by intro h; cases h)
      refine same_of ha hb hx hy rfl hpan fun rep hrep rep' hrep' => ?_
      cases rep <;> first | exact hrep.elim | skip
      cases rep' <;> first | exact hrep'.elim | skip
      obtain ⟨r, m, a1, a2, rfl⟩ := hrep
      obtain ⟨r', m', b1, b2, rfl⟩ := hrep'
      obtain ⟨q, h3, h4⟩ := maximal_alike (P := fun a b => ecuOf a = ecuOf b ∧ time a ≤ time b)
        (Q := fun a b => ecuOf a = ecuOf b ∧ time a ≤ time b)
        (fun x x' y y' hx hy => by
          have h8 := hx.2.2
          have h9 := hy.2.2
          rw [hd] at h8 h9
          have h10 : time x ≤ time y ↔ time x' ≤ time y' := by omega
          rw [hx.2.1, hy.2.1, h10]) ht a1
      obtain rfl := runs_same h3 b1
      rw [← h4.map_eq (f := fun r => timeSpanOf r / 10000) fun _ _ h => by rw [timeSpan_moved (h.imp fun e e' g => by rw [g.2.2, hd])]] at b2
      rw [isHistogram_unique a2 b2]
    · obtain ⟨d, hd⟩ := hk (by intro h; cases h)
      refine same_of ha hb hx hy rfl hpan fun rep hrep rep' hrep' => ?_
      cases rep <;> first | exact hrep.elim | skip
      cases rep' <;> first | exact hrep'.elim | skip
      obtain ⟨r, a1, rfl⟩ := hrep
      obtain ⟨r', b1, rfl⟩ := hrep'
      have ht' := ht.imp (R' := fun e e' => (time e' : Int) = time e + d) fun e e' g => by rw [g.2.2, hd]
      obtain ⟨q, h3, h4⟩ := maximal_alike (P := fun a b => time a ≤ time b) (Q := fun a b => time a ≤ time b)
        (fun x x' y y' hx hy => by omega) ht' a1
      obtain rfl := runs_same h3 b1
      congr 1
      exact (h4.filter fun _ _ h => by rw [timeSpan_moved h]).length_eq

theorem pointwise_mem {α β : Type} {R R' : α → β → Prop} {xs : List α} {ys : List β} (h : Pointwise R xs ys)
    (hi : ∀ x ∈ xs, ∀ y ∈ ys, R x y → R' x y) : Pointwise R' xs ys := by
  induction h with
  | nil => exact .nil
  | cons h1 _ ih =>
    exact .cons (hi _ List.mem_cons_self _ List.mem_cons_self h1)
      (ih fun x hx y hy => hi x (List.mem_cons_of_mem _ hx) y (List.mem_cons_of_mem _ hy))

theorem dropLast_alike {α β : Type} {R : α → β → Prop} {xs : List α} {ys : List β} (h : Pointwise R xs ys) :
    Pointwise R xs.dropLast ys.dropLast := by
  induction h with
  | nil => exact .nil
  | cons h1 h2 ih =>
    cases h2 with
    | nil => exact .nil
    | cons h3 h4 => exact .cons h1 ih

theorem time_none {e : StorageEntry} (h : timeOf e = none) : time e = 0 := by
  unfold time
  rw [h]
  rfl

/-- **C151** the same for `itertools`, which counts long steps. -/
theorem C151_steps (num : Nat) (clock : B4 → Int) (d : Int) (hd : ∀ id, clock id = d) (a b : Bytes) (ha : Fits a) (hb : Fits b)
    (xs ys : List StorageEntry) (hx : Messages a xs) (hy : Messages b ys) (h : Pointwise (Stamped clock) xs ys) :
    ∀ r, RunCmd num a .itertools r ↔ RunCmd num b .itertools r := by
  have ht : Pointwise (Stamped clock) (timed xs) (timed ys) := by
    exact timed_alike h (fun _ _ h => h.2.2.1.symm) fun _ _ h _ => h
  have hpan : Panics xs .itertools ↔ Panics ys .itertools := by
    constructor
    · rintro ⟨e, he, h0⟩
      obtain ⟨e', he', h1⟩ := (dropLast_alike ht).mem_left e he
      exact ⟨e', he', h1.2.2.2.1.2 h0⟩
    · rintro ⟨e', he', h0⟩
      obtain ⟨e, he, h1⟩ := (dropLast_alike ht).mem_right e' he'
      exact ⟨e, he, h1.2.2.2.1.1 h0⟩
  by_cases hn : Panics xs .itertools
  · intro r
    rcases sequential_outcome num a ha xs hx .itertools rfl with ⟨-, h2⟩ | ⟨h1, -⟩
    · rcases sequential_outcome num b hb ys hy .itertools rfl with ⟨-, g2⟩ | ⟨g1, -⟩
      · rw [h2, g2]
      · exact absurd (hpan.1 hn) g1
    · exact absurd hn h1
  · refine same_of ha hb hx hy rfl hpan fun rep hrep rep' hrep' => ?_
    cases rep <;> first | exact hrep.elim | skip
    cases rep' <;> first | exact hrep'.elim | skip
    rename_i n n'
    have h1 : n = (((timed xs).zip (timed xs).tail).filter fun p => decide (halfHour ≤ time p.2 - time p.1)).length := hrep
    have h2 : n' = (((timed ys).zip (timed ys).tail).filter fun p => decide (halfHour ≤ time p.2 - time p.1)).length := hrep'
    have h3 : Pointwise (fun p q : StorageEntry × StorageEntry => time p.2 - time p.1 = time q.2 - time q.1)
        ((timed xs).zip (timed xs).tail) ((timed ys).zip (timed ys).tail) := by
      refine pointwise_mem ht.pairs fun p hp q _ hpq => ?_
      have hc : timeOf p.1 ≠ none := fun h0 => hn ⟨p.1, zip_tail_mem _ p hp, h0⟩
      obtain ⟨⟨-, -, -, -, h4⟩, ⟨-, -, -, h5, h6⟩⟩ := hpq
      have h4 := h4 hc
      rw [hd] at h4 h6
      by_cases h7 : timeOf p.2 = none
      · rw [time_none h7, time_none (h5.2 h7)]
        omega
      · have := h6 h7
        omega
    rw [h1, h2, (h3.filter (p := fun p => decide (halfHour ≤ time p.2 - time p.1))
      (p' := fun p => decide (halfHour ≤ time p.2 - time p.1)) fun _ _ h => by rw [h]).length_eq]

/-! ## Lifecycles of ECUs with different clocks -/

namespace Spec

/-- The same message, whose time stamp is `clock id` units ahead for the ECU id `id` of the standard header (`none`: it has none). -/
def StampedBy (clock : Option Nat → Int) (e e' : StorageEntry) : Prop :=
  ecuOf e' = ecuOf e ∧ flag e'.dlt 4 = flag e.dlt 4 ∧
  (timeOf e' = none ↔ timeOf e = none) ∧ (timeOf e ≠ none → (time e' : Int) = time e + clock (ecuOf e))

end Spec

theorem chain_const {α β : Type} (g : α → β) {r : List α}
    (h : ∀ i a b, r[i]? = some a → r[i + 1]? = some b → g a = g b) {a : α} (ha : r[0]? = some a) :
    ∀ (i : Nat) (b : α), r[i]? = some b → g a = g b
  | 0, b, hb => by rw [ha] at hb; rw [Option.some.inj hb]
  | i + 1, b, hb => by
    have hi : i + 1 < r.length := (List.getElem?_eq_some_iff.1 hb).1
    have hc : r[i]? = some r[i] := List.getElem?_eq_getElem (by omega)
    exact (chain_const g h ha i _ hc).trans (h i _ b hc hb)

/-- The first and the last message of a run agree in what neighbours agree in. -/
theorem run_ends_agree {α β : Type} (g : α → β) {P : α → α → Prop} {xs : List α} {runs : List (List α)} (h : MaximalRuns P xs runs)
    (hg : ∀ a b, P a b → g a = g b) {r : List α} (hr : r ∈ runs) {a b : α} (ha : r.head? = some a) (hb : r.getLast? = some b) :
    g a = g b := by
  rw [List.head?_eq_getElem?] at ha
  rw [List.getLast?_eq_getElem?] at hb
  exact chain_const g (fun i a b h1 h2 => hg a b (h.related r hr i a b h1 h2)) ha _ b hb

/-- **C151** `histogram_lifecycles` too, which tells the ECUs apart by the id in the standard header, is the same however far the
clock of each ECU is ahead. -/
theorem C151_lifecycles (num : Nat) (clock : Option Nat → Int) (a b : Bytes) (ha : Fits a) (hb : Fits b) (xs ys : List StorageEntry)
    (hx : Messages a xs) (hy : Messages b ys) (h : Pointwise (StampedBy clock) xs ys) :
    ∀ r, RunCmd num a .histogramLifecycles r ↔ RunCmd num b .histogramLifecycles r := by
  have ht : Pointwise (StampedBy clock) (timed xs) (timed ys) := timed_alike h (fun _ _ h => h.2.1.symm) fun _ _ h _ => h
  have hpan : Panics xs .histogramLifecycles ↔ Panics ys .histogramLifecycles := by
    constructor
    · rintro ⟨e, he, h0⟩
      obtain ⟨e', he', h1⟩ := ht.mem_left e he
      exact ⟨e', he', h1.2.2.1.2 h0⟩
    · rintro ⟨e', he', h0⟩
      obtain ⟨e, he, h1⟩ := ht.mem_right e' he'
      exact ⟨e, he, h1.2.2.1.1 h0⟩
  by_cases hn : Panics xs .histogramLifecycles
  · intro r
    rcases sequential_outcome num a ha xs hx .histogramLifecycles rfl with ⟨-, h2⟩ | ⟨h1, -⟩
    · rcases sequential_outcome num b hb ys hy .histogramLifecycles rfl with ⟨-, g2⟩ | ⟨g1, -⟩
      · rw [h2, g2]
      · exact absurd (hpan.1 hn) g1
    · exact absurd hn h1
  · refine same_of ha hb hx hy rfl hpan fun rep hrep rep' hrep' => ?_
    cases rep <;> first | exact hrep.elim | skip
    cases rep' <;> first | exact hrep'.elim | skip
    obtain ⟨r, m, a1, a2, rfl⟩ := hrep
    obtain ⟨r', m', b1, b2, rfl⟩ := hrep'
    have ht' : Pointwise (fun e e' => ecuOf e' = ecuOf e ∧ (time e' : Int) = time e + clock (ecuOf e)) (timed xs) (timed ys) :=
      pointwise_mem ht fun e he e' _ h1 => ⟨h1.1, h1.2.2.2 fun h0 => hn ⟨e, he, h0⟩⟩
    obtain ⟨q, h3, h4⟩ := maximal_alike (P := fun a b => ecuOf a = ecuOf b ∧ time a ≤ time b)
      (Q := fun a b => ecuOf a = ecuOf b ∧ time a ≤ time b)
      (fun x x' y y' hx hy => by
        rw [hx.1, hy.1]
        refine and_congr_right fun he => ?_
        have h8 := hx.2
        have h9 := hy.2
        rw [he] at h8
        omega) ht' a1
    obtain rfl := runs_same h3 b1
    have h5 : Pointwise (fun r r' => timeSpanOf r = timeSpanOf r') r q := pointwise_mem h4 fun l hl l' _ h6 => by
      rcases ends_alike h6 with ⟨rfl, rfl⟩ | ⟨c, c', d, d', g1, g2, g3, g4, g5, g6⟩
      · rfl
      · have he : ecuOf c = ecuOf d := run_ends_agree ecuOf a1 (fun _ _ h => h.1) hl g1 g3
        simp only [timeSpanOf, g1, g2, g3, g4]
        have h8 := g5.2
        have h9 := g6.2
        rw [he] at h8
        omega
    rw [← h5.map_eq (f := fun r => timeSpanOf r / 10000) fun _ _ h => by rw [h]] at b2
    rw [isHistogram_unique a2 b2]

/-! ## At work -/

theorem pointwise_map {α β : Type} {R : α → β → Prop} (f : α → β) : ∀ (xs : List α), (∀ x ∈ xs, R x (f x)) → Pointwise R xs (xs.map f)
  | [], _ => .nil
  | _ :: xs, h => .cons (h _ List.mem_cons_self) (pointwise_map f xs fun x hx => h x (List.mem_cons_of_mem _ hx))

/-- **C151** for a file of messages written one after the other: setting the clock in all storage headers, before or after the fact,
changes no report of the commands that report on messages. -/
theorem C151_set_clock (num : Nat) (c : Cmd) (hc : perMessage c = true) (clock : B4 → Int)
    (hk : c = .histogramTimestamp → ∃ d, ∀ id, clock id = d) (es : List StorageEntry) (hw : ∀ e ∈ es, WF e) (hF : Fits (packed es))
    (secs : StorageEntry → UInt32) (hs : ∀ e ∈ es, ((secs e).toNat : Int) = secsOf e + clock e.storageHeader.ecu) :
    ∀ r, RunCmd num (packed (es.map (withSecs secs))) c r ↔ RunCmd num (packed es) c r := by
  have hlen : (packed (es.map (withSecs secs))).length = (packed es).length := by
    rw [packed_sum, packed_sum, List.map_map]
    congr 1
  have hF' : Fits (packed (es.map (withSecs secs))) := by
    show _ < 2 ^ 63
    rw [hlen]
    exact hF
  have hw' : ∀ e ∈ es.map (withSecs secs), WF e := fun e he => by
    obtain ⟨e, h1, rfl⟩ := List.mem_map.1 he
    exact hw e h1
  exact fun r => (C151_recorder num c hc clock hk _ _ hF hF' es _ (messages_packed hw) (messages_packed hw')
    (pointwise_map _ es fun e he => ⟨rfl, rfl, hs e he⟩) r).symm

/-- The clock of the second ECU of `apart` is five seconds ahead; set back, `split_timestamp` reports the same. -/
example (num : Nat) (r : Res Report) :
    RunCmd num (packed [stamped true 0, stamped false 0, stamped true 1, stamped false 1]) .splitTimestamp r ↔
    RunCmd num (packed apart) .splitTimestamp r :=
  C151_set_clock num .splitTimestamp rfl (fun id => if id = id2 then -5 else 0) (fun h => by cases h) apart (by decide) (by decide)
    (fun e => if e.storageHeader.ecu = id2 then e.storageHeader.secs - 5 else e.storageHeader.secs) (by decide) r

/-- **C151 (not if the clocks differ)** `histogram_timestamp` reports two periods of five seconds for the log of two ECUs whose clocks
are five seconds apart, and one period of a second if they agree. -/
theorem C151_one_clock (num : Nat) :
    RunCmd num (packed apart) .histogramTimestamp (.ok (.buckets [(5, 6, 2)])) ∧
    RunCmd num (packed [stamped true 0, stamped false 0, stamped true 1, stamped false 1]) .histogramTimestamp
      (.ok (.buckets [(1, 2, 1)])) :=
  ⟨(C150_periods_not_sum num).1, period_report (by decide) (messages_packed (by decide))
    (runs := [[stamped true 0, stamped false 0, stamped true 1, stamped false 1]]) (by decide) (by decide) (by decide)⟩

/-- Two boots with time stamps that are 6.5 seconds later. -/
def laterBoots : List StorageEntry := [ticked 1, ticked 2, ticked 1, ticked 3]

theorem later_stamped : Pointwise (Stamped fun _ => 65536) shortBoots laterBoots := by
  have h : ∀ t, t ∈ [(0 : UInt8), 1, 2] → Stamped (fun _ => 65536) (ticked t) (ticked (t + 1)) := by
    intro t ht
    have key : ∀ t ∈ [(0 : UInt8), 1, 2], ecuOf (ticked (t + 1)) = ecuOf (ticked t) ∧
        flag (ticked (t + 1)).dlt 4 = flag (ticked t).dlt 4 ∧ (timeOf (ticked (t + 1)) = none ↔ timeOf (ticked t) = none) ∧
        time (ticked (t + 1)) = time (ticked t) + 65536 := by decide +kernel
    obtain ⟨h1, h2, h3, h4⟩ := key t ht
    refine ⟨rfl, h1, h2, h3, fun _ => ?_⟩
    show _ = _ + (65536 : Int)
    omega
  exact .cons (h 0 (by decide)) (.cons (h 1 (by decide)) (.cons (h 0 (by decide)) (.cons (h 2 (by decide)) .nil)))

example (num : Nat) (c : Cmd) (hc : c = .splitLifecycles ∨ c = .histogramLifecycles ∨ c = .iter) (r : Res Report) :
    RunCmd num (packed shortBoots) c r ↔ RunCmd num (packed laterBoots) c r :=
  C151_stamps num c hc (fun _ => 65536) (fun _ => ⟨_, fun _ => rfl⟩) _ _ (by decide) (by decide) _ _ (messages_packed (by decide))
    (messages_packed (by decide)) later_stamped r

example (num : Nat) (r : Res Report) : RunCmd num (packed shortBoots) .itertools r ↔ RunCmd num (packed laterBoots) .itertools r :=
  C151_steps num (fun _ => 65536) 65536 (fun _ => rfl) _ _ (by decide) (by decide) _ _ (messages_packed (by decide))
    (messages_packed (by decide)) later_stamped r

/-- A message with the ECU id 0 or 1 and a time stamp (in units of 6.5 seconds) in its standard header. -/
def bootOf (id t : UInt8) : StorageEntry :=
  ⟨⟨⟨68, 76, 84, 1⟩, 0, 0, id1⟩, ⟨⟨⟨0x34⟩, 0, 12⟩, [0, 0, 0, id, 0, t, 0, 0]⟩⟩

/-- Two ECUs; in the second log the clock of the second one is 6.5 seconds ahead. -/
def bootPair : List StorageEntry := [bootOf 0 1, bootOf 0 2, bootOf 1 1, bootOf 1 3]
def bootPairMoved : List StorageEntry := [bootOf 0 1, bootOf 0 2, bootOf 1 2, bootOf 1 4]

example (num : Nat) (r : Res Report) : RunCmd num (packed bootPair) .histogramLifecycles r ↔
    RunCmd num (packed bootPairMoved) .histogramLifecycles r := by
  have key : ∀ p ∈ [((0 : UInt8), (1 : UInt8), (1 : UInt8)), (0, 2, 2), (1, 1, 2), (1, 3, 4)],
      ecuOf (bootOf p.1 p.2.2) = some p.1.toNat ∧ ecuOf (bootOf p.1 p.2.1) = some p.1.toNat ∧
      flag (bootOf p.1 p.2.2).dlt 4 = flag (bootOf p.1 p.2.1).dlt 4 ∧
      (timeOf (bootOf p.1 p.2.2) = none ↔ timeOf (bootOf p.1 p.2.1) = none) ∧
      time (bootOf p.1 p.2.2) = time (bootOf p.1 p.2.1) + p.1.toNat * 65536 := by decide +kernel
  have hs : ∀ p ∈ [((0 : UInt8), (1 : UInt8), (1 : UInt8)), (0, 2, 2), (1, 1, 2), (1, 3, 4)],
      StampedBy (fun id => (id.getD 0 : Nat) * 65536) (bootOf p.1 p.2.1) (bootOf p.1 p.2.2) := by
    intro p hp
    obtain ⟨h1, h2, h3, h4, h5⟩ := key p hp
    refine ⟨by rw [h1, h2], h3, h4, fun _ => ?_⟩
    rw [h2, h5]
    simp
  exact C151_lifecycles num _ _ _ (by decide) (by decide) _ _ (messages_packed (by decide)) (messages_packed (by decide))
    (.cons (hs (0, 1, 1) (by decide)) (.cons (hs (0, 2, 2) (by decide)) (.cons (hs (1, 1, 2) (by decide))
      (.cons (hs (1, 3, 4) (by decide)) .nil)))) r

end Verif
