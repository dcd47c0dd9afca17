import Verif.Props.Clock

set_option linter.unusedSimpArgs false

/-! # C152: renamed ECUs -/

namespace Verif

namespace Spec

/-- The same message under another ECU id in the storage header. -/
def Renamed (name : B4 → B4) (e e' : StorageEntry) : Prop :=
  e'.storageHeader.ecu = name e.storageHeader.ecu ∧ e'.dlt = e.dlt ∧ secsOf e' = secsOf e

/-- Different ECUs of the log get different names. -/
def NamesApart (name : B4 → B4) (msgs : List StorageEntry) : Prop :=
  ∀ a ∈ msgs, ∀ b ∈ msgs, name a.storageHeader.ecu = name b.storageHeader.ecu → a.storageHeader.ecu = b.storageHeader.ecu

end Spec

open Spec

/-- **C152** the commands without ECU ids in their report do not see the ids of the storage headers. -/
theorem C152_blind (num : Nat) (c : Cmd) (hc : perMessage c = true) (hn : c ≠ .splitTimestamp ∧ c ≠ .splitLifecycles)
    (name : B4 → B4) (a b : Bytes) (ha : Fits a) (hb : Fits b) (xs ys : List StorageEntry) (hx : Messages a xs)
    (hy : Messages b ys) (h : Pointwise (Renamed name) xs ys) :
    (∀ r, RunCmd num a c r ↔ RunCmd num b c r) ∧ ∀ out, CmdText num a c out ↔ CmdText num b c out := by
  refine C93_footprint c hc a b ha hb xs ys hx hy (h.imp fun e e' h => ?_) num
  obtain ⟨-, h2, h3⟩ := h
  obtain ⟨sh, d⟩ := e
  obtain ⟨sh', d'⟩ := e'
  obtain rfl : d' = d := h2
  cases c
  case splitTimestamp => exact absurd rfl hn.1
  case splitLifecycles => exact absurd rfl hn.2
  case count => exact trivial
  case histogramMessageSize =>
    show (encode _).length = (encode _).length
    unfold encode
    simp
  case histogramTimestamp => exact h3.symm
  case iter => exact ⟨rfl, rfl⟩
  case itertools => exact ⟨rfl, rfl⟩
  case histogramLifecycles => exact ⟨rfl, fun _ => ⟨rfl, rfl⟩⟩
  case histogramMessageType => exact ⟨rfl, fun _ => rfl⟩
  case histogramPayloadSize => exact ⟨Iff.rfl, rfl⟩
  case countHelloWorld => exact ⟨Iff.rfl, Iff.rfl⟩
  all_goals cases hc

theorem nodup_of_map {α β : Type} (f : α → β) {l : List α} (h : (l.map f).Nodup) : l.Nodup :=
  (List.pairwise_map.1 h).imp fun h e => h (by rw [e])

theorem nodup_map_inj {α β : Type} (f : α → β) : ∀ {l : List α}, (l.map f).Nodup → ∀ p ∈ l, ∀ q ∈ l, f p = f q → p = q
  | [], _, p, hp, _, _, _ => by cases hp
  | x :: l, h, p, hp, q, hq, he => by
    rw [List.map_cons, List.nodup_cons] at h
    rcases List.mem_cons.1 hp with h1 | h1 <;> rcases List.mem_cons.1 hq with h2 | h2
    · rw [h1, h2]
    · exact (h.1 (List.mem_map.2 ⟨q, h2, by rw [← he, h1]⟩)).elim
    · exact (h.1 (List.mem_map.2 ⟨p, h1, by rw [he, h2]⟩)).elim
    · exact nodup_map_inj f h.2 p h1 q h2 he

theorem nodup_map_on {α β : Type} (f : α → β) : ∀ {l : List α}, l.Nodup → (∀ p ∈ l, ∀ q ∈ l, f p = f q → p = q) → (l.map f).Nodup
  | [], _, _ => List.nodup_nil
  | x :: l, h, hi => by
    rw [List.nodup_cons] at h
    rw [List.map_cons, List.nodup_cons]
    refine ⟨fun hm => ?_, nodup_map_on f h.2 fun p hp q hq => hi p (List.mem_cons_of_mem _ hp) q (List.mem_cons_of_mem _ hq)⟩
    obtain ⟨q, hq, he⟩ := List.mem_map.1 hm
    exact h.1 (hi q (List.mem_cons_of_mem _ hq) x List.mem_cons_self he ▸ hq)

section
variable {name : B4 → B4} {R : StorageEntry → StorageEntry → Prop} {xs ys : List StorageEntry}

theorem renamed_ecu (h : Pointwise (fun e e' => e'.storageHeader.ecu = name e.storageHeader.ecu ∧ R e e') xs ys)
    (hi : NamesApart name xs) {id : B4} (hid : ∃ e ∈ xs, e.storageHeader.ecu = id) :
    Pointwise R (ofEcu id xs) (ofEcu (name id) ys) := by
  obtain ⟨e0, h0, rfl⟩ := hid
  have hk : ∀ e ∈ xs, (name e.storageHeader.ecu = name e0.storageHeader.ecu ↔ e.storageHeader.ecu = e0.storageHeader.ecu) :=
    fun e he => ⟨hi e he e0 h0, fun h => by rw [h]⟩
  clear hi h0
  unfold ofEcu
  induction h with
  | nil => exact .nil
  | @cons x y xs ys h1 _ ih =>
    have ih := ih fun e he => hk e (List.mem_cons_of_mem _ he)
    have hx := hk x List.mem_cons_self
    by_cases hc : x.storageHeader.ecu = e0.storageHeader.ecu
    · rw [List.filter_cons_of_pos (by simpa using hc), List.filter_cons_of_pos (by rw [h1.1]; simpa using hx.2 hc)]
      exact .cons h1.2 ih
    · rw [List.filter_cons_of_neg (by simpa using hc), List.filter_cons_of_neg (by
        rw [h1.1]; simpa using fun h => hc (hx.1 h))]
      exact ih

theorem count_ofEcu (id : B4) (l : List StorageEntry) : (l.map fun e => e.storageHeader.ecu).count id = (ofEcu id l).length := by
  unfold ofEcu
  induction l with
  | nil => rfl
  | cons x l ih =>
    rw [List.map_cons, List.count_cons, ih]
    by_cases h : x.storageHeader.ecu = id
    · rw [List.filter_cons_of_pos (by simpa using h), List.length_cons, if_pos (by simpa using h)]
    · rw [List.filter_cons_of_neg (by simpa using h), if_neg (by simpa using h)]
      omega

/-- Tables of the ECUs of related lists. -/
theorem renamed_table (h : Pointwise (fun e e' => e'.storageHeader.ecu = name e.storageHeader.ecu ∧ R e e') xs ys)
    (hi : NamesApart name xs) {m m' : List (B4 × (OrdMap UInt32 Nat × Nat))}
    (h1 : IsHistogram (xs.map fun e => e.storageHeader.ecu) (m.map fun e => (e.1, e.2.2)))
    (h2 : IsHistogram (ys.map fun e => e.storageHeader.ecu) (m'.map fun e => (e.1, e.2.2)))
    (hv : ∀ id hist n hist' n', Pointwise R (ofEcu id xs) (ofEcu (name id) ys) → (id, hist, n) ∈ m → (name id, hist', n') ∈ m' →
      hist = hist') :
    m'.Perm (m.map fun e => (name e.1, e.2)) := by
  have hnd : ∀ {keys : List B4} {t : List (B4 × (OrdMap UInt32 Nat × Nat))},
      IsHistogram keys (t.map fun e => (e.1, e.2.2)) → (t.map (·.1)).Nodup := by
    intro keys t ht
    have := ht.sorted
    rw [List.pairwise_map] at this
    refine List.pairwise_map.2 (this.imp fun hlt heq => ?_)
    rw [show (_ : B4) = _ from heq] at hlt
    exact Key.irrefl _ hlt
  have hmem : ∀ {id : B4} {hist : OrdMap UInt32 Nat} {n : Nat}, (id, hist, n) ∈ m →
      (∃ e ∈ xs, e.storageHeader.ecu = id) ∧ n = (ofEcu id xs).length := by
    intro id hist n hm
    have := (h1.mem id n).1 (List.mem_map.2 ⟨_, hm, rfl⟩)
    refine ⟨?_, this.2.trans (count_ofEcu id xs)⟩
    obtain ⟨e, he, h5⟩ := List.mem_map.1 (List.count_pos_iff.1 (this.2 ▸ this.1))
    exact ⟨e, he, h5⟩
  have hinj : ∀ p ∈ m, ∀ q ∈ m, name p.1 = name q.1 → p.1 = q.1 := by
    rintro ⟨p, ph, pn⟩ hp ⟨q, qh, qn⟩ hq he
    obtain ⟨⟨e1, g1, rfl⟩, -⟩ := hmem hp
    obtain ⟨⟨e2, g2, rfl⟩, -⟩ := hmem hq
    exact hi e1 g1 e2 g2 he
  have hone : ∀ p ∈ m, ∀ q ∈ m, p.1 = q.1 → p = q := by
    intro p hp q hq he
    exact nodup_map_inj _ (hnd h1) p hp q hq he
  have hnames : (m.map fun e => (name e.1, e.2)).Nodup := by
    have h3 : m.Nodup := nodup_of_map (·.1) (hnd h1)
    exact nodup_map_on _ h3 fun p hp q hq he => hone p hp q hq (hinj p hp q hq (Prod.mk.inj he).1)
  refine (List.perm_ext_iff_of_nodup (nodup_of_map (·.1) (hnd h2)) hnames).2 ?_
  -- the other name of each line
  have hfwd : ∀ id hist n, (id, hist, n) ∈ m → (name id, hist, n) ∈ m' := by
    intro id hist n hm
    obtain ⟨h3, rfl⟩ := hmem hm
    have hp := renamed_ecu h hi h3
    have hpos := ((h1.mem id _).1 (List.mem_map.2 ⟨_, hm, rfl⟩)).1
    have : (name id, (ofEcu id xs).length) ∈ m'.map fun e => (e.1, e.2.2) :=
      (h2.mem _ _).2 ⟨hpos, by rw [count_ofEcu, hp.length_eq]⟩
    obtain ⟨⟨k, hist', n'⟩, h5, h6⟩ := List.mem_map.1 this
    simp only [Prod.mk.injEq] at h6
    obtain ⟨rfl, rfl⟩ := h6
    rw [hv _ _ _ _ _ hp hm h5]
    exact h5
  rintro ⟨k, hist', n'⟩
  rw [List.mem_map]
  constructor
  · intro hm'
    have h5 := (h2.mem k n').1 (List.mem_map.2 ⟨_, hm', rfl⟩)
    obtain ⟨e', he', rfl⟩ := List.mem_map.1 (List.count_pos_iff.1 (h5.2 ▸ h5.1))
    obtain ⟨e, he, h6, -⟩ := h.mem_right e' he'
    have hcount : 0 < (ofEcu e.storageHeader.ecu xs).length :=
      List.length_pos_of_mem (List.mem_filter.2 ⟨he, decide_eq_true rfl⟩)
    obtain ⟨⟨id, hist, n⟩, h7, h8⟩ := List.mem_map.1 ((h1.mem e.storageHeader.ecu _).2 ⟨hcount, (count_ofEcu _ xs).symm⟩)
    simp only [Prod.mk.injEq] at h8
    obtain ⟨rfl, -⟩ := h8
    have h9 := hfwd _ _ _ h7
    have h10 := nodup_map_inj _ (hnd h2) _ h9 _ hm' h6.symm
    refine ⟨_, h7, ?_⟩
    exact h10
  · rintro ⟨⟨id, hist, n⟩, h3, h4⟩
    simp only [Prod.mk.injEq] at h4
    obtain ⟨rfl, rfl, rfl⟩ := h4
    exact hfwd _ _ _ h3

end

/-- **C152** if every ECU gets another name, different ones for different ECUs, then the split commands print the same lines under
the new names, in the order of these. -/
theorem C152_renamed (num : Nat) (c : Cmd) (hc : c = .splitTimestamp ∨ c = .splitLifecycles) (name : B4 → B4) (a b : Bytes)
    (ha : Fits a) (hb : Fits b) (xs ys : List StorageEntry) (hx : Messages a xs) (hy : Messages b ys)
    (h : Pointwise (Renamed name) xs ys) (hi : NamesApart name xs) (ls ls' : List (Bytes × (OrdMap UInt32 Nat × Nat)))
    (hr : RunCmd num a c (.ok (.ecus ls))) (hr' : RunCmd num b c (.ok (.ecus ls'))) :
    ∃ table : List (B4 × (OrdMap UInt32 Nat × Nat)), ls = table.map (fun e => (e.1.toBytes, e.2)) ∧
      ls'.Perm (table.map fun e => ((name e.1).toBytes, e.2)) := by
  rcases hc with rfl | rfl
  · obtain ⟨m, a1, a2, rfl⟩ := ((C141_exact num a ha xs hx _ rfl _).1 hr).2
    obtain ⟨m', b1, b2, rfl⟩ := ((C141_exact num b hb ys hy _ rfl _).1 hr').2
    refine ⟨m, rfl, ?_⟩
    have := renamed_table (R := fun e e' => (secsOf e' : Int) = secsOf e + 0) (h.imp fun e e' h => ⟨h.1, by rw [h.2.2]; omega⟩) hi
      a1 b1 fun id hist n hist' n' hp g1 g2 => by
        obtain ⟨r1, s1, c1, c2⟩ := a2 _ _ _ g1
        obtain ⟨r2, s2, d1, d2⟩ := b2 _ _ _ g2
        rw [spans_moved hp c1 d1] at d2
        exact hist32_unique c2 d2
    have := this.map fun e => (e.1.toBytes, e.2)
    rw [List.map_map] at this
    exact this
  · obtain ⟨m, a1, a2, rfl⟩ := ((C141_exact num a ha xs hx _ rfl _).1 hr).2
    obtain ⟨m', b1, b2, rfl⟩ := ((C141_exact num b hb ys hy _ rfl _).1 hr').2
    refine ⟨m, rfl, ?_⟩
    have ht : Pointwise (fun e e' => e'.storageHeader.ecu = name e.storageHeader.ecu ∧ (time e' : Int) = time e + 0)
        (timed xs) (timed ys) := by
      refine timed_alike h (fun e e' h => by rw [h.2.1]) fun e e' h _ => ⟨h.1, ?_⟩
      unfold time timeOf
      rw [h.2.1]
      omega
    have hi' : NamesApart name (timed xs) := fun a ha b hb =>
      hi a (List.mem_filter.1 ha).1 b (List.mem_filter.1 hb).1
    have := renamed_table ht hi' a1 b1 fun id hist n hist' n' hp g1 g2 => by
        obtain ⟨r1, c1, c2⟩ := a2 _ _ _ g1
        obtain ⟨r2, d1, d2⟩ := b2 _ _ _ g2
        obtain ⟨q, h3, h4⟩ := maximal_alike (P := fun a b => time a ≤ time b) (Q := fun a b => time a ≤ time b)
          (fun x x' y y' hx hy => by omega) hp c1
        obtain rfl := runs_same h3 d1
        rw [← h4.map_eq (f := fun r => timeSpanOf r / 10000) fun _ _ h => by rw [timeSpan_moved h]] at d2
        exact hist32_unique c2 d2
    have := this.map fun e => (e.1.toBytes, e.2)
    rw [List.map_map] at this
    exact this

/-- **C152** such a log panics with a split command exactly if the names say so: an id that is not UTF-8, or for `split_lifecycles` an
incomplete time stamp. -/
theorem C152_panics (num : Nat) (name : B4 → B4) (a b : Bytes) (ha : Fits a) (hb : Fits b) (xs ys : List StorageEntry)
    (hx : Messages a xs) (hy : Messages b ys) (h : Pointwise (Renamed name) xs ys) :
    (RunCmd num b .splitTimestamp .panic ↔ ∃ e ∈ xs, ¬ Utf8 (name e.storageHeader.ecu).toBytes) ∧
    ((∀ e ∈ xs, Utf8 e.storageHeader.ecu.toBytes ∧ Utf8 (name e.storageHeader.ecu).toBytes) →
      ∀ c, c = .splitTimestamp ∨ c = .splitLifecycles → (RunCmd num b c .panic ↔ RunCmd num a c .panic)) := by
  have hp : ∀ (d : Bytes) (ms : List StorageEntry), Fits d → Messages d ms → ∀ c, sequential c = true →
      (RunCmd num d c .panic ↔ Panics ms c) := by
    intro d ms hd hm c hs
    rcases sequential_outcome num d hd ms hm c hs with ⟨h1, h2⟩ | ⟨h1, rep, -, h3⟩
    · exact ⟨fun _ => h1, fun _ => (h2 _).2 rfl⟩
    · refine ⟨fun hr => ?_, fun hq => absurd hq h1⟩
      cases (h3 _).1 hr
  have hpre : Panics ys .splitTimestamp ↔ ∃ e ∈ xs, ¬ Utf8 (name e.storageHeader.ecu).toBytes := by
    constructor
    · rintro ⟨e', he', hu⟩
      obtain ⟨e, he, h1⟩ := h.mem_right e' he'
      exact ⟨e, he, h1.1 ▸ hu⟩
    · rintro ⟨e, he, hu⟩
      obtain ⟨e', he', h1⟩ := h.mem_left e he
      exact ⟨e', he', h1.1.symm ▸ hu⟩
  refine ⟨(hp b ys hb hy _ rfl).trans hpre, fun hu c hc => ?_⟩
  rcases hc with rfl | rfl
  · rw [hp b ys hb hy _ rfl, hp a xs ha hx _ rfl, hpre]
    exact ⟨fun ⟨e, he, h1⟩ => absurd (hu e he).2 h1, fun ⟨e, he, h1⟩ => absurd (hu e he).1 h1⟩
  · rw [hp b ys hb hy _ rfl, hp a xs ha hx _ rfl]
    constructor
    · rintro ⟨e', he', h1⟩
      obtain ⟨he', hf⟩ := List.mem_filter.1 he'
      obtain ⟨e, he, g1, g2, -⟩ := h.mem_right e' he'
      rcases h1 with h1 | h1
      · refine ⟨e, List.mem_filter.2 ⟨he, by rw [← g2]; exact hf⟩, .inl ?_⟩
        unfold timeOf at h1 ⊢
        rw [← g2]; exact h1
      · rw [g1] at h1
        exact absurd (hu e he).2 h1
    · rintro ⟨e, he, h1⟩
      obtain ⟨he, hf⟩ := List.mem_filter.1 he
      obtain ⟨e', he', g1, g2, -⟩ := h.mem_left e he
      rcases h1 with h1 | h1
      · refine ⟨e', List.mem_filter.2 ⟨he', by rw [g2]; exact hf⟩, .inl ?_⟩
        unfold timeOf at h1 ⊢
        rw [g2]; exact h1
      · exact absurd (hu e he).1 h1

/-! ## At work -/

/-- The two ECUs of `apart` under each other's name. -/
def swapNames (id : B4) : B4 := if id = id1 then id2 else id1

def apartSwapped : List StorageEntry := [stamped false 0, stamped true 5, stamped false 1, stamped true 6]

theorem apart_renamed : Pointwise (Renamed swapNames) apart apartSwapped :=
  .cons ⟨by decide, rfl, rfl⟩ (.cons ⟨by decide, rfl, rfl⟩ (.cons ⟨by decide, rfl, rfl⟩ (.cons ⟨by decide, rfl, rfl⟩ .nil)))

/-- The lines of the two ECUs change their names and places. -/
example (num : Nat) : ∃ ls ls', RunCmd num (packed apart) .splitTimestamp (.ok (.ecus ls)) ∧
    RunCmd num (packed apartSwapped) .splitTimestamp (.ok (.ecus ls')) ∧
    ∃ table : List (B4 × (OrdMap UInt32 Nat × Nat)), ls = table.map (fun e => (e.1.toBytes, e.2)) ∧
      ls'.Perm (table.map fun e => ((swapNames e.1).toBytes, e.2)) := by
  have hx : Messages (packed apart) apart := messages_packed (by decide)
  have hy : Messages (packed apartSwapped) apartSwapped := messages_packed (by decide)
  have hu : ∀ l, (∀ e ∈ l, utf8Valid e.storageHeader.ecu.toBytes = true) → ¬ Panics l .splitTimestamp := by
    rintro l hl ⟨e, he, hu⟩
    exact hu ((utf8Valid_iff _).1 (hl e he))
  have hrun : ∀ d l, Fits d → Messages d l → ¬ Panics l .splitTimestamp →
      ∃ ls, RunCmd num d .splitTimestamp (.ok (.ecus ls)) := by
    intro d l hd hl hn
    rcases sequential_outcome num d hd l hl .splitTimestamp rfl with ⟨h1, -⟩ | ⟨-, rep, h2, h3⟩
    · exact absurd h1 hn
    · cases rep <;> first | exact h2.elim | skip
      exact ⟨_, (h3 _).2 rfl⟩
  obtain ⟨ls, h1⟩ := hrun _ _ (by decide) hx (hu _ (by decide))
  obtain ⟨ls', h2⟩ := hrun _ _ (by decide) hy (hu _ (by decide))
  have hi : NamesApart swapNames apart := by
    have : ∀ a ∈ apart, ∀ b ∈ apart, swapNames a.storageHeader.ecu = swapNames b.storageHeader.ecu →
      a.storageHeader.ecu = b.storageHeader.ecu := by decide
    exact this
  exact ⟨ls, ls', h1, h2,
    C152_renamed num _ (.inl rfl) swapNames _ _ (by decide) (by decide) _ _ hx hy apart_renamed hi ls ls' h1 h2⟩

example (num : Nat) (r : Res Report) :
    RunCmd num (packed apart) .histogramTimestamp r ↔ RunCmd num (packed apartSwapped) .histogramTimestamp r :=
  (C152_blind num _ rfl (by simp) swapNames _ _ (by decide) (by decide) _ _ (messages_packed (by decide))
    (messages_packed (by decide)) apart_renamed).1 r

end Verif
