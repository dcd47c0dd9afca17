import Verif.Spec.DdParallel
import Verif.Props.Equal
import Verif.Props.EndToEnd

/-! # C127: `dd_dlt` and then `ripdlt` on several threads -/

set_option linter.unusedSimpArgs false

namespace Verif

open Spec

/-! ## Groups -/

theorem groups_map {α β : Type} (f : α → β) (q : Nat) : ∀ (n : Nat) (xs : List α),
    groups q n (xs.map f) = (groups q n xs).map (List.map f)
  | 0, _ => rfl
  | 1, _ => rfl
  | n + 2, xs => by
    show (xs.map f).take q :: groups q (n + 1) ((xs.map f).drop q) = (xs.take q :: groups q (n + 1) (xs.drop q)).map (List.map f)
    rw [List.map_cons, ← groups_map f q (n + 1), List.map_take, List.map_drop]

theorem groups_range (q : Nat) : ∀ (n a l : Nat), ∀ g ∈ groups q n (List.range' a l), ∃ b m, g = List.range' b m ∧ b + m ≤ a + l
  | 0, _, _, g, hg => by cases hg
  | 1, a, l, g, hg => ⟨a, l, List.mem_singleton.1 hg, Nat.le_refl _⟩
  | n + 2, a, l, g, hg => by
    rcases List.mem_cons.1 hg with rfl | hg
    · by_cases h : l ≤ q
      · exact ⟨a, l, List.take_range'_of_length_le h, Nat.le_refl _⟩
      · exact ⟨a, q, List.take_range'_of_length_ge (by omega), by omega⟩
    · rw [List.drop_range', Nat.mul_one] at hg
      by_cases h : q ≤ l
      · obtain ⟨b, m, h1, h2⟩ := groups_range q (n + 1) (a + q) (l - q) g hg
        exact ⟨b, m, h1, by omega⟩
      · rw [show l - q = 0 by omega] at hg
        obtain ⟨b, m, h1, h2⟩ := groups_range q (n + 1) (a + q) 0 g hg
        have h3 : ∀ n, ∀ g ∈ groups q n ([] : List Nat), g = [] := by
          intro n g hg
          cases g with
          | nil => rfl
          | cons x g => exact absurd (groups_mem q n [] _ hg x (List.mem_cons_self ..)) List.not_mem_nil
        exact ⟨0, 0, h3 _ g hg, by omega⟩

theorem list_of_range {α : Type} (d : α) (xs : List α) : xs = (List.range' 0 xs.length).map fun i => xs.getD i d := by
  apply List.ext_getElem?
  intro i
  rw [List.getElem?_map]
  by_cases h : i < xs.length
  · rw [List.getElem?_range' h]
    show _ = some (xs.getD (0 + 1 * i) d)
    rw [Nat.zero_add, Nat.one_mul, List.getD_eq_getElem?_getD, List.getElem?_eq_getElem h]
    rfl
  · rw [List.getElem?_eq_none (by omega), List.getElem?_eq_none (by rw [List.length_range']; omega)]
    rfl

/-! ## The messages of a slice -/

section
variable {ecu : B4} {info : MessageType} {n : Nat} {pieces : List Bytes} {msgs : List StorageEntry}

/-- Successive messages. -/
structure Successive (ecu : B4) (a l : Nat) (g : List StorageEntry) : Prop where
  count : g.length = l
  many : l ≠ 0
  ecuHeader : ∀ e ∈ g, e.storageHeader.ecu = ecu
  timed : ∀ e ∈ g, flag e.dlt 4 = true
  secs : ∀ i e, g[i]? = some e → secsOf e = (a + i) / 100
  time : ∀ i e, g[i]? = some e → timeOf e = some (100 * (a + i))

variable {a l : Nat} {g : List StorageEntry}

theorem succ_ends (h : Successive ecu a l g) : ∃ x y, g.head? = some x ∧ g.getLast? = some y ∧ g[0]? = some x ∧ g[l - 1]? = some y := by
  have hne : g ≠ [] := by
    intro h0
    have := h.count
    rw [h0] at this
    exact h.many this.symm
  obtain ⟨x, t, hx⟩ := List.exists_cons_of_ne_nil hne
  have h3 := List.getLast?_eq_some_getLast hne
  refine ⟨x, g.getLast hne, by rw [hx]; rfl, h3, by rw [hx]; rfl, ?_⟩
  rw [List.getLast?_eq_getElem?, h.count] at h3
  exact h3

theorem succ_secSpan (h : Successive ecu a l g) : secSpanOf g = (a + l - 1) / 100 - a / 100 := by
  obtain ⟨x, y, h1, h2, h3, h4⟩ := succ_ends h
  have := h.many
  unfold secSpanOf
  rw [h1, h2]
  show secsOf y - secsOf x = _
  rw [h.secs _ _ h3, h.secs _ _ h4, show a + (l - 1) = a + l - 1 by omega, Nat.add_zero]

theorem succ_time (h : Successive ecu a l g) {i : Nat} {e : StorageEntry} (he : g[i]? = some e) : Spec.time e = 100 * (a + i) := by
  unfold Spec.time; rw [h.time i e he]; rfl

theorem succ_timeSpan (h : Successive ecu a l g) : timeSpanOf g = 100 * (l - 1) := by
  obtain ⟨x, y, h1, h2, h3, h4⟩ := succ_ends h
  unfold timeSpanOf
  rw [h1, h2]
  show Spec.time y - Spec.time x = _
  rw [succ_time h h3, succ_time h h4]
  omega

theorem succ_ne (h : Successive ecu a l g) : g ≠ [] := by
  intro h0
  have := h.count
  rw [h0] at this
  exact h.many this.symm

theorem succ_runs (h : Successive ecu a l g) {runs : List (List StorageEntry)}
    (hr : MaximalRuns (fun a b => secsOf a ≤ secsOf b) g runs) : runs = [g] := by
  have := runs_one hr fun i x y h1 h2 => by
    show secsOf x ≤ secsOf y
    rw [h.secs i x h1, h.secs _ y h2]; omega
  rw [this, if_neg (succ_ne h)]

theorem succ_runs_time (h : Successive ecu a l g) {runs : List (List StorageEntry)}
    (hr : MaximalRuns (fun a b => Spec.time a ≤ Spec.time b) g runs) : runs = [g] := by
  have := runs_one hr fun i x y h1 h2 => by
    show Spec.time x ≤ Spec.time y
    rw [succ_time h h1, succ_time h h2]; omega
  rw [this, if_neg (succ_ne h)]

theorem succ_spans (h : Successive ecu a l g) {runs : List (List StorageEntry)} {spans : List (Nat × Nat)}
    (hs : EcuSpans g runs spans) : spans.map (fun s => s.2 - s.1) = [secSpanOf g] := by
  have hr := succ_runs h hs.isRuns
  subst hr
  obtain ⟨x, y, h1, h2, h3, h4⟩ := succ_ends h
  have hx := h.secs _ _ h3
  have hy := h.secs _ _ h4
  have hxy : secsOf x ≤ secsOf y := by rw [hx, hy]; omega
  have hcov : ∀ t, (∃ s ∈ spans, Covers s.1 s.2 t) ↔ secsOf x ≤ t ∧ t ≤ secsOf y := by
    intro t
    rw [hs.cover]
    constructor
    · rintro ⟨r, hr, u, v, h5, h6, h7⟩
      rw [List.mem_singleton] at hr
      subst hr
      rw [h1] at h5; rw [h2] at h6
      injection h5 with h5; injection h6 with h6
      subst h5; subst h6
      exact h7
    · intro ht
      exact ⟨g, List.mem_singleton.2 rfl, x, y, h1, h2, ht⟩
  have hsp : secSpanOf g = secsOf y - secsOf x := by unfold secSpanOf; rw [h1, h2]
  rw [hsp]
  have hfew := hs.few
  match spans, hfew, hcov, hs with
  | [], _, hcov, _ =>
    obtain ⟨s, hs, _⟩ := (hcov (secsOf x)).2 ⟨Nat.le_refl _, hxy⟩
    cases hs
  | [s], _, hcov, hs =>
    have ho := hs.ordered s (List.mem_singleton.2 rfl)
    obtain ⟨s', hs', h5⟩ := (hcov (secsOf x)).2 ⟨Nat.le_refl _, hxy⟩
    rw [List.mem_singleton] at hs'; subst hs'
    obtain ⟨s'', hs'', h6⟩ := (hcov (secsOf y)).2 ⟨hxy, Nat.le_refl _⟩
    rw [List.mem_singleton] at hs''; subst hs''
    have h7 := (hcov s''.2).1 ⟨s'', List.mem_singleton.2 rfl, ho, Nat.le_refl _⟩
    have h8 := (hcov s''.1).1 ⟨s'', List.mem_singleton.2 rfl, Nat.le_refl _, ho⟩
    unfold Covers at h5 h6
    rw [List.map_cons, List.map_nil]
    congr 1
    omega

/-- What `split_timestamp` makes of a slice. -/
theorem succ_table (h : Successive ecu a l g) (hw : ∀ e ∈ g, WF e) (hF : Fits (packed g)) :
    timestampSplit (packed g) = some (.ok [(ecu, [(UInt32.ofNat (secSpanOf g), 1)], l)]) := by
  obtain ⟨m, h1, h2, -, h4⟩ := C47_split_timestamp (packed g) hF g (messages_packed hw)
  have h5 := hist_const h2 (map_const h.ecuHeader)
  unfold oneLine at h5
  rw [h.count, if_neg h.many] at h5
  have hof : ofEcu ecu g = g := by
    unfold ofEcu
    exact List.filter_eq_self.2 fun e he => decide_eq_true (h.ecuHeader e he)
  match m, h5 with
  | [(e, hist, k)], h5 =>
    injection h5 with h5 _
    injection h5 with h6 h7
    simp only at h6 h7
    subst h6; subst h7
    obtain ⟨-, runs, spans, h8, h9⟩ := h4 _ _ _ List.mem_cons_self
    rw [hof] at h8
    rw [succ_spans h h8] at h9
    rw [h1, hist_u32 h9]

end

/-- The table `par_split_timestamp` prints. -/
theorem par_split_table {bytes : Bytes} {num : Nat} (hF : Fits bytes) {slices : List Bytes}
    (hp : partitionFrom dltStorage bytes num = .ok slices) :
    ∃ m, (∀ r, ParTimestampSplit bytes num r ↔ r = .ok m) ∧
      IsEcuTable (slices.map fun s => itemsOf (tableOfFile s)).flatten m := by
  obtain ⟨hlen, hfit⟩ := partition_fits hF hp
  have hpar : ∀ r, ParTimestampSplit bytes num r ↔ ParReduce timestampSplit mergeNested [] slices r := fun r => by
    unfold ParTimestampSplit; rw [hp]
  let g : Bytes → List (B4 × Option UInt32) := fun s => itemsOf (tableOfFile s)
  have hlen2 : (slices.map g).flatten.length ≤ usizeMax := by
    have := flatten_length_le (g := g) fun s hs => (timestampSplit_table (hfit s hs)).2.2
    have := fits_le hF
    unfold usizeMax
    omega
  have hrep : ∀ r, ParReduce timestampSplit mergeNested [] slices r →
      ∃ v, r = .ok v ∧ IsEcuTable (slices.map g).flatten v := fun r hr =>
    parReduce_rep (I := fun u m => IsEcuTable u m) g (N := usizeMax) isEcuTable_nil
      (fun a b u v ha hb hl => mergeNested_table ha hb (by rw [← List.length_append]; exact hl))
      hr (fun s hs => ⟨_, (timestampSplit_table (hfit s hs)).1, (timestampSplit_table (hfit s hs)).2.1⟩) hlen2
  obtain ⟨r, hr⟩ := parReduce_exists (f := timestampSplit) (op := mergeNested) (e := []) slices fun s hs => by
    rw [(timestampSplit_table (hfit s hs)).1]; simp
  obtain ⟨m, rfl, hm⟩ := hrep r hr
  refine ⟨m, fun r' => ?_, hm⟩
  rw [hpar]
  constructor
  · intro hr'
    obtain ⟨m', rfl, hm'⟩ := hrep r' hr'
    rw [isEcuTable_unique hm' hm]
  · rintro rfl; exact hr

/-! ## The slices of a file made by `dd_dlt` -/

section
variable {ecu : B4} {info : MessageType} {n : Nat} {pieces : List Bytes} {msgs : List StorageEntry}

theorem ddFile_take (h : DdFile ecu info n pieces msgs) (j : Nat) : DdFile ecu info n (pieces.take j) (msgs.take j) where
  count := by rw [List.length_take, List.length_take, h.count]
  few := Nat.le_trans (List.length_take_le' ..) h.few
  size p hp := h.size p (List.mem_of_mem_take hp)
  ecuHeader e he := h.ecuHeader e (List.mem_of_mem_take he)
  ext e he := h.ext e (List.mem_of_mem_take he)
  timed e he := h.timed e (List.mem_of_mem_take he)
  noEcu e he := h.noEcu e (List.mem_of_mem_take he)
  length e he := h.length e (List.mem_of_mem_take he)
  full e he := h.full e (List.mem_of_mem_take he)
  info e he := h.info e (List.mem_of_mem_take he)
  payloads := by rw [List.map_take, h.payloads, List.map_take]
  secs i e he := by
    rw [List.getElem?_take] at he
    split at he
    · exact h.secs i e he
    · cases he
  time i e he := by
    rw [List.getElem?_take] at he
    split at he
    · exact h.time i e he
    · cases he

theorem dd_successive (h : DdFile ecu info n pieces msgs) {a l : Nat} (hl : l ≠ 0) (hal : a + l ≤ msgs.length) :
    Successive ecu a l ((List.range' a l).map fun i => msgs.getD i msg0) := by
  have hget : ∀ i, i < l → ∃ e, msgs[a + i]? = some e ∧ msgs.getD (a + i) msg0 = e := fun i hi => by
    have := List.getElem?_eq_getElem (l := msgs) (i := a + i) (by omega)
    exact ⟨_, this, by rw [List.getD_eq_getElem?_getD, this]; rfl⟩
  have hidx : ∀ i e, ((List.range' a l).map fun i => msgs.getD i msg0)[i]? = some e → msgs[a + i]? = some e := by
    intro i e he
    rw [List.getElem?_map] at he
    by_cases hi : i < l
    · rw [List.getElem?_range' hi, Nat.one_mul] at he
      obtain ⟨x, h1, h2⟩ := hget i hi
      injection he with he
      exact h1.trans (congrArg some (h2.symm.trans he))
    · rw [List.getElem?_eq_none (by rw [List.length_range']; omega)] at he
      cases he
  have hmem : ∀ e ∈ (List.range' a l).map fun i => msgs.getD i msg0, e ∈ msgs := fun e he => by
    obtain ⟨i, hi⟩ := List.getElem?_of_mem he
    exact List.mem_of_getElem? (hidx i e hi)
  exact {
    count := by rw [List.length_map, List.length_range']
    many := hl
    ecuHeader := fun e he => h.ecuHeader e (hmem e he)
    timed := fun e he => h.timed e (hmem e he)
    secs := fun i e he => h.secs _ e (hidx i e he)
    time := fun i e he => h.time _ e (hidx i e he) }

/-- The slices, one after the other: the messages in them are successive. -/
theorem dd_slices (h : DdFile ecu info n pieces msgs) {k L : Nat} (he : Equals msgs k L) {num : Nat} (hnum : num ≠ 0) :
    ∃ gs : List (List StorageEntry), partitionFrom dltStorage (packed msgs) num = .ok (gs.map packed) ∧
      gs.flatten = msgs.take (k - leftOut k L num) ∧ gs.length = slicesOf k L num ∧
      gs.map secSpanOf = sliceSpans k L num ∧
      gs.map List.length = (slicesOfNumbers k L num).map List.length ∧
      (∀ g ∈ gs, ∃ a l, Successive ecu a l g) ∧ (∀ g ∈ gs, Fits (packed g)) ∧ ∀ g ∈ gs, ∀ e ∈ g, e ∈ msgs := by
  obtain ⟨-, -, slices', -, -, -, hp', -, hne, -⟩ := C30_partition_contiguous (packed msgs) he.fits num hnum
  have hp := C126_slices he num hnum
  rw [hp] at hp'
  cases hp'
  have hfit := (partition_fits he.fits hp).2
  obtain ⟨-, -, -, hflat⟩ := C126_messages he num hnum
  have hgs : groups (k / num) (slicesOf k L num) (msgs.take (k - leftOut k L num)) =
      (slicesOfNumbers k L num).map (List.map fun i => msgs.getD i msg0) := by
    unfold slicesOfNumbers
    rw [← groups_map]
    congr 1
    conv => lhs; rw [list_of_range msg0 msgs, ← List.map_take, List.take_range'_of_length_ge (by rw [he.count]; omega)]
    rw [List.range_eq_range']
  have hall : ∀ g ∈ slicesOfNumbers k L num, ∃ a l, g = List.range' a l ∧ l ≠ 0 ∧ a + l ≤ k := by
    intro g hg
    obtain ⟨a, l, h1, h2⟩ := groups_range _ _ 0 _ g (by rw [← List.range_eq_range']; exact hg)
    refine ⟨a, l, h1, ?_, by omega⟩
    rintro rfl
    refine hne [] ?_ rfl
    rw [hgs, List.map_map]
    refine List.mem_map.2 ⟨g, hg, ?_⟩
    rw [h1]
    rfl
  refine ⟨_, hp, hflat, ?_, ?_, ?_, ?_, ?_, ?_⟩
  · have h1 : ∀ (q n : Nat) (xs : List StorageEntry), (groups q n xs).length = n := by
      intro q n
      induction n with
      | zero => intro xs; rfl
      | succ n ih =>
        intro xs
        cases n with
        | zero => rfl
        | succ n => exact congrArg (· + 1) (ih _)
    exact h1 _ _ _
  · rw [hgs, List.map_map]
    unfold sliceSpans
    refine List.map_congr_left fun g hg => ?_
    obtain ⟨a, l, h1, h2, h3⟩ := hall g hg
    subst h1
    show secSpanOf _ = _
    rw [succ_secSpan (dd_successive h h2 (by rw [he.count]; exact h3)), List.getLastD_eq_getLast?, List.headD_eq_head?_getD,
      List.getLast?_range', List.head?_range', if_neg h2, if_neg h2]
    rfl
  · rw [hgs, List.map_map]
    refine List.map_congr_left fun g _ => ?_
    exact List.length_map ..
  · intro g hg
    rw [hgs] at hg
    obtain ⟨g', hg', rfl⟩ := List.mem_map.1 hg
    obtain ⟨a, l, h1, h2, h3⟩ := hall g' hg'
    subst h1
    exact ⟨a, l, dd_successive h h2 (by rw [he.count]; exact h3)⟩
  · intro g hg
    exact hfit _ (List.mem_map.2 ⟨g, hg, rfl⟩)
  · intro g hg e hmem
    exact List.mem_of_mem_take (groups_mem _ _ _ g hg e hmem)

theorem each_map_messages {gs : List (List StorageEntry)} (hw : ∀ g ∈ gs, ∀ e ∈ g, WF e) : Each Messages (gs.map packed) gs := by
  induction gs with
  | nil => trivial
  | cons g gs ih => exact ⟨messages_packed (hw g (List.mem_cons_self ..)), ih fun g hg => hw g (List.mem_cons_of_mem _ hg)⟩

/-- The spans as `u32`. -/
theorem hist_toU32 : ∀ {hist : List (Nat × Nat)} {keys : List Nat}, IsHistogram keys hist → (∀ k ∈ keys, k < 2 ^ 32) →
    IsHistogram (keys.map UInt32.ofNat) (hist.map fun e => (UInt32.ofNat e.1, e.2)) := by
  intro hist keys h hk
  have hlt : ∀ e ∈ hist, e.1 < 2 ^ 32 := by
    intro e he
    have h1 := (h.mem e.1 e.2).1 he
    exact hk _ (List.count_pos_iff.1 (by omega))
  have hinj : ∀ a b, a < 2 ^ 32 → b < 2 ^ 32 → UInt32.ofNat a = UInt32.ofNat b → a = b := by
    intro a b ha hb hab
    have := congrArg UInt32.toNat hab
    rwa [UInt32.toNat_ofNat_of_lt' ha, UInt32.toNat_ofNat_of_lt' hb] at this
  have hcount : ∀ a, a < 2 ^ 32 → (keys.map UInt32.ofNat).count (UInt32.ofNat a) = keys.count a := by
    intro a ha
    clear h hlt
    induction keys with
    | nil => rfl
    | cons b keys ih =>
      rw [List.map_cons, List.count_cons, List.count_cons, ih fun k hk' => hk k (List.mem_cons_of_mem _ hk')]
      congr 1
      by_cases hab : b = a
      · subst hab; rw [if_pos (by exact beq_self_eq_true _), if_pos (by exact beq_self_eq_true _)]
      · have : UInt32.ofNat b ≠ UInt32.ofNat a := fun h1 => hab (hinj b a (hk b (List.mem_cons_self ..)) ha h1)
        rw [if_neg (by simpa using this), if_neg (by simpa using hab)]
  refine ⟨?_, fun d v => ?_⟩
  · rw [List.pairwise_map]
    refine h.sorted.imp_of_mem fun {x y} hx hy hxy => ?_
    show (UInt32.ofNat x.1).toNat < (UInt32.ofNat y.1).toNat
    rw [UInt32.toNat_ofNat_of_lt' (hlt x hx), UInt32.toNat_ofNat_of_lt' (hlt y hy)]
    exact hxy
  · constructor
    · intro hm
      obtain ⟨e, he, h1⟩ := List.mem_map.1 hm
      injection h1 with h1 h2
      subst h1; subst h2
      rw [hcount _ (hlt e he)]
      exact (h.mem e.1 e.2).1 he
    · rintro ⟨h1, h2⟩
      have h3 : d = UInt32.ofNat d.toNat := UInt32.ofNat_toNat.symm
      have h4 := hcount d.toNat d.toNat_lt
      rw [← h3] at h4
      exact List.mem_map.2 ⟨(d.toNat, v), (h.mem _ _).2 ⟨h1, by rw [h2, h4]⟩, by rw [← h3]⟩

/-- A table with one ECU. -/
theorem one_ecu {gs : List (List StorageEntry)} (hs : ∀ g ∈ gs, timestampSplit (packed g) =
      some (.ok [(ecu, [(UInt32.ofNat (secSpanOf g), 1)], g.length)])) (hnz : ∀ g ∈ gs, g ≠ []) {hist : OrdMap UInt32 Nat}
    (hh : IsHistogram (gs.map fun g => UInt32.ofNat (secSpanOf g)) hist)
    {m : List (B4 × (OrdMap UInt32 Nat × Nat))} (hm : IsEcuTable (gs.map fun g => itemsOf (tableOfFile (packed g))).flatten m) :
    m = oneLine gs.flatten.length (ecu, hist, gs.flatten.length) := by
  have hitems : ∀ g ∈ gs, itemsOf (tableOfFile (packed g)) =
      List.replicate g.length (ecu, none) ++ [(ecu, some (UInt32.ofNat (secSpanOf g)))] := by
    intro g hg
    unfold tableOfFile
    rw [hs g hg]
    simp only [itemsOf, List.flatMap_cons, List.flatMap_nil, List.append_nil]
    rfl
  rw [List.map_congr_left hitems] at hm
  refine isEcuTable_unique hm ?_
  clear hm hitems
  by_cases h0 : gs.flatten.length = 0
  · have hg0 : gs = [] := by
      cases gs with
      | nil => rfl
      | cons g gs =>
        exfalso
        rw [List.flatten_cons, List.length_append] at h0
        exact hnz g (List.mem_cons_self ..) (List.length_eq_zero_iff.1 (by omega))
    subst hg0
    exact isEcuTable_nil
  · unfold oneLine
    rw [if_neg h0]
    have hmem : ∀ x ∈ (gs.map fun g => List.replicate g.length (ecu, none) ++ [(ecu, some (UInt32.ofNat (secSpanOf g)))]).flatten,
        x.1 = ecu := by
      intro x hx
      obtain ⟨l, hl, hx⟩ := List.mem_flatten.1 hx
      obtain ⟨g, hg, rfl⟩ := List.mem_map.1 hl
      rcases List.mem_append.1 hx with hx | hx
      · rw [List.eq_of_mem_replicate hx]
      · rw [List.mem_singleton.1 hx]
    refine ⟨List.pairwise_singleton .., fun e => ?_, ?_, ?_⟩
    · constructor
      · rintro ⟨v, hv⟩
        injection List.mem_singleton.1 hv with h1 h2
        subst h1
        cases gs with
        | nil => exact absurd rfl h0
        | cons g gs =>
          refine ⟨(e, some (UInt32.ofNat (secSpanOf g))), ?_, rfl⟩
          rw [List.map_cons, List.flatten_cons]
          exact List.mem_append_left _ (List.mem_append_right _ (List.mem_singleton.2 rfl))
      · rintro ⟨x, hx, rfl⟩
        rw [hmem x hx]
        exact ⟨_, List.mem_singleton.2 rfl⟩
    · intro e h v he
      injection List.mem_singleton.1 he with h1 h2
      injection h2 with h2 h3
      subst h1; subst h2; subst h3
      clear hmem h0 hh hs hnz
      induction gs with
      | nil => rfl
      | cons g gs ih =>
        rw [List.map_cons, List.flatten_cons, List.flatten_cons, List.length_append, List.count_append, ← ih,
          List.count_append, List.count_replicate_self, List.count_eq_zero.2 (by simp), Nat.add_zero]
        exact List.mem_singleton.2 rfl
    · intro e h v he
      injection List.mem_singleton.1 he with h1 h2
      injection h2 with h2 h3
      subst h1; subst h2; subst h3
      refine isHistogram_perm hh ?_
      have key : ∀ gs : List (List StorageEntry), List.filterMap (fun x : B4 × Option UInt32 => if x.1 = e then x.2 else none)
          (gs.map fun g => List.replicate g.length (e, none) ++ [(e, some (UInt32.ofNat (secSpanOf g)))]).flatten =
          gs.map fun g => UInt32.ofNat (secSpanOf g) := by
        intro gs
        induction gs with
        | nil => rfl
        | cons g gs ih =>
          rw [List.map_cons, List.flatten_cons, List.filterMap_append, ih, List.filterMap_append, List.map_cons]
          have h4 : List.filterMap (fun x : B4 × Option UInt32 => if x.1 = e then x.2 else none)
              (List.replicate g.length (e, none)) = [] := by
            rw [List.filterMap_eq_nil_iff]
            intro x hx
            rw [List.eq_of_mem_replicate hx]
            simp
          rw [h4]
          simp
      rw [key gs]

open Classical in
/-- What the multithreaded commands print. -/
theorem dd_par_prints (h : DdFile ecu info n pieces msgs) (hu : Utf8 ecu.toBytes) {k L : Nat} (he : Equals msgs k L) {num : Nat}
    (hnum : num ≠ 0) : ∃ hist, IsHistogram (sliceSpans k L num) hist ∧
      ∀ c rep, ddParReport ecu.toBytes (pieces.take (k - leftOut k L num)) hist c = some rep →
        ∀ r, RunCmd num (packed msgs) c r ↔ r = .ok rep := by
  obtain ⟨gs, hp, hflat, -, hspans, -, hsucc, hfit, hmem⟩ := dd_slices h he hnum
  have hw : ∀ g ∈ gs, ∀ e ∈ g, WF e := fun g hg e hx => he.wf e (hmem g hg e hx)
  have hm := each_map_messages hw
  have hpk : pieces.length = k := by rw [← h.count, he.count]
  have hplen : (pieces.take (k - leftOut k L num)).length = k - leftOut k L num := by
    rw [List.length_take, hpk, Nat.min_eq_left (Nat.sub_le _ _)]
  have hglen : gs.flatten.length = k - leftOut k L num := by
    rw [hflat, List.length_take, he.count, Nat.min_eq_left (Nat.sub_le _ _)]
  obtain ⟨slices', runss, hist, h1, h2, h3, h4⟩ := C35_par_histogram (packed msgs) num hnum he.fits
  rw [hp] at h1
  cases h1
  have hruns : ∀ {gs : List (List StorageEntry)} {runss : List (List (List StorageEntry))},
      (∀ g ∈ gs, ∃ a l, Successive ecu a l g) → (∀ g ∈ gs, ∀ e ∈ g, WF e) → (∀ g ∈ gs, Fits (packed g)) →
      Each (fun s runs => ∃ msgs, Messages s msgs ∧ MaximalRuns (fun a b => secsOf a ≤ secsOf b) msgs runs) (gs.map packed) runss →
      runss.flatten = gs := by
    intro gs
    induction gs with
    | nil =>
      intro runss _ _ _ h5
      cases runss with
      | nil => rfl
      | cons => exact h5.elim
    | cons g gs ih =>
      intro runss hs hw hf h5
      cases runss with
      | nil => exact h5.elim
      | cons runs runss =>
        obtain ⟨⟨ms, h6, h7⟩, h8⟩ := h5
        obtain rfl := messages_unique h6 (messages_packed (hw g (List.mem_cons_self ..)))
        obtain ⟨a, l, h9⟩ := hs ms (List.mem_cons_self ..)
        rw [succ_runs h9 h7, List.flatten_cons, ih (fun g hg => hs g (List.mem_cons_of_mem _ hg))
          (fun g hg => hw g (List.mem_cons_of_mem _ hg)) (fun g hg => hf g (List.mem_cons_of_mem _ hg)) h8]
        rfl
  rw [hruns hsucc hw hfit h3, hspans] at h4
  refine ⟨hist, h4, fun c rep hr r => ?_⟩
  have hlt : ∀ x ∈ sliceSpans k L num, x < 2 ^ 32 := by
    intro x hx
    rw [← hspans] at hx
    obtain ⟨g, -, rfl⟩ := List.mem_map.1 hx
    exact secSpanOf_lt g
  cases c
  case parCount =>
    injection hr with hr; subst hr
    rw [C126_count he num hnum, hplen]
  case parCountHelloWorld =>
    rw [C126_hello he num hnum]
    have hd := ddFile_take h (k - leftOut k L num)
    have hw' : ∀ e ∈ msgs.take (k - leftOut k L num), WF e := fun e hx => he.wf e (List.mem_of_mem_take hx)
    have hF' : Fits (packed (msgs.take (k - leftOut k L num))) := by
      rw [← packed_equal_take msgs _ he.len]
      exact fits_take he.fits _
    obtain ⟨rep', h8, h9⟩ := C68_sequential_prints num _ hF' _ (messages_packed hw') .countHelloWorld rfl (dd_no_panic hd hu _)
    rw [h9, dd_prints hd h8 (rep' := rep) (by rw [← hr]; rfl)]
  case parHistogramTimestamp =>
    injection hr with hr; subst hr
    have hb : bucketReport hist = .ok (.buckets (hist.map fun e => (e.1, e.1 + 1, e.2))) := by
      unfold bucketReport
      rw [bucketLines_ok hist fun e hx => ?_]
      · rfl
      · have h5 := (h4.mem e.1 e.2).1 hx
        exact hlt _ (List.count_pos_iff.1 (by omega))
    constructor
    · rintro ⟨q, hq, rfl⟩
      rw [(h2 q).1 hq]
      exact hb
    · rintro rfl
      exact ⟨_, (h2 _).2 rfl, hb.symm⟩
  case parSplitTimestamp =>
    injection hr with hr; subst hr
    obtain ⟨m, h5, h6⟩ := par_split_table he.fits hp
    rw [List.map_map] at h6
    have h7 := hist_toU32 h4 hlt
    rw [← hspans, List.map_map] at h7
    have h8 := one_ecu (ecu := ecu) (gs := gs) (fun g hg => by
      obtain ⟨a, l, h9⟩ := hsucc g hg
      rw [h9.count]
      exact succ_table h9 (hw g hg) (hfit g hg)) (fun g hg => by
      obtain ⟨a, l, h9⟩ := hsucc g hg
      exact succ_ne h9) h7 h6
    have hb : ecuReport m = .ok (.ecus (oneLine (pieces.take (k - leftOut k L num)).length
        (ecu.toBytes, hist.map fun e => (UInt32.ofNat e.1, e.2), (pieces.take (k - leftOut k L num)).length))) := by
      unfold ecuReport
      rw [(ecuLines_eq m).2 ?_, h8, oneLine_map, hplen, hglen]
      · rfl
      · intro e hx
        rw [h8] at hx
        unfold oneLine at hx
        split at hx
        · cases hx
        · rw [List.mem_singleton.1 hx]; exact hu
    constructor
    · rintro ⟨q, hq, rfl⟩
      rw [(h5 q).1 hq]
      exact hb
    · rintro rfl
      exact ⟨_, (h5 _).2 rfl, hb.symm⟩
  case parIter =>
    injection hr with hr; subst hr
    rcases multithreaded_counter he.fits hp lifecycleIter_total lifecycleIter_le with ⟨⟨s, hs, h5⟩, -⟩ | ⟨-, ns, -, h5⟩
    · exfalso
      obtain ⟨g, hg, rfl⟩ := List.mem_map.1 hs
      have h6 := (C67_sequential_panics num _ (hfit g hg) g (messages_packed (hw g hg)) .iter rfl).1
        ((iter_run_panic num _).1 h5)
      obtain ⟨e, hx, h7⟩ := h6
      obtain ⟨a, l, h9⟩ := hsucc g hg
      obtain ⟨i, hi⟩ := List.getElem?_of_mem (List.mem_filter.1 hx).1
      rw [h9.time i e hi] at h7
      cases h7
    · constructor
      · rintro ⟨q, hq, rfl⟩
        rw [(h5 q).1 hq]
        rfl
      · rintro rfl
        exact ⟨_, (h5 _).2 rfl, rfl⟩
  all_goals cases hr

end

/-- **C127** `dd_dlt` and then a multithreaded command: what it reports, from the payloads alone. -/
theorem C127_reports (bd : Build) (addr : Ctor → UInt8) (ecuid appid size input : Bytes) (rest : List Bytes) (n : Nat)
    (hecu : ecuid.length = 4) (hu : Utf8 ecuid) (happ : appid.length = 4) (hsize : Decimal size n) (h1 : 1 ≤ n) (h2 : n ≤ 65502)
    (hk : input.length / n ≤ 42949673) (hfit : ∀ p ∈ chunks n input, LinesFit (roomBehind bd.late) p) :
    ∃ output, (∀ out e, DdMain bd addr (ecuid :: appid :: size :: rest) input out e ↔
        out = output ∧ e = .finished (UInt32.ofNat (input.length / n))) ∧ Fits output ∧
      ∀ num, num ≠ 0 → ∃ hist, IsHistogram (sliceSpans (input.length / n) (34 + n) num) hist ∧
        ∀ c rep, ddParReport ecuid ((chunks n input).take (input.length / n - leftOut (input.length / n) (34 + n) num)) hist c =
          some rep → ∀ r, RunCmd num output c r ↔ r = .ok rep := by
  obtain ⟨output, msgs, h3, h4, h5, h6, hF, hwf, h7⟩ := C51_round_trip_partial bd addr ecuid appid size input rest n hecu
    happ hsize h1 (by omega) (.inr hk) fun i hi => hfit _ (List.mem_map.2 ⟨i, List.mem_range.2 hi, rfl⟩)
  obtain ⟨ecu, -, he⟩ := ofBytes_length hecu
  have hd := ddFile_of he.symm hk h5 h7
  subst h6
  have heq : Equals msgs (input.length / n) (34 + n) := ⟨hwf, h5, hd.length, hF, by omega, by omega⟩
  refine ⟨_, h3, hF, fun num hnum => ?_⟩
  rw [he]
  exact dd_par_prints hd (he ▸ hu) heq hnum

/-- **C127** the same as text: what the process writes. -/
theorem C127_texts (bd : Build) (addr : Ctor → UInt8) (ecuid appid size input : Bytes) (rest : List Bytes) (n : Nat)
    (hecu : ecuid.length = 4) (hu : Utf8 ecuid) (happ : appid.length = 4) (hsize : Decimal size n) (h1 : 1 ≤ n) (h2 : n ≤ 65502)
    (hk : input.length / n ≤ 42949673) (hfit : ∀ p ∈ chunks n input, LinesFit (roomBehind bd.late) p)
    (output : Bytes) (e : DdEnd) (hout : DdMain bd addr (ecuid :: appid :: size :: rest) input output e)
    (f : OsFile) (hf : Faithful f) (hopen : f.opens = true) (hcont : f.contents = output) (hno : ReadEvent.error ∉ f.reads)
    (method : String) (hm : method = "read" ∨ (method = "mmap" ∧ f.maps = true ∧ output ≠ []))
    (num : Nat) (hnum : num ≠ 0) (hist : List (Nat × Nat)) (hh : IsHistogram (sliceSpans (input.length / n) (34 + n) num) hist)
    (c : Cmd) (hcp : c ≠ .parIter) (rep : Report)
    (hr : ddParReport ecuid ((chunks n input).take (input.length / n - leftOut (input.length / n) (34 + n) num)) hist c = some rep)
    (prog name : String) (more : List String) (o : Bytes × Bool) :
    RipText num f prog (method :: cmdName c :: name :: more) o ↔
      o = (echoLine prog (method :: cmdName c :: name :: more) ++ (utf8 (titleOf c) ++
        utf8 (Spec.startLine num (slicesOf (input.length / n) (34 + n) num)) ++ (linesOf c rep).flatten), true) := by
  obtain ⟨output', msgs, h3, h4, h5, h6, hF, hwf, h7⟩ := C51_round_trip_partial bd addr ecuid appid size input rest n hecu
    happ hsize h1 (by omega) (.inr hk) fun i hi => hfit _ (List.mem_map.2 ⟨i, List.mem_range.2 hi, rfl⟩)
  obtain ⟨rfl, -⟩ := (h3 _ _).1 hout
  obtain ⟨ecu, -, he⟩ := ofBytes_length hecu
  have hd := ddFile_of he.symm hk h5 h7
  have heq : Equals msgs (input.length / n) (34 + n) := ⟨hwf, h5, hd.length, by rw [← h6]; exact hF, by omega, by omega⟩
  obtain ⟨hist', hh', hrun⟩ := dd_par_prints hd (he ▸ hu) heq hnum
  obtain rfl := isHistogram_unique hh hh'
  rw [← he] at hrun
  obtain ⟨gs, hp, -, hgl, -⟩ := dd_slices hd heq hnum
  rw [← h6] at hrun hp
  have hrun := hrun c rep hr
  have hc : sequential c = false := by cases c <;> first | rfl | cases hr
  obtain ⟨b, hb, hbs⟩ : ∃ b : DltBuffer, (method = "mmap" ∧ DltBuffer.mmapFile f = some b ∨
      method = "read" ∧ DltBuffer.readFile f = some b) ∧ b.asSlice = output := by
    rcases hm with rfl | ⟨rfl, h5, h6⟩
    · obtain ⟨b, hb⟩ : ∃ b, DltBuffer.readFile f = some b := by
        unfold DltBuffer.readFile; rw [hopen]; exact ⟨_, rfl⟩
      exact ⟨b, .inr ⟨rfl, hb⟩, by rw [((C54_read_file_partial f hf).2 b hb).2 hno, hcont]⟩
    · refine ⟨.mmap f.contents, .inl ⟨rfl, (C60_mmap_file f _).2 ⟨hopen, h5, by rw [hcont]; exact h6, rfl⟩⟩, hcont⟩
  have hopening : openingOf num (gs.map packed).length c = utf8 (titleOf c) ++
      utf8 (Spec.startLine num (slicesOf (input.length / n) (34 + n) num)) := by
    unfold openingOf; rw [hc, List.length_map, hgl]; rfl
  have htext := C88_text num output c hcp _ hp
  obtain ⟨out, ok⟩ := o
  rw [C88_runs num f prog method name more c b hb, hbs]
  constructor
  · rintro ⟨o, ho, rfl⟩
    cases ok with
    | false =>
      have := (C88_panics num output c hcp _ hp).1 ⟨o, ho⟩
      rw [hrun] at this; cases this
    | true =>
      obtain ⟨r, h5, rfl⟩ := (htext o).1 ho
      rw [hrun] at h5
      injection h5 with h5
      subst h5
      rw [hopening]
  · intro h5
    injection h5 with h5 h6
    subst h5; subst h6
    exact ⟨_, (htext _).2 ⟨rep, (hrun _).2 rfl, by rw [hopening]⟩, rfl⟩

/-- **C127** `par_iter`: one line for each slice, in any order; a slice has a lifecycle of half an hour if it holds more than
180000 messages. -/
theorem C127_par_iter (bd : Build) (addr : Ctor → UInt8) (ecuid appid size input : Bytes) (rest : List Bytes) (n : Nat)
    (hecu : ecuid.length = 4) (happ : appid.length = 4) (hsize : Decimal size n) (h1 : 1 ≤ n) (h2 : n ≤ 65502)
    (hk : input.length / n ≤ 42949673) (hfit : ∀ p ∈ chunks n input, LinesFit (roomBehind bd.late) p)
    (output : Bytes) (e : DdEnd) (hout : DdMain bd addr (ecuid :: appid :: size :: rest) input output e)
    (num : Nat) (hnum : num ≠ 0) (out : Bytes) (ok : Bool) :
    CmdText num output .parIter (out, ok) ↔ ok = true ∧ ∃ lines : List Bytes,
      lines.Perm ((slicesOfNumbers (input.length / n) (34 + n) num).flatMap fun g =>
        linesOf .iter (.number (if 180000 < g.length then 1 else 0))) ∧
      out = utf8 (Spec.startLine num (slicesOf (input.length / n) (34 + n) num)) ++ lines.flatten := by
  obtain ⟨output', msgs, h3, h4, h5, h6, hF, hwf, h7⟩ := C51_round_trip_partial bd addr ecuid appid size input rest n hecu
    happ hsize h1 (by omega) (.inr hk) fun i hi => hfit _ (List.mem_map.2 ⟨i, List.mem_range.2 hi, rfl⟩)
  obtain ⟨rfl, -⟩ := (h3 _ _).1 hout
  obtain ⟨ecu, -, he⟩ := ofBytes_length hecu
  have hd := ddFile_of he.symm hk h5 h7
  have heq : Equals msgs (input.length / n) (34 + n) := ⟨hwf, h5, hd.length, by rw [← h6]; exact hF, by omega, by omega⟩
  obtain ⟨gs, hp, -, hgl, -, hlen, hsucc, hfits, hmem⟩ := dd_slices hd heq hnum
  rw [← h6] at hp
  have hw : ∀ g ∈ gs, ∀ e ∈ g, WF e := fun g hg e hx => hwf e (hmem g hg e hx)
  have hone : ∀ g ∈ gs, ∀ r, RunCmd num (packed g) .iter r ↔ r = .ok (.number (if 180000 < g.length then 1 else 0)) := by
    intro g hg r
    obtain ⟨a, l, hs⟩ := hsucc g hg
    have htm : Spec.timed g = g := List.filter_eq_self.2 hs.timed
    obtain ⟨rep, h8, h9⟩ := C68_sequential_prints num _ (hfits g hg) g (messages_packed (hw g hg)) .iter rfl (by
      rintro ⟨e, hx, h10⟩
      rw [htm] at hx
      obtain ⟨i, hi⟩ := List.getElem?_of_mem hx
      rw [hs.time i e hi] at h10
      cases h10)
    rw [h9]
    cases rep <;> try (exact absurd h8 id)
    obtain ⟨runs, h10, h11⟩ := h8
    rw [htm] at h10
    rw [h11, succ_runs_time hs h10, List.filter_cons]
    have h12 := succ_timeSpan hs
    have h13 := hs.many
    rw [hs.count]
    unfold halfHour
    by_cases h14 : 180000 < l
    · rw [if_pos (decide_eq_true (by rw [h12]; omega)), if_pos h14]; exact Iff.rfl
    · rw [if_neg (by rw [decide_eq_true_iff, h12]; omega), if_neg h14]; exact Iff.rfl
  obtain ⟨ns, h8, h9⟩ := C90_par_iter_prints num output hF _ hp (by
    rintro ⟨s, hs, h10⟩
    obtain ⟨g, hg, rfl⟩ := List.mem_map.1 hs
    rw [hone g hg] at h10
    cases h10)
  have hns : ∀ {gs : List (List StorageEntry)} {ns : List Nat},
      (∀ g ∈ gs, ∀ r, RunCmd num (packed g) .iter r ↔ r = .ok (.number (if 180000 < g.length then 1 else 0))) →
      Each (fun s n => RunCmd num s .iter (.ok (.number n))) (gs.map packed) ns →
      ns = (gs.map List.length).map fun l => if 180000 < l then 1 else 0 := by
    intro gs
    induction gs with
    | nil =>
      intro ns _ h10
      cases ns with
      | nil => rfl
      | cons => exact h10.elim
    | cons g gs ih =>
      intro ns hone h10
      cases ns with
      | nil => exact h10.elim
      | cons x ns =>
        have h11 := (hone g (List.mem_cons_self ..) _).1 h10.1
        injection h11 with h11
        injection h11 with h11
        rw [List.map_cons, List.map_cons, ← h11, ih (fun g hg => hone g (List.mem_cons_of_mem _ hg)) h10.2]
  rw [h9, hns hone h8, hlen, List.length_map, hgl, List.map_map, List.flatMap_map]
  exact Iff.rfl

/-- **C127** at work: eleven bytes in payloads of one, eleven messages: two threads see all of them, three threads nine. -/
example (addr : Ctor → UInt8) : ∃ output,
    (∀ out e, DdMain ⟨true, false⟩ addr [[69, 67, 85, 49], [65, 80, 80, 49], [49]] helloWorld out e ↔ out = output ∧ e = .finished 11) ∧
    (∀ r, RunCmd 2 output .parCount r ↔ r = .ok (.number 11)) ∧
    (∀ r, RunCmd 3 output .parCount r ↔ r = .ok (.number 9)) ∧
    (∀ r, RunCmd 3 output .parHistogramTimestamp r ↔ r = .ok (.buckets [(0, 1, 3)])) ∧
    (∀ r, RunCmd 3 output .parSplitTimestamp r ↔ r = .ok (.ecus [([69, 67, 85, 49], [(0, 3)], 9)])) := by
  obtain ⟨output, h1, -, h2⟩ := C127_reports ⟨true, false⟩ addr [69, 67, 85, 49] [65, 80, 80, 49] [49] helloWorld [] 1 rfl
    (.one 69 (by decide) rfl (.one 67 (by decide) rfl (.one 85 (by decide) rfl (.one 49 (by decide) rfl .nil)))) rfl
    ⟨[1], by decide, by decide, rfl, .inl rfl⟩ (by decide) (by decide) (by decide)
    (fun p hp => by
      obtain ⟨i, -, rfl⟩ := List.mem_map.1 hp
      exact linesFit_short (by decide) _ i)
  obtain ⟨_, _, h3⟩ := h2 2 (by decide)
  obtain ⟨hist, h4, h5⟩ := h2 3 (by decide)
  have h6 : hist = [(0, 3)] := hist_const h4 (k := 3) (a := 0) (by decide)
  subst h6
  exact ⟨output, h1, h3 .parCount _ rfl, h5 .parCount _ rfl, h5 .parHistogramTimestamp _ rfl, h5 .parSplitTimestamp _ rfl⟩

end Verif
