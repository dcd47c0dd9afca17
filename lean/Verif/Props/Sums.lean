import Verif.Props.Periods
import Verif.Props.TestGen
import Verif.Props.Listing
import Verif.Spec.AddUp

set_option linter.unusedSimpArgs false

/-!
# C143: the report of a multithreaded command is the sum of the reports on the slices
-/

namespace Verif

open Spec

/-! ## Lines -/

section
variable {κ : Type} [DecidableEq κ]

theorem listed_nil (k : κ) : listed ([] : List (κ × Nat)) k = 0 := rfl

theorem listed_cons (x : κ × Nat) (l : List (κ × Nat)) (k : κ) : listed (x :: l) k = (if x.1 = k then x.2 else 0) + listed l k := by
  simp [listed]

theorem listed_absent {l : List (κ × Nat)} {k : κ} (h : k ∉ l.map (·.1)) : listed l k = 0 := by
  induction l with
  | nil => rfl
  | cons x l ih =>
    rw [List.map_cons, List.mem_cons, not_or] at h
    rw [listed_cons, ih h.2, if_neg fun e => h.1 e.symm]

theorem listed_of_mem {l : List (κ × Nat)} (h : l.Pairwise fun a b => a.1 ≠ b.1) {k : κ} {n : Nat} (hm : (k, n) ∈ l) :
    listed l k = n := by
  induction l with
  | nil => cases hm
  | cons x l ih =>
    rw [List.pairwise_cons] at h
    rw [listed_cons]
    rcases List.mem_cons.1 hm with rfl | hm'
    · have : k ∉ l.map (·.1) := fun hk => by
        obtain ⟨y, hy, e⟩ := List.mem_map.1 hk
        exact h.1 y hy e.symm
      rw [listed_absent this]; simp
    · rw [ih h.2 hm', if_neg (h.1 _ hm')]; simp

theorem listed_pos {l : List (κ × Nat)} (h : ∀ x ∈ l, 0 < x.2) (k : κ) : k ∈ l.map (·.1) ↔ 0 < listed l k := by
  constructor
  · intro hk
    obtain ⟨x, hx, rfl⟩ := List.mem_map.1 hk
    induction l with
    | nil => cases hx
    | cons y l ih =>
      rw [listed_cons]
      rcases List.mem_cons.1 hx with rfl | hx'
      · have := h x List.mem_cons_self
        rw [if_pos rfl]; omega
      · have := ih (fun z hz => h z (List.mem_cons_of_mem _ hz)) hx' (List.mem_map_of_mem hx')
        omega
  · intro hk
    apply Classical.byContradiction
    intro hn
    rw [listed_absent hn] at hk
    omega

/-- Two lists of lines in order with the same sums are the same. -/
theorem lines_ext {lt : κ → κ → Prop} (hasym : ∀ a b, lt a b → lt b a → False) {parts : List (List (κ × Nat))}
    {xs ys : List (κ × Nat)} (hx : xs.Pairwise fun a b => lt a.1 b.1) (hy : ys.Pairwise fun a b => lt a.1 b.1)
    (h1 : LineSums parts xs) (h2 : LineSums parts ys) : xs = ys := by
  have ne : ∀ {zs : List (κ × Nat)}, (zs.Pairwise fun a b => lt a.1 b.1) → zs.Pairwise fun a b => a.1 ≠ b.1 :=
    fun h => List.Pairwise.imp (fun {a b} hl => by
      intro e
      have hl' : lt a.1 b.1 := hl
      exact hasym a.1 b.1 hl' (by rw [e] at hl' ⊢; exact hl')) h
  have go : ∀ {us vs : List (κ × Nat)}, (us.Pairwise fun a b => a.1 ≠ b.1) → (vs.Pairwise fun a b => a.1 ≠ b.1) →
      LineSums parts us → LineSums parts vs → ∀ e ∈ us, e ∈ vs := by
    intro us vs hu hv g1 g2 e he
    have hk : e.1 ∈ vs.map (·.1) := (g2.1 e.1).2 ((g1.1 e.1).1 (List.mem_map_of_mem he))
    obtain ⟨⟨k, n⟩, hm, e1⟩ := List.mem_map.1 hk
    have hn : n = e.2 := by
      rw [← listed_of_mem hv hm, ← listed_of_mem hu (show (e.1, e.2) ∈ us from he)]
      have e1' : k = e.1 := e1
      rw [e1', g1.2, g2.2]
    have e1' : k = e.1 := e1
    subst e1'
    subst hn
    exact hm
  exact ordered_ext (lt := fun a b => lt a.1 b.1) (fun a b => hasym a.1 b.1) hx hy fun e =>
    ⟨go (ne hx) (ne hy) h1 h2 e, go (ne hy) (ne hx) h2 h1 e⟩

end

theorem listed_hist {κ : Type} [Key κ] [DecidableEq κ] {keys : List κ} {m : OrdMap κ Nat} (h : IsHistogram keys m) (k : κ) :
    listed m k = keys.count k := shown_histogram h k

/-- The histogram of all is the sum of the histograms. -/
theorem lineSums_hist {κ : Type} [Key κ] [DecidableEq κ] {keyss : List (List κ)} {hs : List (OrdMap κ Nat)} {m : OrdMap κ Nat}
    (h : Each (fun ks h => IsHistogram ks h) keyss hs) (hm : IsHistogram keyss.flatten m) : LineSums hs m := by
  have hpos : ∀ {keys : List κ} {l : OrdMap κ Nat}, IsHistogram keys l → ∀ x ∈ l, 0 < x.2 := fun hh x hx =>
    ((hh.mem x.1 x.2).1 hx).1
  have hsum : ∀ k, listed m k = (hs.map fun p => listed p k).sum := by
    intro k
    rw [listed_hist hm]
    clear hm
    induction keyss generalizing hs with
    | nil => cases hs with
      | nil => rfl
      | cons _ _ => exact h.elim
    | cons ks keyss ih => cases hs with
      | nil => exact h.elim
      | cons p hs =>
        rw [List.flatten_cons, List.count_append, List.map_cons, List.sum_cons, listed_hist h.1, ih h.2]
  refine ⟨fun k => ?_, hsum⟩
  rw [listed_pos (hpos hm), hsum, List.sum_pos_iff_exists_pos_nat]
  constructor
  · rintro ⟨n, hn, hp⟩
    obtain ⟨p, hp', rfl⟩ := List.mem_map.1 hn
    exact ⟨p, hp', by
      obtain ⟨ks, -, hk⟩ := each_right h p hp'
      exact (listed_pos (hpos hk) k).2 hp⟩
  · rintro ⟨p, hp', hk⟩
    obtain ⟨ks, -, hk'⟩ := each_right h p hp'
    exact ⟨_, List.mem_map.2 ⟨p, hp', rfl⟩, (listed_pos (hpos hk') k).1 hk⟩

/-! ## Nothing is left open -/

theorem alphabetical_go : ∀ (p q : Bytes) {x y u v : UInt8} {s t s' t' : Bytes}, p ++ x :: s = q ++ v :: t' → p ++ y :: t = q ++ u :: s' →
    x < y → u < v → False
  | [], [], _, _, _, _, _, _, _, _, h, h', hx, hu => by
    simp only [List.nil_append, List.cons.injEq] at h h'
    rw [h.1, h'.1] at hx
    exact absurd (UInt8.lt_trans hx hu) (UInt8.lt_irrefl _)
  | [], c :: q, _, _, _, _, _, _, _, _, h, h', hx, _ => by
    simp only [List.nil_append, List.cons_append, List.cons.injEq] at h h'
    rw [h.1, h'.1] at hx
    exact absurd hx (UInt8.lt_irrefl _)
  | c :: p, [], _, _, _, _, _, _, _, _, h, h', _, hu => by
    simp only [List.nil_append, List.cons_append, List.cons.injEq] at h h'
    rw [← h.1, ← h'.1] at hu
    exact absurd hu (UInt8.lt_irrefl _)
  | c :: p, d :: q, _, _, _, _, _, _, _, _, h, h', hx, hu => by
    simp only [List.cons_append, List.cons.injEq] at h h'
    exact alphabetical_go p q h.2 h'.2 hx hu

theorem alphabetical_asymm {a b : Bytes} (h : Alphabetical a b) (h' : Alphabetical b a) : False := by
  obtain ⟨p, x, y, s, t, rfl, rfl, hx⟩ := h
  obtain ⟨q, u, v, s', t', h1, h2, hu⟩ := h'
  exact alphabetical_go p q h2 h1 hx hu

/-- **C143** there is at most one sum. -/
theorem C143_determined (c : Cmd) (parts : List Report) (a b : Report) (h : AddsUp c parts a) (h' : AddsUp c parts b) : a = b := by
  have hb : ∀ {ps qs : List (List (Nat × Nat × Nat))}, ps.map Report.buckets = qs.map .buckets → ps = qs := fun h =>
    map_pinned _ h fun x _ y _ hxy => by cases hxy; rfl
  have he : ∀ {ps qs : List (List (Bytes × (OrdMap UInt32 Nat × Nat)))}, ps.map Report.ecus = qs.map .ecus → ps = qs := fun h =>
    map_pinned _ h fun x _ y _ hxy => by cases hxy; rfl
  have hn : ∀ {ps qs : List Nat}, ps.map Report.number = qs.map .number → ps = qs := fun h =>
    map_pinned _ h fun x _ y _ hxy => by cases hxy; rfl
  cases c <;> first | exact h.elim | skip
  case parHistogramTimestamp =>
    obtain ⟨ps, t, rfl, rfl, h1, h2, h3⟩ := h
    obtain ⟨qs, u, g0, rfl, g1, g2, g3⟩ := h'
    obtain rfl := hb g0
    have e := lines_ext (lt := fun a b : Nat => a < b) (fun a b x y => by omega)
      (by rw [List.pairwise_map]; exact h1) (by rw [List.pairwise_map]; exact g1) h3 g3
    rw [map_pinned _ e fun x hx y hy hxy => by
      obtain ⟨x1, x2, x3⟩ := x
      obtain ⟨y1, y2, y3⟩ := y
      have i1 := h2 _ hx
      have i2 := g2 _ hy
      simp only [Prod.mk.injEq] at hxy i1 i2 ⊢
      omega]
  case parSplitTimestamp =>
    obtain ⟨ps, t, rfl, rfl, ⟨h1, h1'⟩, h2, h3⟩ := h
    obtain ⟨qs, u, g0, rfl, ⟨g1, g1'⟩, g2, g3⟩ := h'
    obtain rfl := he g0
    have e := lines_ext (lt := Alphabetical) (fun a b => alphabetical_asymm)
      (by rw [List.pairwise_map]; exact h1) (by rw [List.pairwise_map]; exact g1) h2 g2
    rw [map_pinned _ e fun x hx y hy hxy => by
      obtain ⟨x1, x2, x3⟩ := x
      obtain ⟨y1, y2, y3⟩ := y
      simp only [Prod.mk.injEq] at hxy ⊢
      obtain ⟨rfl, rfl⟩ := hxy
      refine ⟨rfl, ?_, rfl⟩
      exact lines_ext (lt := fun a b : UInt32 => a.toNat < b.toNat) (fun a b x y => by omega)
        (h1' _ hx) (g1' _ hy) (h3 _ hx) (g3 _ hy)]
  case parIter => rw [h.2, h'.2]
  all_goals
    obtain ⟨ns, rfl, rfl⟩ := h
    obtain ⟨ms, g0, rfl⟩ := h'
    rw [hn g0]

/-- Two slices with messages of two ECUs, one of them in both slices: the lines are added, durations that occur in both slices too. -/
example : AddsUp .parSplitTimestamp
    [.ecus [([65, 0, 0, 0], [(1, 1), (7, 2)], 9)], .ecus [([65, 0, 0, 0], [(1, 3)], 4), ([66, 0, 0, 0], [(0, 1)], 1)]]
    (.ecus [([65, 0, 0, 0], [(1, 4), (7, 2)], 13), ([66, 0, 0, 0], [(0, 1)], 1)]) := by
  refine ⟨[[([65, 0, 0, 0], [(1, 1), (7, 2)], 9)], [([65, 0, 0, 0], [(1, 3)], 4), ([66, 0, 0, 0], [(0, 1)], 1)]], _, rfl, rfl, ?_, ⟨?_, ?_⟩, ?_⟩
  · refine ⟨?_, by decide⟩
    simp only [List.pairwise_cons, List.mem_singleton, forall_eq, List.not_mem_nil, false_implies, implies_true, List.Pairwise.nil, and_true]
    exact ⟨[], 65, 66, [0, 0, 0], [0, 0, 0], rfl, rfl, by decide⟩
  · intro k
    have : ∀ P Q : Prop, (P ∨ Q ↔ P ∨ P ∨ Q) := fun P Q => ⟨fun h => h.imp id .inr, fun h => h.elim .inl id⟩
    simp only [List.map_cons, List.map_nil, List.mem_cons, List.not_mem_nil, or_false, exists_eq_or_imp, exists_eq_left]
    exact this _ _
  · intro k
    simp only [listed, List.map_cons, List.map_nil, List.sum_cons, List.sum_nil]
    split <;> split <;> omega
  · intro l hl
    simp only [List.mem_cons, List.not_mem_nil, or_false] at hl
    rcases hl with rfl | rfl
    · refine ⟨fun k => ?_, fun k => ?_⟩
      · have : ∀ P Q : Prop, (P ∨ Q ↔ (P ∨ Q) ∨ P) := fun P Q => ⟨.inl, fun h => h.elim id .inl⟩
        simpa [histsOf, exists_or] using this _ _
      · simp only [listed, histsOf, List.flatMap_cons, List.flatMap_nil, List.filter_cons, List.filter_nil, List.append_nil,
          List.map_cons, List.map_nil, List.sum_cons, List.sum_nil, decide_true, if_true, List.append_eq, List.cons_append, List.nil_append]
        split <;> split <;> simp_all
    · refine ⟨fun k => ?_, fun k => ?_⟩
      · simp [histsOf]
      · simp [listed, histsOf]

/-! ## The sums are reported -/

theorem hist_slice {num : Nat} {s : Bytes} (h : Fits s) : ∃ m, RunCmd num s .histogramTimestamp (.ok (.buckets (m.map fun e => (e.1, e.1 + 1, e.2)))) ∧
    IsHistogram ((runsOfFile s).map secSpanOf) m := by
  obtain ⟨m, h1, h2⟩ := timestampHistogram_runs h
  refine ⟨m, ?_, h2⟩
  show printed (timestampHistogram s) bucketReport = _
  rw [h1]
  show some (bucketReport m) = _
  rw [bucketReport, bucketLines_ok m fun e he => ?_]
  · rfl
  · have := (h2.mem e.1 e.2).1 he
    have hk : e.1 ∈ (runsOfFile s).map secSpanOf := List.count_pos_iff.1 (by omega)
    obtain ⟨r, -, hr⟩ := List.mem_map.1 hk
    rw [← hr]; exact secSpanOf_lt r

theorem par_histogram_sum (num : Nat) (hnum : num ≠ 0) (bytes : Bytes) (hF : Fits bytes) (slices : List Bytes)
    (hp : partitionFrom dltStorage bytes num = .ok slices) : ∃ parts total,
      Each (fun s p => RunCmd num s .histogramTimestamp (.ok p)) slices parts ∧ AddsUp .parHistogramTimestamp parts total ∧
      RunCmd num bytes .parHistogramTimestamp (.ok total) := by
  obtain ⟨slices', runss, m, hp', hr, hruns, hm⟩ := C35_par_histogram bytes num hnum hF
  rw [hp] at hp'
  cases hp'
  have hfit := (partition_fits hF hp).2
  have he : runss = slices.map runsOfFile := by
    clear hm hr hp
    induction slices generalizing runss with
    | nil => cases runss with
      | nil => rfl
      | cons _ _ => exact hruns.elim
    | cons s slices ih => cases runss with
      | nil => exact hruns.elim
      | cons r runss =>
        obtain ⟨⟨msgs, h1, h2⟩, h3⟩ := hruns
        rw [List.map_cons, ← ih _ h3 (fun s hs => hfit s (List.mem_cons_of_mem _ hs)), secs_runs_unique h2,
          runsOfFile_eq (hfit s List.mem_cons_self) h1]
  subst he
  have hlt : ∀ e ∈ m, e.1 < 2 ^ 32 := fun e he => by
    have := (hm.mem e.1 e.2).1 he
    have hk : e.1 ∈ (slices.map runsOfFile).flatten.map secSpanOf := List.count_pos_iff.1 (by omega)
    obtain ⟨r, -, hr⟩ := List.mem_map.1 hk
    rw [← hr]; exact secSpanOf_lt r
  have hsl : ∀ s ∈ slices, ∃ h : OrdMap Nat Nat,
      RunCmd num s .histogramTimestamp (.ok (.buckets (h.map fun e => (e.1, e.1 + 1, e.2)))) ∧
      IsHistogram ((runsOfFile s).map secSpanOf) h := fun s hs => hist_slice (hfit s hs)
  obtain ⟨hs, hh⟩ := each_exists hsl
  refine ⟨hs.map fun h => .buckets (h.map fun e => (e.1, e.1 + 1, e.2)), .buckets (m.map fun e => (e.1, e.1 + 1, e.2)), ?_, ?_, ?_⟩
  · clear hsl hlt hm hr hp hruns hfit
    induction slices generalizing hs with
    | nil => cases hs with
      | nil => trivial
      | cons _ _ => exact hh.elim
    | cons s slices ih => cases hs with
      | nil => exact hh.elim
      | cons r hs => exact ⟨hh.1.1, ih _ hh.2⟩
  · refine ⟨hs.map fun h => h.map fun e => (e.1, e.1 + 1, e.2), _, by rw [List.map_map]; rfl, rfl, ?_, ?_, ?_⟩
    · show (m.map _).Pairwise _
      rw [List.pairwise_map]; exact hm.sorted
    · intro l hl
      obtain ⟨e, -, rfl⟩ := List.mem_map.1 hl
      rfl
    · have e1 : (m.map fun e : Nat × Nat => (e.1, e.1 + 1, e.2)).map (fun l => (l.1, l.2.2)) = m := by
        rw [List.map_map]; exact List.map_id m
      have e2 : ((hs.map fun h : OrdMap Nat Nat => h.map fun e : Nat × Nat => (e.1, e.1 + 1, e.2)).map fun p => p.map fun l => (l.1, l.2.2)) = hs := by
        rw [List.map_map]
        conv => rhs; rw [← List.map_id hs]
        refine List.map_congr_left fun h _ => ?_
        show (h.map _).map _ = h
        rw [List.map_map]; exact List.map_id h
      rw [e1, e2]
      refine lineSums_hist (keyss := slices.map fun s => (runsOfFile s).map secSpanOf) ?_ ?_
      · clear hsl hlt hm hr hp hruns hfit e1 e2
        induction slices generalizing hs with
        | nil => cases hs with
          | nil => trivial
          | cons _ _ => exact hh.elim
        | cons s slices ih => cases hs with
          | nil => exact hh.elim
          | cons r hs => exact ⟨hh.1.2, ih _ hh.2⟩
      · rw [List.map_flatten, List.map_map] at hm
        exact hm
  · refine ⟨.ok m, (hr _).2 rfl, ?_⟩
    show _ = bucketReport m
    rw [bucketReport, bucketLines_ok m hlt]
    rfl

theorem each_mapr {α β γ : Type} {P : α → β → Prop} {Q : α → γ → Prop} (g : β → γ) : ∀ {l : List α} {l' : List β},
    (∀ a ∈ l, ∀ b ∈ l', P a b → Q a (g b)) → Each P l l' → Each Q l (l'.map g)
  | [], [], _, _ => trivial
  | _ :: _, _ :: _, h, hh => ⟨h _ List.mem_cons_self _ List.mem_cons_self hh.1,
      each_mapr g (fun a ha b hb => h a (List.mem_cons_of_mem _ ha) b (List.mem_cons_of_mem _ hb)) hh.2⟩
  | [], _ :: _, _, hh => hh.elim
  | _ :: _, [], _, hh => hh.elim

/-- A table as it is printed. -/
def linesOfTable (t : OrdMap B4 (OrdMap UInt32 Nat × Nat)) : List (Bytes × (OrdMap UInt32 Nat × Nat)) :=
  t.map fun e => (e.1.toBytes, e.2)

theorem listed_toBytes (t : OrdMap B4 (OrdMap UInt32 Nat × Nat)) (ecu : B4) :
    listed ((linesOfTable t).map fun l => (l.1, l.2.2)) ecu.toBytes = msgsIn t ecu := by
  unfold listed linesOfTable msgsIn
  rw [List.map_map, List.map_map]
  congr 1
  refine List.map_congr_left fun e _ => ?_
  show (if e.1.toBytes = ecu.toBytes then e.2.2 else 0) = _
  by_cases h : e.1 = ecu
  · rw [if_pos h, if_pos (by rw [h])]
  · rw [if_neg h, if_neg fun e' => h (B4.toBytes_inj e')]

theorem histsOf_table (tables : List (OrdMap B4 (OrdMap UInt32 Nat × Nat))) (ecu : B4) :
    histsOf (tables.map linesOfTable) ecu.toBytes = tables.flatMap fun t => (t.filter fun e => decide (e.1 = ecu)).map (·.2.1) := by
  unfold histsOf linesOfTable
  rw [List.flatMap_map]
  congr 1
  funext t
  rw [List.filter_map, List.map_map]
  congr 1
  refine List.filter_congr fun e _ => ?_
  show decide (e.1.toBytes = ecu.toBytes) = _
  by_cases h : e.1 = ecu
  · simp [h]
  · have h' : ¬ e.1.toBytes = ecu.toBytes := fun e' => h (B4.toBytes_inj e')
    simp [h, h']

theorem spansIn_sum (t : OrdMap B4 (OrdMap UInt32 Nat × Nat)) (ecu : B4) (d : UInt32) :
    spansIn t ecu d = (((t.filter fun e => decide (e.1 = ecu)).map (·.2.1)).map fun h => listed h d).sum := by
  unfold spansIn
  induction t with
  | nil => rfl
  | cons e t ih =>
    rw [List.map_cons, List.sum_cons, ih, List.filter_cons]
    by_cases h : e.1 = ecu
    · simp only [h, if_true, decide_true, List.map_cons, List.sum_cons]; rfl
    · simp [h]

theorem spans_total (tables : List (OrdMap B4 (OrdMap UInt32 Nat × Nat))) (ecu : B4) (d : UInt32) :
    (tables.map fun t => spansIn t ecu d).sum = ((histsOf (tables.map linesOfTable) ecu.toBytes).map fun h => listed h d).sum := by
  rw [histsOf_table]
  induction tables with
  | nil => rfl
  | cons t ts ih => rw [List.map_cons, List.sum_cons, ih, List.flatMap_cons, List.map_append, List.sum_append, spansIn_sum]

theorem par_split_sum (num : Nat) (hnum : num ≠ 0) (bytes : Bytes) (hF : Fits bytes) (slices : List Bytes)
    (hp : partitionFrom dltStorage bytes num = .ok slices) (hn : ¬ ∃ s ∈ slices, RunCmd num s .splitTimestamp .panic) : ∃ parts total,
      Each (fun s p => RunCmd num s .splitTimestamp (.ok p)) slices parts ∧ AddsUp .parSplitTimestamp parts total ∧
      RunCmd num bytes .parSplitTimestamp (.ok total) := by
  obtain ⟨slices', tables, m, hp', hr, ht, ⟨hs1, hs2⟩, hk, hc⟩ := C35_par_split bytes num hnum hF
  rw [hp] at hp'
  cases hp'
  have hfit := (partition_fits hF hp).2
  have htab : ∀ t ∈ tables, ∃ s ∈ slices, timestampSplit s = some (.ok t) := each_right ht
  have hpos : ∀ t ∈ tables, ∀ l ∈ t, ∀ x ∈ l.2.1, 0 < x.2 := fun t h l hl x hx => by
    obtain ⟨s, hs, h1⟩ := htab t h
    obtain ⟨h2, h3, -⟩ := timestampSplit_table (hfit s hs)
    rw [h1] at h2
    cases h2
    exact (((h3.hist l.1 l.2.1 l.2.2 hl).mem x.1 x.2).1 hx).1
  have hrun : ∀ s t, timestampSplit s = some (.ok t) → ∀ r, RunCmd num s .splitTimestamp r ↔ r = ecuReport t := fun s t h r => by
    show printed (timestampSplit s) ecuReport = some r ↔ _
    rw [h]
    show some (ecuReport t) = some r ↔ _
    constructor
    · intro h; cases h; rfl
    · intro h; rw [h]
  have hutf : ∀ t ∈ tables, ∀ l ∈ t, Utf8 l.1.toBytes := fun t h l hl => by
    obtain ⟨s, hs, h1⟩ := htab t h
    apply Classical.byContradiction
    intro hnu
    exact hn ⟨s, hs, (hrun s t h1 _).2 (ecuReport_of.1.2 ⟨l, hl, hnu⟩).symm⟩
  have hutm : ∀ l ∈ m, Utf8 l.1.toBytes := fun l hl => by
    obtain ⟨t, h, v, hv⟩ := (hk l.1).1 ⟨l.2, hl⟩
    exact hutf t h (l.1, v) hv
  have hfin : RunCmd num bytes .parSplitTimestamp (.ok (.ecus (linesOfTable m))) :=
    ⟨.ok m, (hr _).2 rfl, (ecuReport_of.2 hutm).symm⟩
  refine ⟨tables.map fun t => .ecus (linesOfTable t), .ecus (linesOfTable m), ?_, ?_, hfin⟩
  · exact each_mapr _ (fun s _ t h h1 => (hrun s t h1 _).2 (ecuReport_of.2 (hutf t h)).symm) ht
  · refine ⟨tables.map linesOfTable, _, by rw [List.map_map]; rfl, rfl, C121_in_order num hnum bytes hF _ _ hfin, ⟨?_, ?_⟩, ?_⟩
    · intro k
      constructor
      · intro h
        obtain ⟨x, hx, rfl⟩ := List.mem_map.1 h
        obtain ⟨y, hy, rfl⟩ := List.mem_map.1 hx
        obtain ⟨e, he, rfl⟩ := List.mem_map.1 hy
        obtain ⟨t, h, v, hv⟩ := (hk e.1).1 ⟨e.2, he⟩
        exact ⟨_, List.mem_map.2 ⟨_, List.mem_map.2 ⟨t, h, rfl⟩, rfl⟩, List.mem_map.2 ⟨_, List.mem_map.2 ⟨_, List.mem_map.2 ⟨_, hv, rfl⟩, rfl⟩, rfl⟩⟩
      · rintro ⟨p, hp, h⟩
        obtain ⟨q, hq, rfl⟩ := List.mem_map.1 hp
        obtain ⟨t, h1, rfl⟩ := List.mem_map.1 hq
        obtain ⟨x, hx, rfl⟩ := List.mem_map.1 h
        obtain ⟨y, hy, rfl⟩ := List.mem_map.1 hx
        obtain ⟨e, he, rfl⟩ := List.mem_map.1 hy
        obtain ⟨v, hv⟩ := (hk e.1).2 ⟨t, h1, e.2, he⟩
        exact List.mem_map.2 ⟨_, List.mem_map.2 ⟨_, List.mem_map.2 ⟨_, hv, rfl⟩, rfl⟩, rfl⟩
    · intro k
      by_cases hb : ∃ ecu : B4, k = ecu.toBytes
      · obtain ⟨ecu, rfl⟩ := hb
        rw [listed_toBytes, (hc ecu).1, List.map_map, List.map_map]
        congr 1
        exact List.map_congr_left fun t _ => (listed_toBytes t ecu).symm
      · have hz : ∀ t : OrdMap B4 (OrdMap UInt32 Nat × Nat), listed ((linesOfTable t).map fun l => (l.1, l.2.2)) k = 0 := fun t =>
          listed_absent fun h => by
            obtain ⟨x, hx, rfl⟩ := List.mem_map.1 h
            obtain ⟨y, hy, rfl⟩ := List.mem_map.1 hx
            obtain ⟨e, he, rfl⟩ := List.mem_map.1 hy
            exact hb ⟨e.1, rfl⟩
        rw [hz, List.map_map, List.map_map]
        symm
        rw [List.sum_eq_zero_iff_forall_eq_nat]
        intro x hx
        obtain ⟨t, -, rfl⟩ := List.mem_map.1 hx
        exact hz t
    · intro l hl
      obtain ⟨⟨ecu, hist, n⟩, he, rfl⟩ := List.mem_map.1 hl
      have hsum : ∀ d, listed hist d = ((histsOf (tables.map linesOfTable) ecu.toBytes).map fun h => listed h d).sum := fun d => by
        have hsort : OrdMap.Sorted hist := (hs2 _ _ _ he).1
        rw [← spans_total, ← (hc ecu).2 d, spansIn_eq hs1 he hsort, ← tot_sorted hsort]
        rfl
      have hp1 : ∀ x ∈ hist, 0 < x.2 := (hs2 _ _ _ he).2
      have hp2 : ∀ h ∈ histsOf (tables.map linesOfTable) ecu.toBytes, ∀ x ∈ h, 0 < x.2 := fun h hh => by
        rw [histsOf_table] at hh
        obtain ⟨t, ht, hh⟩ := List.mem_flatMap.1 hh
        obtain ⟨e, he, rfl⟩ := List.mem_map.1 hh
        exact hpos t ht e (List.mem_filter.1 he).1
      refine ⟨fun d => ?_, hsum⟩
      rw [listed_pos hp1, hsum, List.sum_pos_iff_exists_pos_nat]
      constructor
      · rintro ⟨n, hn, hp⟩
        obtain ⟨h, hh, rfl⟩ := List.mem_map.1 hn
        exact ⟨h, hh, (listed_pos (hp2 h hh) d).2 hp⟩
      · rintro ⟨h, hh, hd⟩
        exact ⟨_, List.mem_map.2 ⟨h, hh, rfl⟩, (listed_pos (hp2 h hh) d).1 hd⟩

/-- **C143** a multithreaded command panics exactly if the command it runs on the slices panics on one of them; otherwise it
reports the sum of what this command reports on the slices, and nothing else. -/
theorem C143_sum (num : Nat) (hnum : num ≠ 0) (bytes : Bytes) (hF : Fits bytes) (c : Cmd) (hc : sequential c = false) :
    ∃ slices, partitionFrom dltStorage bytes num = .ok slices ∧
      (((∃ s ∈ slices, RunCmd num s (onSlices c) .panic) ∧ ∀ r, RunCmd num bytes c r ↔ r = .panic) ∨
       ((¬ ∃ s ∈ slices, RunCmd num s (onSlices c) .panic) ∧ ∃ parts total,
        Each (fun s p => RunCmd num s (onSlices c) (.ok p)) slices parts ∧ AddsUp c parts total ∧
        ∀ r, RunCmd num bytes c r ↔ r = .ok total)) := by
  have hcount : ∀ k, (k = .parCount ∨ k = .parCountHelloWorld ∨ k = .parCountHelloWorldRaw ∨ k = .parCountHelloWorldGrepit) →
      (∀ ns : List Nat, AddsUp k (ns.map .number) (.number ns.sum)) →
      ∃ slices, partitionFrom dltStorage bytes num = .ok slices ∧
      (((∃ s ∈ slices, RunCmd num s (onSlices k) .panic) ∧ ∀ r, RunCmd num bytes k r ↔ r = .panic) ∨
       ((¬ ∃ s ∈ slices, RunCmd num s (onSlices k) .panic) ∧ ∃ parts total,
        Each (fun s p => RunCmd num s (onSlices k) (.ok p)) slices parts ∧ AddsUp k parts total ∧
        ∀ r, RunCmd num bytes k r ↔ r = .ok total)) := by
    intro k hk ha
    obtain ⟨slices, hp, h | ⟨h1, ns, h2, h3⟩⟩ := C69_counters num hnum bytes hF k hk
    · exact ⟨slices, hp, .inl h⟩
    · exact ⟨slices, hp, .inr ⟨h1, ns.map .number, _, each_mapr _ (fun _ _ _ _ h => h) h2, ha ns, h3⟩⟩
  obtain ⟨r0, hr0⟩ := C66_one_result num hnum bytes hF c
  have hone : ∀ q, RunCmd num bytes c q → ∀ r, RunCmd num bytes c r ↔ r = q := fun q hq r => by
    rw [hr0] at hq ⊢; rw [hq]
  cases c <;> first | (exact absurd hc (by decide)) | skip
  case parCount => exact hcount _ (.inl rfl) fun ns => ⟨ns, rfl, rfl⟩
  case parCountHelloWorld => exact hcount _ (.inr (.inl rfl)) fun ns => ⟨ns, rfl, rfl⟩
  case parCountHelloWorldRaw => exact hcount _ (.inr (.inr (.inl rfl))) fun ns => ⟨ns, rfl, rfl⟩
  case parCountHelloWorldGrepit => exact hcount _ (.inr (.inr (.inr rfl))) fun ns => ⟨ns, rfl, rfl⟩
  all_goals
    obtain ⟨slices, mss, hp, hm, hpan⟩ := C69_parallel_panics num hnum bytes hF
    have hfit := (partition_fits hF hp).2
    refine ⟨slices, hp, ?_⟩
  case parHistogramTimestamp =>
    obtain ⟨parts, total, h1, h2, h3⟩ := par_histogram_sum num hnum bytes hF slices hp
    refine .inr ⟨?_, parts, total, h1, h2, hone _ h3⟩
    rintro ⟨s, hs, hbad⟩
    obtain ⟨p, -, hok⟩ := each_left h1 s hs
    obtain ⟨r, hr⟩ := C66_one_result num hnum s (hfit s hs) .histogramTimestamp
    have hbad' : RunCmd num s .histogramTimestamp .panic := hbad
    rw [hr] at hok hbad'
    rw [← hbad'] at hok
    cases hok
  case parSplitTimestamp =>
    by_cases hn : ∃ s ∈ slices, RunCmd num s .splitTimestamp .panic
    · refine .inl ⟨hn, hone _ ?_⟩
      rw [hpan _ rfl]
      obtain ⟨s, hs, hbad⟩ := hn
      obtain ⟨ms, hms, h1⟩ := each_left hm s hs
      exact ⟨ms, hms, (C67_sequential_panics num s (hfit s hs) ms h1 _ rfl).1 hbad⟩
    · obtain ⟨parts, total, h1, h2, h3⟩ := par_split_sum num hnum bytes hF slices hp hn
      exact .inr ⟨hn, parts, total, h1, h2, hone _ h3⟩
  case parIter =>
    by_cases hn : ∃ s ∈ slices, RunCmd num s .iter .panic
    · refine .inl ⟨hn, hone _ ?_⟩
      rw [hpan _ rfl]
      obtain ⟨s, hs, hbad⟩ := hn
      obtain ⟨ms, hms, h1⟩ := each_left hm s hs
      exact ⟨ms, hms, (C67_sequential_panics num s (hfit s hs) ms h1 _ rfl).1 hbad⟩
    · obtain ⟨ns, h1, -⟩ := C90_par_iter_prints num bytes hF slices hp hn
      refine .inr ⟨hn, ns.map .number, .nothing, each_mapr _ (fun _ _ _ _ h => h) h1, ⟨⟨ns, rfl⟩, rfl⟩, ?_⟩
      have hnp : r0 ≠ .panic := fun e => hn (by
        have := (hpan .parIter rfl).1 ((hr0 _).2 e.symm)
        obtain ⟨ms, hms, hb⟩ := this
        obtain ⟨s, hs, h2⟩ := each_right hm ms hms
        exact ⟨s, hs, (C67_sequential_panics num s (hfit s hs) ms h2 .iter rfl).2 hb⟩)
      obtain ⟨q, hq, hq2⟩ := (hr0 r0).2 rfl
      cases q with
      | panic => exact absurd hq2 hnp
      | ok v => exact hone _ ⟨_, hq, rfl⟩

/-- **C143** exactly: a multithreaded command may report `rep` if and only if each slice can be reported on and `rep` is the sum
of the reports on the slices. -/
theorem C143_exact (num : Nat) (hnum : num ≠ 0) (bytes : Bytes) (hF : Fits bytes) (slices : List Bytes)
    (hp : partitionFrom dltStorage bytes num = .ok slices) (c : Cmd) (hc : sequential c = false) (rep : Report) :
    RunCmd num bytes c (.ok rep) ↔
      ∃ parts, Each (fun s p => RunCmd num s (onSlices c) (.ok p)) slices parts ∧ AddsUp c parts rep := by
  obtain ⟨slices', hp', h⟩ := C143_sum num hnum bytes hF c hc
  rw [hp] at hp'
  cases hp'
  have hfit := (partition_fits hF hp).2
  rcases h with ⟨⟨s, hs, hbad⟩, h2⟩ | ⟨-, parts, total, h2, h3, h4⟩
  · rw [h2]
    constructor
    · intro h; cases h
    · rintro ⟨parts, h3, -⟩
      obtain ⟨p, -, hok⟩ := each_left h3 s hs
      obtain ⟨r, hr⟩ := C66_one_result num hnum s (hfit s hs) (onSlices c)
      rw [hr] at hok hbad
      rw [← hbad] at hok
      cases hok
  · rw [h4]
    constructor
    · intro h; cases h; exact ⟨parts, h2, h3⟩
    · rintro ⟨parts', g2, g3⟩
      have : parts' = parts := by
        clear h3 h4 g3 hp
        induction slices generalizing parts parts' with
        | nil => cases parts with
          | nil => cases parts' with
            | nil => rfl
            | cons _ _ => exact g2.elim
          | cons _ _ => exact h2.elim
        | cons s slices ih => cases parts with
          | nil => exact h2.elim
          | cons p parts => cases parts' with
            | nil => exact g2.elim
            | cons p' parts' =>
              obtain ⟨r, hr⟩ := C66_one_result num hnum s (hfit s List.mem_cons_self) (onSlices c)
              have e1 := (hr _).1 h2.1
              have e2 := (hr _).1 g2.1
              rw [← e2] at e1
              cases e1
              rw [ih (fun s hs => hfit s (List.mem_cons_of_mem _ hs)) _ h2.2 _ g2.2]
      rw [this] at g3
      rw [C143_determined c parts rep total g3 h3]

/-- **C143** the same, told by the messages of the slices: each slice's messages must be such that the sequential command does not
panic on them, and its reports (C68) are added up. -/
theorem C143_by_messages (num : Nat) (hnum : num ≠ 0) (bytes : Bytes) (hF : Fits bytes) (slices : List Bytes)
    (hp : partitionFrom dltStorage bytes num = .ok slices) (c : Cmd) (hc : sequential c = false) (rep : Report) :
    RunCmd num bytes c (.ok rep) ↔ ∃ parts, AddsUp c parts rep ∧
      Each (fun s p => ∃ msgs, Messages s msgs ∧ ¬ Panics msgs (onSlices c) ∧ Spec.Prints s msgs (onSlices c) p) slices parts := by
  have hfit := (partition_fits hF hp).2
  have hs : sequential (onSlices c) = true := by cases c <;> first | rfl | exact absurd hc (by decide)
  have key : ∀ {ss : List Bytes} {parts : List Report}, (∀ s ∈ ss, Fits s) →
      (Each (fun s p => RunCmd num s (onSlices c) (.ok p)) ss parts ↔
        Each (fun s p => ∃ msgs, Messages s msgs ∧ ¬ Panics msgs (onSlices c) ∧ Spec.Prints s msgs (onSlices c) p) ss parts) := by
    intro ss
    induction ss with
    | nil => intro parts _; cases parts <;> exact Iff.rfl
    | cons s ss ih =>
      intro parts hf
      cases parts with
      | nil => exact Iff.rfl
      | cons p parts =>
        show _ ∧ _ ↔ _ ∧ _
        rw [ih fun s hs => hf s (List.mem_cons_of_mem _ hs)]
        refine and_congr ?_ Iff.rfl
        obtain ⟨msgs, hm, -⟩ := messages_of_file s (hf s List.mem_cons_self)
        constructor
        · intro h; exact ⟨msgs, hm, (C141_exact num s (hf s List.mem_cons_self) msgs hm _ hs p).1 h⟩
        · rintro ⟨ms, h1, h2⟩; exact (C141_exact num s (hf s List.mem_cons_self) ms h1 _ hs p).2 h2
  rw [C143_exact num hnum bytes hF slices hp c hc rep]
  constructor
  · rintro ⟨parts, h1, h2⟩; exact ⟨parts, h2, (key hfit).1 h1⟩
  · rintro ⟨parts, h1, h2⟩; exact ⟨parts, (key hfit).2 h2, h1⟩

/-- Four messages stored in the same second, two threads: each slice has one run, so the sum has two, of which the report says
that they lasted less than a second. -/
example : RunCmd 2 (packed (four 7 7 7 7)) .parHistogramTimestamp (.ok (.buckets [(0, 1, 2)])) := by
  refine (C143_exact 2 (by decide) _ (four_fits 7 7 7 7) _ (four_slices 7 7 7 7).1 _ rfl _).2
    ⟨[.buckets [(0, 1, 1)], .buckets [(0, 1, 1)]], ?_, [[(0, 1, 1)], [(0, 1, 1)]], [(0, 1, 2)], rfl, rfl, ?_, ?_, ?_, ?_⟩
  · have hfit := (partition_fits (four_fits 7 7 7 7) (four_slices 7 7 7 7).1).2
    have key : RunCmd 2 (packed [secMsg 7, secMsg 7]) .histogramTimestamp (.ok (.buckets [(0, 1, 1)])) := by
      have hs := hfit _ List.mem_cons_self
      obtain ⟨m, h1, h2⟩ := hist_slice (num := 2) hs
      rw [runsOfFile_eq hs (four_messages 7 7 7 7).1] at h2
      have : (runsL (fun a b : StorageEntry => decide (a.secs ≤ b.secs)) [secMsg 7, secMsg 7]).map secSpanOf = List.replicate 1 0 := by
        decide
      rw [this] at h2
      rw [isHistogram_unique h2 (hist_zeros 1 (by decide))] at h1
      exact h1
    exact ⟨key, key, trivial⟩
  · show List.Pairwise _ _
    simp
  · decide
  · intro k; simp
  · intro k
    simp only [listed, List.map_cons, List.map_nil, List.sum_cons, List.sum_nil]
    split <;> rfl

end Verif
