import Verif.Props.Partition
import Verif.Props.Stats

/-! # Slices of a clean file are clean files -/

set_option linter.unusedSimpArgs false

namespace Verif

open Spec

theorem fileOf_cons (g : Bytes) (e : StorageEntry) (segs : List (Bytes × StorageEntry)) (t : Bytes) :
    fileOf ((g, e) :: segs) t = g ++ (encode e ++ fileOf segs t) := by
  simp [fileOf]

theorem fileOf_nil (t : Bytes) : fileOf [] t = t := by simp [fileOf]

theorem clean_cons {g : Bytes} {e : StorageEntry} {segs : List (Bytes × StorageEntry)} {t : Bytes} :
    Clean ((g, e) :: segs) t ↔ (¬ dltMarker <:+: g ∧ WF e) ∧ Clean segs t := by
  constructor
  · intro h
    exact ⟨h.1 (g, e) (List.mem_cons_self ..), fun s hs => h.1 s (List.mem_cons_of_mem _ hs), h.2⟩
  · rintro ⟨h1, h2⟩
    refine ⟨fun s hs => ?_, h2.2⟩
    rcases List.mem_cons.1 hs with rfl | hs
    · exact h1
    · exact h2.1 s hs

theorem clean_nil {t : Bytes} : Clean [] t ↔ ¬ dltMarker <:+: t := by
  constructor
  · exact fun h => h.2
  · exact fun h => ⟨by simp, h⟩

theorem messagesAt_start : ∀ (segs : List (Bytes × StorageEntry)) (o : Nat), ∀ x ∈ messagesAt o segs, o ≤ x.1
  | [], _, x, hx => by simp [messagesAt] at hx
  | (g, e) :: segs, o, x, hx => by
    rcases List.mem_cons.1 hx with rfl | hx
    · simp only; omega
    · have := messagesAt_start segs _ x hx
      omega

theorem messagesAt_end (segs : List (Bytes × StorageEntry)) (t : Bytes) (o : Nat) :
    ∀ x ∈ messagesAt o segs, x.1 + (encode x.2).length ≤ o + (fileOf segs t).length := by
  induction segs generalizing o with
  | nil => intro x hx; simp [messagesAt] at hx
  | cons s segs ih =>
    obtain ⟨g, e⟩ := s
    intro x hx
    rw [fileOf_cons, List.length_append, List.length_append]
    rcases List.mem_cons.1 hx with rfl | hx
    · simp only; omega
    · have := ih _ x hx
      omega

theorem messagesAt_map (segs : List (Bytes × StorageEntry)) (o : Nat) :
    (messagesAt o segs).map (·.2) = segs.map (·.2) := by
  induction segs generalizing o with
  | nil => rfl
  | cons s segs ih => obtain ⟨g, e⟩ := s; simp [messagesAt, ih]

theorem encode_pos (e : StorageEntry) : 0 < (encode e).length := by rw [encode_length]; omega

/-- Cutting a clean file at a place that is not inside a message gives two clean files. -/
theorem cut_file (segs : List (Bytes × StorageEntry)) (t : Bytes) (o c : Nat) (hc : Clean segs t)
    (hle : c ≤ (fileOf segs t).length) (hcut : ∀ x ∈ messagesAt o segs, ¬ StrictlyInside (o + c) x) :
    ∃ s1 t1 s2 t2, Clean s1 t1 ∧ Clean s2 t2 ∧ (fileOf segs t).take c = fileOf s1 t1 ∧
      (fileOf segs t).drop c = fileOf s2 t2 ∧ messagesAt o segs = messagesAt o s1 ++ messagesAt (o + c) s2 := by
  induction segs generalizing o c with
  | nil =>
    rw [fileOf_nil] at hle ⊢
    rw [clean_nil] at hc
    exact ⟨[], t.take c, [], t.drop c, clean_nil.2 fun h => hc (h.trans (List.take_prefix _ _).isInfix),
      clean_nil.2 fun h => hc (h.trans (List.drop_suffix _ _).isInfix), by rw [fileOf_nil], by rw [fileOf_nil], rfl⟩
  | cons s segs ih =>
    obtain ⟨g, e⟩ := s
    obtain ⟨⟨hg, hwf⟩, hcl⟩ := clean_cons.1 hc
    rw [fileOf_cons] at hle ⊢
    by_cases hcg : c ≤ g.length
    · refine ⟨[], g.take c, (g.drop c, e) :: segs, t, clean_nil.2 fun h => hg (h.trans (List.take_prefix _ _).isInfix),
        clean_cons.2 ⟨⟨fun h => hg (h.trans (List.drop_suffix _ _).isInfix), hwf⟩, hcl⟩, ?_, ?_, ?_⟩
      · rw [fileOf_nil, List.take_append_of_le_length hcg]
      · rw [fileOf_cons, List.drop_append_of_le_length hcg]
      · simp only [messagesAt, List.nil_append, List.length_drop]
        rw [show o + c + (g.length - c) = o + g.length by omega]
    · have h1 := hcut (o + g.length, e) (List.mem_cons_self ..)
      have h2 : g.length + (encode e).length ≤ c := by
        refine Classical.byContradiction fun hn => h1 ⟨?_, ?_⟩ <;> simp only <;> omega
      have hl : (g ++ encode e).length = g.length + (encode e).length := List.length_append
      obtain ⟨s1, t1, s2, t2, h3, h4, h5, h6, h7⟩ := ih (o + g.length + (encode e).length)
        (c - (g.length + (encode e).length)) hcl (by simp only [List.length_append] at hle; omega) (by
          intro x hx
          have := hcut x (List.mem_cons_of_mem _ hx)
          rw [show o + g.length + (encode e).length + (c - (g.length + (encode e).length)) = o + c by omega]
          exact this)
      refine ⟨(g, e) :: s1, t1, s2, t2, clean_cons.2 ⟨⟨hg, hwf⟩, h3⟩, h4, ?_, ?_, ?_⟩
      · rw [fileOf_cons, ← h5, ← List.append_assoc, List.take_append, hl, List.take_of_length_le (by omega),
          List.append_assoc]
      · rw [← h6, ← List.append_assoc, List.drop_append, hl, List.drop_of_length_le (by omega), List.nil_append]
      · simp only [messagesAt, List.cons_append]
        rw [h7, show o + g.length + (encode e).length + (c - (g.length + (encode e).length)) = o + c by omega]

/-- A clean file cut along adjacent ranges, none of which ends inside a message: every slice is a clean file, and
together they hold the messages that start in front of the end of the last range. -/
theorem slices_clean (rs : List (Nat × Nat)) : ∀ (pre : Bytes) (segs : List (Bytes × StorageEntry)) (t : Bytes) (b : Nat),
    Clean segs t → Tiles pre.length rs b → b ≤ (pre ++ fileOf segs t).length →
    (∀ r ∈ rs, ∀ x ∈ messagesAt pre.length segs, ¬ StrictlyInside r.2 x) →
    ∃ parts : List (List (Bytes × StorageEntry) × Bytes),
      (rs.map fun r => ((pre ++ fileOf segs t).take r.2).drop r.1) = parts.map (fun p => fileOf p.1 p.2) ∧
      (∀ p ∈ parts, Clean p.1 p.2) ∧
      (parts.map fun p => p.1.map (·.2)).flatten =
        ((messagesAt pre.length segs).filter fun x => decide (x.1 < b)).map (·.2) := by
  induction rs with
  | nil =>
    intro pre segs t b hc ht hb hcut
    have ht : pre.length = b := ht
    refine ⟨[], rfl, by simp, ?_⟩
    have : (messagesAt pre.length segs).filter (fun x => decide (x.1 < b)) = [] := by
      rw [List.filter_eq_nil_iff]
      intro x hx
      have := messagesAt_start _ _ x hx
      simp only [decide_eq_true_eq]; omega
    rw [this]; rfl
  | cons r rs ih =>
    intro pre segs t b hc ht hb hcut
    obtain ⟨s, u⟩ := r
    obtain ⟨rfl, hlt, ht⟩ := ht
    have hub : u ≤ b := (tiles_slices ht hb).2.1
    rw [List.length_append] at hb
    obtain ⟨s1, t1, s2, t2, h1, h2, h3, h4, h5⟩ := cut_file segs t pre.length (u - pre.length) hc (by omega) (by
      rw [show pre.length + (u - pre.length) = u by omega]
      exact hcut (pre.length, u) (List.mem_cons_self ..))
    rw [show pre.length + (u - pre.length) = u by omega] at h5
    have hsplit : fileOf segs t = fileOf s1 t1 ++ fileOf s2 t2 := by rw [← h3, ← h4, List.take_append_drop]
    have hlen : (pre ++ fileOf s1 t1).length = u := by
      rw [← h3, List.length_append, List.length_take]; omega
    have heq : pre ++ fileOf segs t = (pre ++ fileOf s1 t1) ++ fileOf s2 t2 := by rw [hsplit, List.append_assoc]
    obtain ⟨parts, h6, h7, h8⟩ := ih (pre ++ fileOf s1 t1) s2 t2 b h2 (by rw [hlen]; exact ht)
      (by rw [← heq, List.length_append]; omega) (by
        intro r hr x hx
        rw [hlen] at hx
        exact hcut r (List.mem_cons_of_mem _ hr) x (by rw [h5]; exact List.mem_append_right _ hx))
    refine ⟨(s1, t1) :: parts, ?_, ?_, ?_⟩
    · rw [List.map_cons, List.map_cons, heq, h6]
      congr 1
      simp only
      have : ((pre ++ fileOf s1 t1) ++ fileOf s2 t2).take u = pre ++ fileOf s1 t1 := List.take_left' hlen
      rw [this, List.drop_left]
    · intro p hp
      rcases List.mem_cons.1 hp with rfl | hp
      · exact h1
      · exact h7 p hp
    · rw [List.map_cons, List.flatten_cons, h8, h5, hlen, List.filter_append, List.map_append]
      congr 1
      rw [List.filter_eq_self.2, messagesAt_map]
      intro x hx
      have h9 := messagesAt_end s1 t1 _ x hx
      rw [← List.length_append, hlen] at h9
      have := encode_pos x.2
      simp only [decide_eq_true_eq]; omega

theorem messages_fileOf {segs : List (Bytes × StorageEntry)} {t : Bytes} (hc : Clean segs t) :
    Messages (fileOf segs t) (segs.map (·.2)) := by
  refine ⟨messagesAt 0 segs, ?_, (messagesAt_map segs 0).symm⟩
  have := scan_fileOf [] segs t hc
  simpa using this

theorem length_le_flatten {α : Type} {x : List α} : ∀ {l : List (List α)}, x ∈ l → x.length ≤ l.flatten.length
  | y :: l, h => by
    rw [List.flatten_cons, List.length_append]
    rcases List.mem_cons.1 h with rfl | h
    · omega
    · have := length_le_flatten h; omega

/-- Slices of a file are no longer than the file. -/
theorem partition_fits {bytes : Bytes} (hF : Fits bytes) {num : Nat} {slices : List Bytes}
    (h : partitionFrom dltStorage bytes num = .ok slices) : slices.flatten.length ≤ bytes.length ∧ ∀ s ∈ slices, Fits s := by
  have hnum : num ≠ 0 := by
    intro h0
    rw [(C30_partition_panics_iff bytes hF num).2 h0] at h
    cases h
  obtain ⟨rs, b, slices', -, -, -, h4, -, -, h5⟩ := C30_partition_contiguous bytes hF num hnum
  rw [h] at h4
  cases h4
  have hle : slices.flatten.length ≤ bytes.length := by rw [h5, List.length_take]; omega
  refine ⟨hle, fun s hs => ?_⟩
  have := length_le_flatten hs
  unfold Fits at hF ⊢
  omega

/-- The slices of a clean file without long or straddled messages. -/
theorem partition_clean (segs : List (Bytes × StorageEntry)) (t : Bytes) (hc : Clean segs t)
    (hF : Fits (fileOf segs t)) (hmax : AtMost 65536 (messagesAt 0 segs))
    (hns : NoStraddle (fileOf segs t) (messagesAt 0 segs)) (num : Nat) (hnum : num ≠ 0) :
    ∃ (parts : List (List (Bytes × StorageEntry) × Bytes)) (b : Nat),
      partitionFrom dltStorage (fileOf segs t) num = .ok (parts.map fun p => fileOf p.1 p.2) ∧
      (parts.map fun p => fileOf p.1 p.2).flatten = (fileOf segs t).take b ∧ b ≤ (fileOf segs t).length ∧
      (∀ p ∈ parts, Clean p.1 p.2 ∧ Fits (fileOf p.1 p.2)) ∧
      (parts.map fun p => p.1.map (·.2)).flatten =
        ((messagesAt 0 segs).filter fun x => decide (x.1 < b)).map (·.2) := by
  obtain ⟨rs, b, slices, h1, h2, h3, h4, -, -, h5⟩ := C30_partition_contiguous (fileOf segs t) hF num hnum
  have h1' := h1
  rw [partitionRanges_pos hnum] at h1'
  have hcut := partitionLoop_cuts hF (topLevel_fileOf segs t hc) hmax hns _ _ 0 rfl
    (fun y _ h => by have := h.1; omega) rs (by rw [Nat.zero_add]; exact h1')
  obtain ⟨parts, h6, h7, h8⟩ := slices_clean rs [] segs t b hc h2 (by simpa using h3) hcut
  have h9 := partitionFrom_of_ranges h1
  simp only [List.nil_append] at h6
  rw [h6] at h9
  have hsl : slices = parts.map fun p => fileOf p.1 p.2 := by rw [h9] at h4; cases h4; rfl
  refine ⟨parts, b, h9, by rw [← hsl, h5], h3, fun p hp => ⟨h7 p hp, ?_⟩, h8⟩
  exact (partition_fits hF h9).2 _ (List.mem_map.2 ⟨p, hp, rfl⟩)

end Verif
