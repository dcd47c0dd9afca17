import Verif.Props.Oversized
import Verif.Props.ConcatList
import Verif.Props.ParallelIff
import Verif.Props.Damage

/-! # C135: several threads and messages of more than 65536 bytes -/

set_option linter.unusedSimpArgs false

namespace Verif

open Spec

/-- No start marker stands in a message more than 65535 bytes behind its start. -/
def Spec.NoLateMarker (bytes : Bytes) (G : List (Nat × StorageEntry)) : Prop :=
  ∀ x ∈ G, ∀ j, StrictlyInside j x → x.1 + 65535 < j → ¬ MarkerAt dltStorage bytes j

/-- The message lies completely in the range. -/
def Spec.Within (r : Nat × Nat) (x : Nat × StorageEntry) : Prop := r.1 ≤ x.1 ∧ x.1 + (encode x.2).length ≤ r.2

instance (r : Nat × Nat) (x : Nat × StorageEntry) : Decidable (Within r x) := by unfold Within; infer_instance

/-- The messages that lie completely in the range. -/
def Spec.messagesIn (G : List (Nat × StorageEntry)) (r : Nat × Nat) : List StorageEntry :=
  (G.filter fun x => decide (Within r x)).map (·.2)

/-- Reading from a place behind which the message it is in has no marker. -/
theorem Spec.Scan.behind {T : Type} {S : SearchableMarker T} {bytes : Bytes} {s : Nat} {xs : List (Nat × T)} (h : Scan S bytes s xs)
    (hall : ∀ j, s ≤ j → MarkerAt S bytes j → ∃ x ∈ xs, x.1 ≤ j ∧ j < x.1 + S.len x.2) (a : Nat) (hs : s ≤ a)
    (hno : ∀ x ∈ xs, x.1 < a → ∀ j, a ≤ j → j < x.1 + S.len x.2 → ¬ MarkerAt S bytes j) :
    Scan S bytes a (xs.filter fun x => decide (a ≤ x.1)) := by
  induction h with
  | done s hd => exact .done _ fun j hj => hd j (by omega)
  | bad s i hf hd =>
    obtain ⟨x, hx, -⟩ := hall i hf.1 hf.2.1
    cases hx
  | msg s i v rest hf hr hrest ih =>
    have hge : ∀ x ∈ rest, i + S.len v ≤ x.1 := hrest.disjoint.2
    have hall' : ∀ j, i + S.len v ≤ j → MarkerAt S bytes j → ∃ x ∈ rest, x.1 ≤ j ∧ j < x.1 + S.len x.2 := by
      intro j hj hm
      obtain ⟨x, hx, h1, h2⟩ := hall j (by have := hf.1; omega) hm
      rcases List.mem_cons.1 hx with rfl | hx
      · simp only at h2; omega
      · exact ⟨x, hx, h1, h2⟩
    by_cases hai : a ≤ i
    · have hfil : (((i, v) :: rest).filter fun x => decide (a ≤ x.1)) = (i, v) :: rest := by
        apply List.filter_eq_self.2
        intro x hx
        rcases List.mem_cons.1 hx with rfl | hx
        · simpa using hai
        · have := hge x hx
          simp only [decide_eq_true_eq]; omega
      rw [hfil]
      exact .msg _ i v rest ⟨hai, hf.2.1, fun j h1 h2 => hf.2.2 j (by omega) h2⟩ hr hrest
    · have hfil : (((i, v) :: rest).filter fun x => decide (a ≤ x.1)) = rest.filter fun x => decide (a ≤ x.1) := by
        rw [List.filter_cons_of_neg]
        simpa using hai
      rw [hfil]
      by_cases hav : a ≤ i + S.len v
      · have hfil2 : (rest.filter fun x => decide (a ≤ x.1)) = rest := by
          apply List.filter_eq_self.2
          intro x hx
          have := hge x hx
          simp only [decide_eq_true_eq]; omega
        rw [hfil2]
        exact hrest.extend hav fun j h1 h2 => hno (i, v) (List.mem_cons_self ..) (by simp only; omega) j h1 h2
      · exact ih hall' (by omega) fun x hx => hno x (List.mem_cons_of_mem _ hx)

theorem Spec.Scan.unshift {T : Type} {S : SearchableMarker T} {a b : Bytes} {s : Nat} {ys : List (Nat × T)}
    (h : Scan S (a ++ b) s ys) (k : Nat) (hs : s = a.length + k) : ∃ zs, Scan S b k zs ∧ ys = Spec.shift a.length zs := by
  induction h generalizing k with
  | done s hd =>
    subst hs
    refine ⟨[], .done _ fun j hj hm => hd (a.length + j) (by omega) (markerAt_shift.2 hm), rfl⟩
  | bad s i hf hd =>
    subst hs
    obtain ⟨i, rfl⟩ : ∃ i', i = a.length + i' := ⟨i - a.length, by have := hf.1; omega⟩
    refine ⟨[], .bad _ i ⟨by have := hf.1; omega, markerAt_shift.1 hf.2.1, fun j h1 h2 hm =>
      hf.2.2 (a.length + j) (by omega) (by omega) (markerAt_shift.2 hm)⟩ fun v hv => hd v (readableAt_shift.2 hv), rfl⟩
  | msg s i v rest hf hr _ ih =>
    subst hs
    obtain ⟨i, rfl⟩ : ∃ i', i = a.length + i' := ⟨i - a.length, by have := hf.1; omega⟩
    obtain ⟨zs, h1, h2⟩ := ih (i + S.len v) (by omega)
    refine ⟨(i, v) :: zs, .msg _ i v zs ⟨by have := hf.1; omega, markerAt_shift.1 hf.2.1, fun j h1 h2 hm =>
      hf.2.2 (a.length + j) (by omega) (by omega) (markerAt_shift.2 hm)⟩ (readableAt_shift.1 hr) h1, ?_⟩
    rw [h2]
    rfl

theorem clean_markers (pre : Bytes) (segs : List (Bytes × StorageEntry)) (t : Bytes) (hc : Clean segs t) (j : Nat)
    (hj : pre.length ≤ j) (hm : MarkerAt dltStorage (pre ++ fileOf segs t) j) :
    ∃ x ∈ messagesAt pre.length segs, x.1 ≤ j ∧ j < x.1 + (encode x.2).length := by
  induction segs generalizing pre with
  | nil =>
    refine absurd ?_ hc.2
    simp only [fileOf, List.map_nil, List.flatten_nil, List.nil_append] at hm
    obtain ⟨k, rfl⟩ : ∃ k, j = pre.length + k := ⟨j - pre.length, by omega⟩
    exact (markerAt_shift.1 hm).isInfix.trans (List.drop_suffix _ _).isInfix
  | cons s segs ih =>
    obtain ⟨g, e⟩ := s
    have hcl : Clean segs t := ⟨fun s hs => hc.1 s (List.mem_cons_of_mem _ hs), hc.2⟩
    have hfm := (scan_fileOf pre ((g, e) :: segs) t hc).gaps [] (pre.length + g.length) e _ rfl
    have hfile2 : pre ++ fileOf ((g, e) :: segs) t = (pre ++ g ++ encode e) ++ fileOf segs t := by simp [fileOf]
    by_cases h1 : j < pre.length + g.length
    · exact absurd hm (hfm.2.2 j hj h1)
    · by_cases h2 : j < pre.length + g.length + (encode e).length
      · exact ⟨(pre.length + g.length, e), by simp [messagesAt], by simp only; omega, h2⟩
      · have hl : (pre ++ g ++ encode e).length = pre.length + g.length + (encode e).length := by simp; omega
        obtain ⟨x, hx, h3⟩ := ih (pre ++ g ++ encode e) hcl (by omega) (by rw [← hfile2]; exact hm)
        rw [hl] at hx
        exact ⟨x, by simp only [messagesAt]; exact List.mem_cons_of_mem _ hx, h3⟩

theorem shift_map_snd {T : Type} (k : Nat) (zs : List (Nat × T)) : (Spec.shift k zs).map (·.2) = zs.map (·.2) := by
  simp [Spec.shift, Function.comp_def]

/-- The messages read in a piece of a log: those completely in it, if the message its start is in has no marker from there
on. -/
theorem piece_messages {segs : List (Bytes × StorageEntry)} {t : Bytes} (hc : Clean segs t) (r : Nat × Nat)
    (h12 : r.1 ≤ r.2) (hl : r.2 ≤ (fileOf segs t).length)
    (hno : ∀ x ∈ messagesAt 0 segs, ∀ j, r.1 ≤ j → StrictlyInside r.1 x → StrictlyInside j x → ¬ MarkerAt dltStorage (fileOf segs t) j) :
    Messages (((fileOf segs t).take r.2).drop r.1) (messagesIn (messagesAt 0 segs) r) := by
  have hscan := scan_fileOf [] segs t hc
  rw [List.nil_append, List.length_nil] at hscan
  have hlen : ∀ x ∈ messagesAt 0 segs, dltStorage.len x.2 = (encode x.2).length := fun x hx =>
    ((topLevel_wf (topLevel_fileOf segs t hc) x hx).2).symm
  have hb := hscan.behind (fun j _ hm => by
    obtain ⟨x, hx, h1, h2⟩ := clean_markers [] segs t hc j (Nat.zero_le _) (by simpa using hm)
    exact ⟨x, hx, h1, by rw [hlen x hx]; exact h2⟩) r.1 (Nat.zero_le _) (fun x hx h1 j h2 h3 hm => by
      rw [hlen x hx] at h3
      exact hno x hx j h2 ⟨h1, by omega⟩ ⟨by omega, h3⟩ hm)
  rw [← List.take_append_drop r.2 (fileOf segs t)] at hb
  have hf := hb.front dlt_lawful
  rw [← List.take_append_drop r.1 ((fileOf segs t).take r.2)] at hf
  obtain ⟨zs, h1, h2⟩ := hf.unshift 0 (by rw [List.length_take, List.length_take]; omega)
  refine ⟨zs, h1, ?_⟩
  rw [← shift_map_snd, ← h2]
  unfold messagesIn
  rw [List.filter_filter]
  congr 1
  apply List.filter_congr
  intro x hx
  rw [List.take_append_drop, hlen x hx, List.length_take, Nat.min_eq_left hl]
  unfold Within
  by_cases h1 : r.1 ≤ x.1 <;> by_cases h2 : x.1 + (encode x.2).length ≤ r.2 <;> simp [h1, h2]

/-- The messages that lie completely in one of the ranges. -/
def Spec.held (G : List (Nat × StorageEntry)) (rs : List (Nat × Nat)) : List (Nat × StorageEntry) :=
  G.filter fun x => decide (∃ r ∈ rs, Within r x)

/-- The messages that one of the ranges ends inside of. -/
def Spec.cutOff (G : List (Nat × StorageEntry)) (rs : List (Nat × Nat)) : List (Nat × StorageEntry) :=
  G.filter fun x => decide (∃ r ∈ rs, StrictlyInside r.2 x)

/-- The messages that start at `b` or later. -/
def Spec.startBehind (G : List (Nat × StorageEntry)) (b : Nat) : List (Nat × StorageEntry) := G.filter fun x => decide (b ≤ x.1)

theorem filter_two {G : List (Nat × StorageEntry)} (hd : G.Pairwise fun a b => a.1 + (encode a.2).length ≤ b.1) (c : Nat)
    (p q : Nat × StorageEntry → Bool) (hp : ∀ x ∈ G, p x = true → x.1 < c) (hq : ∀ x ∈ G, q x = true → c ≤ x.1) :
    (G.filter fun x => p x || q x) = G.filter p ++ G.filter q := by
  induction G with
  | nil => rfl
  | cons x G ih =>
    rw [List.pairwise_cons] at hd
    have ih := ih hd.2 (fun y hy => hp y (List.mem_cons_of_mem _ hy)) (fun y hy => hq y (List.mem_cons_of_mem _ hy))
    have hpx := hp x (List.mem_cons_self ..)
    have hqx := hq x (List.mem_cons_self ..)
    rw [List.filter_cons, List.filter_cons, List.filter_cons, ih]
    cases hcp : p x <;> cases hcq : q x
    · simp
    · have hnil : G.filter p = [] := by
        apply List.filter_eq_nil_iff.2
        intro y hy hpy
        have h1 := hp y (List.mem_cons_of_mem _ hy) hpy
        have h2 := hd.1 y hy
        have h3 := hqx hcq
        omega
      rw [hnil]
      simp
    · simp
    · have h1 := hpx hcp
      have h2 := hqx hcq
      omega

theorem tiles_ge {a b : Nat} {rs : List (Nat × Nat)} (h : Tiles a rs b) : a ≤ b ∧ ∀ r ∈ rs, a ≤ r.1 ∧ r.1 < r.2 ∧ r.2 ≤ b := by
  induction rs generalizing a with
  | nil => exact ⟨Nat.le_of_eq h, by simp⟩
  | cons r rs ih =>
    obtain ⟨s, t⟩ := r
    obtain ⟨h1, h2, h3⟩ := h
    obtain ⟨h4, h5⟩ := ih h3
    refine ⟨by omega, fun r hr => ?_⟩
    rcases List.mem_cons.1 hr with rfl | hr
    · exact ⟨by simp only; omega, h2, h4⟩
    · have := h5 r hr
      omega

theorem tiles_start {a b : Nat} {rs : List (Nat × Nat)} (h : Tiles a rs b) : ∀ r ∈ rs, r.1 = a ∨ ∃ q ∈ rs, q.2 = r.1 := by
  induction rs generalizing a with
  | nil => simp
  | cons r rs ih =>
    obtain ⟨s, t⟩ := r
    obtain ⟨h1, h2, h3⟩ := h
    intro r hr
    rcases List.mem_cons.1 hr with rfl | hr
    · exact .inl h1
    · rcases ih h3 r hr with h | ⟨q, hq, h⟩
      · exact .inr ⟨(s, t), List.mem_cons_self .., h.symm⟩
      · exact .inr ⟨q, List.mem_cons_of_mem _ hq, h⟩

theorem tiles_end_unique {a b c : Nat} {rs : List (Nat × Nat)} (h : Tiles a rs b) (h' : Tiles a rs c) : b = c := by
  induction rs generalizing a with
  | nil => exact Eq.trans (Eq.symm h) h'
  | cons r rs ih =>
    obtain ⟨s, t⟩ := r
    exact ih h.2.2 h'.2.2

theorem tiles_end_dvd {L a b : Nat} {rs : List (Nat × Nat)} (h : Tiles a rs b) (ha : L ∣ a) (hr : ∀ r ∈ rs, L ∣ r.2) : L ∣ b := by
  induction rs generalizing a with
  | nil =>
    have : a = b := h
    exact this ▸ ha
  | cons r rs ih =>
    obtain ⟨s, t⟩ := r
    exact ih h.2.2 (hr (s, t) (List.mem_cons_self ..)) fun r hr' => hr r (List.mem_cons_of_mem _ hr')

theorem packedAt_ge : ∀ {es : List StorageEntry} {o : Nat} {x : Nat × StorageEntry}, x ∈ packedAt o es → o ≤ x.1
  | [], _, _, h => by cases h
  | e :: es, o, x, h => by
    rw [packedAt] at h
    rcases List.mem_cons.1 h with rfl | h
    · exact Nat.le_refl _
    · have := packedAt_ge h; omega

theorem packedAt_length : ∀ (es : List StorageEntry) (o : Nat), (packedAt o es).length = es.length
  | [], _ => rfl
  | e :: es, o => by rw [packedAt, List.length_cons, packedAt_length es, List.length_cons]

theorem packedAt_at {L : Nat} : ∀ {es : List StorageEntry} {o : Nat} {x : Nat × StorageEntry},
    (∀ e ∈ es, (encode e).length = L) → x ∈ packedAt o es → ∃ i, x.1 = o + i * L
  | [], _, _, _, h => by cases h
  | e :: es, o, x, hl, h => by
    rw [packedAt] at h
    rcases List.mem_cons.1 h with rfl | h
    · exact ⟨0, by omega⟩
    · obtain ⟨i, hi⟩ := packedAt_at (fun e he => hl e (List.mem_cons_of_mem _ he)) h
      rw [hl e (List.mem_cons_self ..)] at hi
      exact ⟨i + 1, by rw [hi, Nat.succ_mul]; omega⟩

theorem held_flatten {G : List (Nat × StorageEntry)} (hd : G.Pairwise fun a b => a.1 + (encode a.2).length ≤ b.1)
    {a b : Nat} {rs : List (Nat × Nat)} (h : Tiles a rs b) (hpos : ∀ x ∈ G, 0 < (encode x.2).length) :
    (rs.map (messagesIn G)).flatten = (held G rs).map (·.2) := by
  induction rs generalizing a with
  | nil =>
    have : held G [] = [] := by
      apply List.filter_eq_nil_iff.2
      simp
    rw [this]
    rfl
  | cons r rs ih =>
    obtain ⟨s, t⟩ := r
    obtain ⟨h1, h2, h3⟩ := h
    rw [List.map_cons, List.flatten_cons, ih h3]
    unfold messagesIn held
    rw [← List.map_append]
    congr 1
    rw [← filter_two hd t]
    · apply List.filter_congr
      intro x hx
      by_cases h1 : Within (s, t) x <;> by_cases h2 : (∃ r ∈ rs, Within r x) <;> simp [h1, h2]
    · intro x hx h
      have h := (of_decide_eq_true h).2
      have := hpos x hx
      simp only at h
      omega
    · intro x hx h
      obtain ⟨r, hr, h, -⟩ := of_decide_eq_true h
      have := (tiles_ge h3).2 r hr
      omega

/-- Each message is in one range, or a range ends in it, or it starts behind the ranges. -/
theorem tiles_cases {a b : Nat} {rs : List (Nat × Nat)} (h : Tiles a rs b) {x : Nat × StorageEntry} (hx : a ≤ x.1)
    (hpos : 0 < (encode x.2).length) :
    ((∃ r ∈ rs, Within r x) ∧ (¬ ∃ r ∈ rs, StrictlyInside r.2 x) ∧ ¬ b ≤ x.1) ∨
    ((¬ ∃ r ∈ rs, Within r x) ∧ (∃ r ∈ rs, StrictlyInside r.2 x) ∧ ¬ b ≤ x.1) ∨
    ((¬ ∃ r ∈ rs, Within r x) ∧ (¬ ∃ r ∈ rs, StrictlyInside r.2 x) ∧ b ≤ x.1) := by
  induction rs generalizing a with
  | nil =>
    have : a = b := h
    exact .inr (.inr ⟨by simp, by simp, by omega⟩)
  | cons r rs ih =>
    obtain ⟨s, t⟩ := r
    obtain ⟨h1, h2, h3⟩ := h
    have hge := tiles_ge h3
    by_cases hxt : t ≤ x.1
    · have e1 : ¬ Within (s, t) x := fun h => by have := h.2; simp only at this; omega
      have e2 : ¬ StrictlyInside t x := fun h => by have := h.1; omega
      rcases ih h3 hxt with ⟨⟨r, hr, hw⟩, hn, hb⟩ | ⟨hn, ⟨r, hr, hw⟩, hb⟩ | ⟨hn, hm, hb⟩
      · refine .inl ⟨⟨r, List.mem_cons_of_mem _ hr, hw⟩, ?_, hb⟩
        rintro ⟨q, hq, hin⟩
        rcases List.mem_cons.1 hq with rfl | hq
        · exact e2 hin
        · exact hn ⟨q, hq, hin⟩
      · refine .inr (.inl ⟨?_, ⟨r, List.mem_cons_of_mem _ hr, hw⟩, hb⟩)
        rintro ⟨q, hq, hin⟩
        rcases List.mem_cons.1 hq with rfl | hq
        · exact e1 hin
        · exact hn ⟨q, hq, hin⟩
      · refine .inr (.inr ⟨?_, ?_, hb⟩)
        · rintro ⟨q, hq, hin⟩
          rcases List.mem_cons.1 hq with rfl | hq
          · exact e1 hin
          · exact hn ⟨q, hq, hin⟩
        · rintro ⟨q, hq, hin⟩
          rcases List.mem_cons.1 hq with rfl | hq
          · exact e2 hin
          · exact hm ⟨q, hq, hin⟩
    · by_cases hxe : x.1 + (encode x.2).length ≤ t
      · refine .inl ⟨⟨(s, t), List.mem_cons_self .., by simp only; omega, hxe⟩, ?_, by omega⟩
        rintro ⟨q, hq, hin⟩
        have h4 := hin.2
        rcases List.mem_cons.1 hq with rfl | hq
        · simp only at h4; omega
        · have := hge.2 q hq; omega
      · refine .inr (.inl ⟨?_, ⟨(s, t), List.mem_cons_self .., by simp only; omega, by simp only; omega⟩, by omega⟩)
        rintro ⟨q, hq, h5, h6⟩
        rcases List.mem_cons.1 hq with rfl | hq
        · simp only at h6; omega
        · have := hge.2 q hq; omega

theorem held_count {G : List (Nat × StorageEntry)} {b : Nat} {rs : List (Nat × Nat)} (h : Tiles 0 rs b)
    (hpos : ∀ x ∈ G, 0 < (encode x.2).length) :
    G.length = (held G rs).length + (cutOff G rs).length + (startBehind G b).length := by
  induction G with
  | nil => rfl
  | cons x G ih =>
    have ih := ih fun y hy => hpos y (List.mem_cons_of_mem _ hy)
    unfold held cutOff startBehind at *
    rw [List.filter_cons, List.filter_cons, List.filter_cons]
    rcases tiles_cases h (Nat.zero_le x.1) (hpos x (List.mem_cons_self ..)) with ⟨h1, h2, h3⟩ | ⟨h1, h2, h3⟩ | ⟨h1, h2, h3⟩
    all_goals
      simp only [h1, h2, h3, decide_true, decide_false, if_true, if_false, Bool.false_eq_true, List.length_cons]
      omega

section

variable {segs : List (Bytes × StorageEntry)} {t : Bytes}

/-- **C135** a log with messages of any length: each slice is read as exactly the messages that lie completely in it. A
message that lies in no slice starts behind the slices, or a slice ends in its last 15 bytes. -/
theorem C135_slices (hc : Clean segs t) (hF : Fits (fileOf segs t)) (hns : NoStraddle (fileOf segs t) (messagesAt 0 segs))
    (hlate : NoLateMarker (fileOf segs t) (messagesAt 0 segs)) (num : Nat) (hnum : num ≠ 0) :
    ∃ rs b slices, partitionRanges dltStorage (fileOf segs t) num = .ok rs ∧ Tiles 0 rs b ∧
      partitionFrom dltStorage (fileOf segs t) num = .ok slices ∧
      slices = rs.map (fun r => ((fileOf segs t).take r.2).drop r.1) ∧
      Each Messages slices (rs.map (messagesIn (messagesAt 0 segs))) ∧
      ∀ x ∈ messagesAt 0 segs, (∃ r ∈ rs, Within r x) ∨ b ≤ x.1 ∨
        ∃ r ∈ rs, StrictlyInside r.2 x ∧ x.1 + (encode x.2).length ≤ r.2 + 15 := by
  have hG := topLevel_fileOf segs t hc
  have hr : InReach (fileOf segs t) (messagesAt 0 segs) := fun x hx j e he hin => ⟨hns x hx j e he hin,
    Nat.le_of_not_lt fun h => hlate x hx j hin h ((readableAt_iff_msgAt.2 he).marker dlt_lawful)⟩
  obtain ⟨rs, b, h1, h2, h3⟩ := C32_only_the_end _ hF _ hG hr num hnum
  obtain ⟨rs', b', slices, h4, h5, h6, h7, -⟩ := C30_partition_contiguous _ hF num hnum
  rw [h1] at h4
  cases h4
  clear h2
  have h2 := h5
  have h8 := partitionFrom_of_ranges h1
  rw [h7] at h8
  cases h8
  refine ⟨rs, b', _, h1, h2, h7, rfl, ?_, ?_⟩
  · have hstart : ∀ r ∈ rs, ∀ x ∈ messagesAt 0 segs, StrictlyInside r.1 x → x.1 + 65535 < r.1 := by
      intro r hr x hx hin
      rcases tiles_start h2 r hr with h0 | ⟨q, hq, h0⟩
      · have := hin.1; omega
      · rw [← h0] at hin ⊢
        exact (h3 q hq x hx hin).1
    have hmain : ∀ r ∈ rs, Messages (((fileOf segs t).take r.2).drop r.1) (messagesIn (messagesAt 0 segs) r) := fun r hr => by
      have := (tiles_ge h2).2 r hr
      exact piece_messages hc r (by omega) (by omega) fun x hx j h9 h10 h11 =>
        hlate x hx j h11 (by have := hstart r hr x hx h10; omega)
    clear h1 h2 h3 h5 h6 h7 hstart
    induction rs with
    | nil => trivial
    | cons r rs ih => exact ⟨hmain r (List.mem_cons_self ..), ih fun r hr => hmain r (List.mem_cons_of_mem _ hr)⟩
  · intro x hx
    have hpos := (topLevel_wf hG x hx).1.bounds
    rcases tiles_cases h2 (Nat.zero_le x.1) (by have := encode_length x.2; omega) with ⟨h, -, -⟩ | ⟨-, ⟨r, hr, h⟩, -⟩ | ⟨-, -, h⟩
    · exact .inl h
    · exact .inr (.inr ⟨r, hr, h, (h3 r hr x hx h).2.1⟩)
    · exact .inr (.inl h)

/-- **C135** `par_count` on such a log counts exactly the messages that lie completely in a slice: all but those that a slice
ends inside of and those that start behind the slices. -/
theorem C135_count (hc : Clean segs t) (hF : Fits (fileOf segs t)) (hns : NoStraddle (fileOf segs t) (messagesAt 0 segs))
    (hlate : NoLateMarker (fileOf segs t) (messagesAt 0 segs)) (num : Nat) (hnum : num ≠ 0) :
    ∃ rs b, partitionRanges dltStorage (fileOf segs t) num = .ok rs ∧ Tiles 0 rs b ∧
      (∀ q, RunCmd num (fileOf segs t) .parCount q ↔ q = .ok (.number (held (messagesAt 0 segs) rs).length)) ∧
      segs.length = (held (messagesAt 0 segs) rs).length + (cutOff (messagesAt 0 segs) rs).length +
        (startBehind (messagesAt 0 segs) b).length := by
  obtain ⟨rs, b, slices, h1, h2, h3, -, h4, -⟩ := C135_slices hc hF hns hlate num hnum
  have hG := topLevel_fileOf segs t hc
  have hpos : ∀ x ∈ messagesAt 0 segs, 0 < (encode x.2).length := fun x _ => by have := encode_length x.2; omega
  obtain ⟨slices', mss, h5, h6, h7⟩ := C34_par_count_never_panics _ num hnum hF
  rw [h3] at h5
  cases h5
  obtain rfl := each_messages_unique h4 h6
  rw [held_flatten (topLevel_disjoint hG) h2 hpos, List.length_map] at h7
  refine ⟨rs, b, h1, h2, fun q => ?_, ?_⟩
  · constructor
    · rintro ⟨p, hp, rfl⟩
      rw [(h7 p).1 hp]
      rfl
    · rintro rfl
      exact ⟨_, (h7 _).2 rfl, rfl⟩
  · rw [← held_count h2 hpos, ← List.length_map (as := messagesAt 0 segs) (f := (·.2)), messagesAt_map, List.length_map]

open Classical in
/-- **C135** `par_count_hello_world` on such a log: a panic exactly if a message that lies completely in a slice is incomplete,
otherwise the number of messages with the text among them. -/
theorem C135_hello (hc : Clean segs t) (hF : Fits (fileOf segs t)) (hns : NoStraddle (fileOf segs t) (messagesAt 0 segs))
    (hlate : NoLateMarker (fileOf segs t) (messagesAt 0 segs)) (num : Nat) (hnum : num ≠ 0) :
    ∃ rs b, partitionRanges dltStorage (fileOf segs t) num = .ok rs ∧ Tiles 0 rs b ∧
      ∀ q, RunCmd num (fileOf segs t) .parCountHelloWorld q ↔
        ((∃ x ∈ held (messagesAt 0 segs) rs, payloadOf x.2 = none) ∧ q = .panic) ∨
        ((∀ x ∈ held (messagesAt 0 segs) rs, payloadOf x.2 ≠ none) ∧
          q = .ok (.number ((held (messagesAt 0 segs) rs).filter fun x => decide (hasText helloWorld x.2)).length)) := by
  obtain ⟨rs, b, slices, h1, h2, h3, -, h4, -⟩ := C135_slices hc hF hns hlate num hnum
  have hG := topLevel_fileOf segs t hc
  have hpos : ∀ x ∈ messagesAt 0 segs, 0 < (encode x.2).length := fun x _ => by have := encode_length x.2; omega
  have hflat := held_flatten (topLevel_disjoint hG) h2 hpos
  generalize rs.map (messagesIn (messagesAt 0 segs)) = mss at h4 hflat
  refine ⟨rs, b, h1, h2, fun q => ?_⟩
  obtain ⟨slices', h8, h9⟩ := C69_counters num hnum (fileOf segs t) hF .parCountHelloWorld (.inr (.inl rfl))
  rw [h3] at h8
  cases h8
  obtain ⟨slices', mss', h5, h6, h7⟩ := C69_parallel_panics num hnum (fileOf segs t) hF
  rw [h3] at h5
  cases h5
  obtain rfl := each_messages_unique h4 h6
  have hfit := (partition_fits hF h3).2
  have hp := h7 .parCountHelloWorld rfl
  have hpan : (∃ ms ∈ mss, Panics ms (onSlices .parCountHelloWorld)) ↔ ∃ x ∈ held (messagesAt 0 segs) rs, payloadOf x.2 = none := by
    constructor
    · rintro ⟨ms, hms, e, he, hn⟩
      have : e ∈ mss.flatten := List.mem_flatten.2 ⟨ms, hms, he⟩
      rw [hflat, List.mem_map] at this
      obtain ⟨x, hx, rfl⟩ := this
      exact ⟨x, hx, hn⟩
    · rintro ⟨x, hx, hn⟩
      have : x.2 ∈ mss.flatten := by rw [hflat]; exact List.mem_map.2 ⟨x, hx, rfl⟩
      obtain ⟨ms, hms, he⟩ := List.mem_flatten.1 this
      exact ⟨ms, hms, x.2, he, hn⟩
  rw [hpan] at hp
  rcases h9 with ⟨-, h9⟩ | ⟨h11, ns, h9, h10⟩
  · have hpan' := hp.1 ((h9 _).2 rfl)
    rw [h9]
    constructor
    · exact fun h => .inl ⟨hpan', h⟩
    · rintro (⟨-, h⟩ | ⟨h, -⟩)
      · exact h
      · obtain ⟨x, hx, hn⟩ := hpan'
        exact absurd hn (h x hx)
  · have hno : ¬ ∃ x ∈ held (messagesAt 0 segs) rs, payloadOf x.2 = none := fun h => by
      have := hp.2 h
      rw [h10] at this
      cases this
    have e1 : ns.sum = (mss.flatten.filter fun e => decide (hasText helloWorld e)).length :=
      sum_of_slices (fun ms => (ms.filter fun e => decide (hasText helloWorld e)).length) (fun _ _ => by
        rw [List.filter_append, List.length_append]) rfl hfit h4 h9 fun s ms n hs hms hr => runs_prints hs hms rfl hr
    rw [hflat, List.filter_map, List.length_map] at e1
    rw [h10, e1]
    constructor
    · exact fun h => .inr ⟨fun x hx hn => hno ⟨x, hx, hn⟩, h⟩
    · rintro (⟨h, -⟩ | ⟨-, h⟩)
      · exact absurd h hno
      · exact h

end

/-- In a log of messages one after the other it is enough to look at the messages one by one. -/
theorem noLate_packed {es : List StorageEntry} (hw : ∀ e ∈ es, WF e) (hm : ∀ e ∈ es, ¬ dltMarker <:+: (encode e).drop 65536) :
    NoLateMarker (packed es) (packedAt 0 es) := by
  intro x hx j hin hlt hmk
  refine hm x.2 (packedAt_mem hx) ?_
  have hG := topLevel_packed hw
  have hx' := (topLevel_wf hG x hx).1
  have hj4 : j + 4 ≤ x.1 + (encode x.2).length := by
    -- the next marker is at the end of the message, or the file ends there
    apply Nat.le_of_not_lt
    intro hlt2
    have hlen : dltMarker.length ≤ ((packed es).drop j).length := List.IsPrefix.length_le hmk
    rw [List.length_drop] at hlen
    have h4 : dltMarker.length = 4 := rfl
    have hadj := packed_adjacent es [] hw x hx
    rw [List.nil_append] at hadj
    have hym : MarkerAt dltStorage (packed es) (x.1 + (encode x.2).length) := by
      rcases hadj with h | h
      · have h5 := hin.2; omega
      · exact h
    have := dlt_lawful.apart hmk hym hin.2
    have h5 : dltStorage.marker.length = 4 := rfl
    omega
  obtain ⟨-, pre, post, h1, h2⟩ := hx'
  have hmk : dltMarker <+: (packed es).drop j := hmk
  rw [h1, List.append_assoc, show j = pre.length + (j - x.1) by omega, List.drop_length_add_append,
    List.drop_append_of_le_length (by have := hin.2; omega)] at hmk
  have hl : dltMarker.length ≤ ((encode x.2).drop (j - x.1)).length := by
    rw [List.length_drop]
    show 4 ≤ _
    omega
  have hmk' := List.prefix_of_prefix_length_le hmk (List.prefix_append _ _) hl
  refine hmk'.isInfix.trans ?_
  rw [show j - x.1 = 65536 + (j - x.1 - 65536) by omega, ← List.drop_drop]
  exact (List.drop_suffix _ _).isInfix

/-- The two theorems for a log of messages one after the other. -/
theorem C135_count_packed (es : List StorageEntry) (hw : ∀ e ∈ es, WF e) (hF : Fits (packed es))
    (hm : ∀ e ∈ es, ¬ dltMarker <:+: (encode e).drop 65536) (num : Nat) (hnum : num ≠ 0) :
    ∃ rs b, partitionRanges dltStorage (packed es) num = .ok rs ∧ Tiles 0 rs b ∧
      (∀ q, RunCmd num (packed es) .parCount q ↔ q = .ok (.number (held (packedAt 0 es) rs).length)) ∧
      es.length = (held (packedAt 0 es) rs).length + (cutOff (packedAt 0 es) rs).length + (startBehind (packedAt 0 es) b).length := by
  have h := C135_count (clean_packed hw)
  rw [fileOf_packed, messagesAt_packed, List.length_map] at h
  exact h hF (noStraddle_packed hw) (noLate_packed hw hm) num hnum

/-- A message of 65541 bytes. -/
def msgLong : StorageEntry :=
  ⟨⟨⟨68, 76, 84, 1⟩, 0, 0, ⟨0, 0, 0, 0⟩⟩, ⟨⟨⟨0⟩, 0, 65525⟩, List.replicate 65521 0⟩⟩

theorem msgLong_length : (encode msgLong).length = 65541 := by
  rw [encode_length, show msgLong.dlt.tail = List.replicate 65521 0 from rfl, List.length_replicate]

theorem msgLong_wf : WF msgLong := by
  refine ⟨rfl, ?_⟩
  simp only [msgLong, List.length_replicate]
  rfl

theorem two_long : (∀ e ∈ [msgMax, msgLong], WF e) ∧ (∀ e ∈ [msgMax, msgLong], ¬ dltMarker <:+: (encode e).drop 65536) ∧
    (packed [msgMax, msgLong]).length = 131092 := by
  refine ⟨?_, ?_, ?_⟩
  · intro e he
    simp only [List.mem_cons, List.not_mem_nil, or_false] at he
    rcases he with rfl | rfl
    · exact msgMax_wf
    · exact msgLong_wf
  · intro e he
    simp only [List.mem_cons, List.not_mem_nil, or_false] at he
    rcases he with rfl | rfl
    · exact max_file.2.1 _ (List.mem_cons_self ..)
    · have : (encode msgLong).drop 65536 = List.replicate 5 0 := by
        rw [(encode_head msgLong).1, show (65536 : Nat) = (headOf msgLong).length + 65516 from rfl, List.drop_length_add_append,
          show msgLong.dlt.tail = List.replicate 65521 0 from rfl, List.drop_replicate]
      rw [this]
      rintro ⟨s, t, h⟩
      have : (68 : UInt8) ∈ List.replicate 5 (0 : UInt8) := by rw [← h]; simp [dltMarker]
      simp at this
  · rw [show packed [msgMax, msgLong] = encode msgMax ++ encode msgLong by simp [packed], List.length_append, msgMax_length,
      msgLong_length]

/-- **C135** at work: a log of two messages, 65551 and 65541 bytes long. On two threads the file is cut 5 bytes in front of the
end of the first message, which is lost: `par_count` prints 1, `count` prints 2. -/
theorem C135_one_lost : partitionRanges dltStorage (packed [msgMax, msgLong]) 2 = .ok [(0, 65546), (65546, 131092)] ∧
    (∀ q, RunCmd 2 (packed [msgMax, msgLong]) .parCount q ↔ q = .ok (.number 1)) ∧
    RunCmd 2 (packed [msgMax, msgLong]) .count (.ok (.number 2)) := by
  obtain ⟨hw, hm, hlen⟩ := two_long
  have hF : Fits (packed [msgMax, msgLong]) := by unfold Fits; rw [hlen]; decide
  have hG := topLevel_packed hw
  have hr := inReach_packed hw hm
  have hat : packedAt 0 [msgMax, msgLong] = [(0, msgMax), (65551, msgLong)] := by
    simp [packedAt, msgMax_length]
  have hrs : partitionRanges dltStorage (packed [msgMax, msgLong]) 2 = .ok [(0, 65546), (65546, 131092)] := by
    rw [C80_partition_exact _ hF _ (free_top hG hr) 2 (by decide), hlen]
    refine .cut (c := 65546) (by decide) (.inr ⟨fun _ x hx => ?_, rfl⟩) (by decide) (by decide) ?_
    · obtain ⟨h1, h2, h3⟩ := (reaches_top hG).1 hx
      rw [hat] at h1
      simp only [List.mem_cons, List.not_mem_nil, or_false] at h1
      rcases h1 with rfl | rfl
      · exact absurd h3 (by decide)
      · exact absurd h2.1 (by decide)
    · exact .last (c := 131092) (by decide) (.inr ⟨fun h => by rw [hlen] at h; exact absurd h (by decide), rfl⟩) (by decide)
        (by decide)
  refine ⟨hrs, ?_, ?_⟩
  · obtain ⟨rs, b, h1, h2, h3, -⟩ := C135_count_packed _ hw hF hm 2 (by decide)
    rw [hrs] at h1
    cases h1
    have hheld : held (packedAt 0 [msgMax, msgLong]) [(0, 65546), (65546, 131092)] = [(65551, msgLong)] := by
      unfold held
      rw [hat, List.filter_cons_of_neg, List.filter_cons_of_pos]
      · rfl
      · refine decide_eq_true ⟨(65546, 131092), by simp, by simp only; omega, ?_⟩
        simp only [msgLong_length]
        omega
      · simp only [decide_eq_true_eq, List.mem_cons, List.not_mem_nil, or_false]
        rintro ⟨r, rfl | rfl, h5, h6⟩
        · simp only [msgMax_length] at h6; omega
        · simp only at h5; omega
    rw [hheld] at h3
    exact h3
  · obtain ⟨rep, h1, h2⟩ := C68_sequential_prints 2 _ hF _ (messages_packed hw) .count rfl (fun h => h.elim)
    rw [h2]
    cases rep with
    | number k => rw [show k = 2 from h1]
    | _ => exact h1.elim

theorem behind_equal {L : Nat} (hL : 0 < L) : ∀ (es : List StorageEntry) (o m : Nat), (∀ e ∈ es, (encode e).length = L) →
    (startBehind (packedAt o es) (o + m * L)).length = es.length - m
  | [], _, _, _ => by simp [startBehind, packedAt]
  | e :: es, o, m, h => by
    have he := h e (List.mem_cons_self ..)
    have hes := fun x hx => h x (List.mem_cons_of_mem e hx)
    cases m with
    | zero =>
      have ih := behind_equal hL es (o + L) 0 hes
      have hall : ∀ {y : Nat} {xs : List StorageEntry} {b : Nat}, b ≤ y → startBehind (packedAt y xs) b = packedAt y xs := by
        intro y xs b hb
        apply List.filter_eq_self.2
        intro x hx
        have := packedAt_ge hx
        simp only [decide_eq_true_eq]; omega
      rw [hall (by omega), packedAt_length]
      rfl
    | succ m =>
      have ih := behind_equal hL es (o + L) m hes
      unfold startBehind at ih ⊢
      rw [packedAt, he, List.filter_cons_of_neg (by
        simp only [decide_eq_true_eq]
        have : (m + 1) * L = m * L + L := Nat.succ_mul m L
        omega), show o + (m + 1) * L = o + L + m * L by rw [Nat.succ_mul]; omega, ih, List.length_cons]
      omega

/-- **C135** for the output of `dd_dlt` with any payload size it can handle and up to 4370 threads: unless a payload has the
marker behind its first 65502 bytes, no message is cut, and `par_count` prints the number of messages the slices hold
together (`b` is where the last one ends). -/
theorem C135_dd (bd : Build) (addr : Ctor → UInt8) (ecuid appid size input : Bytes) (rest : List Bytes) (n : Nat)
    (hecu : ecuid.length = 4) (happ : appid.length = 4) (hsize : Decimal size n) (h1 : 1 ≤ n) (h2 : n ≤ 65517)
    (hk : input.length / n ≤ 42949673) (hfit : ∀ i, i < input.length / n → LinesFit (roomBehind bd.late) (chunk n input i))
    (hmark : ∀ i, i < input.length / n → ¬ dltMarker <:+: (chunk n input i).drop 65502)
    (num : Nat) (hnum : num ≠ 0) (hfew : num ≤ 4370) :
    ∃ output rs b, (∀ out e, DdMain bd addr (ecuid :: appid :: size :: rest) input out e ↔
        out = output ∧ e = .finished (UInt32.ofNat (input.length / n))) ∧
      partitionRanges dltStorage output num = .ok rs ∧ Tiles 0 rs b ∧ b ≤ output.length ∧ (34 + n) ∣ b ∧
      ∀ q, RunCmd num output .parCount q ↔ q = .ok (.number (b / (34 + n))) := by
  obtain ⟨output, msgs, h3, -, h4, h5, h6, h7, h8⟩ := C51_round_trip_partial bd addr ecuid appid size input rest n hecu happ
    hsize h1 (by omega) (.inr hk) hfit
  obtain ⟨output', rs', b', h3', h9, h10, h11⟩ := C53_few_slices bd addr ecuid appid size input rest n hecu happ hsize h1 h2 hk
    hfit hmark num hnum hfew
  have hout : output' = output := ((h3 _ _).1 ((h3' _ _).2 ⟨rfl, rfl⟩)).1
  subst hout
  have hget : ∀ e ∈ msgs, ∃ i, i < input.length / n ∧
      DdMessage ecuid appid (MessageType.create addr true (.log .info)) i (chunk n input i) e := by
    intro e he
    obtain ⟨i, hi⟩ := List.getElem?_of_mem he
    exact ⟨i, by rw [← h4]; exact (List.getElem?_eq_some_iff.1 hi).1, h8 i e hi⟩
  have hl : ∀ e ∈ msgs, (encode e).length = 34 + n := by
    intro e he
    obtain ⟨i, hi, hd⟩ := hget e he
    rw [hd.size, chunk_length (index_le _ i rfl hi)]
  rw [h5] at h6
  obtain ⟨rs, b, h12, h13, h14, h15⟩ := C135_count_packed msgs h7 h6 (fun e he => by
    obtain ⟨i, hi, hd⟩ := hget e he
    rw [show (65536 : Nat) = 34 + 65502 from rfl, ← List.drop_drop, ddMessage_drop hd]
    exact hmark i hi) num hnum
  rw [h5] at h9
  rw [h12] at h9
  have hrr : rs = rs' := Res.ok.inj h9
  subst hrr
  obtain ⟨rs2, b2, _, h16, h17, h18, -⟩ := C30_partition_contiguous _ h6 num hnum
  rw [h12] at h16
  have hrr : rs = rs2 := Res.ok.inj h16
  subst hrr
  have hbb : b = b2 := tiles_end_unique h13 h17
  subst hbb
  have hdvd : (34 + n) ∣ b := tiles_end_dvd h13 ⟨0, rfl⟩ fun r hr => (h11 r hr).2
  refine ⟨output', rs, b, h3, by rw [h5]; exact h12, h13, by rw [h5]; exact h18, hdvd, ?_⟩
  rw [h5]
  have hlenp : (packed msgs).length = msgs.length * (34 + n) := packed_length _ _ hl
  obtain ⟨m, rfl⟩ := hdvd
  have hm : (34 + n) * m / (34 + n) = m := Nat.mul_div_cancel_left _ (by omega)
  have hmle : m ≤ msgs.length := by
    rw [hlenp, Nat.mul_comm msgs.length] at h18
    exact Nat.le_of_mul_le_mul_left h18 (by omega)
  have hbe := behind_equal (L := 34 + n) (by omega) msgs 0 m hl
  rw [Nat.zero_add, Nat.mul_comm] at hbe
  have hcut : cutOff (packedAt 0 msgs) rs = [] := by
    apply List.filter_eq_nil_iff.2
    intro x hx h
    obtain ⟨r, hr, h19, h20⟩ := of_decide_eq_true h
    obtain ⟨i, hi⟩ := packedAt_at hl hx
    rw [hl _ (packedAt_mem hx)] at h20
    obtain ⟨j, hj⟩ := (h11 r hr).2
    rw [hi, hj, Nat.zero_add, Nat.mul_comm i] at h19
    rw [hi, hj, Nat.zero_add, Nat.mul_comm i, ← Nat.mul_succ] at h20
    have := Nat.lt_of_mul_lt_mul_left h19
    have := Nat.lt_of_mul_lt_mul_left h20
    omega
  rw [hcut, hbe, List.length_nil] at h15
  rw [hm]
  have : (held (packedAt 0 msgs) rs).length = m := by omega
  rw [this] at h14
  exact h14

end Verif
