import Verif.Spec.Damage
import Verif.Props.Footprint
import Verif.Props.Truncate
import Verif.Props.Anywhere
import Verif.Props.Hello

/-!
# C131: how far damage reaches

Some bytes of a file are changed. What do the iterators still yield?
-/

set_option linter.unusedSimpArgs false

namespace Verif

open Spec

theorem Spec.SameOutside.symm' {a b : Bytes} {s t : Nat} (h : SameOutside a b s t) : SameOutside b a s t :=
  ⟨h.1.symm, fun p hp => (h.2 p hp).symm⟩

theorem Spec.SameOutside.take' {a b : Bytes} {s t : Nat} (h : SameOutside a b s t) : a.take s = b.take s := by
  have := agree_take (a := a) (b := b) (s := 0) (n := s) fun p _ h2 => h.2 p (by omega)
  simpa using this

theorem Spec.SameOutside.drop' {a b : Bytes} {s t j : Nat} (h : SameOutside a b s t) (hj : t ≤ j) : a.drop j = b.drop j :=
  agree_drop fun p h1 => h.2 p (by omega)

/-- The marker and the length field decide whether there is a message, and how long it is. -/
theorem frame_agree {a b : Bytes} {i : Nat} {e : StorageEntry} (hl : a.length = b.length) (h : MsgAt a i e)
    (hp : ∀ p, (i ≤ p ∧ p < i + 4) ∨ p = i + 18 ∨ p = i + 19 → a[p]? = b[p]?) :
    ∃ e', MsgAt b i e' ∧ e'.len = e.len := by
  obtain ⟨hm, hr⟩ := (readableAt_iff dlt_lawful).1 (readableAt_iff_msgAt.2 h)
  have hb := h.bounds
  have hr' : StorageEntry.tryReadRaw (a.drop i) = .ok (some (e.len, e)) := hr
  have hb18 : byteAt (a.drop i) 18 = byteAt (b.drop i) 18 := by
    simp only [byteAt, List.getD_eq_getElem?_getD, List.getElem?_drop, hp (i + 18) (by omega)]
  have hb19 : byteAt (a.drop i) 19 = byteAt (b.drop i) 19 := by
    simp only [byteAt, List.getD_eq_getElem?_getD, List.getElem?_drop, hp (i + 19) (by omega)]
  rw [tryReadRaw_eq] at hr'
  split at hr'
  · next hc =>
    simp only [Res.ok.injEq, Option.some.injEq, Prod.mk.injEq] at hr'
    have hb' := tryReadRaw_eq (b.drop i)
    rw [← hb18, ← hb19, if_pos (by
      rw [List.length_drop] at hc ⊢
      omega)] at hb'
    obtain ⟨e', he'⟩ : ∃ e', StorageEntry.tryReadRaw (b.drop i) = .ok (some (e.len, e')) := ⟨_, by rw [hb', hr'.1]⟩
    have hsize := (dlt_lawful.size _ _ _ he').1
    rw [dltStorage_len] at hsize
    refine ⟨e', readableAt_iff_msgAt.1 ((readableAt_iff dlt_lawful).2 ⟨?_, ?_⟩), hsize.symm⟩
    · exact (markerAt_agree fun p h1 h2 => hp p (by omega)).1 hm
    · rw [dltStorage_len, ← hsize]; exact he'
  · simp at hr'

/-- All bytes of a message kept: the message is kept. -/
theorem msg_agree {a b : Bytes} {i : Nat} {e : StorageEntry} (hl : a.length = b.length) (h : MsgAt a i e)
    (hp : ∀ p, i ≤ p → p < i + e.len → a[p]? = b[p]?) : MsgAt b i e := by
  have hb := h.bounds
  obtain ⟨hwf, hle, hpre⟩ := msgAt_iff_drop.1 h
  refine msgAt_iff_drop.2 ⟨hwf, by omega, ?_⟩
  rw [List.prefix_iff_eq_take] at hpre ⊢
  rw [hpre, encode_len e hwf]
  rw [List.length_take, List.length_drop, Nat.min_eq_left (by omega)]
  exact agree_take hp

theorem len_le_max {bytes : Bytes} {i : Nat} {e : StorageEntry} (h : MsgAt bytes i e) : e.len ≤ 65551 := by
  have := (C03_size _ _ _ (C02_round_trip e h.1 [])).2
  have h1 := encode_len e h.1
  omega

/-! ## Nothing but the frame matters -/

theorem scan_frame {a b : Bytes} {s : Nat} {items : List (Nat × StorageEntry)} (hl : a.length = b.length)
    (h : Scan dltStorage a s items) (hp : ∀ p, s ≤ p → (InFrame items p ∨ ¬ InMessages items p) → a[p]? = b[p]?) :
    ∃ items', Scan dltStorage b s items' ∧ Pointwise (fun x y => x.1 = y.1 ∧ x.2.len = y.2.len ∧
      ((∀ p, x.1 ≤ p → p < x.1 + x.2.len → a[p]? = b[p]?) → x.2 = y.2)) items items' := by
  induction h with
  | done s hno =>
    refine ⟨[], .done _ fun j hj hm => hno j hj ?_, .nil⟩
    exact (markerAt_agree fun p h1 _ => hp p (by omega) (.inr (by rintro ⟨x, hx, _⟩; cases hx))).2 hm
  | bad s i hf hno =>
    have hag : ∀ j, s ≤ j → a.drop j = b.drop j := fun j hj =>
      agree_drop fun p h1 => hp p (by omega) (.inr (by rintro ⟨x, hx, _⟩; cases hx))
    refine ⟨[], .bad _ i ⟨hf.1, ?_, fun j h1 h2 hm => hf.2.2 j h1 h2 ?_⟩ fun v hv => hno v ?_, .nil⟩
    · have := hf.2.1; unfold MarkerAt at *; rw [← hag i hf.1]; exact this
    · unfold MarkerAt at *; rw [hag j h1]; exact hm
    · unfold ReadableAt at *; rw [hag i hf.1]; exact hv
  | msg s i v rest hf hr hrest ih =>
    have hmsg := readableAt_iff_msgAt.1 hr
    have hb := hmsg.bounds
    have henc := encode_len v hmsg.1
    have hafter : ∀ p, i + v.len ≤ p → (InFrame rest p ∨ ¬ InMessages rest p) → a[p]? = b[p]? := by
      intro p h1 h2
      refine hp p (by have := hf.1; omega) ?_
      rcases h2 with ⟨x, hx, h⟩ | h2
      · exact .inl ⟨x, List.mem_cons_of_mem _ hx, h⟩
      · refine .inr ?_
        rintro ⟨x, hx, h4, h5⟩
        rcases List.mem_cons.1 hx with rfl | hx
        · simp only at h5; omega
        · exact h2 ⟨x, hx, h4, h5⟩
    obtain ⟨items', h1, h2⟩ := ih (by rw [dltStorage_len]; exact hafter)
    have hgap : ∀ p, s ≤ p → p < i + 4 → a[p]? = b[p]? := by
      intro p h3 h4
      refine hp p h3 ?_
      by_cases h5 : i ≤ p
      · exact .inl ⟨(i, v), List.mem_cons_self, .inl ⟨h5, h4⟩⟩
      · refine .inr ?_
        rintro ⟨x, hx, h6, h7⟩
        rcases List.mem_cons.1 hx with rfl | hx
        · exact h5 h6
        · have := hrest.disjoint.2 x hx
          rw [dltStorage_len] at this
          omega
    obtain ⟨e', h3, h4⟩ := frame_agree hl hmsg fun p h => hp p (by have := hf.1; omega) (.inl ⟨(i, v), List.mem_cons_self, h⟩)
    refine ⟨(i, e') :: items', .msg _ i e' _ ⟨hf.1, ?_, fun j h5 h6 hm => hf.2.2 j h5 h6 ?_⟩
      (readableAt_iff_msgAt.2 h3) (by rw [dltStorage_len, h4]; exact h1), .cons ⟨rfl, h4.symm, fun hall => ?_⟩ h2⟩
    · exact (markerAt_agree fun p h5 h6 => hgap p (by have := hf.1; omega) (by omega)).1 hf.2.1
    · exact (markerAt_agree fun p h7 h8 => hgap p (by omega) (by omega)).2 hm
    · exact (readableAt_iff_msgAt.2 (msg_agree hl hmsg hall)).unique dlt_lawful (readableAt_iff_msgAt.2 h3)

/-- **C131** damage inside messages that spares their start markers and length fields costs nothing but the contents of the
damaged messages: the reader yields as many messages, at the same offsets and of the same lengths, and those whose bytes are
intact are the same. -/
theorem C131_frame (a b : Bytes) (ha : Fits a) (hl : a.length = b.length) (items : List (Nat × StorageEntry))
    (h : Collects (dltitOffsetNext a) 0 items) (hp : ∀ p, InFrame items p ∨ ¬ InMessages items p → a[p]? = b[p]?) :
    ∃ items', Collects (dltitOffsetNext b) 0 items' ∧ Pointwise (fun x y => x.1 = y.1 ∧ x.2.len = y.2.len ∧
      ((∀ p, x.1 ≤ p → p < x.1 + x.2.len → a[p]? = b[p]?) → x.2 = y.2)) items items' := by
  obtain ⟨items', h1, h2⟩ := scan_frame hl (dltit_scan ha h) fun p _ => hp p
  exact ⟨items', scan_dltit (by unfold Fits at *; omega) h1, h2⟩

/-- **C131** so `count` and `histogram_message_size` report and print the same for the damaged file. -/
theorem C131_frame_commands (a b : Bytes) (ha : Fits a) (hl : a.length = b.length) (items : List (Nat × StorageEntry))
    (h : Collects (dltitOffsetNext a) 0 items) (hp : ∀ p, InFrame items p ∨ ¬ InMessages items p → a[p]? = b[p]?)
    (c : Cmd) (hc : c = .count ∨ c = .histogramMessageSize) (num : Nat) :
    (∀ r, RunCmd num a c r ↔ RunCmd num b c r) ∧ ∀ out, CmdText num a c out ↔ CmdText num b c out := by
  have hb : Fits b := by unfold Fits at *; omega
  obtain ⟨items', h1, h2⟩ := C131_frame a b ha hl items h hp
  have hx : Messages a (items.map (·.2)) := ⟨items, dltit_scan ha h, rfl⟩
  have hy : Messages b (items'.map (·.2)) := ⟨items', dltit_scan hb h1, rfl⟩
  have hwf : ∀ x ∈ items, WF x.2 := fun x hx => (readableAt_iff_msgAt.1 ((dltit_scan ha h).readable x hx)).1
  have hwf' : ∀ x ∈ items', WF x.2 := fun x hx => (readableAt_iff_msgAt.1 ((dltit_scan hb h1).readable x hx)).1
  refine C93_footprint c (by rcases hc with rfl | rfl <;> rfl) a b ha hb _ _ hx hy ?_ num
  rcases hc with rfl | rfl
  · exact h2.map fun _ _ _ => trivial
  · clear hx hy h h1 hp
    induction h2 with
    | nil => exact .nil
    | cons h3 _ ih =>
      refine .cons ?_ (ih (fun x hx => hwf x (List.mem_cons_of_mem _ hx)) fun x hx => hwf' x (List.mem_cons_of_mem _ hx))
      show (encode _).length = (encode _).length
      rw [encode_len _ (hwf _ List.mem_cons_self), encode_len _ (hwf' _ List.mem_cons_self), h3.2.1]

/-! ## In front of the damage -/

/-- **C131** what the reader yields in front of the damage stays. -/
theorem C131_reader_front (a b : Bytes) (ha : Fits a) (s t : Nat) (h : SameOutside a b s t)
    (xs ys : List (Nat × StorageEntry)) (hx : Collects (dltitOffsetNext a) 0 xs) (hy : Collects (dltitOffsetNext b) 0 ys) :
    xs.filter (fun x => x.1 + x.2.len ≤ s) = ys.filter fun x => x.1 + x.2.len ≤ s := by
  have h1 := C91_cut a ha s xs hx
  have h2 := C91_cut b (by unfold Fits at *; rw [← h.1]; exact ha) s ys hy
  rw [h.take'] at h1
  exact h1.unique h2

theorem search_greedy {bytes : Bytes} (hF : Fits bytes) {xs : List (Nat × StorageEntry)}
    (h : Collects (searchNext dltStorage bytes) 0 xs) : Greedy dltStorage bytes 0 xs :=
  (C18_search_generic dltStorage dlt_lawful (by decide) bytes hF 0 (Nat.zero_le _) xs).1 h

theorem pairwise_lt_imp {T : Type} {len : T → Nat} {l : List (Nat × T)} (h : l.Pairwise fun a b => a.1 + len a.2 ≤ b.1)
    {u v : Nat × T} (hu : u ∈ l) (hv : v ∈ l) (hlt : u.1 < v.1) : u.1 + len u.2 ≤ v.1 := by
  induction l with
  | nil => cases hu
  | cons x xs ih =>
    rw [List.pairwise_cons] at h
    rcases List.mem_cons.1 hu with hu' | hu'
    · rcases List.mem_cons.1 hv with hv' | hv'
      · rw [hu', hv'] at hlt; exact absurd hlt (Nat.lt_irrefl _)
      · rw [hu']; exact h.1 v hv'
    · rcases List.mem_cons.1 hv with hv' | hv'
      · have := h.1 u hu'; rw [← hv'] at this; omega
      · exact ih h.2 hu' hv'

/-- A message found in front of the damage is found in the damaged file. -/
theorem greedy_front_mem {a b : Bytes} {s t : Nat} (h : SameOutside a b s t) {xs ys : List (Nat × StorageEntry)}
    (hx : Greedy dltStorage a 0 xs) (hy : Greedy dltStorage b 0 ys) : ∀ n, ∀ y ∈ ys, y.1 ≤ n → y.1 + y.2.len ≤ s → y ∈ xs := by
  intro n
  induction n using Nat.strongRecOn with
  | _ n ih =>
    intro y hyy hyn hend
    have hmy := readableAt_iff_msgAt.1 (hy.readable y hyy).1
    have hby := hmy.bounds
    have hya : MsgAt a y.1 y.2 := msg_agree h.1.symm hmy fun p h1 h2 => (h.2 p (by omega)).symm
    rcases hx.covers dlt_lawful y.1 y.2 (Nat.zero_le _) (readableAt_iff_msgAt.2 hya) with h1 | ⟨x, hxx, h1, h2⟩
    · exact h1
    · exfalso
      rw [dltStorage_len] at h2
      have hmx := readableAt_iff_msgAt.1 (hx.readable x hxx).1
      obtain ⟨e', h3, h4⟩ := frame_agree h.1 hmx fun p hp => h.2 p (by omega)
      have hd := hy.disjoint
      rcases hy.covers dlt_lawful x.1 e' (Nat.zero_le _) (readableAt_iff_msgAt.2 h3) with h5 | ⟨z, hz, h5, h6⟩
      · have := pairwise_lt_imp hd h5 hyy h1
        rw [dltStorage_len] at this
        simp only at this
        omega
      · rw [dltStorage_len] at h6
        have h7 := pairwise_lt_imp hd hz hyy (by omega)
        rw [dltStorage_len] at h7
        have hzx := ih z.1 (by omega) z hz (Nat.le_refl _) (by omega)
        have := pairwise_lt_imp hx.disjoint hzx hxx h5
        rw [dltStorage_len] at this
        omega

/-- **C131** what the search yields in front of the damage stays, and nothing new appears there. -/
theorem C131_search_front (a b : Bytes) (ha : Fits a) (s t : Nat) (h : SameOutside a b s t)
    (xs ys : List (Nat × StorageEntry)) (hx : Collects (searchNext dltStorage a) 0 xs)
    (hy : Collects (searchNext dltStorage b) 0 ys) :
    xs.filter (fun x => x.1 + x.2.len ≤ s) = ys.filter fun x => x.1 + x.2.len ≤ s := by
  have hb : Fits b := by unfold Fits at *; rw [← h.1]; exact ha
  have gx := search_greedy ha hx
  have gy := search_greedy hb hy
  refine sorted_ext (f := fun x => x.1) ((sorted_of_disjoint gx.disjoint).filter _) ((sorted_of_disjoint gy.disjoint).filter _)
    fun x => ?_
  rw [List.mem_filter, List.mem_filter]
  simp only [decide_eq_true_eq]
  exact ⟨fun ⟨h1, h2⟩ => ⟨greedy_front_mem h.symm' gy gx _ x h1 (Nat.le_refl _) h2, h2⟩,
    fun ⟨h1, h2⟩ => ⟨greedy_front_mem h gx gy _ x h1 (Nat.le_refl _) h2, h2⟩⟩

/-! ## Backwards -/

/-- **C131** going backwards, damage costs the messages it touches and no others: the messages in front of it and the messages
behind it are yielded as before, and only they. -/
theorem C131_backwards (a b : Bytes) (ha : Fits a) (s t : Nat) (h : SameOutside a b s t)
    (xs ys : List (Nat × StorageEntry)) (hx : Collects (revNext dltStorage a) a.length xs)
    (hy : Collects (revNext dltStorage b) b.length ys) :
    (xs.filter fun x => x.1 + x.2.len ≤ s ∨ t ≤ x.1) = ys.filter fun x => x.1 + x.2.len ≤ s ∨ t ≤ x.1 := by
  have hb : Fits b := by unfold Fits at *; rw [← h.1]; exact ha
  obtain ⟨xs', hc, h1, h2⟩ := C20_rev_search a ha a.length (Nat.le_refl _)
  obtain rfl := hc.unique hx
  obtain ⟨ys', hd, k1, k2⟩ := C20_rev_search b hb b.length (Nat.le_refl _)
  obtain rfl := hd.unique hy
  have key : ∀ {a b : Bytes}, SameOutside a b s t → ∀ {i : Nat} {e : StorageEntry}, i + e.len ≤ s ∨ t ≤ i → MsgAt a i e →
      MsgAt b i e := fun {a b} h {i e} hi hm => msg_agree h.1 hm fun p h1 h2 => h.2 p (by omega)
  have hs : ∀ {l l' : List (Nat × StorageEntry)}, (l.Pairwise fun a b => b.1 < a.1) → (l'.Pairwise fun a b => b.1 < a.1) →
      (∀ x, x ∈ l ↔ x ∈ l') → l = l' := fun hl hl' hm => by
    rw [← List.reverse_inj]
    exact sorted_ext (f := fun x => x.1) (List.pairwise_reverse.2 hl) (List.pairwise_reverse.2 hl') fun x => by
      rw [List.mem_reverse, List.mem_reverse, hm]
  refine hs (h1.filter _) (k1.filter _) fun x => ?_
  rw [List.mem_filter, List.mem_filter, h2, k2]
  simp only [decide_eq_true_eq]
  constructor
  · rintro ⟨⟨h3, h4⟩, h5⟩; exact ⟨⟨key h h5 h3, by rw [← h.1]; exact h4⟩, h5⟩
  · rintro ⟨⟨h3, h4⟩, h5⟩; exact ⟨⟨key h.symm' h5 h3, by rw [h.1]; exact h4⟩, h5⟩

/-! ## Behind the damage -/

theorem damage_split {l : List (Nat × StorageEntry)} (h : l.Pairwise fun a b => a.1 < b.1) (t : Nat) :
    l = l.filter (fun x => x.1 < t) ++ l.filter fun x => t ≤ x.1 := by
  induction l with
  | nil => rfl
  | cons x xs ih =>
    rw [List.pairwise_cons] at h
    by_cases hx : x.1 < t
    · rw [List.filter_cons_of_pos (by simpa using hx), List.filter_cons_of_neg (by simpa using hx), List.cons_append, ← ih h.2]
    · have h1 : xs.filter (fun x => x.1 < t) = [] := by
        rw [List.filter_eq_nil_iff]
        intro y hy
        have := h.1 y hy
        simp only [decide_eq_true_eq]; omega
      have h2 : xs.filter (fun x => t ≤ x.1) = xs := by
        rw [List.filter_eq_self]
        intro y hy
        have := h.1 y hy
        simp only [decide_eq_true_eq]; omega
      rw [List.filter_cons_of_neg (by simpa using hx), List.filter_cons_of_pos (by simp; omega), h1, h2, List.nil_append]

theorem endOf_front_le {len : StorageEntry → Nat} {l : List (Nat × StorageEntry)} {n : Nat} (hn : ∀ y ∈ l, y.1 + len y.2 ≤ n) :
    endOf len 0 l ≤ n := by
  rcases List.eq_nil_or_concat l with rfl | ⟨l', z, rfl⟩
  · exact Nat.zero_le _
  · rw [List.concat_eq_append, endOf_append]
    exact hn z (by simp)

/-- The messages behind the damage that are found again: those that start behind everything found in front of its end. -/
theorem behind_exact {b : Bytes} {t : Nat} {xs ys : List (Nat × StorageEntry)}
    (hdx : xs.Pairwise fun a b => a.1 + a.2.len ≤ b.1) (hdy : ys.Pairwise fun a b => a.1 + a.2.len ≤ b.1)
    (hmy : ∀ y ∈ ys, MsgAt b y.1 y.2)
    (hall : ∀ y ∈ ys, t ≤ y.1 → y ∈ xs)
    (hcov : ∀ x ∈ xs, t ≤ x.1 → x ∈ ys ∨ ∃ y ∈ ys, y.1 < x.1 ∧ x.1 < y.1 + y.2.len) :
    ∃ front, ys = front ++ xs.filter (fun x => t ≤ x.1 ∧ endOf StorageEntry.len 0 front ≤ x.1) ∧ (∀ y ∈ front, y.1 < t) ∧
      endOf StorageEntry.len 0 front < t + 65551 := by
  have hsy := sorted_of_disjoint hdy
  have hle := (le_endOf (s := 0) (hdy.filter fun x => x.1 < t) fun x _ => Nat.zero_le _).2
  refine ⟨ys.filter fun x => x.1 < t, ?_, fun y hy => by simpa using (List.mem_filter.1 hy).2, ?_⟩
  · conv => lhs; rw [damage_split hsy t]
    congr 1
    refine sorted_ext (f := fun x => x.1) (hsy.filter _) ((sorted_of_disjoint hdx).filter _) fun x => ?_
    rw [List.mem_filter, List.mem_filter]
    simp only [decide_eq_true_eq]
    constructor
    · rintro ⟨h1, h2⟩
      refine ⟨hall x h1 h2, h2, endOf_front_le fun y hy => ?_⟩
      have hy' := List.mem_filter.1 hy
      have : y.1 < t := by simpa using hy'.2
      exact pairwise_lt_imp hdy hy'.1 h1 (by omega)
    · rintro ⟨h1, h2, h3⟩
      refine ⟨?_, h2⟩
      rcases hcov x h1 h2 with h4 | ⟨y, hy, h5, h6⟩
      · exact h4
      · exfalso
        by_cases hyt : y.1 < t
        · have := hle y (List.mem_filter.2 ⟨hy, by simpa using hyt⟩)
          omega
        · have := pairwise_lt_imp hdx (hall y hy (by omega)) h1 h5
          omega
  · by_cases ht : t = 0
    · have : ys.filter (fun x => x.1 < t) = [] := by
        rw [List.filter_eq_nil_iff]; intro y _; simp only [decide_eq_true_eq]; omega
      rw [this]; show 0 < _; omega
    · have : endOf StorageEntry.len 0 (ys.filter fun x => x.1 < t) ≤ t + 65550 :=
        endOf_front_le fun y hy => by
          have hy' := List.mem_filter.1 hy
          have h1 : y.1 < t := by simpa using hy'.2
          have := len_le_max (hmy y hy'.1)
          omega
      omega

/-- **C131** the search behind the damage, if no message starts inside another one there: it yields the messages it yielded
before, except those that start inside a message found in the damaged part. So it loses less than one message length. -/
theorem C131_search_behind (a b : Bytes) (ha : Fits a) (s t : Nat) (h : SameOutside a b s t)
    (xs ys : List (Nat × StorageEntry)) (hx : Collects (searchNext dltStorage a) 0 xs)
    (hy : Collects (searchNext dltStorage b) 0 ys) (hin : ∀ j e, t ≤ j → MsgAt a j e → (j, e) ∈ xs) :
    (∃ front, ys = front ++ xs.filter (fun x => t ≤ x.1 ∧ endOf StorageEntry.len 0 front ≤ x.1) ∧ (∀ y ∈ front, y.1 < t) ∧
      endOf StorageEntry.len 0 front < t + 65551) ∧
    ∀ x ∈ xs, t + 65550 ≤ x.1 → x ∈ ys := by
  have hb : Fits b := by unfold Fits at *; rw [← h.1]; exact ha
  have gx := search_greedy ha hx
  have gy := search_greedy hb hy
  have hmx : ∀ x ∈ xs, MsgAt a x.1 x.2 := fun x hx => readableAt_iff_msgAt.1 (gx.readable x hx).1
  have hmy : ∀ y ∈ ys, MsgAt b y.1 y.2 := fun y hy => readableAt_iff_msgAt.1 (gy.readable y hy).1
  have key := behind_exact gx.disjoint gy.disjoint hmy
    (fun y hy ht => hin y.1 y.2 ht (msg_agree h.1.symm (hmy y hy) fun p h1 _ => (h.2 p (by omega)).symm))
    (fun x hx ht => gy.covers dlt_lawful x.1 x.2 (Nat.zero_le _)
      (readableAt_iff_msgAt.2 (msg_agree h.1 (hmx x hx) fun p h1 _ => h.2 p (by omega))))
  refine ⟨key, fun x hx ht => ?_⟩
  obtain ⟨front, h1, h2, h3⟩ := key
  rw [h1]
  exact List.mem_append_right _ (List.mem_filter.2 ⟨hx, by simp only [decide_eq_true_eq]; omega⟩)

/-- Every marker the scan gets to is the start of a message it yields, or inside one. -/
theorem Spec.Scan.marker_covers {T : Type} {S : SearchableMarker T} {bytes : Bytes} {s : Nat} {items : List (Nat × T)}
    (h : Scan S bytes s items) : ∀ j, s ≤ j → MarkerAt S bytes j → j < endOf S.len s items →
      ∃ x ∈ items, x.1 ≤ j ∧ j < x.1 + S.len x.2 := by
  induction h with
  | done s _ => intro j h1 _ h2; exact absurd h2 (by simp only [endOf]; omega)
  | bad s _ _ _ => intro j h1 _ h2; exact absurd h2 (by simp only [endOf]; omega)
  | msg s i v rest hf hr _ ih =>
    intro j hj hm hend
    rcases Nat.lt_or_ge j i with hlt | hge
    · exact absurd hm (hf.2.2 j hj hlt)
    · rcases Nat.lt_or_ge j (i + S.len v) with h1 | h1
      · exact ⟨(i, v), List.mem_cons_self, hge, h1⟩
      · obtain ⟨x, hx, h2⟩ := ih j h1 hm hend
        exact ⟨x, List.mem_cons_of_mem _ hx, h2⟩

/-- **C131** the reader behind the damage, if start markers behind it are the starts of messages: either it ends at a marker in
the damaged part that starts no message, and yields nothing behind it; or it yields what it yielded before, except the messages
that start inside a message found in the damaged part. -/
theorem C131_reader_behind (a b : Bytes) (ha : Fits a) (s t : Nat) (h : SameOutside a b s t)
    (xs ys : List (Nat × StorageEntry)) (hx : Collects (dltitOffsetNext a) 0 xs)
    (hy : Collects (dltitOffsetNext b) 0 ys) (hin : ∀ j, t ≤ j → dltMarker <+: a.drop j → ∃ e, (j, e) ∈ xs) :
    ((∀ y ∈ ys, y.1 + y.2.len ≤ endOf StorageEntry.len 0 ys) ∧
      ∃ p, endOf StorageEntry.len 0 ys ≤ p ∧ p < t ∧ dltMarker <+: b.drop p ∧ ∀ e, ¬ MsgAt b p e) ∨
    (∃ front, ys = front ++ xs.filter (fun x => t ≤ x.1 ∧ endOf StorageEntry.len 0 front ≤ x.1) ∧ (∀ y ∈ front, y.1 < t) ∧
      endOf StorageEntry.len 0 front < t + 65551) ∧
    ∀ x ∈ xs, t + 65550 ≤ x.1 → x ∈ ys := by
  have hb : Fits b := by unfold Fits at *; rw [← h.1]; exact ha
  have gx := dltit_scan ha hx
  have gy := dltit_scan hb hy
  have hmx : ∀ x ∈ xs, MsgAt a x.1 x.2 := fun x hx => readableAt_iff_msgAt.1 (gx.readable x hx)
  have hmy : ∀ y ∈ ys, MsgAt b y.1 y.2 := fun y hy => readableAt_iff_msgAt.1 (gy.readable y hy)
  have hmb : ∀ x ∈ xs, t ≤ x.1 → MsgAt b x.1 x.2 := fun x hx ht => msg_agree h.1 (hmx x hx) fun p h1 _ => h.2 p (by omega)
  rcases C13_dltit_stop b hb ys hy with hend | ⟨i, h1, h2, -, h4⟩
  · right
    have key := behind_exact gx.disjoint.1 gy.disjoint.1 hmy
      (fun y hy ht => by
        have hm : dltMarker <+: a.drop y.1 := by
          rw [h.drop' ht]; exact (gy.readable y hy).marker dlt_lawful
        obtain ⟨e, he⟩ := hin y.1 ht hm
        have := (readableAt_iff_msgAt.2 (hmb _ he ht)).unique dlt_lawful (gy.readable y hy)
        have he' : (y.1, e) = y := Prod.ext rfl this
        rw [← he']; exact he)
      (fun x hx ht => by
        have hr := readableAt_iff_msgAt.2 (hmb x hx ht)
        have hm := hr.marker dlt_lawful
        have hlt : x.1 < endOf StorageEntry.len 0 ys := by
          apply Nat.lt_of_not_le
          intro hge
          exact hend x.1 hge hm
        obtain ⟨y, hy, h1, h2⟩ := gy.marker_covers x.1 (Nat.zero_le _) hm hlt
        rcases Nat.lt_or_ge y.1 x.1 with h3 | h3
        · exact .inr ⟨y, hy, h3, h2⟩
        · have he : y.1 = x.1 := by omega
          have hr' := gy.readable y hy
          rw [he] at hr'
          have := hr'.unique dlt_lawful hr
          have hyx : y = x := Prod.ext he this
          rw [← hyx]; exact .inl hy)
    refine ⟨key, fun x hx ht => ?_⟩
    obtain ⟨front, h1, h2, h3⟩ := key
    rw [h1]
    exact List.mem_append_right _ (List.mem_filter.2 ⟨hx, by simp only [decide_eq_true_eq]; omega⟩)
  · left
    refine ⟨(le_endOf (s := 0) gy.disjoint.1 fun x _ => Nat.zero_le _).2, i, h1, ?_, h2, h4⟩
    apply Nat.lt_of_not_le
    intro hge
    rw [← h.drop' hge] at h2
    obtain ⟨e, he⟩ := hin i hge h2
    exact h4 e (hmb _ he hge)

theorem scan_agree_drop {T : Type} {S : SearchableMarker T} {a b : Bytes} {t s : Nat} {xs : List (Nat × T)}
    (h : ∀ j, t ≤ j → a.drop j = b.drop j) (hx : Scan S a s xs) (hs : t ≤ s) : Scan S b s xs := by
  induction hx with
  | done s hno => exact .done _ fun j hj hm => hno j hj (by unfold MarkerAt at *; rw [h j (by omega)]; exact hm)
  | bad s i hf hno =>
    have := hf.1
    refine .bad _ i ⟨hf.1, ?_, fun j h1 h2 hm => hf.2.2 j h1 h2 ?_⟩ fun v hv => hno v ?_
    · have := hf.2.1; unfold MarkerAt at *; rw [← h i (by omega)]; exact this
    · unfold MarkerAt at *; rw [h j (by omega)]; exact hm
    · unfold ReadableAt at *; rw [h i (by omega)]; exact hv
  | msg s i v rest hf hr _ ih =>
    have := hf.1
    refine .msg _ i v _ ⟨hf.1, ?_, fun j h1 h2 hm => hf.2.2 j h1 h2 ?_⟩ ?_ (ih (by omega))
    · have := hf.2.1; unfold MarkerAt at *; rw [← h i (by omega)]; exact this
    · unfold MarkerAt at *; rw [h j (by omega)]; exact hm
    · unfold ReadableAt at *; rw [← h i (by omega)]; exact hr

theorem Spec.Scan.extend {T : Type} {S : SearchableMarker T} {b : Bytes} {s t : Nat} {xs : List (Nat × T)}
    (h : Scan S b t xs) (hs : s ≤ t) (hno : ∀ j, s ≤ j → j < t → ¬ MarkerAt S b j) : Scan S b s xs := by
  have key : ∀ {i}, FirstMarker S b t i → FirstMarker S b s i := fun {i} hf => ⟨by have := hf.1; omega, hf.2.1, fun j h1 h2 =>
    if h3 : j < t then hno j h1 h3 else hf.2.2 j (by omega) h2⟩
  cases h with
  | done _ h => exact .done _ fun j hj => if h3 : j < t then hno j hj h3 else h j (by omega)
  | bad _ i hf h => exact .bad _ i (key hf) h
  | msg _ i v rest hf hr hrest => exact .msg _ i v rest (key hf) hr hrest

/-- **C131** if the damage wipes out a message, its start marker included, and leaves no other start marker in its place, exactly
this message is lost. -/
theorem C131_wiped (a b : Bytes) (ha : Fits a) (pre post : List (Nat × StorageEntry)) (i : Nat) (e : StorageEntry)
    (h : SameOutside a b i (i + e.len)) (hx : Collects (dltitOffsetNext a) 0 (pre ++ (i, e) :: post))
    (hno : ∀ j, endOf StorageEntry.len 0 pre ≤ j → j < i + e.len → ¬ dltMarker <+: b.drop j) :
    Collects (dltitOffsetNext b) 0 (pre ++ post) := by
  have hb : Fits b := by unfold Fits at *; rw [← h.1]; exact ha
  refine scan_dltit hb ?_
  have gx := dltit_scan ha hx
  clear hx
  have hpre : ∀ x ∈ pre, x.1 + x.2.len ≤ i := fun x hx => by
    have := gx.disjoint.1
    rw [List.pairwise_append] at this
    exact this.2.2 x hx (i, e) List.mem_cons_self
  generalize 0 = s at gx hno ⊢
  induction pre generalizing s with
  | nil =>
    cases gx with
    | msg _ _ _ _ hf hr hrest =>
      have hrest' : Scan dltStorage b (i + e.len) post := by
        clear hno hpre
        rw [dltStorage_len] at hrest
        have ha' : a.length = b.length := h.1
        have := scan_agree_drop (a := a) (b := b) (fun j hj => h.drop' hj) hrest (Nat.le_refl _)
        exact this
      exact hrest'.extend (by have := hf.1; omega) fun j h1 h2 => hno j h1 h2
  | cons x pre ih =>
    cases gx with
    | msg _ _ _ _ hf hr hrest =>
      have hxi := hpre _ List.mem_cons_self
      simp only at hxi
      have hmsg := readableAt_iff_msgAt.1 hr
      have hbo := hmsg.bounds
      refine .msg _ _ _ _ ⟨hf.1, ?_, fun j h1 h2 hm => hf.2.2 j h1 h2 ?_⟩ ?_
        (ih (fun y hy => hpre y (List.mem_cons_of_mem _ hy)) _ hrest hno)
      · exact (markerAt_agree fun p h1 h2 => h.2 p (by omega)).1 hf.2.1
      · exact (markerAt_agree fun p h3 h4 => h.2 p (by omega)).2 hm
      · exact readableAt_iff_msgAt.2 (msg_agree h.1 hmsg fun p h1 h2 => h.2 p (by omega))

/-! ## At work -/

/-- Replacing some bytes by as many others. -/
theorem sameOutside_append (x y y' z : Bytes) (h : y.length = y'.length) :
    SameOutside (x ++ y ++ z) (x ++ y' ++ z) x.length (x.length + y.length) := by
  refine ⟨by simp only [List.length_append, h], fun p hp => ?_⟩
  rcases hp with hp | hp
  · rw [List.append_assoc, List.append_assoc, List.getElem?_append_left hp, List.getElem?_append_left hp]
  · rw [List.getElem?_append_right (by rw [List.length_append]; exact hp),
      List.getElem?_append_right (by rw [List.length_append, ← h]; exact hp), List.length_append, List.length_append, h]

/-- Three messages, the one in the middle overwritten by zeros: exactly it is lost. -/
example : Collects (dltitOffsetNext (encode msg0 ++ List.replicate 20 0 ++ encode msg0)) 0 [(0, msg0), (40, msg0)] :=
  C131_wiped (encode msg0 ++ encode msg0 ++ encode msg0) _ (by decide) [(0, msg0)] [(40, msg0)] 20 msg0
    (sameOutside_append (encode msg0) (encode msg0) (List.replicate 20 0) (encode msg0) (by decide))
    ⟨4, by decide +kernel⟩ (by
      intro j h1 h2
      have h1 : 20 ≤ j := h1
      have h2 : j < 40 := h2
      have key : ∀ k, k < 20 → ¬ dltMarker <+: (encode msg0 ++ List.replicate 20 0 ++ encode msg0).drop (20 + k) := by
        decide +kernel
      have := key (j - 20) (by omega)
      rwa [show 20 + (j - 20) = j by omega] at this)

/-- Three messages, the length field of the one in the middle overwritten by `0xFF 0xFF`: the reader ends there, the search and
the search backwards lose this message only. -/
example : let b := encode msg0 ++ ((encode msg0).take 18 ++ [0xFF, 0xFF]) ++ encode msg0
    SameOutside (encode msg0 ++ encode msg0 ++ encode msg0) b 20 40 ∧
    Collects (dltitOffsetNext b) 0 [(0, msg0)] ∧ Collects (searchNext dltStorage b) 0 [(0, msg0), (40, msg0)] ∧
    Collects (revNext dltStorage b) 60 [(40, msg0), (0, msg0)] :=
  ⟨sameOutside_append (encode msg0) (encode msg0) ((encode msg0).take 18 ++ [0xFF, 0xFF]) (encode msg0) (by decide),
    ⟨4, by decide +kernel⟩, ⟨4, by decide +kernel⟩, ⟨4, by decide +kernel⟩⟩

/-- Three messages, the length field of the one in the middle now says 24 instead of 4: it swallows the third, for the reader and
for the search. Only going backwards the third is still found. -/
example : let b := encode msg0 ++ ((encode msg0).take 18 ++ [0, 24]) ++ encode msg0
    (∃ e, Collects (dltitOffsetNext b) 0 [(0, msg0), (20, e)] ∧ Collects (searchNext dltStorage b) 0 [(0, msg0), (20, e)] ∧
      Collects (revNext dltStorage b) 60 [(40, msg0), (20, e), (0, msg0)]) :=
  ⟨⟨msg0.storageHeader, ⟨⟨msg0.dlt.header.headerType, msg0.dlt.header.messageCounter, 24⟩, encode msg0⟩⟩,
    ⟨4, by decide +kernel⟩, ⟨4, by decide +kernel⟩, ⟨5, by decide +kernel⟩⟩

/-- Behind the damage there is one start marker, and it starts the third message. -/
theorem three_markers (j : Nat) (hj : 40 ≤ j) (h : dltMarker <+: (encode msg0 ++ encode msg0 ++ encode msg0).drop j) : j = 40 := by
  by_cases h60 : j < 60
  · have key : ∀ k, k < 20 → dltMarker <+: (encode msg0 ++ encode msg0 ++ encode msg0).drop (40 + k) → k = 0 := by decide +kernel
    have := key (j - 40) (by omega) (by rwa [show 40 + (j - 40) = j by omega])
    omega
  · exfalso
    have hl : (encode msg0 ++ encode msg0 ++ encode msg0).length = 60 := by decide
    rw [List.drop_of_length_le (by omega)] at h
    exact absurd h (by decide)

/-- The hypotheses of `C131_reader_behind` and `C131_search_behind` met, whatever is written over the second message. -/
example (y : Bytes) (hy : y.length = 20) (ys zs : List (Nat × StorageEntry))
    (h1 : Collects (dltitOffsetNext (encode msg0 ++ y ++ encode msg0)) 0 ys)
    (h2 : Collects (searchNext dltStorage (encode msg0 ++ y ++ encode msg0)) 0 zs) :
    (((∀ y ∈ ys, y.1 + y.2.len ≤ endOf StorageEntry.len 0 ys) ∧ ∃ p, endOf StorageEntry.len 0 ys ≤ p ∧ p < 40 ∧
        dltMarker <+: (encode msg0 ++ y ++ encode msg0).drop p ∧ ∀ e, ¬ MsgAt (encode msg0 ++ y ++ encode msg0) p e) ∨
      ∃ front, ys = front ++ [(0, msg0), (20, msg0), (40, msg0)].filter
        (fun x => 40 ≤ x.1 ∧ endOf StorageEntry.len 0 front ≤ x.1)) ∧
    ∃ front, zs = front ++ [(0, msg0), (20, msg0), (40, msg0)].filter
      (fun x => 40 ≤ x.1 ∧ endOf StorageEntry.len 0 front ≤ x.1) := by
  have hso := sameOutside_append (encode msg0) (encode msg0) y (encode msg0) (by rw [hy]; decide)
  have hF : Fits (encode msg0 ++ encode msg0 ++ encode msg0) := by decide
  have h40 : ReadableAt dltStorage (encode msg0 ++ encode msg0 ++ encode msg0) 40 msg0 :=
    readableAt_iff_msgAt.2 ⟨by decide, encode msg0 ++ encode msg0, [], by rw [List.append_nil], by decide⟩
  constructor
  · refine (C131_reader_behind _ _ hF _ 40 hso [(0, msg0), (20, msg0), (40, msg0)] ys ⟨4, by decide +kernel⟩ h1
      fun j hj hm => ?_).imp id fun h => ?_
    · obtain rfl := three_markers j hj hm; exact ⟨msg0, by simp⟩
    · obtain ⟨⟨f, h3, -⟩, -⟩ := h; exact ⟨f, h3⟩
  · obtain ⟨⟨f, h3, -⟩, -⟩ := C131_search_behind _ _ hF _ 40 hso [(0, msg0), (20, msg0), (40, msg0)] zs
      ⟨4, by decide +kernel⟩ h2 fun j e hj hm => by
        have hr := readableAt_iff_msgAt.2 hm
        obtain rfl := three_markers j hj (hr.marker dlt_lawful)
        rw [hr.unique dlt_lawful h40]; simp
    exact ⟨f, h3⟩

/-- The hypothesis of `C131_frame` met: another message counter, another type byte. -/
example (num : Nat) (r : Res Report) : RunCmd num (encode msg0 ++ encode msg0) .count r ↔
    RunCmd num (encode msg0 ++ ((encode msg0).take 16 ++ [1, 7] ++ (encode msg0).drop 18)) .count r :=
  (C131_frame_commands _ _ (by decide) (by decide) [(0, msg0), (20, msg0)] ⟨4, by decide +kernel⟩ (by
    intro p hp
    by_cases h36 : p = 36 ∨ p = 37
    · exfalso
      rcases hp with ⟨x, hx, h⟩ | h
      · simp only [List.mem_cons, List.not_mem_nil, or_false] at hx
        rcases hx with rfl | rfl <;> simp only at h <;> omega
      · exact h ⟨(20, msg0), by simp, by simp only; omega, by
          have : (encode msg0).length = 20 := by decide
          simp only [this]; omega⟩
    · by_cases hp40 : p < 40
      · have key : ∀ q, q < 40 → q ≠ 36 ∧ q ≠ 37 → (encode msg0 ++ encode msg0)[q]? =
            (encode msg0 ++ ((encode msg0).take 16 ++ [1, 7] ++ (encode msg0).drop 18))[q]? := by decide +kernel
        exact key p hp40 (by omega)
      · rw [List.getElem?_eq_none (by have : (encode msg0 ++ encode msg0).length = 40 := by decide
                                      omega),
          List.getElem?_eq_none (by
            have : (encode msg0 ++ ((encode msg0).take 16 ++ [1, 7] ++ (encode msg0).drop 18)).length = 40 := by decide
            omega)]) .count (.inl rfl) num).1 r

end Verif
