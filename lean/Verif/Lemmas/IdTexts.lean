import Verif.Spec.Stats

set_option linter.unusedSimpArgs false

/-! # All texts of four bytes -/

namespace Verif

open Spec

/-- The characters whose encoding has `k` bytes. -/
def charsOf : Nat → List Bytes
  | 1 => (List.range 0x80).map fun c => [UInt8.ofNat c]
  | 2 => (List.range' 0x80 0x780).map fun c => [UInt8.ofNat (0xC0 + c / 64), UInt8.ofNat (0x80 + c % 64)]
  | 3 => (List.range' 0x800 0xD000 ++ List.range' 0xE000 0x2000).map fun c =>
      [UInt8.ofNat (0xE0 + c / 4096), UInt8.ofNat (0x80 + c / 64 % 64), UInt8.ofNat (0x80 + c % 64)]
  | 4 => (List.range' 0x10000 0x100000).map fun c =>
      [UInt8.ofNat (0xF0 + c / 262144), UInt8.ofNat (0x80 + c / 4096 % 64), UInt8.ofNat (0x80 + c / 64 % 64),
        UInt8.ofNat (0x80 + c % 64)]
  | _ => []

/-- A character of `k` bytes in front of each of the texts. -/
def inFront (k : Nat) (ts : List Bytes) : List Bytes := (charsOf k).flatMap fun c => ts.map fun t => c ++ t

def texts1 : List Bytes := inFront 1 [[]]
def texts2 : List Bytes := inFront 1 texts1 ++ inFront 2 [[]]
def texts3 : List Bytes := inFront 1 texts2 ++ (inFront 2 texts1 ++ inFront 3 [[]])
def texts4 : List Bytes := inFront 1 texts3 ++ (inFront 2 texts2 ++ (inFront 3 texts1 ++ inFront 4 [[]]))

theorem charsOf_length : (charsOf 1).length = 128 ∧ (charsOf 2).length = 1920 ∧ (charsOf 3).length = 61440 ∧
    (charsOf 4).length = 1048576 := by
  refine ⟨?_, ?_, ?_, ?_⟩ <;>
    simp only [charsOf, List.length_map, List.length_range, List.length_range', List.length_append]

theorem inFront_length (k : Nat) (ts : List Bytes) : (inFront k ts).length = (charsOf k).length * ts.length := by
  unfold inFront
  induction charsOf k with
  | nil => simp
  | cons c cs ih => rw [List.flatMap_cons, List.length_append, ih, List.length_map, List.length_cons, Nat.succ_mul]; omega

theorem texts1_length : texts1.length = 128 := by
  have h1 := inFront_length 1 [[]]
  rw [charsOf_length.1, List.length_singleton] at h1
  exact h1

theorem texts2_length : texts2.length = 18304 := by
  have h1 := inFront_length 1 texts1
  have h2 := inFront_length 2 [[]]
  rw [charsOf_length.1, texts1_length] at h1
  rw [charsOf_length.2.1, List.length_singleton] at h2
  rw [texts2, List.length_append, h1, h2]

theorem texts3_length : texts3.length = 2650112 := by
  have h1 := inFront_length 1 texts2
  have h2 := inFront_length 2 texts1
  have h3 := inFront_length 3 [[]]
  rw [charsOf_length.1, texts2_length] at h1
  rw [charsOf_length.2.1, texts1_length] at h2
  rw [charsOf_length.2.2.1, List.length_singleton] at h3
  rw [texts3, List.length_append, List.length_append, h1, h2, h3]

theorem texts4_length : texts4.length = 383270912 := by
  have h1 := inFront_length 1 texts3
  have h2 := inFront_length 2 texts2
  have h3 := inFront_length 3 texts1
  have h4 := inFront_length 4 [[]]
  rw [charsOf_length.1, texts3_length] at h1
  rw [charsOf_length.2.1, texts2_length] at h2
  rw [charsOf_length.2.2.1, texts1_length] at h3
  rw [charsOf_length.2.2.2, List.length_singleton] at h4
  rw [texts4, List.length_append, List.length_append, List.length_append, h1, h2, h3, h4]

/-- The number of bytes of the first character, read off its first byte. -/
def leadLen : Bytes → Nat
  | [] => 0
  | b :: _ => if b.toNat < 0x80 then 1 else if b.toNat < 0xE0 then 2 else if b.toNat < 0xF0 then 3 else 4

theorem charsOf_lead {k : Nat} {c : Bytes} (h : c ∈ charsOf k) (t : Bytes) : c.length = k ∧ leadLen (c ++ t) = k := by
  unfold charsOf at h
  split at h
  · obtain ⟨n, hn, rfl⟩ := List.mem_map.1 h
    have hn := List.mem_range.1 hn
    refine ⟨rfl, ?_⟩
    simp only [List.cons_append, leadLen, UInt8.toNat_ofNat']
    rw [if_pos (by omega)]
  · obtain ⟨n, hn, rfl⟩ := List.mem_map.1 h
    have hn := List.mem_range'_1.1 hn
    refine ⟨rfl, ?_⟩
    simp only [List.cons_append, leadLen, UInt8.toNat_ofNat']
    rw [if_neg (by omega), if_pos (by omega)]
  · obtain ⟨n, hn, rfl⟩ := List.mem_map.1 h
    have hn : 0x800 ≤ n ∧ n < 0x10000 := by
      rcases List.mem_append.1 hn with hn | hn <;> have hn := List.mem_range'_1.1 hn <;> omega
    refine ⟨rfl, ?_⟩
    simp only [List.cons_append, leadLen, UInt8.toNat_ofNat']
    rw [if_neg (by omega), if_neg (by omega), if_pos (by omega)]
  · obtain ⟨n, hn, rfl⟩ := List.mem_map.1 h
    have hn := List.mem_range'_1.1 hn
    refine ⟨rfl, ?_⟩
    simp only [List.cons_append, leadLen, UInt8.toNat_ofNat']
    rw [if_neg (by omega), if_neg (by omega), if_neg (by omega)]
  · cases h

theorem charsOf_nodup (k : Nat) : (charsOf k).Nodup := by
  have key : ∀ (l : List Nat) (f : Nat → Bytes), l.Nodup → (∀ a b, a ∈ l → b ∈ l → f a = f b → a = b) → (l.map f).Nodup := by
    intro l f hl hf
    show List.Pairwise _ _
    rw [List.pairwise_map]
    exact List.Pairwise.imp_of_mem (fun {a b} ha hb (hab : a ≠ b) he => hab (hf a b ha hb he)) hl
  have hb : ∀ {x y : Nat}, UInt8.ofNat x = UInt8.ofNat y → x % 256 = y % 256 := fun h => by
    have := congrArg UInt8.toNat h
    simpa only [UInt8.toNat_ofNat'] using this
  unfold charsOf
  split
  · refine key _ _ List.nodup_range fun a b ha hb' h => ?_
    have := List.mem_range.1 ha; have := List.mem_range.1 hb'
    simp only [List.cons.injEq, and_true] at h
    have := hb h
    omega
  · refine key _ _ List.nodup_range' fun a b ha hb' h => ?_
    have := List.mem_range'_1.1 ha; have := List.mem_range'_1.1 hb'
    simp only [List.cons.injEq, and_true] at h
    have := hb h.1; have := hb h.2
    omega
  · refine key _ _ ?_ fun a b ha hb' h => ?_
    · refine List.nodup_append.2 ⟨List.nodup_range', List.nodup_range', fun a ha b hb => ?_⟩
      have := List.mem_range'_1.1 ha; have := List.mem_range'_1.1 hb
      omega
    · have h1 : 0x800 ≤ a ∧ a < 0x10000 := by
        rcases List.mem_append.1 ha with hn | hn <;> have hn := List.mem_range'_1.1 hn <;> omega
      have h2 : 0x800 ≤ b ∧ b < 0x10000 := by
        rcases List.mem_append.1 hb' with hn | hn <;> have hn := List.mem_range'_1.1 hn <;> omega
      simp only [List.cons.injEq, and_true] at h
      have := hb h.1; have := hb h.2.1; have := hb h.2.2
      omega
  · refine key _ _ List.nodup_range' fun a b ha hb' h => ?_
    have := List.mem_range'_1.1 ha; have := List.mem_range'_1.1 hb'
    simp only [List.cons.injEq, and_true] at h
    have := hb h.1; have := hb h.2.1; have := hb h.2.2.1; have := hb h.2.2.2
    omega
  · exact List.nodup_nil

theorem mem_inFront {k : Nat} {ts : List Bytes} {b : Bytes} : b ∈ inFront k ts ↔ ∃ c ∈ charsOf k, ∃ t ∈ ts, b = c ++ t := by
  simp only [inFront, List.mem_flatMap, List.mem_map]
  constructor
  · rintro ⟨c, hc, t, ht, rfl⟩; exact ⟨c, hc, t, ht, rfl⟩
  · rintro ⟨c, hc, t, ht, rfl⟩; exact ⟨c, hc, t, ht, rfl⟩

theorem inFront_lead {k : Nat} {ts : List Bytes} {b : Bytes} (h : b ∈ inFront k ts) : leadLen b = k := by
  obtain ⟨c, hc, t, -, rfl⟩ := mem_inFront.1 h
  exact (charsOf_lead hc t).2

theorem inFront_nodup (k : Nat) {ts : List Bytes} (h : ts.Nodup) : (inFront k ts).Nodup := by
  unfold inFront
  refine List.pairwise_flatMap.2 ⟨fun c _ => ?_, ?_⟩
  · rw [List.pairwise_map]
    exact h.imp fun hab he => hab (List.append_cancel_left he)
  · refine List.Pairwise.imp_of_mem (fun {c d} hc hd (hcd : c ≠ d) x hx y hy he => ?_) (charsOf_nodup k)
    obtain ⟨t, -, rfl⟩ := List.mem_map.1 hx
    obtain ⟨u, -, rfl⟩ := List.mem_map.1 hy
    have hl : c.length = d.length := ((charsOf_lead hc []).1).trans ((charsOf_lead hd []).1).symm
    exact hcd (List.append_inj_left he hl)

theorem texts1_nodup : texts1.Nodup := inFront_nodup 1 (by simp)

theorem texts2_nodup : texts2.Nodup := by
  refine List.nodup_append.2 ⟨inFront_nodup 1 texts1_nodup, inFront_nodup 2 (by simp), fun a ha b hb he => ?_⟩
  have h1 := inFront_lead ha
  have h2 := inFront_lead hb
  subst he
  omega

theorem texts3_nodup : texts3.Nodup := by
  refine List.nodup_append.2 ⟨inFront_nodup 1 texts2_nodup, List.nodup_append.2 ⟨inFront_nodup 2 texts1_nodup,
    inFront_nodup 3 (by simp), fun a ha b hb he => ?_⟩, fun a ha b hb he => ?_⟩
  · have h1 := inFront_lead ha
    have h2 := inFront_lead hb
    subst he
    omega
  · have h1 := inFront_lead ha
    subst he
    rcases List.mem_append.1 hb with hb | hb <;> have h2 := inFront_lead hb <;> omega

theorem texts4_nodup : texts4.Nodup := by
  refine List.nodup_append.2 ⟨inFront_nodup 1 texts3_nodup, List.nodup_append.2 ⟨inFront_nodup 2 texts2_nodup,
    List.nodup_append.2 ⟨inFront_nodup 3 texts1_nodup, inFront_nodup 4 (by simp), fun a ha b hb he => ?_⟩,
      fun a ha b hb he => ?_⟩, fun a ha b hb he => ?_⟩
  · have h1 := inFront_lead ha
    have h2 := inFront_lead hb
    subst he
    omega
  · have h1 := inFront_lead ha
    subst he
    rcases List.mem_append.1 hb with hb | hb <;> have h2 := inFront_lead hb <;> omega
  · have h1 := inFront_lead ha
    subst he
    rcases List.mem_append.1 hb with hb | hb
    · have h2 := inFront_lead hb; omega
    · rcases List.mem_append.1 hb with hb | hb <;> have h2 := inFront_lead hb <;> omega

theorem ofNat_of_toNat {a : UInt8} {n : Nat} (h : a.toNat = n) : a = UInt8.ofNat n := by
  rw [← h, UInt8.ofNat_toNat]

/-- A text starts with a character. -/
theorem utf8_first {b : Bytes} (h : Utf8 b) : b = [] ∨ ∃ k c t, c ∈ charsOf k ∧ Utf8 t ∧ b = c ++ t := by
  cases h with
  | nil => exact .inl rfl
  | one c hc h1 h2 =>
    exact .inr ⟨1, _, _, List.mem_map.2 ⟨c, List.mem_range.2 hc, rfl⟩, h2, by rw [ofNat_of_toNat h1]; rfl⟩
  | two c hc hc' h1 h2 h3 =>
    exact .inr ⟨2, _, _, List.mem_map.2 ⟨c, List.mem_range'_1.2 (by omega), rfl⟩, h3,
      by rw [ofNat_of_toNat h1, ofNat_of_toNat h2]; rfl⟩
  | three c hc hc' hs h1 h2 h3 h4 =>
    refine .inr ⟨3, _, _, List.mem_map.2 ⟨c, List.mem_append.2 ?_, rfl⟩, h4,
      by rw [ofNat_of_toNat h1, ofNat_of_toNat h2, ofNat_of_toNat h3]; rfl⟩
    rcases Nat.lt_or_ge c 0xD800 with h | h
    · exact .inl (List.mem_range'_1.2 (by omega))
    · exact .inr (List.mem_range'_1.2 (by omega))
  | four c hc hc' h1 h2 h3 h4 h5 =>
    exact .inr ⟨4, _, _, List.mem_map.2 ⟨c, List.mem_range'_1.2 (by omega), rfl⟩, h5,
      by rw [ofNat_of_toNat h1, ofNat_of_toNat h2, ofNat_of_toNat h3, ofNat_of_toNat h4]; rfl⟩

theorem charsOf_utf8 {k : Nat} {c t : Bytes} (h : c ∈ charsOf k) (ht : Utf8 t) : Utf8 (c ++ t) := by
  unfold charsOf at h
  split at h
  · obtain ⟨n, hn, rfl⟩ := List.mem_map.1 h
    have hn := List.mem_range.1 hn
    exact Utf8.one n (by omega) (by rw [UInt8.toNat_ofNat']; omega) ht
  · obtain ⟨n, hn, rfl⟩ := List.mem_map.1 h
    have hn := List.mem_range'_1.1 hn
    exact Utf8.two n (by omega) (by omega) (by rw [UInt8.toNat_ofNat']; omega) (by rw [UInt8.toNat_ofNat']; omega) ht
  · obtain ⟨n, hn, rfl⟩ := List.mem_map.1 h
    have hn : 0x800 ≤ n ∧ n < 0x10000 ∧ ¬ (0xD800 ≤ n ∧ n < 0xE000) := by
      rcases List.mem_append.1 hn with hn | hn <;> have hn := List.mem_range'_1.1 hn <;> omega
    exact Utf8.three n hn.1 hn.2.1 hn.2.2 (by rw [UInt8.toNat_ofNat']; omega) (by rw [UInt8.toNat_ofNat']; omega)
      (by rw [UInt8.toNat_ofNat']; omega) ht
  · obtain ⟨n, hn, rfl⟩ := List.mem_map.1 h
    have hn := List.mem_range'_1.1 hn
    exact Utf8.four n (by omega) (by omega) (by rw [UInt8.toNat_ofNat']; omega) (by rw [UInt8.toNat_ofNat']; omega)
      (by rw [UInt8.toNat_ofNat']; omega) (by rw [UInt8.toNat_ofNat']; omega) ht
  · cases h

theorem charsOf_pos {k : Nat} {c : Bytes} (h : c ∈ charsOf k) : 1 ≤ k ∧ k ≤ 4 := by
  unfold charsOf at h
  split at h <;> first | exact ⟨by decide, by decide⟩ | cases h

theorem utf8_of_inFront {k n : Nat} {ts : List Bytes} (hts : ∀ t ∈ ts, Utf8 t ∧ t.length = n) :
    ∀ b ∈ inFront k ts, Utf8 b ∧ b.length = k + n := by
  intro b hb
  obtain ⟨c, hc, t, ht, rfl⟩ := mem_inFront.1 hb
  refine ⟨charsOf_utf8 hc (hts t ht).1, ?_⟩
  rw [List.length_append, (charsOf_lead hc []).1, (hts t ht).2]

theorem texts0_utf8 : ∀ b ∈ [([] : Bytes)], Utf8 b ∧ b.length = 0 := by
  intro b hb
  rw [List.mem_singleton.1 hb]
  exact ⟨.nil, rfl⟩

theorem texts1_utf8 : ∀ b ∈ texts1, Utf8 b ∧ b.length = 1 := utf8_of_inFront texts0_utf8

theorem texts2_utf8 : ∀ b ∈ texts2, Utf8 b ∧ b.length = 2 := by
  intro b hb
  rcases List.mem_append.1 hb with hb | hb
  · exact utf8_of_inFront texts1_utf8 b hb
  · exact utf8_of_inFront texts0_utf8 b hb

theorem texts3_utf8 : ∀ b ∈ texts3, Utf8 b ∧ b.length = 3 := by
  intro b hb
  rcases List.mem_append.1 hb with hb | hb
  · exact utf8_of_inFront texts2_utf8 b hb
  · rcases List.mem_append.1 hb with hb | hb
    · exact utf8_of_inFront texts1_utf8 b hb
    · exact utf8_of_inFront texts0_utf8 b hb

theorem texts4_utf8 : ∀ b ∈ texts4, Utf8 b ∧ b.length = 4 := by
  intro b hb
  rcases List.mem_append.1 hb with hb | hb
  · exact utf8_of_inFront texts3_utf8 b hb
  · rcases List.mem_append.1 hb with hb | hb
    · exact utf8_of_inFront texts2_utf8 b hb
    · rcases List.mem_append.1 hb with hb | hb
      · exact utf8_of_inFront texts1_utf8 b hb
      · exact utf8_of_inFront texts0_utf8 b hb

theorem first_cases {b : Bytes} (h : Utf8 b) (n : Nat) (hb : b.length = n) (hn : n ≠ 0) :
    ∃ k c t, c ∈ charsOf k ∧ Utf8 t ∧ b = c ++ t ∧ 1 ≤ k ∧ k ≤ n ∧ k ≤ 4 ∧ t.length = n - k := by
  rcases utf8_first h with rfl | ⟨k, c, t, hc, ht, rfl⟩
  · exact absurd hb.symm hn
  · have h1 := charsOf_pos hc
    rw [List.length_append, (charsOf_lead hc []).1] at hb
    exact ⟨k, c, t, hc, ht, rfl, h1.1, by omega, h1.2, by omega⟩

theorem mem_texts1 {b : Bytes} (h : Utf8 b) (hb : b.length = 1) : b ∈ texts1 := by
  obtain ⟨k, c, t, hc, ht, rfl, h1, h2, h3, h4⟩ := first_cases h 1 hb (by decide)
  have hk : k = 1 := by omega
  subst hk
  exact mem_inFront.2 ⟨c, hc, t, by simpa using h4, rfl⟩

theorem mem_texts2 {b : Bytes} (h : Utf8 b) (hb : b.length = 2) : b ∈ texts2 := by
  obtain ⟨k, c, t, hc, ht, rfl, h1, h2, h3, h4⟩ := first_cases h 2 hb (by decide)
  have hk : k = 1 ∨ k = 2 := by omega
  rcases hk with rfl | rfl
  · exact List.mem_append.2 (.inl (mem_inFront.2 ⟨c, hc, t, mem_texts1 ht h4, rfl⟩))
  · exact List.mem_append.2 (.inr (mem_inFront.2 ⟨c, hc, t, by simpa using h4, rfl⟩))

theorem mem_texts3 {b : Bytes} (h : Utf8 b) (hb : b.length = 3) : b ∈ texts3 := by
  obtain ⟨k, c, t, hc, ht, rfl, h1, h2, h3, h4⟩ := first_cases h 3 hb (by decide)
  have hk : k = 1 ∨ k = 2 ∨ k = 3 := by omega
  rcases hk with rfl | rfl | rfl
  · exact List.mem_append.2 (.inl (mem_inFront.2 ⟨c, hc, t, mem_texts2 ht h4, rfl⟩))
  · exact List.mem_append.2 (.inr (List.mem_append.2 (.inl (mem_inFront.2 ⟨c, hc, t, mem_texts1 ht h4, rfl⟩))))
  · exact List.mem_append.2 (.inr (List.mem_append.2 (.inr (mem_inFront.2 ⟨c, hc, t, by simpa using h4, rfl⟩))))

theorem mem_texts4 {b : Bytes} (h : Utf8 b) (hb : b.length = 4) : b ∈ texts4 := by
  obtain ⟨k, c, t, hc, ht, rfl, h1, h2, h3, h4⟩ := first_cases h 4 hb (by decide)
  have hk : k = 1 ∨ k = 2 ∨ k = 3 ∨ k = 4 := by omega
  rcases hk with rfl | rfl | rfl | rfl
  · exact List.mem_append.2 (.inl (mem_inFront.2 ⟨c, hc, t, mem_texts3 ht h4, rfl⟩))
  · exact List.mem_append.2 (.inr (List.mem_append.2 (.inl (mem_inFront.2 ⟨c, hc, t, mem_texts2 ht h4, rfl⟩))))
  · exact List.mem_append.2 (.inr (List.mem_append.2 (.inr (List.mem_append.2 (.inl
      (mem_inFront.2 ⟨c, hc, t, mem_texts1 ht h4, rfl⟩))))))
  · exact List.mem_append.2 (.inr (List.mem_append.2 (.inr (List.mem_append.2 (.inr
      (mem_inFront.2 ⟨c, hc, t, by simpa using h4, rfl⟩))))))

end Verif
