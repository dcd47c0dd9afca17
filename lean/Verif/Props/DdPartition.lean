import Verif.Props.DdDlt

/-! # C53: partitioning the output of `dd_dlt` -/

set_option linter.unusedSimpArgs false

namespace Verif

open Spec

theorem packedAt_get {L : Nat} : ∀ (es : List StorageEntry) (o i : Nat), (∀ e ∈ es, (encode e).length = L) → i < es.length →
    ∃ e ∈ es, (o + i * L, e) ∈ packedAt o es
  | [], _, _, _, h => by cases h
  | e :: es, o, 0, _, _ => ⟨e, List.mem_cons_self .., by rw [packedAt, Nat.zero_mul, Nat.add_zero]; exact List.mem_cons_self ..⟩
  | e :: es, o, i + 1, hl, h => by
    rw [List.length_cons] at h
    obtain ⟨x, h1, h2⟩ := packedAt_get es (o + L) i (fun e he => hl e (List.mem_cons_of_mem _ he)) (by omega)
    refine ⟨x, List.mem_cons_of_mem _ h1, ?_⟩
    rw [packedAt, hl e (List.mem_cons_self ..)]
    refine List.mem_cons_of_mem _ ?_
    rw [Nat.succ_mul, show o + (i * L + L) = o + L + i * L by omega]
    exact h2

theorem packedAt_mem : ∀ {es : List StorageEntry} {o : Nat} {x : Nat × StorageEntry}, x ∈ packedAt o es → x.2 ∈ es
  | e :: es, o, x, h => by
    rw [packedAt] at h
    rcases List.mem_cons.1 h with rfl | h
    · exact List.mem_cons_self ..
    · exact List.mem_cons_of_mem _ (packedAt_mem h)

theorem tiles_multiples {L : Nat} : ∀ {rs : List (Nat × Nat)} {a b : Nat}, Tiles a rs b → L ∣ a → (∀ r ∈ rs, L ∣ r.2) →
    ∀ r ∈ rs, L ∣ r.1 ∧ L ∣ r.2
  | [], _, _, _, _, _, r, hr => by cases hr
  | (s, t) :: rs, a, b, h, ha, hall, r, hr => by
    obtain ⟨rfl, -, h3⟩ := h
    rcases List.mem_cons.1 hr with rfl | hr
    · exact ⟨ha, hall _ (List.mem_cons_self ..)⟩
    · exact tiles_multiples h3 (hall (s, t) (List.mem_cons_self ..)) (fun r hr => hall r (List.mem_cons_of_mem _ hr)) r hr

theorem tiles_le : ∀ {rs : List (Nat × Nat)} {a b : Nat}, Tiles a rs b → ∀ r ∈ rs, r.2 ≤ b
  | [], _, _, _, r, hr => by cases hr
  | (s, t) :: rs, a, b, h, r, hr => by
    obtain ⟨-, h2, h3⟩ := h
    have hab : ∀ {rs : List (Nat × Nat)} {a b : Nat}, Tiles a rs b → a ≤ b := by
      intro rs
      induction rs with
      | nil => intro a b h; exact Nat.le_of_eq h
      | cons x rs ih =>
        intro a b h
        obtain ⟨h1, h2, h3⟩ := h
        have := ih h3
        omega
    rcases List.mem_cons.1 hr with rfl | hr
    · exact hab h3
    · exact tiles_le h3 r hr

/-- Cuts of a file of equally long messages are at multiples of their length. -/
theorem packed_cuts {es : List StorageEntry} {L : Nat} (hw : ∀ e ∈ es, WF e) (hl : ∀ e ∈ es, (encode e).length = L)
    (hL : 0 < L) (hL' : L ≤ 65536) (hF : Fits (packed es)) (num : Nat) (hnum : num ≠ 0) :
    ∃ rs b, partitionRanges dltStorage (packed es) num = .ok rs ∧ Tiles 0 rs b ∧ ∀ r ∈ rs, L ∣ r.1 ∧ L ∣ r.2 := by
  obtain ⟨rs, b, -, h1, h2, h3, -⟩ := C30_partition_contiguous (packed es) hF num hnum
  have h1' := h1
  rw [partitionRanges_pos hnum] at h1'
  have hcut := partitionLoop_cuts hF (topLevel_packed hw) (fun x hx => by rw [hl _ (packedAt_mem hx)]; exact hL')
    (noStraddle_packed hw) _ _ 0 rfl (fun y _ h => by have := h.1; omega) rs (by rw [Nat.zero_add]; exact h1')
  refine ⟨rs, b, h1, h2, tiles_multiples h2 (Nat.dvd_zero _) ?_⟩
  intro r hr
  have hrb := tiles_le h2 r hr
  rw [packed_length es L hl] at h3
  have hdm := Nat.div_add_mod' r.2 L
  have hlt := Nat.mod_lt r.2 hL
  rcases Nat.eq_zero_or_pos (r.2 % L) with h0 | h0
  · exact Nat.dvd_of_mod_eq_zero h0
  · exfalso
    have hi : r.2 / L < es.length := by
      rw [Nat.div_lt_iff_lt_mul hL]
      apply Nat.lt_of_le_of_ne (by omega)
      intro heq
      rw [heq, Nat.mul_mod_left] at h0
      omega
    obtain ⟨e, he, hmem⟩ := packedAt_get es 0 (r.2 / L) hl hi
    refine hcut r hr _ hmem ⟨?_, ?_⟩
    · show 0 + r.2 / L * L < r.2
      omega
    · show r.2 < 0 + r.2 / L * L + (encode e).length
      rw [hl e he]
      omega

/-- **C53 (partial)** for payload sizes up to 65502: every slice boundary that `partition_from` makes in the output of
`dd_dlt` is a multiple of the message size, whatever the payloads contain (they may be DLT files themselves) and
however many partitions are asked for. Missing, and false: larger sizes, see `C53_large_messages_are_cut`. -/
theorem C53_partition_partial (bd : Build) (addr : Ctor → UInt8) (ecuid appid size input : Bytes) (rest : List Bytes) (n : Nat)
    (hecu : ecuid.length = 4) (happ : appid.length = 4) (hsize : Decimal size n) (h1 : 1 ≤ n) (h2 : n ≤ 65502)
    (hk : input.length / n ≤ 42949673) (hfit : ∀ i, i < input.length / n → LinesFit (roomBehind bd.late) (chunk n input i))
    (num : Nat) (hnum : num ≠ 0) :
    ∃ output rs b, (∀ out e, DdMain bd addr (ecuid :: appid :: size :: rest) input out e ↔
        out = output ∧ e = .finished (UInt32.ofNat (input.length / n))) ∧
      output.length = input.length / n * (34 + n) ∧
      partitionRanges dltStorage output num = .ok rs ∧ Tiles 0 rs b ∧ ∀ r ∈ rs, (34 + n) ∣ r.1 ∧ (34 + n) ∣ r.2 := by
  obtain ⟨output, msgs, h3, -, h4, h5, h6, h7, h8⟩ := C51_round_trip_partial bd addr ecuid appid size input rest n hecu happ
    hsize h1 (by omega) (.inr hk) hfit
  have hl : ∀ e ∈ msgs, (encode e).length = 34 + n := by
    intro e he
    obtain ⟨i, hi⟩ := List.getElem?_of_mem he
    have hi' : i < input.length / n := by
      rw [← h4]
      exact (List.getElem?_eq_some_iff.1 hi).1
    rw [(h8 i e hi).size, chunk_length (index_le _ i rfl hi')]
  rw [h5] at h6
  obtain ⟨rs, b, h9, h10, h11⟩ := packed_cuts h7 hl (by omega) (by omega) h6 num hnum
  exact ⟨output, rs, b, h3, by rw [h5, packed_length _ _ hl, h4], by rw [h5]; exact h9, h10, h11⟩

/-! ## Larger messages -/

theorem ddInfo_ne (addr : Ctor → UInt8) : (MessageType.create addr true (.log .info)).msin ≠ 68 := by
  have key : ∀ a : UInt8, (MessageType.create (fun _ => a) true (.log .info)).msin ≠ 68 := by
    apply forall_u8
    decide +kernel
  exact key (addr .log)

theorem zeroMsg_tail {info : MessageType} (hinfo : info.msin ≠ 68) {len : UInt16} (hlen : 65521 ≤ len.toNat) (m : Nat) :
    ∃ t, encode (ddMsg info ⟨0, 0, 0, 0⟩ ⟨0, 0, 0, 0⟩ len 0 (List.replicate m 0)) = 68 :: t ∧ 68 ∉ t := by
  rw [ddMsg_encode]
  refine ⟨_, rfl, ?_⟩
  have hd : ∀ k, (k = 1 ∨ k = 0) → digit len.toNat k ≠ 68 := by
    intro k hk h
    have h2 := congrArg UInt8.toNat h
    rw [digit_toNat] at h2
    have := len.toNat_lt
    have h3 : (68 : UInt8).toNat = 68 := rfl
    rcases hk with rfl | rfl <;> omega
  simp only [StdHeader.asBytes, encBE16_digit, ExtHeader.asBytes, B4.toBytes, List.cons_append, List.nil_append,
    List.append_assoc]
  rw [show (encLE32 (0 / 100)) = ⟨0, 0, 0, 0⟩ from rfl, show encLE32 (((0 : UInt32) % 100).toInt32 * 10000).toUInt32 = ⟨0, 0, 0, 0⟩ from rfl,
    show (encBE32 (0 * 100)) = ⟨0, 0, 0, 0⟩ from rfl, show (0 : UInt32).toUInt8 = 0 from rfl]
  show 68 ∉ 76 :: 84 :: 1 :: 0 :: 0 :: 0 :: 0 :: 0 :: 0 :: 0 :: 0 :: 0 :: 0 :: 0 :: 0 :: 49 :: 0 :: digit len.toNat 1 ::
    digit len.toNat 0 :: 0 :: 0 :: 0 :: 0 :: info.msin :: 0 :: 0 :: 0 :: 0 :: 0 :: 0 :: 0 :: 0 :: 0 :: List.replicate m 0
  simp only [List.mem_cons, List.mem_replicate]
  have h1 := hd 1 (.inl rfl)
  have h0 := hd 0 (.inr rfl)
  simp only [not_or, not_and]
  repeat' apply And.intro
  all_goals first
    | decide
    | exact Ne.symm h1
    | exact Ne.symm h0
    | exact Ne.symm hinfo
    | exact fun _ => by decide

theorem no_marker_in_zeroMsg {info : MessageType} (hinfo : info.msin ≠ 68) {len : UInt16} (hlen : 65521 ≤ len.toNat) {m : Nat}
    (post : Bytes) (j : Nat) (h1 : 1 ≤ j) (h2 : j < 34 + m) :
    ¬ dltMarker <+: (encode (ddMsg info ⟨0, 0, 0, 0⟩ ⟨0, 0, 0, 0⟩ len 0 (List.replicate m 0)) ++ post).drop j := by
  intro h
  obtain ⟨t, ht, hn⟩ := zeroMsg_tail hinfo hlen m
  have hl := ddMsg_length info ⟨0, 0, 0, 0⟩ ⟨0, 0, 0, 0⟩ len 0 (List.replicate m 0)
  obtain ⟨r, hr⟩ := h
  have hj : (encode (ddMsg info ⟨0, 0, 0, 0⟩ ⟨0, 0, 0, 0⟩ len 0 (List.replicate m 0)) ++ post)[j]? = some 68 := by
    rw [← List.head?_drop, ← hr]
    rfl
  rw [List.length_replicate] at hl
  rw [List.getElem?_append_left (by omega), ht] at hj
  cases j with
  | zero => omega
  | succ j =>
    rw [List.getElem?_cons_succ] at hj
    exact hn (List.mem_of_getElem? hj)

theorem chunk_replicate {n k i : Nat} (h : (i + 1) * n ≤ k) : chunk n (List.replicate k 0) i = List.replicate n 0 := by
  unfold chunk
  rw [Nat.succ_mul] at h
  rw [List.drop_replicate, List.take_replicate]
  congr 1
  omega

/-- **C53 (violated)** for every payload size from 65503 to 65517: 65536 payloads of zeros in 65537 partitions; the
first slice ends inside the first message. -/
theorem C53_large_messages_are_cut (bd : Build) (addr : Ctor → UInt8) (size : Bytes) (n : Nat) (hsize : Decimal size n)
    (h1 : 65503 ≤ n) (h2 : n ≤ 65517) :
    ∃ (output : Bytes) (c : Nat) (rs : List (Nat × Nat)),
      DdMain bd addr [[0, 0, 0, 0], [0, 0, 0, 0], size] (List.replicate (65536 * n) 0) output (.finished 65536) ∧
      partitionRanges dltStorage output 65537 = .ok ((0, c) :: rs) ∧ 0 < c ∧ c < 34 + n := by
  obtain ⟨ecu, app, len, hg, he, ha, hlen, hn⟩ := ddGood_of (bd := bd) (addr := addr) (ecuid := [0, 0, 0, 0])
    (appid := [0, 0, 0, 0]) rfl rfl h2
  have hecu : ecu = ⟨0, 0, 0, 0⟩ := by
    have := (ofBytes_iff _ _).2 he
    simpa [B4.ofBytes?, eq_comm] using this
  have happ : app = ⟨0, 0, 0, 0⟩ := by
    have := (ofBytes_iff _ _).2 ha
    simpa [B4.ofBytes?, eq_comm] using this
  subst hecu happ
  have hp := (C52_size_argument size n).2 ⟨hsize, by omega⟩
  obtain ⟨k, hk⟩ : ∃ k : Nat, k = 65536 := ⟨_, rfl⟩
  have hin : (List.replicate (k * n) (0 : UInt8)).length / n = k := by
    rw [List.length_replicate, Nat.mul_div_cancel _ (by omega)]
  obtain ⟨s, h3, h4⟩ := ddLoop_finishes hg (by show 0 < (UInt16.ofNat n).toNat; omega) (List.replicate (k * n) 0) (by
    show bd.checks = false ∨ (List.replicate (k * n) (0 : UInt8)).length / (UInt16.ofNat n).toNat ≤ _
    rw [hn, hin]
    right
    omega)
  simp only [hn, hin] at h3 h4
  have hch : ∀ i, i < k → chunk n (List.replicate (k * n) 0) i = List.replicate n 0 := by
    intro i hi
    exact chunk_replicate (Nat.mul_le_mul_right _ hi)
  rw [ddOut_packed _ _ _ _ _ _ _ _ (fun i hi => by
    rw [hch i hi]
    intro pre post h
    exfalso
    have : (10 : UInt8) ∈ List.replicate n (0 : UInt8) := by rw [h]; simp
    exact absurd (List.eq_of_mem_replicate this) (by decide))] at h4
  have hmain := (ddMain_loop (rest := []) hp h3 _ _).2 ⟨rfl, rfl⟩
  rw [h4] at hmain
  generalize hinf : ddInfo ⟨bd, addr, [0, 0, 0, 0], [0, 0, 0, 0], UInt16.ofNat n⟩ = info at hmain
  have hinfo : info.msin ≠ 68 := by rw [← hinf]; exact ddInfo_ne addr
  generalize hmsgs : ddMsgs info ⟨0, 0, 0, 0⟩ ⟨0, 0, 0, 0⟩ len n k 0 (List.replicate (k * n) 0) = msgs at hmain
  have hget : ∀ i e, msgs[i]? = some e → i < k ∧ e = ddMsg info ⟨0, 0, 0, 0⟩ ⟨0, 0, 0, 0⟩ len (UInt32.ofNat i) (List.replicate n 0) := by
    intro i e he
    have hi : i < k := by
      have := (List.getElem?_eq_some_iff.1 he).1
      rw [← hmsgs, ddMsgs_length] at this
      exact this
    rw [← hmsgs, ddMsgs_get _ _ _ _ _ _ _ _ _ hi, UInt32.zero_add, hch i hi] at he
    exact ⟨hi, (Option.some.inj he).symm⟩
  have hel : ∀ e ∈ msgs, (encode e).length = 34 + n := by
    intro e he
    obtain ⟨i, hi⟩ := List.getElem?_of_mem he
    obtain ⟨-, rfl⟩ := hget i e hi
    rw [ddMsg_length, List.length_replicate]
  have hml : msgs.length = k := by rw [← hmsgs, ddMsgs_length]
  have hlenp : (packed msgs).length = k * (34 + n) := by rw [packed_length msgs _ hel, hml]
  have hF : Fits (packed msgs) := by
    unfold Fits
    rw [hlenp, hk]
    omega
  obtain ⟨post, hpost⟩ : ∃ post, packed msgs = encode (ddMsg info ⟨0, 0, 0, 0⟩ ⟨0, 0, 0, 0⟩ len 0 (List.replicate n 0)) ++ post := by
    cases msgs with
    | nil => simp at hml; omega
    | cons e es =>
      obtain ⟨-, rfl⟩ := hget 0 e rfl
      exact ⟨packed es, rfl⟩
  have hsz : k * (34 + n) / 65537 = 65536 * (34 + n) / 65537 := by rw [hk]
  have hsz1 : 65536 ≤ k * (34 + n) / 65537 := by omega
  have hsz2 : k * (34 + n) / 65537 < 34 + n := by omega
  generalize hc : k * (34 + n) / 65537 = c at hsz1 hsz2
  have hcont : containedBy dltStorage (packed msgs) c (c + 1) = .ok none := by
    obtain ⟨r, h5, h6⟩ := C28_contained_by_sound (packed msgs) hF c (c + 1)
    cases r with
    | none => exact h5
    | some x =>
      obtain ⟨s, e⟩ := x
      obtain ⟨h7, h8, h9, h10⟩ := h6 s e rfl
      exfalso
      have hm := (readableAt_iff_msgAt.2 h7).marker dlt_lawful
      rw [hpost] at hm
      exact no_marker_in_zeroMsg hinfo (by omega) post s (by omega) (by omega) hm
  obtain ⟨rest, b, h5, _⟩ := partitionLoop_tiles dlt_lawful hF c _ c (c + c) rfl (by rw [hlenp]; omega)
  refine ⟨packed msgs, c, rest, by rw [hk] at hmain; exact hmain, ?_, by omega, hsz2⟩
  rw [partitionRanges_pos (by decide), hlenp, hc]
  exact partitionLoop_cut _ (c := c) hcont rfl (by rw [hlenp]; omega) (by omega) (by rw [hlenp]; omega) (by rw [hlenp]; omega) h5

end Verif
