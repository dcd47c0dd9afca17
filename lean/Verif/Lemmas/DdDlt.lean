import Verif.Model.DdDlt
import Verif.Spec.DdDlt
import Verif.Lemmas.Parse
import Verif.Lemmas.Find
import Verif.Props.Header

/-! # Lemmas about `dd_dlt` -/

set_option linter.unusedSimpArgs false

namespace Verif

open Spec

/-! ## Standard output -/

/-- How many bytes of one `write` are taken. -/
def taken (late : Bool) (data : Bytes) : Nat :=
  match rfind [10] data with
  | none => data.length
  | some i => if late ∧ data.length ≥ i + 1 + 1024 then i + 1 else min data.length (i + 1 + 1024)

theorem bufWrite_output (w : LineWriter) (data : Bytes) : (w.bufWrite data).1.output = w.output ++ data ∧
    (w.bufWrite data).2 = data.length := by
  unfold LineWriter.bufWrite LineWriter.output
  by_cases h1 : data.length < LineWriter.capacity - w.buf.length
  · rw [if_pos h1]; simp
  · rw [if_neg h1]
    by_cases h2 : data.length ≥ LineWriter.capacity
    · by_cases h3 : data.length > LineWriter.capacity - w.buf.length
      · simp [h2, h3, LineWriter.flush]
      · have : w.buf = [] := by
          have : LineWriter.capacity = 1024 := rfl
          apply List.eq_nil_of_length_eq_zero
          omega
        rw [if_neg h3]
        simp [h2, this]
    · by_cases h3 : data.length > LineWriter.capacity - w.buf.length
      · simp [h2, h3, LineWriter.flush]
      · simp [h2, h3]

theorem flushIf_output (w : LineWriter) : w.flushIfCompletedLine.output = w.output := by
  unfold LineWriter.flushIfCompletedLine
  split
  · simp [LineWriter.flush, LineWriter.output]
  · rfl

theorem nl_at (data : Bytes) (j : Nat) : [10] <+: data.drop j ↔ data[j]? = some 10 := by
  rw [← List.head?_drop]
  cases data.drop j with
  | nil => simp
  | cons x xs => simp [eq_comm]

/-- One `write` appends a prefix of the data to the output. -/
theorem write_output (late : Bool) (w : LineWriter) (data : Bytes) :
    (w.write late data).1.output = w.output ++ data.take (taken late data) ∧ (w.write late data).2 = taken late data := by
  unfold LineWriter.write taken
  cases h : rfind [10] data with
  | none =>
    obtain ⟨h1, h2⟩ := bufWrite_output w.flushIfCompletedLine data
    simp only [h1, h2, flushIf_output, List.take_length, and_self]
  | some i =>
    have hi : i < data.length := by
      have h1 := (rfind_some (by decide) h).1
      have h2 := h1.length_le
      simp at h2
      omega
    have hl : (data.take (i + 1)).length = i + 1 := by rw [List.length_take]; omega
    simp only [hl, Nat.add_one_ne_zero, if_false]
    simp only [LineWriter.writeToBuf, LineWriter.flush, LineWriter.output, List.nil_append, List.length_nil,
      Nat.sub_zero, List.length_drop, LineWriter.capacity, List.append_assoc]
    by_cases hb : late = true ∧ data.length ≥ i + 1 + 1024
    · have hb' : LineWriter.behind late (data.drop (i + 1)) = [] := by
        unfold LineWriter.behind LineWriter.capacity
        rw [if_pos ⟨hb.1, by rw [List.length_drop]; omega⟩]
      rw [if_pos hb, hb']
      simp
    · have hb' : LineWriter.behind late (data.drop (i + 1)) = data.drop (i + 1) := by
        unfold LineWriter.behind LineWriter.capacity
        rw [if_neg fun h => hb ⟨h.1, by have := h.2; rw [List.length_drop] at this; omega⟩]
      have : min data.length (i + 1 + 1024) = (i + 1) + min 1024 (data.length - (i + 1)) := by omega
      rw [if_neg hb, hb', List.length_drop]
      refine ⟨?_, by omega⟩
      rw [this, List.take_add (i := i + 1)]

theorem taken_le (late : Bool) (data : Bytes) : taken late data ≤ data.length := by
  unfold taken
  cases h : rfind [10] data with
  | none => exact Nat.le_refl _
  | some i =>
    have hi := (rfind_some (by decide) h).1.length_le
    simp only [List.length_cons, List.length_nil, List.length_drop] at hi
    dsimp only
    split <;> omega

theorem taken_room {late : Bool} {len i : Nat} (hi : i < len) :
    (if late = true ∧ len ≥ i + 1 + 1024 then i + 1 else min len (i + 1 + 1024)) = len ↔ len - (i + 1) ≤ roomBehind late := by
  unfold roomBehind
  cases late with
  | true =>
    rw [if_pos rfl]
    by_cases h : len ≥ i + 1 + 1024
    · rw [if_pos ⟨rfl, h⟩]; omega
    · rw [if_neg fun h' => h h'.2]; omega
  | false =>
    rw [if_neg (by simp), if_neg (by simp)]
    omega

theorem taken_eq_iff (late : Bool) (data : Bytes) : taken late data = data.length ↔ LinesFit (roomBehind late) data := by
  unfold taken LinesFit
  cases h : rfind [10] data with
  | none =>
    refine ⟨fun _ pre post hd _ => ?_, fun _ => rfl⟩
    exfalso
    refine rfind_none h pre.length ?_
    rw [hd, List.append_assoc, List.drop_left]
    exact ⟨post, rfl⟩
  | some i =>
    obtain ⟨h2, h3⟩ := rfind_some (by decide) h
    have h2' := (nl_at _ _).1 h2
    have hi : i < data.length := by
      have := h2.length_le
      simp at this
      omega
    constructor
    · intro heq pre post hd hn
      have hp : data[pre.length]? = some 10 := by
        rw [hd, List.append_assoc, List.getElem?_append_right (Nat.le_refl _)]; simp
      have : pre.length = i := by
        rcases Nat.lt_trichotomy pre.length i with hlt | heq | hgt
        · exfalso
          rw [hd, List.append_assoc, List.getElem?_append_right (by omega), List.getElem?_append_right (by simp; omega)] at h2'
          exact hn (List.mem_of_getElem? h2')
        · exact heq
        · exact absurd ((nl_at _ _).2 hp) (h3 _ hgt)
      have : data.length = pre.length + 1 + post.length := by rw [hd]; simp; omega
      have := (taken_room hi).1 heq
      omega
    · intro hf
      have hsplit : data = data.take i ++ [10] ++ data.drop (i + 1) := by
        obtain ⟨r, hr⟩ := h2
        have : data.drop (i + 1) = r := by
          rw [← List.drop_drop, ← hr]; rfl
        rw [this, List.append_assoc, hr, List.take_append_drop]
      have := hf _ _ hsplit (by
        intro hm
        obtain ⟨k, hk⟩ := List.getElem?_of_mem hm
        rw [List.getElem?_drop] at hk
        exact h3 _ (by omega) ((nl_at _ _).2 hk))
      rw [List.length_drop] at this
      exact (taken_room hi).2 this

theorem roomBehind_le (late : Bool) : roomBehind late ≤ 1024 ∧ 1023 ≤ roomBehind late := by
  unfold roomBehind; split <;> omega

theorem taken_short {late : Bool} {data : Bytes} (h : data.length ≤ roomBehind late + 1) : taken late data = data.length := by
  rw [taken_eq_iff]
  intro pre post hd _
  rw [hd] at h
  simp at h
  omega

theorem write_short {late : Bool} (w : LineWriter) {data : Bytes} (h : data.length ≤ 1024) : (w.write late data).1.output = w.output ++ data := by
  rw [(write_output late w data).1, taken_short (by unfold roomBehind; split <;> omega), List.take_length]

/-! ## Serialisation -/

theorem encBE16_digit (x : UInt16) : encBE16 x = [digit x.toNat 1, digit x.toNat 0] := by
  have := x.toNat_lt
  unfold encBE16 digit
  rw [show x.toNat / 256 ^ 1 % 256 = x.toNat / 256 by omega, show x.toNat / 256 ^ 0 % 256 = x.toNat % 256 by omega]

theorem encLE32_digit (x : UInt32) : (encLE32 x).toBytes =
    [digit x.toNat 0, digit x.toNat 1, digit x.toNat 2, digit x.toNat 3] := by
  have := x.toNat_lt
  unfold encLE32 digit B4.toBytes
  rw [show x.toNat / 256 ^ 0 % 256 = x.toNat % 256 by omega, show x.toNat / 256 ^ 1 % 256 = x.toNat / 256 % 256 by omega,
    show x.toNat / 256 ^ 2 % 256 = x.toNat / 65536 % 256 by omega, show x.toNat / 256 ^ 3 % 256 = x.toNat / 16777216 by omega]

theorem encode_asBytes (sh : StorageHeader) (h : StdHeader) (t : Bytes) :
    encode ⟨sh, h, t⟩ = sh.asBytes ++ (h.asBytes ++ t) := by
  unfold encode StorageHeader.asBytes StdHeader.asBytes
  rw [encLE32_digit, encLE32_digit, encBE16_digit]
  rfl

theorem storageHeader_length (sh : StorageHeader) : sh.asBytes.length = 16 := rfl
theorem stdHeader_length (h : StdHeader) : h.asBytes.length = 4 := rfl
theorem extHeader_length (h : ExtHeader) : h.asBytes.length = 10 := rfl

/-! ## Messages -/

/-- The message `dd_dlt` makes of a payload. -/
def ddMsg (info : MessageType) (ecu app : B4) (len : UInt16) (c : UInt32) (p : Bytes) : StorageEntry :=
  ⟨⟨⟨68, 76, 84, 1⟩, c / 100, (c % 100).toInt32 * 10000, ecu⟩, ⟨⟨⟨0x31⟩, c.toUInt8, len⟩,
    (encBE32 (c * 100)).toBytes ++ ((ExtHeader.mk info 0 app app).asBytes ++ p)⟩⟩

/-- The messages for `k` payloads of `n` bytes. -/
def ddMsgs (info : MessageType) (ecu app : B4) (len : UInt16) (n : Nat) : Nat → UInt32 → Bytes → List StorageEntry
  | 0, _, _ => []
  | k + 1, c, input => ddMsg info ecu app len c (input.take n) :: ddMsgs info ecu app len n k (c + 1) (input.drop n)

theorem ddMsgs_length (info : MessageType) (ecu app : B4) (len : UInt16) (n : Nat) : ∀ (k : Nat) (c : UInt32) (input : Bytes),
    (ddMsgs info ecu app len n k c input).length = k
  | 0, _, _ => rfl
  | k + 1, c, input => by rw [ddMsgs, List.length_cons, ddMsgs_length]

theorem ddMsgs_get (info : MessageType) (ecu app : B4) (len : UInt16) (n : Nat) : ∀ (k : Nat) (c : UInt32) (input : Bytes) (i : Nat),
    i < k → (ddMsgs info ecu app len n k c input)[i]? = some (ddMsg info ecu app len (c + UInt32.ofNat i) (chunk n input i))
  | k + 1, c, input, 0, _ => by
    simp [ddMsgs, chunk]
  | k + 1, c, input, i + 1, h => by
    rw [ddMsgs, List.getElem?_cons_succ, ddMsgs_get _ _ _ _ _ k _ _ i (by omega)]
    congr 2
    · rw [UInt32.add_assoc]
      congr 1
      rw [UInt32.add_comm]
      simp
    · unfold chunk
      rw [List.drop_drop]
      congr 2
      rw [Nat.add_mul]
      omega

/-- What actually goes out for a message: the payload may be cut short. -/
def cutMsg (late : Bool) (e : StorageEntry) (p : Bytes) : Bytes := (encode e).take ((encode e).length - p.length + taken late p)

theorem htyp_eq : HTyp.new true false false false true 0x1 = ⟨0x31⟩ := by decide

theorem ddMsg_encode (info : MessageType) (ecu app : B4) (len : UInt16) (c : UInt32) (p : Bytes) :
    encode (ddMsg info ecu app len c p) =
      (StorageHeader.mk ⟨68, 76, 84, 1⟩ (c / 100) ((c % 100).toInt32 * 10000) ecu).asBytes ++
      ((StdHeader.mk ⟨0x31⟩ c.toUInt8 len).asBytes ++ ((encBE32 (c * 100)).toBytes ++ ((ExtHeader.mk info 0 app app).asBytes ++ p))) :=
  encode_asBytes _ _ _

theorem ddMsg_length (info : MessageType) (ecu app : B4) (len : UInt16) (c : UInt32) (p : Bytes) :
    (encode (ddMsg info ecu app len c p)).length = 34 + p.length := by
  rw [encode_length]
  simp [ddMsg, extHeader_length, B4.toBytes]
  omega

theorem cutMsg_ddMsg (late : Bool) (info : MessageType) (ecu app : B4) (len : UInt16) (c : UInt32) (p : Bytes) :
    cutMsg late (ddMsg info ecu app len c p) p =
      (StorageHeader.mk ⟨68, 76, 84, 1⟩ (c / 100) ((c % 100).toInt32 * 10000) ecu).asBytes ++
      ((StdHeader.mk ⟨0x31⟩ c.toUInt8 len).asBytes ++ ((encBE32 (c * 100)).toBytes ++
        ((ExtHeader.mk info 0 app app).asBytes ++ p.take (taken late p)))) := by
  unfold cutMsg
  rw [ddMsg_length, show 34 + p.length - p.length + taken late p = 34 + taken late p by omega, ddMsg_encode]
  rw [List.take_append, storageHeader_length, List.take_of_length_le (by rw [storageHeader_length]; omega),
    List.take_append, stdHeader_length, List.take_of_length_le (by rw [stdHeader_length]; omega),
    List.take_append, List.take_of_length_le (by simp [B4.toBytes]; omega),
    List.take_append, extHeader_length, List.take_of_length_le (by simp [extHeader_length, B4.toBytes]; omega)]
  congr 5
  simp [B4.toBytes]
  omega

theorem cutMsg_full {late : Bool} {info : MessageType} {ecu app : B4} {len : UInt16} {c : UInt32} {p : Bytes} (h : LinesFit (roomBehind late) p) :
    cutMsg late (ddMsg info ecu app len c p) p = encode (ddMsg info ecu app len c p) := by
  rw [cutMsg_ddMsg, (taken_eq_iff late p).2 h, List.take_length, ddMsg_encode]

/-! ## The loop -/

/-- The output for `k` payloads of `n` bytes. -/
def ddOut (late : Bool) (info : MessageType) (ecu app : B4) (len : UInt16) (n : Nat) : Nat → UInt32 → Bytes → Bytes
  | 0, _, _ => []
  | k + 1, c, input => cutMsg late (ddMsg info ecu app len c (input.take n)) (input.take n) ++
      ddOut late info ecu app len n k (c + 1) (input.drop n)

/-- The arguments are all right: four-byte ids, and the length can be computed. -/
structure DdGood (a : DdArgs) (ecu app : B4) (len : UInt16) : Prop where
  ecu : B4.ofBytes? a.ecuid = some ecu
  app : B4.ofBytes? a.appid = some app
  len : add16 a.build.checks (4 + 10 + 4) a.payloadSize = .ok len

/-- The message info byte of `dd_dlt`. -/
def ddInfo (a : DdArgs) : MessageType := MessageType.create a.addr true (.log .info)

theorem ddTurn_end {a : DdArgs} {s : DdState} (h : s.input.length < a.payloadSize.toNat) :
    ddTurn a s = .inr (s, .finished s.count) := by
  unfold ddTurn
  rw [if_pos h]

theorem ddTurn_step {a : DdArgs} {ecu app : B4} {len : UInt16} (hg : DdGood a ecu app len) {s : DdState}
    (h : a.payloadSize.toNat ≤ s.input.length) (hm : mul32 a.build.checks s.count 100 = .ok (s.count * 100))
    (hc : add32 a.build.checks s.count 1 = .ok (s.count + 1)) :
    ∃ o, ddTurn a s = .inl ⟨s.input.drop a.payloadSize.toNat, s.count + 1, o⟩ ∧
      o.output = s.out.output ++ cutMsg a.build.late (ddMsg (ddInfo a) ecu app len s.count (s.input.take a.payloadSize.toNat))
        (s.input.take a.payloadSize.toNat) := by
  unfold ddTurn
  rw [if_neg (by omega)]
  simp only [hg.ecu, hg.app, hg.len, hm, hc]
  refine ⟨_, rfl, ?_⟩
  rw [(write_output _ _ _).1, write_short, write_short, write_short, write_short, cutMsg_ddMsg, htyp_eq]
  · simp only [List.append_assoc]
    rfl
  all_goals exact Nat.le_of_ble_eq_true rfl

theorem ddTurn_overflow {a : DdArgs} {ecu app : B4} {len : UInt16} (hg : DdGood a ecu app len) {s : DdState}
    (h : a.payloadSize.toNat ≤ s.input.length) (hm : mul32 a.build.checks s.count 100 = .panic) :
    ∃ o, ddTurn a s = .inr (⟨s.input.drop a.payloadSize.toNat, s.count, o⟩, .panicked) ∧
      o.output = s.out.output ++ (encode (ddMsg (ddInfo a) ecu app len s.count [])).take 20 := by
  unfold ddTurn
  rw [if_neg (by omega)]
  simp only [hg.ecu, hg.app, hg.len, hm]
  refine ⟨_, rfl, ?_⟩
  rw [write_short, write_short, ddMsg_encode, htyp_eq]
  · simp only [List.append_assoc]
    rfl
  all_goals exact Nat.le_of_ble_eq_true rfl

theorem mul32_ok {checks : Bool} {c : UInt32} (h : checks = false ∨ c.toNat ≤ 42949672) :
    mul32 checks c 100 = .ok (c * 100) := by
  unfold mul32
  rcases h with rfl | h
  · split <;> rfl
  · rw [if_pos]
    rw [show (100 : UInt32).toNat = 100 from rfl]
    omega

theorem mul32_panic {c : UInt32} (h : 42949673 ≤ c.toNat) : mul32 true c 100 = .panic := by
  unfold mul32
  rw [show (100 : UInt32).toNat = 100 from rfl, if_neg (by omega), if_pos rfl]

theorem add32_ok {checks : Bool} {c : UInt32} (h : checks = false ∨ c.toNat ≤ 42949672) :
    add32 checks c 1 = .ok (c + 1) := by
  unfold add32
  rcases h with rfl | h
  · split <;> rfl
  · rw [if_pos]
    have : (1 : UInt32).toNat = 1 := rfl
    omega

theorem ddTurns_step {a : DdArgs} {s s' : DdState} (h : ddTurn a s = .inl s') (k : Nat) :
    ddTurns a (k + 1) s = ddTurns a k s' := by
  rw [ddTurns, h]

/-- `k` turns of the loop. -/
theorem ddTurns_run {a : DdArgs} {ecu app : B4} {len : UInt16} (hg : DdGood a ecu app len) : ∀ (k : Nat) (input : Bytes)
    (c : UInt32) (w : LineWriter), k * a.payloadSize.toNat ≤ input.length →
    (a.build.checks = false ∨ c.toNat + k ≤ 42949673) →
    ∃ w', (∀ m, ddTurns a (k + m) ⟨input, c, w⟩ =
        ddTurns a m ⟨input.drop (k * a.payloadSize.toNat), c + UInt32.ofNat k, w'⟩) ∧
      w'.output = w.output ++ ddOut a.build.late (ddInfo a) ecu app len a.payloadSize.toNat k c input := by
  intro k
  induction k with
  | zero =>
    intro input c w _ _
    refine ⟨w, fun m => ?_, by simp [ddOut]⟩
    rw [Nat.zero_mul, Nat.zero_add, List.drop_zero, show UInt32.ofNat 0 = 0 from rfl, UInt32.add_zero]
  | succ k ih =>
    intro input c w hk hc
    rw [Nat.succ_mul] at hk
    have hc' : a.build.checks = false ∨ c.toNat ≤ 42949672 := hc.imp id fun h => by omega
    obtain ⟨o, h1, h2⟩ := ddTurn_step hg (s := ⟨input, c, w⟩) (by show _ ≤ input.length; omega) (mul32_ok hc') (add32_ok hc')
    obtain ⟨w', h3, h4⟩ := ih (input.drop a.payloadSize.toNat) (c + 1) o (by rw [List.length_drop]; omega) (by
      rcases hc with h | h
      · exact .inl h
      · right
        rw [UInt32.toNat_add, show (1 : UInt32).toNat = 1 from rfl]
        omega)
    refine ⟨w', fun m => ?_, ?_⟩
    · rw [Nat.add_right_comm, ddTurns_step h1, h3, List.drop_drop]
      congr 2
      · congr 1
        rw [Nat.succ_mul]
        omega
      · rw [UInt32.add_assoc]
        congr 1
        rw [UInt32.add_comm]
        simp
    · rw [h4, h2, ddOut, List.append_assoc]

theorem ddTurns_mono {a : DdArgs} : ∀ {k : Nat} {s : DdState} {r : DdState × DdEnd} (m : Nat), ddTurns a k s = .inr r →
    ddTurns a (k + m) s = .inr r
  | 0, s, r, m, h => by simp [ddTurns] at h
  | k + 1, s, r, m, h => by
    rw [Nat.add_right_comm]
    unfold ddTurns at h ⊢
    cases ht : ddTurn a s with
    | inl s' =>
      rw [ht] at h
      exact ddTurns_mono m h
    | inr e =>
      rw [ht] at h
      exact h

theorem ddLoop_unique {a : DdArgs} {s s1 s2 : DdState} {e1 e2 : DdEnd} (h1 : DdLoop a s s1 e1) (h2 : DdLoop a s s2 e2) :
    s1 = s2 ∧ e1 = e2 := by
  obtain ⟨k1, h1⟩ := h1
  obtain ⟨k2, h2⟩ := h2
  have := ddTurns_mono k2 h1
  have h3 := ddTurns_mono k1 h2
  rw [Nat.add_comm, this] at h3
  simp at h3
  exact h3

/-- The loop ends behind the last complete payload. -/
theorem ddLoop_finishes {a : DdArgs} {ecu app : B4} {len : UInt16} (hg : DdGood a ecu app len) (hn : 0 < a.payloadSize.toNat)
    (input : Bytes) (hc : a.build.checks = false ∨ input.length / a.payloadSize.toNat ≤ 42949673) :
    ∃ s, DdLoop a ⟨input, 0, .empty⟩ s (.finished (UInt32.ofNat (input.length / a.payloadSize.toNat))) ∧
      s.out.output = ddOut a.build.late (ddInfo a) ecu app len a.payloadSize.toNat (input.length / a.payloadSize.toNat) 0 input := by
  obtain ⟨w, h1, h2⟩ := ddTurns_run hg (input.length / a.payloadSize.toNat) input 0 .empty (Nat.div_mul_le_self ..)
    (hc.imp id fun h => by rw [show (0 : UInt32).toNat = 0 from rfl]; omega)
  have hend : ∀ s : DdState, s.input = input.drop (input.length / a.payloadSize.toNat * a.payloadSize.toNat) →
      ddTurns a 1 s = .inr (s, .finished s.count) := by
    intro s hs
    rw [ddTurns, ddTurn_end]
    rw [hs, List.length_drop]
    have := Nat.div_add_mod' input.length a.payloadSize.toNat
    have := Nat.mod_lt input.length hn
    omega
  have h3 := h1 1
  rw [hend _ rfl, UInt32.zero_add] at h3
  exact ⟨_, ⟨_, h3⟩, by rw [h2]; rfl⟩

theorem ddLoop_overflows_aux {a : DdArgs} {ecu app : B4} {len : UInt16} (hg : DdGood a ecu app len) (hck : a.build.checks = true)
    (input : Bytes) (k : Nat) (hk : k = 42949673) (hc : (k + 1) * a.payloadSize.toNat ≤ input.length) :
    ∃ s, DdLoop a ⟨input, 0, .empty⟩ s .panicked ∧
      s.out.output = ddOut a.build.late (ddInfo a) ecu app len a.payloadSize.toNat k 0 input ++
        (encode (ddMsg (ddInfo a) ecu app len (UInt32.ofNat k) [])).take 20 := by
  rw [Nat.succ_mul] at hc
  obtain ⟨w, h1, h2⟩ := ddTurns_run hg k input 0 .empty (by omega) (.inr (by rw [hk]; decide))
  obtain ⟨o, h3, h4⟩ := ddTurn_overflow hg (s := ⟨input.drop (k * a.payloadSize.toNat), 0 + UInt32.ofNat k, w⟩)
    (by show _ ≤ (input.drop _).length; rw [List.length_drop]; omega) (by
      rw [hck]
      apply mul32_panic
      show 42949673 ≤ (0 + UInt32.ofNat k).toNat
      rw [hk]
      decide)
  refine ⟨_, ⟨k + 1, by rw [h1, ddTurns, h3]⟩, ?_⟩
  show o.output = _
  rw [h4, h2]
  show _ ++ _ ++ List.take 20 (encode (ddMsg (ddInfo a) ecu app len (0 + UInt32.ofNat k) [])) = _
  rw [UInt32.zero_add]
  rfl

/-- With overflow checks the loop panics in message 42949673, if it gets there. -/
theorem ddLoop_overflows {a : DdArgs} {ecu app : B4} {len : UInt16} (hg : DdGood a ecu app len) (hck : a.build.checks = true)
    (input : Bytes) (hc : 42949674 * a.payloadSize.toNat ≤ input.length) :
    ∃ s, DdLoop a ⟨input, 0, .empty⟩ s .panicked ∧
      s.out.output = ddOut a.build.late (ddInfo a) ecu app len a.payloadSize.toNat 42949673 0 input ++
        (encode (ddMsg (ddInfo a) ecu app len 42949673 [])).take 20 := by
  exact ddLoop_overflows_aux hg hck input 42949673 rfl hc

end Verif
