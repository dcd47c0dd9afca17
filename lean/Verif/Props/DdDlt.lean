import Verif.Lemmas.DdDlt
import Verif.Props.Parallel

/-! # C51–C53: `dd_dlt` -/

set_option linter.unusedSimpArgs false

namespace Verif

open Spec

/-! ## The size argument -/

theorem parseDigits_iff (max : Nat) : ∀ (s : Bytes) (acc v : Nat), acc ≤ max → (parseDigits max acc s = some v ↔
    ∃ ds : List Nat, (∀ d ∈ ds, d ≤ 9) ∧ ds.foldl (fun a d => a * 10 + d) acc = v ∧ v ≤ max ∧
      s = ds.map fun d => UInt8.ofNat (48 + d)) := by
  have hmono : ∀ (ds : List Nat) (acc : Nat), acc ≤ ds.foldl (fun a d => a * 10 + d) acc := by
    intro ds
    induction ds with
    | nil => intro acc; exact Nat.le_refl _
    | cons d ds ih =>
      intro acc
      have := ih (acc * 10 + d)
      rw [List.foldl_cons]
      omega
  intro s
  induction s with
  | nil =>
    intro acc v hacc
    simp only [parseDigits, Option.some.injEq]
    constructor
    · rintro rfl
      exact ⟨[], by simp, rfl, hacc, rfl⟩
    · rintro ⟨ds, -, h2, -, h4⟩
      have : ds = [] := by simpa using h4.symm
      subst this
      exact h2
  | cons c cs ih =>
    intro acc v hacc
    have hlt := c.toNat_lt
    simp only [parseDigits]
    constructor
    · intro h
      split at h
      · next hc =>
        split at h
        · next hle =>
          obtain ⟨ds, h1, h2, h3, h4⟩ := (ih _ v hle).1 h
          have hc1 := UInt8.le_iff_toNat_le.1 hc.1
          have hc2 := UInt8.le_iff_toNat_le.1 hc.2
          rw [show (48 : UInt8).toNat = 48 from rfl] at hc1
          rw [show (57 : UInt8).toNat = 57 from rfl] at hc2
          refine ⟨(c.toNat - 48) :: ds, ?_, h2, h3, ?_⟩
          · intro d hd
            rcases List.mem_cons.1 hd with rfl | hd
            · omega
            · exact h1 d hd
          · rw [List.map_cons, ← h4, show 48 + (c.toNat - 48) = c.toNat by omega, UInt8.ofNat_toNat]
        · cases h
      · cases h
    · rintro ⟨ds, h1, h2, h3, h4⟩
      cases ds with
      | nil => cases h4
      | cons d ds =>
        rw [List.map_cons] at h4
        obtain ⟨hc, hcs⟩ := List.cons.inj h4
        have hd := h1 d (List.mem_cons_self ..)
        have hn : c.toNat = 48 + d := by rw [hc, u8_ofNat_toNat_mod _ (by omega)]
        have hc' : 48 ≤ c ∧ c ≤ 57 := by
          rw [UInt8.le_iff_toNat_le, UInt8.le_iff_toNat_le, hn]
          exact ⟨by show 48 ≤ 48 + d; omega, by show 48 + d ≤ 57; omega⟩
        rw [if_pos hc', hn, show 48 + d - 48 = d by omega]
        rw [List.foldl_cons] at h2
        have := hmono ds (acc * 10 + d)
        rw [if_pos (by omega)]
        exact (ih _ v (by omega)).2 ⟨ds, fun x hx => h1 x (List.mem_cons_of_mem _ hx), h2, h3, hcs⟩

/-- The size argument is accepted exactly if it is a decimal number up to 65535. -/
theorem C52_size_argument (s : Bytes) (v : Nat) : parseU16 s = some v ↔ Decimal s v ∧ v ≤ 65535 := by
  have hd : ∀ d, d ≤ 9 → ∀ c : UInt8, c.toNat < 48 → UInt8.ofNat (48 + d) ≠ c := by
    intro d hd c hc heq
    have : (UInt8.ofNat (48 + d)).toNat = c.toNat := by rw [heq]
    rw [u8_ofNat_toNat_mod _ (by omega)] at this
    omega
  have key : ∀ t : Bytes, (parseDigits 65535 0 t = some v ∧ t ≠ [] ↔
      (∃ ds : List Nat, ds ≠ [] ∧ (∀ d ∈ ds, d ≤ 9) ∧ ds.foldl (fun a d => a * 10 + d) 0 = v ∧
        t = ds.map fun d => UInt8.ofNat (48 + d)) ∧ v ≤ 65535) := by
    intro t
    rw [parseDigits_iff 65535 t 0 v (by decide)]
    constructor
    · rintro ⟨⟨ds, h1, h2, h3, rfl⟩, h5⟩
      exact ⟨⟨ds, by rintro rfl; exact h5 rfl, h1, h2, rfl⟩, h3⟩
    · rintro ⟨⟨ds, h0, h1, h2, rfl⟩, h3⟩
      exact ⟨⟨ds, h1, h2, h3, rfl⟩, by simpa using h0⟩
  have hdec : Decimal s v ↔ (∃ ds : List Nat, ds ≠ [] ∧ (∀ d ∈ ds, d ≤ 9) ∧ ds.foldl (fun a d => a * 10 + d) 0 = v ∧
        s = ds.map fun d => UInt8.ofNat (48 + d)) ∨ ∃ t, s = 43 :: t ∧ (∃ ds : List Nat, ds ≠ [] ∧ (∀ d ∈ ds, d ≤ 9) ∧
          ds.foldl (fun a d => a * 10 + d) 0 = v ∧ t = ds.map fun d => UInt8.ofNat (48 + d)) := by
    constructor
    · rintro ⟨ds, h0, h1, h2, h3 | h3⟩
      · exact .inl ⟨ds, h0, h1, h2, h3⟩
      · exact .inr ⟨_, h3, ds, h0, h1, h2, rfl⟩
    · rintro (⟨ds, h0, h1, h2, h3⟩ | ⟨t, ht, ds, h0, h1, h2, h3⟩)
      · exact ⟨ds, h0, h1, h2, .inl h3⟩
      · exact ⟨ds, h0, h1, h2, .inr (by rw [ht, h3])⟩
  have hnot : ∀ (c : UInt8) (t : Bytes), c.toNat < 48 → ¬ ∃ ds : List Nat, ds ≠ [] ∧ (∀ d ∈ ds, d ≤ 9) ∧
      ds.foldl (fun a d => a * 10 + d) 0 = v ∧ c :: t = ds.map fun d => UInt8.ofNat (48 + d) := by
    rintro c t hc ⟨ds, h0, h1, -, h3⟩
    cases ds with
    | nil => cases h3
    | cons d ds =>
      rw [List.map_cons] at h3
      exact hd d (h1 d (List.mem_cons_self ..)) c hc (List.cons.inj h3).1.symm
  rw [hdec]
  unfold parseU16
  split
  · constructor
    · intro h; cases h
    · rintro ⟨⟨ds, h0, -, -, h3⟩ | ⟨t, ht, -⟩, -⟩
      · exact absurd h3.symm (by simpa using h0)
      · cases ht
  · constructor
    · intro h; cases h
    · rintro ⟨h | ⟨t, ht, h⟩, -⟩
      · exact absurd h (hnot 43 [] (by decide))
      · have := (List.cons.inj ht).2
        subst this
        obtain ⟨ds, h0, -, -, h3⟩ := h
        exact absurd h3.symm (by simpa using h0)
  · constructor
    · intro h; cases h
    · rintro ⟨h | ⟨t, ht, h⟩, -⟩
      · exact absurd h (hnot 45 [] (by decide))
      · have := (List.cons.inj ht).1
        exact absurd this (by decide)
  · rename_i rest h43
    have hne : rest ≠ [] := fun hr => h43 (by rw [hr])
    have hk := key rest
    constructor
    · intro h
      obtain ⟨h1, h2⟩ := hk.1 ⟨h, hne⟩
      exact ⟨.inr ⟨rest, rfl, h1⟩, h2⟩
    · rintro ⟨h | ⟨t, ht, h⟩, h2⟩
      · exact absurd h (hnot 43 rest (by decide))
      · rw [← (List.cons.inj ht).2] at h
        exact (hk.2 ⟨h, h2⟩).1
  · rename_i hnil h1 h2 h3
    have hne : s ≠ [] := fun h => hnil h
    have hk := key s
    constructor
    · intro h
      obtain ⟨h1, h2⟩ := hk.1 ⟨h, hne⟩
      exact ⟨.inl h1, h2⟩
    · rintro ⟨h | ⟨t, ht, -⟩, h2⟩
      · exact (hk.2 ⟨h, h2⟩).1
      · exact absurd ht (h3 t)

example : parseU16 [49, 53, 56] = some 158 ∧ parseU16 [54, 53, 53, 51, 54] = none ∧ parseU16 [43, 48, 55] = some 7 := by decide

/-! ## What a reader sees in a message -/

theorem ofBytes_iff (bs : Bytes) (x : B4) : B4.ofBytes? bs = some x ↔ bs = x.toBytes := by
  unfold B4.ofBytes?
  split
  · simp only [Option.some.injEq, B4.toBytes]
    constructor
    · rintro rfl; rfl
    · intro h
      simp only [List.cons.injEq, and_true] at h
      obtain ⟨rfl, rfl, rfl, rfl⟩ := h
      rfl
  · rename_i h
    constructor
    · intro h; cases h
    · intro h'
      exact absurd h' (h _ _ _ _)

theorem ofBytes_length {bs : Bytes} (h : bs.length = 4) : ∃ x, B4.ofBytes? bs = some x ∧ bs = x.toBytes := by
  match bs, h with
  | [a, b, c, d], _ => exact ⟨⟨a, b, c, d⟩, rfl, rfl⟩

theorem ddMsg_wf {info : MessageType} {ecu app : B4} {len : UInt16} {c : UInt32} {p : Bytes} (h : len.toNat = 18 + p.length) :
    WF (ddMsg info ecu app len c p) := by
  refine ⟨rfl, ?_⟩
  show len.toNat = _
  rw [h]
  simp [ddMsg, extHeader_length, B4.toBytes]
  omega

/-- A message as `dd_dlt` is meant to write it. -/
structure DdMessage (ecuid appid : Bytes) (info : MessageType) (i : Nat) (payload : Bytes) (e : StorageEntry) : Prop where
  pay : e.dlt.payload = .ok (some payload)
  timestamp : ∃ t, e.dlt.timestamp = .ok (some t) ∧ t.toNat = 100 * i % 2 ^ 32
  secs : e.storageHeader.secs.toNat = i / 100
  msecs : e.storageHeader.msecs.toInt = (i % 100 : Nat) * 10000
  counter : e.dlt.header.messageCounter.toNat = i % 256
  ecu : e.storageHeader.ecu.toBytes = ecuid
  ext : ∃ x, e.dlt.extendedHeader = .ok (some x) ∧ x.msin = info ∧ x.apid.toBytes = appid ∧ x.ctid.toBytes = appid
  size : (encode e).length = 34 + payload.length
  flags : flag e.dlt 0 = true ∧ flag e.dlt 2 = false ∧ flag e.dlt 3 = false ∧ flag e.dlt 4 = true

theorem msecs_eq : ∀ r : Fin 100, ((UInt32.ofNat r.val).toInt32 * 10000).toInt = (r.val : Int) * 10000 := by decide +kernel

theorem ddMsg_flags (info : MessageType) (ecu app : B4) (len : UInt16) (c : UInt32) (p : Bytes) :
    flag (ddMsg info ecu app len c p).dlt 0 = true ∧ flag (ddMsg info ecu app len c p).dlt 2 = false ∧
    flag (ddMsg info ecu app len c p).dlt 3 = false ∧ flag (ddMsg info ecu app len c p).dlt 4 = true := by
  refine ⟨?_, ?_, ?_, ?_⟩
  · show decide ((0x31 : UInt8).toNat / 2 ^ 0 % 2 = 1) = true; decide
  · show decide ((0x31 : UInt8).toNat / 2 ^ 2 % 2 = 1) = false; decide
  · show decide ((0x31 : UInt8).toNat / 2 ^ 3 % 2 = 1) = false; decide
  · show decide ((0x31 : UInt8).toNat / 2 ^ 4 % 2 = 1) = true; decide

theorem ddMsg_reads {info : MessageType} {ecu app : B4} {len : UInt16} {p : Bytes} (i : Nat) (hi : i < 2 ^ 32) :
    DdMessage ecu.toBytes app.toBytes info i p (ddMsg info ecu app len (UInt32.ofNat i) p) := by
  have hc : (UInt32.ofNat i).toNat = i := UInt32.toNat_ofNat_of_lt' hi
  obtain ⟨f0, f2, f3, f4⟩ := ddMsg_flags info ecu app len (UInt32.ofNat i) p
  have ho : optLen (ddMsg info ecu app len (UInt32.ofNat i) p).dlt = 4 := by unfold optLen; rw [f2, f3, f4]; rfl
  constructor
  · exact (C10_payload_iff _ _).2 ⟨(encBE32 (UInt32.ofNat i * 100)).toBytes, (ExtHeader.mk info 0 app app).asBytes,
      by show _ = _; rw [List.append_assoc]; rfl, by rw [ho]; rfl, by rw [f0]; rfl⟩
  · obtain ⟨r, h1, h2⟩ := C09_timestamp (ddMsg info ecu app len (UInt32.ofNat i) p).dlt
    refine ⟨UInt32.ofNat (100 * i), ?_, rfl⟩
    rw [h1, (h2 (UInt32.ofNat (100 * i))).2]
    refine ⟨f4, ?_⟩
    rw [f2, f3]
    generalize hx : UInt32.ofNat i * 100 = x
    have h2 : UInt32.ofNat (100 * i) = x := by
      rw [← hx]
      apply UInt32.toNat_inj.1
      rw [UInt32.toNat_mul, hc, UInt32.toNat_ofNat]
      rw [Nat.mul_comm]
      rfl
    rw [h2]
    have := x.toNat_lt
    refine ⟨[], _, _, _, _, (ExtHeader.mk info 0 app app).asBytes ++ p, by simp only [ddMsg, hx]; rfl, rfl, ?_⟩
    unfold beVal encBE32
    dsimp only
    rw [u8_ofNat_toNat_mod _ (by omega), u8_ofNat_toNat_mod _ (by omega), u8_ofNat_toNat_mod _ (by omega),
      u8_ofNat_toNat_mod _ (by omega)]
    omega
  · show (UInt32.ofNat i / 100).toNat = _
    rw [UInt32.toNat_div, hc]
    rfl
  · show ((UInt32.ofNat i % 100).toInt32 * 10000).toInt = _
    have h1 : UInt32.ofNat i % 100 = UInt32.ofNat (i % 100) := by
      apply UInt32.toNat_inj.1
      rw [UInt32.toNat_mod, hc, UInt32.toNat_ofNat_of_lt' (by show i % 100 < 4294967296; omega)]
      rfl
    rw [h1]
    exact msecs_eq ⟨i % 100, by omega⟩
  · show (UInt32.ofNat i).toUInt8.toNat = _
    rw [UInt32.toNat_toUInt8, hc]
  · rfl
  · exact ⟨⟨info, 0, app, app⟩, (C10_extended_header_iff _ _).2 ⟨f0, (encBE32 (UInt32.ofNat i * 100)).toBytes, p,
      by show _ = _; rw [List.append_assoc]; rfl, by rw [ho]; rfl⟩, rfl, rfl, rfl⟩
  · exact ddMsg_length ..
  · exact ⟨f0, f2, f3, f4⟩

theorem ddOut_packed {late : Bool} (info : MessageType) (ecu app : B4) (len : UInt16) (n : Nat) : ∀ (k : Nat) (c : UInt32) (input : Bytes),
    (∀ i, i < k → LinesFit (roomBehind late) (chunk n input i)) →
    ddOut late info ecu app len n k c input = packed (ddMsgs info ecu app len n k c input)
  | 0, _, _, _ => rfl
  | k + 1, c, input, h => by
    have h0 := h 0 (by omega)
    have hr := ddOut_packed info ecu app len n k (c + 1) (input.drop n) (fun i hi => by
      have := h (i + 1) (by omega)
      unfold chunk at this ⊢
      rw [List.drop_drop]
      rwa [Nat.add_mul, Nat.one_mul, Nat.add_comm] at this)
    unfold chunk at h0
    rw [Nat.zero_mul, List.drop_zero] at h0
    rw [ddOut, ddMsgs, cutMsg_full h0, hr]
    rfl

theorem chunk_length {n : Nat} {input : Bytes} {i : Nat} (h : (i + 1) * n ≤ input.length) : (chunk n input i).length = n := by
  unfold chunk
  rw [Nat.succ_mul] at h
  rw [List.length_take, List.length_drop]
  omega

theorem index_le {n k : Nat} (len i : Nat) (hk : k = len / n) (hi : i < k) : (i + 1) * n ≤ len := by
  have h1 := Nat.div_mul_le_self len n
  have h2 : (i + 1) * n ≤ k * n := Nat.mul_le_mul_right _ hi
  rw [hk] at h2
  omega

theorem packed_length : ∀ (es : List StorageEntry) (L : Nat), (∀ e ∈ es, (encode e).length = L) → (packed es).length = es.length * L
  | [], L, _ => by simp [packed]
  | e :: es, L, h => by
    have := packed_length es L fun e he => h e (List.mem_cons_of_mem _ he)
    unfold packed at this ⊢
    rw [List.map_cons, List.flatten_cons, List.length_append, this, h e (List.mem_cons_self ..), List.length_cons, Nat.succ_mul]
    omega

/-- `main` with valid arguments has exactly the outcome of the loop. -/
theorem ddMain_loop {bd : Build} {addr : Ctor → UInt8} {ecuid appid size input : Bytes} {rest : List Bytes} {n : Nat}
    (hsize : parseU16 size = some n) {s : DdState} {e : DdEnd}
    (h : DdLoop ⟨bd, addr, ecuid, appid, UInt16.ofNat n⟩ ⟨input, 0, .empty⟩ s e) (out : Bytes) (e' : DdEnd) :
    DdMain bd addr (ecuid :: appid :: size :: rest) input out e' ↔ out = s.out.output ∧ e' = e := by
  unfold DdMain
  simp only [hsize]
  constructor
  · rintro ⟨s', h1, h2⟩
    obtain ⟨rfl, rfl⟩ := ddLoop_unique h h1
    exact ⟨h2, rfl⟩
  · rintro ⟨rfl, rfl⟩
    exact ⟨s, h, rfl⟩

theorem ddGood_of {bd : Build} {addr : Ctor → UInt8} {ecuid appid : Bytes} {n : Nat} (hecu : ecuid.length = 4)
    (happ : appid.length = 4) (h2 : n ≤ 65517) :
    ∃ ecu app len, DdGood ⟨bd, addr, ecuid, appid, UInt16.ofNat n⟩ ecu app len ∧ ecuid = ecu.toBytes ∧ appid = app.toBytes ∧
      len.toNat = 18 + n ∧ (UInt16.ofNat n).toNat = n := by
  obtain ⟨ecu, he, he'⟩ := ofBytes_length hecu
  obtain ⟨app, ha, ha'⟩ := ofBytes_length happ
  have hn : (UInt16.ofNat n).toNat = n := UInt16.toNat_ofNat_of_lt' (by show n < 65536; omega)
  refine ⟨ecu, app, 4 + 10 + 4 + UInt16.ofNat n, ⟨he, ha, ?_⟩, he', ha', ?_, hn⟩
  · show add16 bd.checks (4 + 10 + 4) (UInt16.ofNat n) = _
    unfold add16
    rw [hn, if_pos]
    show 18 + n < 65536
    omega
  · rw [UInt16.toNat_add, hn]
    show (18 + n) % 65536 = _
    omega

/-- **C51 (partial)** for four-byte ids and payload sizes from 1 to 65517, if every complete payload has at most 1024
(1023 with later standard libraries) bytes behind its last newline: `dd_dlt` ends normally and reports `⌊len / n⌋` messages; `dltit` reads exactly that many
from its output, and message `i` has the ids, the counter, the times and as payload the bytes `i*n .. (i+1)*n` of
the input. (With more than 42949673 messages a build with overflow checks panics, see `C51_overflow`; other builds
wrap around.) Missing, and false: other payloads, see `C51_payload_cut`. -/
theorem C51_round_trip_partial (bd : Build) (addr : Ctor → UInt8) (ecuid appid size input : Bytes) (rest : List Bytes) (n : Nat)
    (hecu : ecuid.length = 4) (happ : appid.length = 4) (hsize : Decimal size n) (h1 : 1 ≤ n) (h2 : n ≤ 65517)
    (hk : (bd.checks = false ∧ input.length / n ≤ 2 ^ 32) ∨ input.length / n ≤ 42949673)
    (hfit : ∀ i, i < input.length / n → LinesFit (roomBehind bd.late) (chunk n input i)) :
    ∃ output msgs, (∀ out e, DdMain bd addr (ecuid :: appid :: size :: rest) input out e ↔
        out = output ∧ e = .finished (UInt32.ofNat (input.length / n))) ∧
      Collects (dltitNext output) 0 msgs ∧ msgs.length = input.length / n ∧ output = packed msgs ∧ Fits output ∧
      (∀ e ∈ msgs, WF e) ∧
      ∀ i e, msgs[i]? = some e →
        DdMessage ecuid appid (MessageType.create addr true (.log .info)) i (chunk n input i) e := by
  obtain ⟨ecu, app, len, hg, rfl, rfl, hlen, hn⟩ := ddGood_of (bd := bd) (addr := addr) hecu happ h2
  have hp := (C52_size_argument size n).2 ⟨hsize, by omega⟩
  obtain ⟨s, h3, h4⟩ := ddLoop_finishes hg (by show 0 < (UInt16.ofNat n).toNat; omega) input (by
    show bd.checks = false ∨ input.length / (UInt16.ofNat n).toNat ≤ _
    rw [hn]
    rcases hk with ⟨h, -⟩ | h
    · exact .inl h
    · exact .inr h)
  simp only [hn] at h3 h4
  rw [ddOut_packed _ _ _ _ _ _ _ _ hfit] at h4
  have hmain := ddMain_loop (rest := rest) hp h3
  rw [h4] at hmain
  generalize hmsgs : ddMsgs (ddInfo ⟨bd, addr, ecu.toBytes, app.toBytes, UInt16.ofNat n⟩) ecu app len n (input.length / n) 0 input = msgs at hmain
  have hget : ∀ i e, msgs[i]? = some e → i < input.length / n ∧
      e = ddMsg (MessageType.create addr true (.log .info)) ecu app len (UInt32.ofNat i) (chunk n input i) := by
    intro i e he
    have hi : i < input.length / n := by
      have := (List.getElem?_eq_some_iff.1 he).1
      rw [← hmsgs, ddMsgs_length] at this
      exact this
    rw [← hmsgs, ddMsgs_get _ _ _ _ _ _ _ _ _ hi, UInt32.zero_add] at he
    exact ⟨hi, (Option.some.inj he).symm⟩
  have hcl : ∀ i, i < input.length / n → (chunk n input i).length = n := fun i hi => chunk_length (index_le _ i rfl hi)
  have hwf : ∀ e ∈ msgs, WF e := by
    intro e he
    obtain ⟨i, hi⟩ := List.getElem?_of_mem he
    obtain ⟨hi', rfl⟩ := hget i e hi
    exact ddMsg_wf (by rw [hlen, hcl i hi'])
  have hel : ∀ e ∈ msgs, (encode e).length = 34 + n := by
    intro e he
    obtain ⟨i, hi⟩ := List.getElem?_of_mem he
    obtain ⟨hi', rfl⟩ := hget i e hi
    rw [ddMsg_length, hcl i hi']
  have hml : msgs.length = input.length / n := by rw [← hmsgs, ddMsgs_length]
  have hk32 : input.length / n ≤ 2 ^ 32 := by rcases hk with ⟨-, h⟩ | h <;> omega
  have hF : Fits (packed msgs) := by
    unfold Fits
    rw [packed_length msgs _ hel, hml]
    have : input.length / n * (34 + n) ≤ 2 ^ 32 * (34 + n) := Nat.mul_le_mul_right _ hk32
    have : 2 ^ 32 * (34 + n) < 2 ^ 63 := by omega
    omega
  refine ⟨packed msgs, msgs, hmain, ?_, hml, rfl, hF, hwf, ?_⟩
  · obtain ⟨items, h5, h6, -⟩ := C11_dltit_terminates (packed msgs) hF
    have h7 : Messages (packed msgs) (items.map (·.2)) := ⟨items, dltit_scan hF h5, rfl⟩
    rw [messages_unique h7 (messages_packed hwf)] at h6
    exact h6
  · intro i e he
    obtain ⟨hi, rfl⟩ := hget i e he
    exact ddMsg_reads i (by omega)

theorem linesFit_short {late : Bool} {n : Nat} (h : n ≤ roomBehind late + 1) (input : Bytes) (i : Nat) :
    LinesFit (roomBehind late) (chunk n input i) := by
  rw [← taken_eq_iff]
  apply taken_short
  unfold chunk
  rw [List.length_take]
  omega

/-- **C51 (partial)** for payload sizes from 1 to 1025 (1024 with later standard libraries) this holds of every input. -/
theorem C51_round_trip_small_partial (bd : Build) (addr : Ctor → UInt8) (ecuid appid size input : Bytes) (rest : List Bytes)
    (n : Nat) (hecu : ecuid.length = 4) (happ : appid.length = 4) (hsize : Decimal size n) (h1 : 1 ≤ n)
    (h2 : n ≤ roomBehind bd.late + 1)
    (hk : input.length / n ≤ 42949673) :
    ∃ output msgs, (∀ out e, DdMain bd addr (ecuid :: appid :: size :: rest) input out e ↔
        out = output ∧ e = .finished (UInt32.ofNat (input.length / n))) ∧
      Collects (dltitNext output) 0 msgs ∧ msgs.length = input.length / n ∧
      ∀ i e, msgs[i]? = some e →
        DdMessage ecuid appid (MessageType.create addr true (.log .info)) i (chunk n input i) e := by
  obtain ⟨output, msgs, h3, h4, h5, -, -, -, h6⟩ := C51_round_trip_partial bd addr ecuid appid size input rest n hecu happ
    hsize h1 (by have := roomBehind_le bd.late; omega) (.inr hk) fun i _ => linesFit_short h2 input i
  exact ⟨output, msgs, h3, h4, h5, h6⟩

theorem cutMsg_head {late : Bool} {info : MessageType} {ecu app : B4} {len : UInt16} {c : UInt32} {p : Bytes} (post : Bytes)
    (hlen : 34 + taken late p + post.length < 16 + len.toNat) : Messages (cutMsg late (ddMsg info ecu app len c p) p ++ post) [] := by
  refine ⟨[], .bad 0 0 ⟨Nat.le_refl _, ?_, fun j _ h => by omega⟩ ?_, rfl⟩
  · rw [cutMsg_ddMsg]
    exact ⟨_, rfl⟩
  · intro v hv
    obtain ⟨hwf, pre, post', h1, h2⟩ := readableAt_iff_msgAt.1 hv
    have : pre = [] := List.eq_nil_of_length_eq_zero h2
    subst this
    have hl := congrArg List.length h1
    rw [cutMsg_ddMsg] at h1 hl
    simp only [List.length_append, storageHeader_length, stdHeader_length, extHeader_length, List.length_nil, encode_length,
      List.length_take] at hl
    have htb : ∀ x : B4, x.toBytes.length = 4 := fun _ => rfl
    rw [htb] at hl
    have h3 := hwf.2
    simp only [StorageHeader.asBytes, StdHeader.asBytes, encBE16_digit, encLE32_digit, B4.toBytes, encode, List.cons_append,
      List.nil_append, List.append_assoc, List.cons.injEq] at h1
    have h4 : len = v.dlt.header.length := by
      rw [← be16_digit len, ← be16_digit v.dlt.header.length]
      rw [h1.2.2.2.2.2.2.2.2.2.2.2.2.2.2.2.2.2.2.1, h1.2.2.2.2.2.2.2.2.2.2.2.2.2.2.2.2.2.2.2.1]
    have := taken_le late p
    rw [h4] at hlen
    omega

/-- **C51 (violated)** for every payload size from 1026 (1025) on there is an input of that many bytes (a newline at the
start) for which `dd_dlt` reports one message, but writes only 1025 bytes (one byte) of its payload (`write` on the
buffered standard output takes no more, and the result is not looked at): `dltit` reads no message from the output. The
numbers in brackets are for later standard libraries. -/
theorem C51_payload_cut (bd : Build) (addr : Ctor → UInt8) (ecuid appid size : Bytes) (rest : List Bytes) (n : Nat)
    (hecu : ecuid.length = 4) (happ : appid.length = 4) (hsize : Decimal size n) (h1 : roomBehind bd.late + 2 ≤ n) (h2 : n ≤ 65517) :
    ∃ input output : Bytes, input.length = n ∧ (∀ out e, DdMain bd addr (ecuid :: appid :: size :: rest) input out e ↔
        out = output ∧ e = .finished 1) ∧ output.length = 34 + (if bd.late then 1 else 1025) ∧ Messages output [] := by
  obtain ⟨ecu, app, len, hg, rfl, rfl, hlen, hn⟩ := ddGood_of (bd := bd) (addr := addr) hecu happ h2
  have hp := (C52_size_argument size n).2 ⟨hsize, by omega⟩
  have hil : (10 :: List.replicate (n - 1) 0 : Bytes).length = n := by rw [List.length_cons, List.length_replicate]; omega
  generalize hi : (10 :: List.replicate (n - 1) 0 : Bytes) = input at hil
  have hdiv : input.length / n = 1 := by rw [hil]; exact Nat.div_self (by omega)
  obtain ⟨s, h3, h4⟩ := ddLoop_finishes hg (by show 0 < (UInt16.ofNat n).toNat; omega) input (by
    show bd.checks = false ∨ input.length / (UInt16.ofNat n).toNat ≤ _
    rw [hn, hdiv]; exact .inr (by decide))
  simp only [hn, hdiv] at h3 h4
  have htake : input.take n = input := List.take_of_length_le (by omega)
  rw [ddOut, ddOut, List.append_nil, htake] at h4
  have htk : taken bd.late input = if bd.late then 1 else 1025 := by
    have hnl : ∀ j, 1 ≤ j → input[j]? ≠ some 10 := by
      intro j hj
      rw [← hi]
      cases j with
      | zero => omega
      | succ j =>
        rw [List.getElem?_cons_succ, List.getElem?_replicate]
        split <;> simp
    unfold taken
    cases h : rfind [10] input with
    | none =>
      exact absurd ((nl_at input 0).2 (by rw [← hi]; rfl)) (rfind_none h 0)
    | some i =>
      have h5 := (rfind_some (by decide) h).1
      rw [nl_at] at h5
      have : i = 0 := by
        apply Classical.byContradiction
        intro hne
        exact hnl i (by omega) h5
      subst this
      dsimp only
      unfold roomBehind at h1
      rw [hil]
      revert h1
      cases bd.late with
      | true => intro h1; rw [if_pos rfl] at h1; rw [if_pos ⟨rfl, by omega⟩]; rfl
      | false => intro h1; rw [if_neg (by decide)] at h1; rw [if_neg (by simp)]; simp only [Bool.false_eq_true, if_false]; omega
  have hmain := ddMain_loop (rest := rest) hp h3
  rw [h4] at hmain
  refine ⟨input, _, hil, hmain, ?_, ?_⟩
  · unfold cutMsg
    rw [List.length_take, ddMsg_length, htk]
    unfold roomBehind at h1
    split at h1 <;> rename_i hl <;> simp only [hl, if_true] <;> simp <;> omega
  · have := cutMsg_head (info := ddInfo ⟨bd, addr, ecu.toBytes, app.toBytes, UInt16.ofNat n⟩) (ecu := ecu) (app := app)
      (len := len) (c := 0) (p := input) (late := bd.late) [] (by
        rw [htk, hlen]
        unfold roomBehind at h1
        simp only [List.length_nil]
        split at h1 <;> rename_i hl <;> simp only [hl, if_true] <;> simp <;> omega)
    rwa [List.append_nil] at this

/-- **C51 (violated)** a build with overflow checks panics in the middle of message number 42949673 (of any payload
size), because its time stamp does not fit: behind the complete messages the output ends with 20 bytes of a header. -/
theorem C51_overflow (late : Bool) (addr : Ctor → UInt8) (ecuid appid size input : Bytes) (rest : List Bytes) (n : Nat)
    (hecu : ecuid.length = 4) (happ : appid.length = 4) (hsize : Decimal size n) (h2 : n ≤ 65517)
    (hk : 42949674 * n ≤ input.length) :
    ∃ output, ∀ out e, DdMain ⟨true, late⟩ addr (ecuid :: appid :: size :: rest) input out e ↔ out = output ∧ e = .panicked := by
  obtain ⟨ecu, app, len, hg, rfl, rfl, hlen, hn⟩ := ddGood_of (bd := ⟨true, late⟩) (addr := addr) hecu happ h2
  have hp := (C52_size_argument size n).2 ⟨hsize, by omega⟩
  obtain ⟨s, h3, h4⟩ := ddLoop_overflows hg rfl input (by show _ * (UInt16.ofNat n).toNat ≤ _; rw [hn]; exact hk)
  exact ⟨_, ddMain_loop (rest := rest) hp h3⟩

/-! ## C52 -/

/-- **C52** without three arguments: usage message, no output. -/
theorem C52_usage (bd : Build) (addr : Ctor → UInt8) (args : List Bytes) (input : Bytes) (h : args.length < 3) (out : Bytes)
    (e : DdEnd) : DdMain bd addr args input out e ↔ e = .usage ∧ out = [] := by
  match args, h with
  | [], _ => exact Iff.rfl
  | [a], _ => exact Iff.rfl
  | [a, b], _ => exact Iff.rfl

/-- **C52 (partial)** a size that is not a decimal number up to 65535: panic, no output. Missing: sizes above 65517, for which
the claim is false in a release build (`C52_too_large_unreadable`), and size 0 (`C52_size_zero_never_ends`). Sizes up to 65517
are C51. -/
theorem C52_bad_size_partial (bd : Build) (addr : Ctor → UInt8) (ecuid appid size input : Bytes) (rest : List Bytes)
    (h : ¬ ∃ n, n ≤ 65535 ∧ Decimal size n) (out : Bytes) (e : DdEnd) :
    DdMain bd addr (ecuid :: appid :: size :: rest) input out e ↔ e = .panicked ∧ out = [] := by
  have : parseU16 size = none := by
    cases hp : parseU16 size with
    | none => rfl
    | some v =>
      have := (C52_size_argument size v).1 hp
      exact absurd ⟨v, this.2, this.1⟩ h
  unfold DdMain
  simp only [this]

/-- **C52** an id of another length than four: panic without output as soon as there is one complete payload. -/
theorem C52_bad_id (bd : Build) (addr : Ctor → UInt8) (ecuid appid size input : Bytes) (rest : List Bytes) (n : Nat)
    (hsize : Decimal size n) (hn : n ≤ 65535) (hid : ecuid.length ≠ 4 ∨ (appid.length ≠ 4 ∧ n ≤ 65517)) (hlen : n ≤ input.length)
    (out : Bytes) (e : DdEnd) :
    DdMain bd addr (ecuid :: appid :: size :: rest) input out e ↔ out = [] ∧ e = .panicked := by
  have hp := (C52_size_argument size n).2 ⟨hsize, hn⟩
  have hn' : (UInt16.ofNat n).toNat = n := UInt16.toNat_ofNat_of_lt' (by show n < 65536; omega)
  have hnone : ∀ bs : Bytes, bs.length ≠ 4 → B4.ofBytes? bs = none := by
    intro bs h
    cases hb : B4.ofBytes? bs with
    | none => rfl
    | some x =>
      rw [ofBytes_iff] at hb
      exact absurd (by rw [hb]; rfl) h
  have hloop : DdLoop ⟨bd, addr, ecuid, appid, UInt16.ofNat n⟩ ⟨input, 0, .empty⟩ ⟨input.drop n, 0, .empty⟩ .panicked := by
    refine ⟨1, ?_⟩
    have : ddTurn ⟨bd, addr, ecuid, appid, UInt16.ofNat n⟩ ⟨input, 0, .empty⟩ = .inr (⟨input.drop n, 0, .empty⟩, .panicked) := by
      unfold ddTurn
      simp only [hn']
      rw [if_neg (by omega)]
      cases he : B4.ofBytes? ecuid with
      | none => rfl
      | some ecu =>
        rcases hid with h | ⟨h, h'⟩
        · rw [hnone _ h] at he; cases he
        · have : add16 bd.checks (4 + 10 + 4) (UInt16.ofNat n) = .ok (4 + 10 + 4 + UInt16.ofNat n) := by
            unfold add16
            rw [hn', if_pos]
            show 18 + n < 65536
            omega
          simp only [this, hnone _ h]
    rw [ddTurns, this]
  exact ddMain_loop (rest := rest) hp hloop out e

/-- **C52** fewer bytes than one payload: nothing is written and zero messages are reported, whatever the ids and the
size. -/
theorem C52_short_input (bd : Build) (addr : Ctor → UInt8) (ecuid appid size input : Bytes) (rest : List Bytes) (n : Nat)
    (hsize : Decimal size n) (hn : n ≤ 65535) (hlen : input.length < n) (out : Bytes) (e : DdEnd) :
    DdMain bd addr (ecuid :: appid :: size :: rest) input out e ↔ out = [] ∧ e = .finished 0 := by
  have hp := (C52_size_argument size n).2 ⟨hsize, hn⟩
  have hn' : (UInt16.ofNat n).toNat = n := UInt16.toNat_ofNat_of_lt' (by show n < 65536; omega)
  have hloop : DdLoop ⟨bd, addr, ecuid, appid, UInt16.ofNat n⟩ ⟨input, 0, .empty⟩ ⟨input, 0, .empty⟩ (.finished 0) :=
    ⟨1, by rw [ddTurns, ddTurn_end (by show input.length < (UInt16.ofNat n).toNat; omega)]⟩
  exact ddMain_loop (rest := rest) hp hloop out e

/-- **C52** sizes above 65517: a build with overflow checks panics without output as soon as there is one complete
payload. -/
theorem C52_too_large_panics (late : Bool) (addr : Ctor → UInt8) (ecuid appid size input : Bytes) (rest : List Bytes) (n : Nat)
    (hsize : Decimal size n) (hn : n ≤ 65535) (hbig : 65517 < n) (hlen : n ≤ input.length) (out : Bytes) (e : DdEnd) :
    DdMain ⟨true, late⟩ addr (ecuid :: appid :: size :: rest) input out e ↔ out = [] ∧ e = .panicked := by
  have hp := (C52_size_argument size n).2 ⟨hsize, hn⟩
  have hn' : (UInt16.ofNat n).toNat = n := UInt16.toNat_ofNat_of_lt' (by show n < 65536; omega)
  have hloop : DdLoop ⟨⟨true, late⟩, addr, ecuid, appid, UInt16.ofNat n⟩ ⟨input, 0, .empty⟩ ⟨input.drop n, 0, .empty⟩ .panicked := by
    refine ⟨1, ?_⟩
    have : ddTurn ⟨⟨true, late⟩, addr, ecuid, appid, UInt16.ofNat n⟩ ⟨input, 0, .empty⟩ = .inr (⟨input.drop n, 0, .empty⟩, .panicked) := by
      unfold ddTurn
      simp only [hn']
      rw [if_neg (by omega)]
      cases he : B4.ofBytes? ecuid with
      | none => rfl
      | some ecu =>
        have : add16 true (4 + 10 + 4) (UInt16.ofNat n) = .panic := by
          unfold add16
          rw [hn', if_neg, if_pos rfl]
          show ¬ 18 + n < 65536
          omega
        simp only [this]
    rw [ddTurns, this]
  exact ddMain_loop (rest := rest) hp hloop out e

/-- **C52 (violated)** in a build without overflow checks the sizes from 65518 to 65521 are accepted, but no message is
readable: the length field wraps around to less than the size of the header. -/
theorem C52_too_large_unreadable (late : Bool) (addr : Ctor → UInt8) (ecuid appid size : Bytes) (rest : List Bytes) (n : Nat)
    (hecu : ecuid.length = 4) (happ : appid.length = 4) (hsize : Decimal size n) (h1 : 65518 ≤ n) (h2 : n ≤ 65521)
    (input : Bytes) (hlen : n ≤ input.length) :
    ∃ output, (∀ out e, DdMain ⟨false, late⟩ addr (ecuid :: appid :: size :: rest) input out e ↔
        out = output ∧ e = .finished (UInt32.ofNat (input.length / n))) ∧ 1 ≤ input.length / n ∧ Messages output [] := by
  obtain ⟨ecu, he, rfl⟩ := ofBytes_length hecu
  obtain ⟨app, ha, rfl⟩ := ofBytes_length happ
  have hp := (C52_size_argument size n).2 ⟨hsize, by omega⟩
  have hn : (UInt16.ofNat n).toNat = n := UInt16.toNat_ofNat_of_lt' (by show n < 65536; omega)
  have hg : DdGood ⟨⟨false, late⟩, addr, ecu.toBytes, app.toBytes, UInt16.ofNat n⟩ ecu app (4 + 10 + 4 + UInt16.ofNat n) := by
    refine ⟨he, ha, ?_⟩
    show add16 false (4 + 10 + 4) (UInt16.ofNat n) = _
    unfold add16
    split <;> rfl
  have hl : (4 + 10 + 4 + UInt16.ofNat n : UInt16).toNat = n - 65518 := by
    rw [UInt16.toNat_add, hn]
    show (18 + n) % 65536 = _
    omega
  obtain ⟨s, h3, h4⟩ := ddLoop_finishes hg (by show 0 < (UInt16.ofNat n).toNat; omega) input (.inl rfl)
  simp only [hn] at h3 h4
  have hd : 1 ≤ input.length / n := (Nat.one_le_div_iff (by omega)).2 hlen
  refine ⟨_, ddMain_loop (rest := rest) hp h3, hd, ?_⟩
  rw [h4]
  obtain ⟨k, hk⟩ : ∃ k, input.length / n = k + 1 := ⟨input.length / n - 1, by omega⟩
  rw [hk, ddOut]
  generalize ddOut _ _ _ _ _ _ _ _ _ = post
  generalize hlen' : (4 + 10 + 4 + UInt16.ofNat n : UInt16) = len at hl
  refine ⟨[], .bad 0 0 ⟨Nat.le_refl _, ?_, fun j _ h => by omega⟩ ?_, rfl⟩
  · rw [cutMsg_ddMsg]
    exact ⟨_, rfl⟩
  · intro v hv
    obtain ⟨hwf, pre, post', h1, h2⟩ := readableAt_iff_msgAt.1 hv
    have : pre = [] := List.eq_nil_of_length_eq_zero h2
    subst this
    rw [cutMsg_ddMsg] at h1
    have h3 := hwf.2
    simp only [StorageHeader.asBytes, StdHeader.asBytes, encBE16_digit, encLE32_digit, B4.toBytes, encode, List.cons_append,
      List.nil_append, List.append_assoc, List.cons.injEq] at h1
    have h4 : len = v.dlt.header.length := by
      rw [← be16_digit len, ← be16_digit v.dlt.header.length]
      rw [h1.2.2.2.2.2.2.2.2.2.2.2.2.2.2.2.2.2.2.1, h1.2.2.2.2.2.2.2.2.2.2.2.2.2.2.2.2.2.2.2.1]
    rw [h4] at hl
    omega

/-- **C52 (violated)** payload size 0 is accepted; a build without overflow checks then never ends, whatever the
input: after any number of turns it is still running and has written that many messages. -/
theorem C52_size_zero_never_ends (late : Bool) (addr : Ctor → UInt8) (ecuid appid size input : Bytes) (rest : List Bytes)
    (hecu : ecuid.length = 4) (happ : appid.length = 4) (hsize : Decimal size 0) :
    ¬ ∃ out e, DdMain ⟨false, late⟩ addr (ecuid :: appid :: size :: rest) input out e := by
  obtain ⟨ecu, app, len, hg, rfl, rfl, hlen, hn⟩ := ddGood_of (bd := ⟨false, late⟩) (addr := addr) (n := 0) hecu happ (by decide)
  have hp := (C52_size_argument size 0).2 ⟨hsize, by omega⟩
  rintro ⟨out, e, h⟩
  unfold DdMain at h
  simp only [hp] at h
  obtain ⟨s, ⟨k, hk⟩, -⟩ := h
  obtain ⟨w, h1, -⟩ := ddTurns_run hg k input 0 .empty (by show k * (UInt16.ofNat 0).toNat ≤ _; rw [hn]; omega) (.inl rfl)
  have := h1 0
  rw [Nat.add_zero, hk] at this
  simp [ddTurns] at this

/-- **C52** with overflow checks, payload size 0 panics on every input, after 42949673 empty messages. -/
theorem C52_size_zero_panics (late : Bool) (addr : Ctor → UInt8) (ecuid appid size input : Bytes) (rest : List Bytes)
    (hecu : ecuid.length = 4) (happ : appid.length = 4) (hsize : Decimal size 0) :
    ∃ output, ∀ out e, DdMain ⟨true, late⟩ addr (ecuid :: appid :: size :: rest) input out e ↔ out = output ∧ e = .panicked :=
  C51_overflow late addr ecuid appid size input rest 0 hecu happ hsize (by decide) (by omega)

/-- **C51** the hypotheses are met: two messages from five bytes of input, one of them a newline. -/
example : ∃ output msgs, DdMain ⟨true, false⟩ (fun _ => 0) [[101, 99, 117, 49], [97, 112, 112, 49], [50]] [1, 2, 10, 4, 5] output (.finished 2) ∧
    Collects (dltitNext output) 0 msgs ∧ msgs.length = 2 ∧
    (∀ e, msgs[1]? = some e → e.dlt.payload = .ok (some [10, 4])) := by
  obtain ⟨output, msgs, h1, h2, h3, h4⟩ := C51_round_trip_small_partial ⟨true, false⟩ (fun _ => 0) [101, 99, 117, 49] [97, 112, 112, 49] [50]
    [1, 2, 10, 4, 5] [] 2 rfl rfl ⟨[2], by decide, by decide, rfl, .inl rfl⟩ (by decide) (by decide) (by decide)
  exact ⟨output, msgs, (h1 _ _).2 ⟨rfl, rfl⟩, h2, h3, fun e he => (h4 1 e he).pay⟩

/-- **C51_overflow, C52** the hypotheses are met by every input, for size 0. -/
example : Decimal [48] 0 ∧ Decimal [43, 54, 53, 53, 51, 53] 65535 :=
  ⟨⟨[0], by decide, by decide, rfl, .inl rfl⟩, ⟨[6, 5, 5, 3, 5], by decide, by decide, rfl, .inr rfl⟩⟩

end Verif
