import Verif.Props.DdDlt

/-! # C84: the output of `dd_dlt`, byte for byte -/

set_option linter.unusedSimpArgs false

namespace Verif

open Spec

theorem accepted_taken (late : Bool) (data : Bytes) : Accepted late data (data.take (taken late data)) := by
  unfold taken
  cases h : rfind [10] data with
  | none =>
    refine .inl ⟨fun hm => ?_, List.take_length⟩
    obtain ⟨k, hk⟩ := List.getElem?_of_mem hm
    exact rfind_none h k ((nl_at _ _).2 hk)
  | some i =>
    obtain ⟨h2, h3⟩ := rfind_some (by decide) h
    have hi : i < data.length := by
      have := h2.length_le
      simp at this
      omega
    have hsplit : data = data.take i ++ [10] ++ data.drop (i + 1) := by
      obtain ⟨r, hr⟩ := h2
      have : data.drop (i + 1) = r := by
        rw [← List.drop_drop, ← hr]; rfl
      rw [this, List.append_assoc, hr, List.take_append_drop]
    refine .inr ⟨data.take i, data.drop (i + 1), hsplit, fun hm => ?_, ?_⟩
    · obtain ⟨k, hk⟩ := List.getElem?_of_mem hm
      rw [List.getElem?_drop] at hk
      exact h3 _ (by omega) ((nl_at _ _).2 hk)
    · have hl : (data.take i ++ [10]).length = i + 1 := by rw [List.length_append, List.length_take]; simp; omega
      have hcut : ∀ k, data.take (i + 1 + k) = data.take i ++ [10] ++ (data.drop (i + 1)).take k := fun k => by
        conv => lhs; rw [hsplit]
        rw [List.take_append, hl, List.take_of_length_le (by rw [hl]; omega), show i + 1 + k - (i + 1) = k by omega]
      have h4 : data.take (min data.length (i + 1 + 1024)) = data.take (i + 1 + 1024) := by
        rw [List.take_eq_take_iff]
        omega
      show data.take (if late = true ∧ data.length ≥ i + 1 + 1024 then i + 1 else min data.length (i + 1 + 1024)) = _
      cases late with
      | false => rw [if_neg (by simp), h4, hcut, if_neg (by decide)]
      | true =>
        rw [if_pos (rfl : true = true), List.length_drop]
        by_cases hb : data.length ≥ i + 1 + 1024
        · rw [if_pos ⟨rfl, hb⟩, if_neg (by omega)]
          have := hcut 0
          rwa [List.take_zero, Nat.add_zero] at this
        · rw [if_neg fun h => hb h.2, if_pos (by omega), h4, hcut,
            List.take_of_length_le (l := data.drop (i + 1)) (by rw [List.length_drop]; omega)]

/-- There is only one such part. -/
theorem accepted_unique {late : Bool} {data p q : Bytes} (hp : Accepted late data p) (hq : Accepted late data q) : p = q := by
  have le : ∀ {pre post pre' post' : Bytes}, pre ++ [10] ++ post = pre' ++ [10] ++ post' → 10 ∉ post' →
      post'.length ≤ post.length := by
    intro pre post pre' post' h h2
    apply Classical.byContradiction
    intro hlt
    apply h2
    have h4 := congrArg List.length h
    simp only [List.length_append, List.length_cons, List.length_nil] at h4
    have h3 : (pre ++ [10] ++ post)[pre.length]? = some 10 := by simp
    rw [h, List.getElem?_append_right (by simp; omega)] at h3
    exact List.mem_of_getElem? h3
  have key : ∀ {pre post pre' post' : Bytes}, pre ++ [10] ++ post = pre' ++ [10] ++ post' → 10 ∉ post → 10 ∉ post' →
      pre = pre' ∧ post = post' := by
    intro pre post pre' post' h h1 h2
    have hlen : post.length = post'.length := Nat.le_antisymm (le h.symm h1) (le h h2)
    have h3 := List.append_inj' h hlen
    exact ⟨(List.append_inj' h3.1 rfl).1, h3.2⟩
  rcases hp with ⟨h1, rfl⟩ | ⟨pre, post, h1, h2, rfl⟩ <;> rcases hq with ⟨h3, rfl⟩ | ⟨pre', post', h3, h4, rfl⟩
  · rfl
  · exact absurd (by rw [h3]; simp) h1
  · exact absurd (by rw [h1]; simp) h3
  · obtain ⟨rfl, rfl⟩ := key (h1.symm.trans h3) h2 h4
    rfl

/-- Everything is taken exactly if the lines fit. -/
theorem accepted_all_iff {late : Bool} {data : Bytes} : Accepted late data data ↔ LinesFit (roomBehind late) data := by
  rw [← taken_eq_iff]
  constructor
  · intro h
    have h1 := congrArg List.length (accepted_unique h (accepted_taken late data))
    have := taken_le late data
    rw [List.length_take] at h1
    omega
  · intro h
    have := accepted_taken late data
    rwa [h, List.take_length] at this

theorem encBE32_digit (x : UInt32) : (encBE32 x).toBytes = be4 x.toNat := by
  have := x.toNat_lt
  unfold encBE32 be4 digit B4.toBytes
  rw [show x.toNat / 256 ^ 0 % 256 = x.toNat % 256 by omega, show x.toNat / 256 ^ 1 % 256 = x.toNat / 256 % 256 by omega,
    show x.toNat / 256 ^ 2 % 256 = x.toNat / 65536 % 256 by omega, show x.toNat / 256 ^ 3 % 256 = x.toNat / 16777216 by omega]

theorem msecs_nat : ∀ r : Fin 100, ((UInt32.ofNat r.val).toInt32 * 10000).toUInt32.toNat = r.val * 10000 := by decide +kernel

theorem be32_mod (v : Nat) : be4 (v % 2 ^ 32) = be4 v := by
  unfold be4 digit
  rw [show v % 2 ^ 32 / 256 ^ 0 % 256 = v / 256 ^ 0 % 256 by omega, show v % 2 ^ 32 / 256 ^ 1 % 256 = v / 256 ^ 1 % 256 by omega,
    show v % 2 ^ 32 / 256 ^ 2 % 256 = v / 256 ^ 2 % 256 by omega, show v % 2 ^ 32 / 256 ^ 3 % 256 = v / 256 ^ 3 % 256 by omega]

theorem cutMsg_ddHeader {late : Bool} {info : MessageType} {ecu app : B4} {len : UInt16} {n : Nat} (hlen : len.toNat = (18 + n) % 2 ^ 16) (i : Nat) (p : Bytes) :
    cutMsg late (ddMsg info ecu app len (UInt32.ofNat i) p) p =
      ddHeader ecu.toBytes app.toBytes info.msin n i ++ p.take (taken late p) := by
  have hc : (UInt32.ofNat i).toNat = i % 2 ^ 32 := UInt32.toNat_ofNat
  rw [cutMsg_ddMsg]
  unfold ddHeader StorageHeader.asBytes StdHeader.asBytes ExtHeader.asBytes
  dsimp only
  have hl0 : digit ((18 + n) % 2 ^ 16) 0 = digit (18 + n) 0 := by
    unfold digit; rw [show (18 + n) % 2 ^ 16 / 256 ^ 0 % 256 = (18 + n) / 256 ^ 0 % 256 by omega]
  have hl1 : digit ((18 + n) % 2 ^ 16) 1 = digit (18 + n) 1 := by
    unfold digit; rw [show (18 + n) % 2 ^ 16 / 256 ^ 1 % 256 = (18 + n) / 256 ^ 1 % 256 by omega]
  rw [encLE32_digit, encLE32_digit, encBE16_digit, encBE32_digit, hlen, hl0, hl1]
  have hs : (UInt32.ofNat i / 100).toNat = i % 2 ^ 32 / 100 := by
    rw [UInt32.toNat_div, hc]; rfl
  have hm : ((UInt32.ofNat i % 100).toInt32 * 10000).toUInt32.toNat = i % 2 ^ 32 % 100 * 10000 := by
    have h1 : UInt32.ofNat i % 100 = UInt32.ofNat (i % 2 ^ 32 % 100) := by
      apply UInt32.toNat_inj.1
      rw [UInt32.toNat_mod, hc, UInt32.toNat_ofNat_of_lt' (by show i % 2 ^ 32 % 100 < 4294967296; omega)]
      rfl
    rw [h1]
    exact msecs_nat ⟨i % 2 ^ 32 % 100, by omega⟩
  have ht : (UInt32.ofNat i * 100).toNat = 100 * (i % 2 ^ 32) % 2 ^ 32 := by
    rw [UInt32.toNat_mul, hc, Nat.mul_comm]; rfl
  have hk : (UInt32.ofNat i).toUInt8 = digit (i % 2 ^ 32) 0 := by
    apply UInt8.toNat_inj.1
    unfold digit
    rw [UInt32.toNat_toUInt8, hc, u8_ofNat_toNat_mod _ (by omega)]
    omega
  rw [hs, hm, ht, hk, be32_mod]
  simp only [B4.toBytes, le4, List.append_assoc, List.cons_append, List.nil_append]

/-- The pieces `dd_dlt` puts out, from message `j` on. -/
theorem ddOut_pieces {late : Bool} {info : MessageType} {ecu app : B4} {len : UInt16} {n : Nat} (hlen : len.toNat = (18 + n) % 2 ^ 16) :
    ∀ (k j : Nat) (input : Bytes), ddOut late info ecu app len n k (UInt32.ofNat j) input =
      ((List.range k).map fun i => ddHeader ecu.toBytes app.toBytes info.msin n (j + i) ++
        (chunk n input i).take (taken late (chunk n input i))).flatten
  | 0, j, input => rfl
  | k + 1, j, input => by
    have h0 : input.take n = chunk n input 0 := by unfold chunk; rw [Nat.zero_mul, List.drop_zero]
    rw [ddOut, List.range_succ_eq_map, List.map_cons, List.flatten_cons, List.map_map]
    have h1 : UInt32.ofNat j + 1 = UInt32.ofNat (j + 1) := by
      rw [UInt32.ofNat_add]; rfl
    rw [h1, ddOut_pieces hlen k (j + 1) (input.drop n), h0, cutMsg_ddHeader hlen, Nat.add_zero]
    congr 2
    apply List.map_congr_left
    intro i _
    have h2 : chunk n (input.drop n) i = chunk n input (i + 1) := by
      unfold chunk
      rw [List.drop_drop]
      congr 2
      rw [Nat.add_mul]
      omega
    simp only [Function.comp]
    rw [h2, show j + 1 + i = j + (i + 1) by omega]

theorem ddGood_wrap {bd : Build} {addr : Ctor → UInt8} {ecuid appid : Bytes} {n : Nat} (hecu : ecuid.length = 4)
    (happ : appid.length = 4) (h2 : n ≤ 65517 ∨ (bd.checks = false ∧ n ≤ 65535)) :
    ∃ ecu app len, DdGood ⟨bd, addr, ecuid, appid, UInt16.ofNat n⟩ ecu app len ∧ ecuid = ecu.toBytes ∧ appid = app.toBytes ∧
      len.toNat = (18 + n) % 2 ^ 16 ∧ (UInt16.ofNat n).toNat = n := by
  obtain ⟨ecu, he, he'⟩ := ofBytes_length hecu
  obtain ⟨app, ha, ha'⟩ := ofBytes_length happ
  have hn : (UInt16.ofNat n).toNat = n := UInt16.toNat_ofNat_of_lt' (by show n < 65536; omega)
  refine ⟨ecu, app, 4 + 10 + 4 + UInt16.ofNat n, ⟨he, ha, ?_⟩, he', ha', ?_, hn⟩
  · show add16 bd.checks (4 + 10 + 4) (UInt16.ofNat n) = _
    unfold add16
    rw [hn]
    rcases h2 with h | ⟨hoff, h⟩
    · rw [if_pos]
      show 18 + n < 65536
      omega
    · rw [hoff]; split <;> rfl
  · rw [UInt16.toNat_add, hn]
    rfl

/-- **C84** for four-byte ids and payload sizes from 1 to 65517 (65535 if the build does not check for overflow: the
length field then holds the length modulo 65536), on every input (of fewer than 42949674 payloads if the
build checks for overflow): `dd_dlt` ends normally, reports `⌊len / n⌋` modulo 2^32, and its output is exactly, for every
complete payload of the input in order, the 34 header bytes and the part of the payload that standard output takes in one
call. -/
theorem C84_dd_output (bd : Build) (addr : Ctor → UInt8) (ecuid appid size input : Bytes) (rest : List Bytes) (n : Nat)
    (hecu : ecuid.length = 4) (happ : appid.length = 4) (hsize : Decimal size n) (h1 : 1 ≤ n)
    (h2 : n ≤ 65517 ∨ (bd.checks = false ∧ n ≤ 65535)) (hk : bd.checks = false ∨ input.length / n ≤ 42949673) :
    ∃ parts : List Bytes, parts.length = input.length / n ∧ (∀ i p, parts[i]? = some p → Accepted bd.late (chunk n input i) p) ∧
      ∀ out e, DdMain bd addr (ecuid :: appid :: size :: rest) input out e ↔
        out = (parts.mapIdx fun i p => ddHeader ecuid appid (MessageType.create addr true (.log .info)).msin n i ++ p).flatten ∧
        e = .finished (UInt32.ofNat (input.length / n)) := by
  obtain ⟨ecu, app, len, hg, rfl, rfl, hlen, hn⟩ := ddGood_wrap (bd := bd) (addr := addr) hecu happ h2
  have hp := (C52_size_argument size n).2 ⟨hsize, by omega⟩
  obtain ⟨s, h3, h4⟩ := ddLoop_finishes hg (by show 0 < (UInt16.ofNat n).toNat; omega) input (by
    show bd.checks = false ∨ input.length / (UInt16.ofNat n).toNat ≤ _
    rw [hn]
    exact hk)
  simp only [hn] at h3 h4
  have h5 := ddOut_pieces (late := bd.late) (info := ddInfo ⟨bd, addr, ecu.toBytes, app.toBytes, UInt16.ofNat n⟩) (ecu := ecu) (app := app) hlen
    (input.length / n) 0 input
  rw [show UInt32.ofNat 0 = 0 from rfl] at h5
  rw [h5] at h4
  have hmain := ddMain_loop (rest := rest) hp h3
  rw [h4] at hmain
  refine ⟨(List.range (input.length / n)).map fun i => (chunk n input i).take (taken bd.late (chunk n input i)), by simp, ?_, ?_⟩
  · intro i p hi
    rw [List.getElem?_map] at hi
    obtain ⟨j, hj, rfl⟩ := Option.map_eq_some_iff.1 hi
    obtain ⟨h6, h7⟩ := List.getElem?_eq_some_iff.1 hj
    rw [List.getElem_range] at h7
    subst h7
    exact accepted_taken _ _
  · intro out e
    rw [hmain]
    have : (List.map (fun i => ddHeader ecu.toBytes app.toBytes (ddInfo ⟨bd, addr, ecu.toBytes, app.toBytes, UInt16.ofNat n⟩).msin n (0 + i) ++
          (chunk n input i).take (taken bd.late (chunk n input i))) (List.range (input.length / n))) =
        ((List.range (input.length / n)).map fun i => (chunk n input i).take (taken bd.late (chunk n input i))).mapIdx fun i p =>
          ddHeader ecu.toBytes app.toBytes (MessageType.create addr true (.log .info)).msin n i ++ p := by
      apply List.ext_getElem
      · simp
      · intro i h6 h7
        simp [ddInfo]
    rw [this]

theorem accepted_length_le {late : Bool} {data p : Bytes} (h : Accepted late data p) : p.length ≤ data.length := by
  rw [accepted_unique h (accepted_taken late data), List.length_take]
  omega

theorem accepted_full {late : Bool} {data p : Bytes} (h : Accepted late data p) (hl : data.length ≤ p.length) :
    LinesFit (roomBehind late) data := by
  rw [← taken_eq_iff]
  rw [accepted_unique h (accepted_taken late data), List.length_take] at hl
  have := taken_le late data
  omega

theorem ddHeader_length {ecuid appid : Bytes} (hecu : ecuid.length = 4) (happ : appid.length = 4) (info : UInt8) (n i : Nat) :
    (ddHeader ecuid appid info n i).length = 34 := by
  simp [ddHeader, le4, be4, hecu, happ]

/-- If all are at most `m` and the sum is at least `m` times the number, all are `m`. -/
theorem all_eq_of_sum {m : Nat} : ∀ (l : List Nat), (∀ x ∈ l, x ≤ m) → l.sum ≤ l.length * m ∧ (l.length * m ≤ l.sum → ∀ x ∈ l, x = m)
  | [], _ => by simp
  | a :: l, h => by
    obtain ⟨h1, h2⟩ := all_eq_of_sum l fun x hx => h x (List.mem_cons_of_mem _ hx)
    have ha := h a (List.mem_cons_self ..)
    simp only [List.sum_cons, List.length_cons, Nat.add_mul, Nat.one_mul]
    refine ⟨by omega, fun hs x hx => ?_⟩
    rcases List.mem_cons.1 hx with rfl | hx
    · omega
    · exact h2 (by omega) x hx

/-- **C84** whatever comes out of a run: it reads back as the input (one message per complete payload, carrying it, with
the ids, counters and times) exactly if no payload has more than 1024 (1023 with later standard libraries) bytes behind its last newline. -/
theorem C84_reads_back_iff (bd : Build) (addr : Ctor → UInt8) (ecuid appid size input : Bytes) (rest : List Bytes) (n : Nat)
    (hecu : ecuid.length = 4) (happ : appid.length = 4) (hsize : Decimal size n) (h1 : 1 ≤ n) (h2 : n ≤ 65517)
    (hk : (bd.checks = false ∧ input.length / n ≤ 2 ^ 32) ∨ input.length / n ≤ 42949673) (out : Bytes) (e : DdEnd)
    (hrun : DdMain bd addr (ecuid :: appid :: size :: rest) input out e) :
    (∃ msgs, Messages out msgs ∧ msgs.length = input.length / n ∧ ∀ i m, msgs[i]? = some m →
      DdMessage ecuid appid (MessageType.create addr true (.log .info)) i (chunk n input i) m) ↔
    ∀ i, i < input.length / n → LinesFit (roomBehind bd.late) (chunk n input i) := by
  have hcl : ∀ i, i < input.length / n → (chunk n input i).length = n := fun i hi => chunk_length (index_le _ i rfl hi)
  constructor
  · rintro ⟨msgs, hm, hlen, hmsg⟩
    obtain ⟨parts, h3, h4, h5⟩ := C84_dd_output bd addr ecuid appid size input rest n hecu happ hsize h1 (.inl h2)
      (hk.imp (fun h => h.1) id)
    have h6 := ((h5 _ _).1 hrun).1
    have h7 := (messages_sum hm).1
    have hall : ∀ x ∈ msgs.map fun e => (encode e).length, x = 34 + n := by
      intro x hx
      obtain ⟨m, hm', rfl⟩ := List.mem_map.1 hx
      obtain ⟨i, hi⟩ := List.getElem?_of_mem hm'
      have hi' : i < input.length / n := by have := (List.getElem?_eq_some_iff.1 hi).1; omega
      rw [(hmsg i m hi).size, hcl i hi']
    have hsum : (msgs.map fun e => (encode e).length).sum = msgs.length * (34 + n) := by
      rw [show (msgs.map fun e => (encode e).length) = List.replicate msgs.length (34 + n) from
        List.eq_replicate_iff.2 ⟨by simp, hall⟩]
      simp
    have hout : out.length = 34 * parts.length + (parts.map List.length).sum := by
      rw [h6]
      have key : ∀ (parts : List Bytes) (f : Nat → Bytes), (∀ i, (f i).length = 34) →
          (parts.mapIdx fun i p => f i ++ p).flatten.length = 34 * parts.length + (parts.map List.length).sum := by
        intro parts
        induction parts with
        | nil => intro f _; rfl
        | cons p ps ih =>
          intro f hf
          rw [List.mapIdx_cons, List.flatten_cons, List.length_append, List.length_append, hf,
            ih (fun i => f (i + 1)) fun i => hf (i + 1), List.map_cons, List.sum_cons, List.length_cons]
          omega
      exact key parts _ fun i => ddHeader_length hecu happ _ n i
    have hle : ∀ x ∈ parts.map List.length, x ≤ n := by
      intro x hx
      obtain ⟨p, hp, rfl⟩ := List.mem_map.1 hx
      obtain ⟨i, hi⟩ := List.getElem?_of_mem hp
      have hi' : i < input.length / n := by have := (List.getElem?_eq_some_iff.1 hi).1; omega
      have := accepted_length_le (h4 i p hi)
      rw [hcl i hi'] at this
      exact this
    have hfull := (all_eq_of_sum _ hle).2 (by
      rw [List.length_map, h3]
      rw [hsum, hlen, hout, h3, Nat.mul_add, Nat.mul_comm _ 34] at h7
      omega)
    intro i hi
    have hip : parts[i]? = some parts[i] := List.getElem?_eq_getElem (by omega)
    refine accepted_full (h4 i _ hip) ?_
    rw [hcl i hi, hfull _ (List.mem_map.2 ⟨_, List.mem_of_getElem? hip, rfl⟩)]
    exact Nat.le_refl _
  · intro hfit
    obtain ⟨output, msgs, h3, h4, h5, h6, hF, hwf, h7⟩ := C51_round_trip_partial bd addr ecuid appid size input rest n hecu happ
      hsize h1 h2 hk hfit
    have h8 := ((h3 _ _).1 hrun).1
    subst h8
    exact ⟨msgs, by rw [h6]; exact messages_packed hwf, h5, h7⟩

/-- **C84** a payload of three bytes; one with a newline and 1025 bytes behind it, of which the last is lost (all of them
with later standard libraries). -/
example : Accepted false [1, 2, 3] [1, 2, 3] ∧ Accepted false (7 :: 10 :: List.replicate 1025 0) (7 :: 10 :: List.replicate 1024 0) ∧
    Accepted true (7 :: 10 :: List.replicate 1025 0) [7, 10] ∧ ¬ LinesFit (roomBehind false) (7 :: 10 :: List.replicate 1025 0) := by
  refine ⟨.inl ⟨by decide, rfl⟩, .inr ⟨[7], List.replicate 1025 0, rfl, ?_, ?_⟩, .inr ⟨[7], List.replicate 1025 0, rfl, ?_, ?_⟩, ?_⟩
  · intro h; have := List.eq_of_mem_replicate h; revert this; decide
  · rw [if_neg (by decide), List.take_replicate]; rfl
  · intro h; have := List.eq_of_mem_replicate h; revert this; decide
  · rw [if_pos rfl, if_neg (by rw [List.length_replicate]; decide)]; rfl
  · intro h
    have := h [7] (List.replicate 1025 0) rfl (by intro h; have := List.eq_of_mem_replicate h; revert this; decide)
    rw [List.length_replicate] at this
    revert this
    decide

/-- **C84** the run of `dd_dlt ecu1 app1 2` on five bytes, one of them a newline: two messages, 72 bytes. -/
example : ∃ output, DdMain ⟨true, false⟩ (fun _ => 0) [[101, 99, 117, 49], [97, 112, 112, 49], [50]] [1, 2, 10, 4, 5] output (.finished 2) ∧
    output.length = 72 := by
  obtain ⟨parts, h1, h2, h3⟩ := C84_dd_output ⟨true, false⟩ (fun _ => 0) [101, 99, 117, 49] [97, 112, 112, 49] [50]
    [1, 2, 10, 4, 5] [] 2 rfl rfl ⟨[2], by decide, by decide, rfl, .inl rfl⟩ (by decide) (by decide) (by decide)
  refine ⟨_, (h3 _ _).2 ⟨rfl, rfl⟩, ?_⟩
  have hlen : parts.length = 2 := h1
  match parts, hlen with
  | [p, q], _ =>
    have hp : p.length = 2 := congrArg List.length (accepted_unique (h2 0 p rfl) (.inl ⟨by decide, rfl⟩))
    have hq : q.length = 2 := congrArg List.length (accepted_unique (h2 1 q rfl) (.inr ⟨[], [4], rfl, by decide, rfl⟩))
    simp [ddHeader, le4, be4, hp, hq]

end Verif
