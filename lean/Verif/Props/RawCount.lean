import Verif.Props.OversizedPar
import Verif.Props.DdExact
import Verif.Props.DdParallel
import Verif.Props.Cost
import Verif.Props.TestGen

/-! # C136: where count_hello_world_raw finds the text -/

set_option linter.unusedSimpArgs false

namespace Verif

open Spec

/-- The number of places of `bytes` at which `text` stands. -/
def Spec.occ (text bytes : Bytes) : Nat := ((List.range bytes.length).filter fun i => decide (text <+: bytes.drop i)).length

theorem occ_findIter (bytes : Bytes) (hF : Fits bytes) : (findIter helloWorld bytes).length = occ helloWorld bytes := by
  obtain ⟨-, h2, h3⟩ := C49_raw bytes hF
  unfold occ
  congr 1
  refine nat_sorted_ext h2 (List.pairwise_lt_range.filter _) fun i => ?_
  rw [h3, List.mem_filter, List.mem_range, decide_eq_true_eq]
  constructor
  · intro h
    refine ⟨?_, h⟩
    have := h.length_le
    rw [List.length_drop, show helloWorld.length = 11 from rfl] at this
    omega
  · exact fun h => h.2

/-- `count_hello_world_raw` counts the places at which the text stands. -/
theorem raw_iff {num : Nat} (bytes : Bytes) (hF : Fits bytes) (r : Res Report) :
    RunCmd num bytes .countHelloWorldRaw r ↔ r = .ok (.number (occ helloWorld bytes)) := by
  have h : RunCmd num bytes .countHelloWorldRaw (.ok (.number (occ helloWorld bytes))) := by
    rw [← occ_findIter bytes hF]
    exact printed_ok (C49_raw bytes hF).1
  constructor
  · intro h'
    have : some r = some (Res.ok (Report.number (occ helloWorld bytes))) := h'.symm.trans h
    cases this
    rfl
  · rintro rfl
    exact h

theorem occ_append {a b : Bytes} (hF : Fits (a ++ b)) (hm : b = [] ∨ dltMarker <+: b) :
    occ helloWorld (a ++ b) = occ helloWorld a + occ helloWorld b := by
  rcases hm with rfl | hm
  · rw [List.append_nil]; rfl
  · obtain ⟨hFa, hFb⟩ := fits_parts hF
    obtain ⟨m, n, k, h1, h2, h3, -, -, h4⟩ := C114_raw (num := 1) a b hF
    have e1 := (raw_iff _ hFa _).1 h1
    have e2 := (raw_iff _ hFb _).1 h2
    have e3 := (raw_iff _ hF _).1 h3
    simp only [Res.ok.injEq, Report.number.injEq] at e1 e2 e3
    rw [← e1, ← e2, ← e3]
    exact h4 hm

/-- In pieces that each start with the marker the text is found as often as in the pieces together. -/
theorem occ_pieces : ∀ (ps : List Bytes), Fits ps.flatten → (∀ p ∈ ps, dltMarker <+: p) →
    occ helloWorld ps.flatten = (ps.map (occ helloWorld)).sum
  | [], _, _ => rfl
  | p :: ps, hF, hm => by
    rw [List.flatten_cons] at hF ⊢
    rw [occ_append hF ?_, occ_pieces ps (fits_parts hF).2 fun q hq => hm q (List.mem_cons_of_mem _ hq), List.map_cons,
      List.sum_cons]
    cases ps with
    | nil => exact .inl rfl
    | cons q ps =>
      refine .inr ?_
      rw [List.flatten_cons]
      exact (hm q (by simp)).trans (List.prefix_append _ _)

theorem packed_map (es : List StorageEntry) : packed es = (es.map encode).flatten := by
  induction es with
  | nil => rfl
  | cons e es ih => rw [packed_cons, ih]; rfl

theorem encode_marker {e : StorageEntry} (h : WF e) : dltMarker <+: encode e := by
  have := wf_marker_prefix h []
  rwa [List.append_nil] at this

/-- **C136** on a log of messages one after the other `count_hello_world_raw` finds exactly what is in the messages: no text
is found across the border of two messages. -/
theorem C136_raw (es : List StorageEntry) (hw : ∀ e ∈ es, WF e) (hF : Fits (packed es)) (num : Nat) (r : Res Report) :
    RunCmd num (packed es) .countHelloWorldRaw r ↔ r = .ok (.number (es.map fun e => occ helloWorld (encode e)).sum) := by
  rw [raw_iff _ hF, packed_map, occ_pieces _ (by rw [← packed_map]; exact hF) fun p hp => by
    obtain ⟨e, he, rfl⟩ := List.mem_map.1 hp
    exact encode_marker (hw e he), List.map_map]
  rfl

/-! ## Slices -/

theorem slice_packed : ∀ (es : List StorageEntry) (o a b : Nat), o ≤ a → a ≤ b →
    (∀ x ∈ packedAt o es, ¬ StrictlyInside a x ∧ ¬ StrictlyInside b x) →
    ((packed es).take (b - o)).drop (a - o) = packed (messagesIn (packedAt o es) (a, b))
  | [], _, _, _, _, _, _ => by simp [packed, packedAt, messagesIn]
  | e :: es, o, a, b, hoa, hab, hno => by
    have hlen : 0 < (encode e).length := by have := encode_length e; omega
    obtain ⟨h1, h2⟩ := hno (o, e) (by rw [packedAt]; exact List.mem_cons_self ..)
    have hno' : ∀ x ∈ packedAt (o + (encode e).length) es, ¬ StrictlyInside a x ∧ ¬ StrictlyInside b x := fun x hx =>
      hno x (by rw [packedAt]; exact List.mem_cons_of_mem _ hx)
    unfold StrictlyInside at h1 h2
    simp only at h1 h2
    by_cases hbo : b ≤ o
    · have hz : b - o = 0 := by omega
      rw [hz, List.take_zero, List.drop_nil]
      have : messagesIn (packedAt o (e :: es)) (a, b) = [] := by
        unfold messagesIn
        rw [List.filter_eq_nil_iff.2]
        · rfl
        · intro x hx h
          have h := (of_decide_eq_true h).2
          have := packedAt_ge hx
          have := encode_length x.2
          simp only at h
          omega
      rw [this]
      rfl
    · have hbe : o + (encode e).length ≤ b := by omega
      rw [packed_cons, List.take_append, List.take_of_length_le (by omega)]
      by_cases hao : a = o
      · subst hao
        have ih := slice_packed es (a + (encode e).length) (a + (encode e).length) b (Nat.le_refl _) hbe (fun x hx =>
          ⟨fun h => by have := packedAt_ge hx; have := h.1; omega, (hno' x hx).2⟩)
        rw [Nat.sub_self, List.drop_zero] at ih ⊢
        have hcons : messagesIn (packedAt a (e :: es)) (a, b) =
            e :: messagesIn (packedAt (a + (encode e).length) es) (a + (encode e).length, b) := by
          unfold messagesIn
          rw [packedAt, List.filter_cons_of_pos (p := fun x => decide (Within (a, b) x)) (decide_eq_true (show Within (a, b) (a, e) from ⟨Nat.le_refl _, hbe⟩)), List.map_cons]
          congr 2
          apply List.filter_congr
          intro x hx
          have := packedAt_ge hx
          rw [decide_eq_decide]
          show (a ≤ x.1 ∧ x.1 + (encode x.2).length ≤ b) ↔ (a + (encode e).length ≤ x.1 ∧ x.1 + (encode x.2).length ≤ b)
          omega
        rw [hcons, packed_cons, ← ih, show b - a - (encode e).length = b - (a + (encode e).length) by omega]
      · have hae : o + (encode e).length ≤ a := by omega
        have ih := slice_packed es (o + (encode e).length) a b hae hab hno'
        have hcons : messagesIn (packedAt o (e :: es)) (a, b) = messagesIn (packedAt (o + (encode e).length) es) (a, b) := by
          unfold messagesIn
          rw [packedAt, List.filter_cons_of_neg]
          intro h
          have := (of_decide_eq_true h).1
          simp only at this
          omega
        rw [hcons, ← ih, show a - o = (encode e).length + (a - (o + (encode e).length)) by omega, List.drop_length_add_append,
          show b - o - (encode e).length = b - (o + (encode e).length) by omega]

/-- **C136** `par_count_hello_world_raw` on a log of messages one after the other, none longer than 65536 bytes, finds exactly
what is in the messages of the slices; the others start behind the slices. -/
theorem C136_par_raw (es : List StorageEntry) (hw : ∀ e ∈ es, WF e) (hF : Fits (packed es))
    (hmax : ∀ e ∈ es, (encode e).length ≤ 65536) (num : Nat) (hnum : num ≠ 0) :
    ∃ rs b, partitionRanges dltStorage (packed es) num = .ok rs ∧ Tiles 0 rs b ∧
      (∀ r, RunCmd num (packed es) .parCountHelloWorldRaw r ↔
        r = .ok (.number ((held (packedAt 0 es) rs).map fun x => occ helloWorld (encode x.2)).sum)) ∧
      ∀ x ∈ packedAt 0 es, x ∈ held (packedAt 0 es) rs ∨ b ≤ x.1 := by
  have hG := topLevel_packed hw
  have hmax' : AtMost 65536 (packedAt 0 es) := fun x hx => hmax x.2 (packedAt_mem hx)
  obtain ⟨rs, b, h1, h2, h3⟩ := C32_only_the_end _ hF _ hG (inReach_of_atMost hmax' (noStraddle_packed hw)) num hnum
  have hend : ∀ r ∈ rs, ∀ x ∈ packedAt 0 es, ¬ StrictlyInside r.2 x := fun r hr x hx hin => by
    have := (h3 r hr x hx hin).1
    have := hmax' x hx
    have := hin.2
    omega
  have hstart : ∀ r ∈ rs, ∀ x ∈ packedAt 0 es, ¬ StrictlyInside r.1 x := by
    intro r hr x hx hin
    rcases tiles_start h2 r hr with h0 | ⟨q, hq, h0⟩
    · have := hin.1; omega
    · rw [← h0] at hin
      exact hend q hq x hx hin
  have hp := partitionFrom_of_ranges h1
  have hfit := (partition_fits hF hp).2
  have hslice : rs.map (fun r => ((packed es).take r.2).drop r.1) = (rs.map (messagesIn (packedAt 0 es))).map packed := by
    rw [List.map_map]
    apply List.map_congr_left
    intro r hr
    have := (tiles_ge h2).2 r hr
    have h := slice_packed es 0 r.1 r.2 (Nat.zero_le _) (by omega) fun x hx => ⟨hstart r hr x hx, hend r hr x hx⟩
    exact h
  rw [hslice] at hp hfit
  have hpos : ∀ x ∈ packedAt 0 es, 0 < (encode x.2).length := fun x _ => by have := encode_length x.2; omega
  have hflat := held_flatten (topLevel_disjoint hG) h2 hpos
  obtain ⟨slices, h8, h9⟩ := C69_counters num hnum (packed es) hF .parCountHelloWorldRaw (.inr (.inr (.inl rfl)))
  rw [hp] at h8
  have h8 := (Res.ok.inj h8).symm
  subst h8
  have hall : ∀ x ∈ packedAt 0 es, x ∈ held (packedAt 0 es) rs ∨ b ≤ x.1 := by
    intro x hx
    rcases tiles_cases h2 (Nat.zero_le x.1) (hpos x hx) with ⟨h, -, -⟩ | ⟨-, ⟨r, hr, h⟩, -⟩ | ⟨-, -, h⟩
    · exact .inl (List.mem_filter.2 ⟨hx, decide_eq_true h⟩)
    · exact absurd h (hend r hr x hx)
    · exact .inr h
  refine ⟨rs, b, h1, h2, ?_, hall⟩
  have hnp : ∀ s ∈ (rs.map (messagesIn (packedAt 0 es))).map packed, ¬ RunCmd num s .countHelloWorldRaw .panic := fun s hs h => by
    have := (raw_iff s (hfit s hs) _).1 h
    cases this
  rcases h9 with ⟨⟨s, hs, h⟩, -⟩ | ⟨-, ns, h10, h11⟩
  · exact absurd h (hnp s hs)
  · have hsum : ns.sum = ((rs.map (messagesIn (packedAt 0 es))).flatten.map fun e => occ helloWorld (encode e)).sum := by
      have hwm : ∀ g ∈ rs.map (messagesIn (packedAt 0 es)), ∀ e ∈ g, WF e := by
        intro g hg e he
        obtain ⟨r, -, rfl⟩ := List.mem_map.1 hg
        obtain ⟨x, hx, rfl⟩ := List.mem_map.1 he
        exact hw x.2 (packedAt_mem (List.mem_filter.1 hx).1)
      generalize rs.map (messagesIn (packedAt 0 es)) = gs at h10 hfit hwm
      clear hslice hflat hp h11 hnp
      induction gs generalizing ns with
      | nil =>
        cases ns with
        | nil => rfl
        | cons => exact h10.elim
      | cons g gs ih =>
        rw [List.map_cons] at h10
        obtain ⟨n, ns', rfl, h12, h13⟩ := each_step h10
        have h14 := (C136_raw g (hwm g (List.mem_cons_self ..)) (hfit _ (by simp)) num _).1 h12
        simp only [Res.ok.injEq, Report.number.injEq] at h14
        rw [List.sum_cons, ih ns' h13 (fun s hs => hfit s (by rw [List.map_cons]; exact List.mem_cons_of_mem _ hs))
          (fun g hg => hwm g (List.mem_cons_of_mem _ hg)), List.flatten_cons, List.map_append, List.sum_append, h14]
    intro r
    rw [h11, hsum, hflat, List.map_map]
    rfl

/-! ## dd_dlt -/

theorem occ_skip (text a b : Bytes) (h : ∀ i, i < a.length → ¬ text <+: (a ++ b).drop i) : occ text (a ++ b) = occ text b := by
  unfold occ
  rw [List.length_append, List.range_add, List.filter_append, List.length_append,
    List.filter_eq_nil_iff.2 fun i hi => by rw [decide_eq_true_eq]; exact h i (List.mem_range.1 hi), List.length_nil, Nat.zero_add,
    List.filter_map, List.length_map]
  congr 1
  apply List.filter_congr
  intro i _
  simp only [Function.comp_apply, List.drop_length_add_append]

theorem pre_at {text l : Bytes} {i : Nat} (h : text <+: l.drop i) (j : Nat) (hj : j < text.length) : l[i + j]? = text[j]? := by
  obtain ⟨r, hr⟩ := h
  rw [← List.getElem?_drop, ← hr, List.getElem?_append_left hj]

/-- The text never starts in the first 30 bytes of a message of `dd_dlt`, whatever the ids and the number of the message. -/
theorem occ_header (ecuid appid : Bytes) (info : UInt8) (n i : Nat) (hecu : ecuid.length = 4) (happ : appid.length = 4) (p : Bytes) :
    occ helloWorld (ddHeader ecuid appid info n i ++ p) = occ helloWorld (appid ++ p) := by
  obtain ⟨e0, e1, e2, e3, rfl⟩ : ∃ a b c d, ecuid = [a, b, c, d] := by
    match ecuid, hecu with
    | [a, b, c, d], _ => exact ⟨a, b, c, d, rfl⟩
  obtain ⟨a0, a1, a2, a3, rfl⟩ : ∃ a b c d, appid = [a, b, c, d] := by
    match appid, happ with
    | [a, b, c, d], _ => exact ⟨a, b, c, d, rfl⟩
  have hd : digit (i % 2 ^ 32 / 100) 3 = 0 ∨ digit (i % 2 ^ 32 / 100) 3 = 1 ∨ digit (i % 2 ^ 32 / 100) 3 = 2 := by
    have : i % 2 ^ 32 < 2 ^ 32 := Nat.mod_lt _ (by decide)
    unfold digit
    have h : i % 2 ^ 32 / 100 / 256 ^ 3 % 256 ≤ 2 := by omega
    generalize i % 2 ^ 32 / 100 / 256 ^ 3 % 256 = x at h
    match x, h with
    | 0, _ => exact .inl rfl
    | 1, _ => exact .inr (.inl rfl)
    | 2, _ => exact .inr (.inr rfl)
  have hd2 : digit (i % 2 ^ 32 % 100 * 10000) 3 = 0 := by
    unfold digit
    have h0 : i % 2 ^ 32 % 100 < 100 := Nat.mod_lt _ (by decide)
    generalize i % 2 ^ 32 % 100 = y at h0
    have h : y * 10000 / 256 ^ 3 % 256 = 0 := by
      rw [Nat.div_eq_of_lt (by omega)]
    rw [h]; rfl
  generalize hH : ddHeader [e0, e1, e2, e3] [a0, a1, a2, a3] info n i = H
  unfold ddHeader le4 be4 at hH
  simp only [List.cons_append, List.nil_append] at hH
  generalize digit (i % 2 ^ 32 / 100) 3 = x7 at hd hH
  generalize digit (i % 2 ^ 32 % 100 * 10000) 3 = x11 at hd2 hH
  generalize digit (i % 2 ^ 32 / 100) 0 = x4 at hH
  generalize digit (i % 2 ^ 32 / 100) 1 = x5 at hH
  generalize digit (i % 2 ^ 32 / 100) 2 = x6 at hH
  generalize digit (i % 2 ^ 32 % 100 * 10000) 0 = x8 at hH
  generalize digit (i % 2 ^ 32 % 100 * 10000) 1 = x9 at hH
  generalize digit (i % 2 ^ 32 % 100 * 10000) 2 = x10 at hH
  generalize digit (i % 2 ^ 32) 0 = x17 at hH
  generalize digit (18 + n) 1 = x18 at hH
  generalize digit (18 + n) 0 = x19 at hH
  generalize digit (100 * (i % 2 ^ 32)) 3 = x20 at hH
  generalize digit (100 * (i % 2 ^ 32)) 2 = x21 at hH
  generalize digit (100 * (i % 2 ^ 32)) 1 = x22 at hH
  generalize digit (100 * (i % 2 ^ 32)) 0 = x23 at hH
  subst hH
  generalize hH : [68, 76, 84, 1, x4, x5, x6, x7, x8, x9, x10, x11, e0, e1, e2, e3, 0x31, x17, x18, x19, x20, x21, x22, x23, info, 0,
    a0, a1, a2, a3, a0, a1, a2, a3] = H
  have hg : ∀ k, k < 34 → (H ++ p)[k]? = H[k]? := fun k hk => List.getElem?_append_left (by rw [← hH]; exact hk)
  have hsplit : H ++ p =
      (H).take 30 ++ ([a0, a1, a2, a3] ++ p) := by
    rw [← List.append_assoc, ← hH]
    rfl
  rw [hsplit]
  apply occ_skip
  rw [← hsplit]
  intro q hq hpre
  have hq : q < 30 := by rw [← hH] at hq; exact hq
  have hat := pre_at hpre
  rw [show helloWorld.length = 11 from rfl] at hat
  have hbad : ∀ (k : Nat) (x : UInt8), x ∉ helloWorld → q ≤ k → k ≤ q + 10 →
      (H ++ p)[k]? ≠ some x := by
    intro k x hx h1 h2 h3
    have h4 := hat (k - q) (by omega)
    rw [show q + (k - q) = k by omega, h3] at h4
    exact hx (List.mem_of_getElem? h4.symm)
  by_cases h1 : q ≤ 3
  · exact hbad 3 1 (by decide) h1 (by omega) (by rw [hg _ (by decide), ← hH]; rfl)
  by_cases h2 : q ≤ 7
  · rcases hd with h | h | h
    · exact hbad 7 0 (by decide) h2 (by omega) (by rw [hg _ (by decide), ← hH, h]; rfl)
    · exact hbad 7 1 (by decide) h2 (by omega) (by rw [hg _ (by decide), ← hH, h]; rfl)
    · exact hbad 7 2 (by decide) h2 (by omega) (by rw [hg _ (by decide), ← hH, h]; rfl)
  by_cases h3 : q ≤ 11
  · exact hbad 11 0 (by decide) h3 (by omega) (by rw [hg _ (by decide), ← hH, hd2]; rfl)
  by_cases h4 : q ≤ 16
  · exact hbad 16 0x31 (by decide) h4 (by omega) (by rw [hg _ (by decide), ← hH]; rfl)
  by_cases h5 : q ≤ 25
  · exact hbad 25 0 (by decide) h5 (by omega) (by rw [hg _ (by decide), ← hH]; rfl)
  have hcase : ∀ x : UInt8, (H ++ p)[q]? = some x →
      (H ++ p)[q + 4]? = some x → False := by
    intro x h6 h7
    have h8 := hat 0 (by omega)
    have h9 := hat 4 (by omega)
    rw [Nat.add_zero, h6] at h8
    rw [h7] at h9
    have := h8.symm.trans h9
    exact absurd this (by decide)
  obtain rfl | rfl | rfl | rfl : q = 26 ∨ q = 27 ∨ q = 28 ∨ q = 29 := by omega
  · exact hcase a0 (by rw [hg _ (by decide), ← hH]; rfl) (by rw [hg _ (by decide), ← hH]; rfl)
  · exact hcase a1 (by rw [hg _ (by decide), ← hH]; rfl) (by rw [hg _ (by decide), ← hH]; rfl)
  · exact hcase a2 (by rw [hg _ (by decide), ← hH]; rfl) (by rw [hg _ (by decide), ← hH]; rfl)
  · exact hcase a3 (by rw [hg _ (by decide), ← hH]; rfl) (by rw [hg _ (by decide), ← hH]; rfl)

theorem ddHeader_marker (ecuid appid : Bytes) (info : UInt8) (n i : Nat) (p : Bytes) : dltMarker <+: ddHeader ecuid appid info n i ++ p := by
  refine ⟨(ddHeader ecuid appid info n i ++ p).drop 4, ?_⟩
  unfold ddHeader
  rfl

/-- **C136** `count_hello_world_raw` on the output of `dd_dlt`, whether the payloads arrive whole or not: the text is counted
where it stands in an application id followed by the bytes of the payload that were written. -/
theorem C136_dd (bd : Build) (addr : Ctor → UInt8) (ecuid appid size input : Bytes) (rest : List Bytes) (n : Nat)
    (hecu : ecuid.length = 4) (happ : appid.length = 4) (hsize : Decimal size n) (h1 : 1 ≤ n)
    (h2 : n ≤ 65517 ∨ (bd.checks = false ∧ n ≤ 65535)) (hk : bd.checks = false ∨ input.length / n ≤ 42949673) :
    ∃ parts : List Bytes, parts.length = input.length / n ∧ (∀ i p, parts[i]? = some p → Accepted bd.late (chunk n input i) p) ∧
      ∀ output e, DdMain bd addr (ecuid :: appid :: size :: rest) input output e → Fits output → ∀ num r,
        RunCmd num output .countHelloWorldRaw r ↔ r = .ok (.number (parts.map fun p => occ helloWorld (appid ++ p)).sum) := by
  obtain ⟨parts, h3, h4, h5⟩ := C84_dd_output bd addr ecuid appid size input rest n hecu happ hsize h1 h2 hk
  refine ⟨parts, h3, h4, fun output e hrun hF num r => ?_⟩
  obtain ⟨rfl, -⟩ := (h5 _ _).1 hrun
  rw [raw_iff _ hF, occ_pieces _ hF fun q hq => by
    obtain ⟨i, hi, rfl⟩ := List.mem_mapIdx.1 hq
    exact ddHeader_marker ..]
  have : (parts.mapIdx fun i p => ddHeader ecuid appid (MessageType.create addr true (.log .info)).msin n i ++ p).map
      (occ helloWorld) = parts.map fun p => occ helloWorld (appid ++ p) := by
    apply List.ext_getElem (by simp)
    intro i h6 h7
    simp only [List.getElem_map, List.getElem_mapIdx, occ_header ecuid appid _ n _ hecu happ]
  rw [this]

/-! ## The text in the input -/

/-- The places of the input at which the text stands within one of the first `k` payloads of `n` bytes. -/
def Spec.within (text : Bytes) (n k : Nat) (input : Bytes) : Nat :=
  ((List.range input.length).filter fun p =>
    decide (text <+: input.drop p ∧ p / n = (p + text.length - 1) / n ∧ p / n < k)).length

theorem prefix_take_iff {text l : Bytes} {m : Nat} : text <+: l.take m ↔ text <+: l ∧ text.length ≤ m := by
  rw [List.prefix_take_iff]

theorem occ_chunk (text : Bytes) (ht : text ≠ []) (n i : Nat) (hn : 1 ≤ n) (input : Bytes) (hi : (i + 1) * n ≤ input.length) :
    occ text (chunk n input i) = ((List.range n).filter fun j =>
      decide (text <+: input.drop (i * n + j) ∧ (i * n + j) / n = (i * n + j + text.length - 1) / n)).length := by
  have ht : 0 < text.length := List.length_pos_iff.2 ht
  have hlen : (chunk n input i).length = n := by
    unfold chunk
    rw [List.length_take, List.length_drop]
    rw [Nat.add_mul] at hi
    omega
  unfold occ
  rw [hlen]
  congr 1
  apply List.filter_congr
  intro j hj
  have hj := List.mem_range.1 hj
  rw [decide_eq_decide]
  unfold chunk
  rw [List.drop_take, List.drop_drop, prefix_take_iff]
  refine and_congr_right fun _ => ?_
  rw [show i * n + j + text.length - 1 = i * n + (j + text.length - 1) by omega, Nat.mul_comm i n, Nat.mul_add_div hn, Nat.mul_add_div hn,
    Nat.div_eq_of_lt hj]
  constructor
  · intro h
    rw [Nat.div_eq_of_lt (by omega)]
  · intro h
    have h : (j + text.length - 1) / n = 0 := by omega
    have := (Nat.div_eq_zero_iff.1 h).resolve_left (by omega)
    omega

theorem within_eq (text : Bytes) (ht : text ≠ []) (n : Nat) (hn : 1 ≤ n) (input : Bytes) :
    ∀ k, k * n ≤ input.length → within text n k input = ((List.range k).map fun i => occ text (chunk n input i)).sum := by
  intro k hk
  have key : ∀ m, m ≤ k → ((List.range (m * n)).filter fun p =>
      decide (text <+: input.drop p ∧ p / n = (p + text.length - 1) / n ∧ p / n < k)).length =
      ((List.range m).map fun i => occ text (chunk n input i)).sum := by
    intro m
    induction m with
    | zero => intro _; simp
    | succ m ih =>
      intro hm
      have hmk : (m + 1) * n ≤ k * n := Nat.mul_le_mul_right n hm
      rw [Nat.add_mul, Nat.one_mul, List.range_add, List.filter_append, List.length_append, ih (by omega), List.range_succ, List.map_append,
        List.sum_append, List.map_singleton, List.sum_singleton, occ_chunk text ht n m hn input (by omega), List.filter_map, List.length_map]
      congr 2
      apply List.filter_congr
      intro j hj
      have hj := List.mem_range.1 hj
      simp only [Function.comp_apply, decide_eq_decide]
      have : (m * n + j) / n = m := by
        rw [Nat.mul_comm, Nat.mul_add_div hn, Nat.div_eq_of_lt hj]
        rfl
      constructor
      · exact fun h => ⟨h.1, h.2.1⟩
      · exact fun h => ⟨h.1, h.2, by omega⟩
  rw [← key k (Nat.le_refl _)]
  unfold within
  rw [show input.length = k * n + (input.length - k * n) by omega, List.range_add, List.filter_append, List.length_append,
    Nat.add_eq_left, List.length_eq_zero_iff, List.filter_eq_nil_iff]
  intro p hp h
  obtain ⟨q, -, rfl⟩ := List.mem_map.1 hp
  have h := (of_decide_eq_true h).2.2
  have := (Nat.div_lt_iff_lt_mul hn).1 h
  omega

/-- No part of the text at the end of an id. -/
def Spec.NoStart (text id : Bytes) : Prop := ∀ j, 1 ≤ j → j < text.length → ¬ text.take j <:+ id

theorem occ_behind {text id : Bytes} (h : NoStart text id) (hlen : id.length < text.length) (p : Bytes) :
    occ text (id ++ p) = occ text p := by
  apply occ_skip
  intro i hi hpre
  rw [List.drop_append_of_le_length (by omega)] at hpre
  refine h (id.length - i) (by omega) (by omega) ?_
  have h1 := List.prefix_append (id.drop i) p
  have h2 := List.prefix_of_prefix_length_le h1 hpre (by rw [List.length_drop]; omega)
  have h3 := List.prefix_iff_eq_take.1 h2
  rw [List.length_drop] at h3
  rw [← h3]
  exact List.drop_suffix _ _

theorem list_of_all {α : Type} {l : List α} {k : Nat} {f : Nat → α} (hlen : l.length = k) (h : ∀ i a, l[i]? = some a → a = f i) :
    l = (List.range k).map f := by
  apply List.ext_getElem (by simp [hlen])
  intro i h1 h2
  rw [h i l[i] (List.getElem?_eq_getElem h1)]
  simp

/-- **C136** if no payload loses bytes and the application id does not end with the start of the text, `count_hello_world_raw`
on the output of `dd_dlt` counts exactly the places of the input at which the text stands within one payload. -/
theorem C136_dd_input (bd : Build) (addr : Ctor → UInt8) (ecuid appid size input : Bytes) (rest : List Bytes) (n : Nat)
    (hecu : ecuid.length = 4) (happ : appid.length = 4) (hsize : Decimal size n) (h1 : 1 ≤ n)
    (h2 : n ≤ 65517 ∨ (bd.checks = false ∧ n ≤ 65535)) (hk : bd.checks = false ∨ input.length / n ≤ 42949673)
    (hfit : ∀ p ∈ chunks n input, LinesFit (roomBehind bd.late) p) (hid : NoStart helloWorld appid)
    (output : Bytes) (e : DdEnd) (hrun : DdMain bd addr (ecuid :: appid :: size :: rest) input output e) (hF : Fits output)
    (num : Nat) (r : Res Report) :
    RunCmd num output .countHelloWorldRaw r ↔ r = .ok (.number (within helloWorld n (input.length / n) input)) := by
  obtain ⟨parts, h3, h4, h5⟩ := C136_dd bd addr ecuid appid size input rest n hecu happ hsize h1 h2 hk
  have hparts : parts = (List.range (input.length / n)).map (chunk n input) := by
    refine list_of_all h3 fun i p hp => ?_
    have hi : i < input.length / n := by have := (List.getElem?_eq_some_iff.1 hp).1; omega
    exact accepted_unique (h4 i p hp) (accepted_all_iff.2 (hfit _ (List.mem_map.2 ⟨i, List.mem_range.2 hi, rfl⟩)))
  rw [h5 output e hrun hF num r, hparts, within_eq helloWorld (by decide) n h1 input _ (Nat.div_mul_le_self ..), List.map_map]
  simp only [Function.comp_def, occ_behind hid (show appid.length < 11 by omega)]

/-! ## Several threads on the output of dd_dlt -/

theorem flatten_inj {L : Nat} : ∀ (a b : List Bytes), (∀ x ∈ a, x.length = L) → (∀ x ∈ b, x.length = L) → a.length = b.length →
    a.flatten = b.flatten → a = b
  | [], [], _, _, _, _ => rfl
  | [], _ :: _, _, _, h, _ => by simp at h
  | _ :: _, [], _, _, h, _ => by simp at h
  | x :: a, y :: b, h1, h2, h3, h4 => by
    rw [List.flatten_cons, List.flatten_cons] at h4
    obtain ⟨rfl, h5⟩ := List.append_inj h4 (by rw [h1 x (by simp), h2 y (by simp)])
    rw [flatten_inj a b (fun z hz => h1 z (by simp [hz])) (fun z hz => h2 z (by simp [hz])) (by simpa using h3) h5]

/-- What `par_count_hello_world_raw` finds in groups of messages. -/
theorem each_raw {num : Nat} : ∀ (gs : List (List StorageEntry)) (ns : List Nat), Each (fun s n => RunCmd num s .countHelloWorldRaw (.ok (.number n))) (gs.map packed) ns →
    (∀ g ∈ gs, Fits (packed g)) → (∀ g ∈ gs, ∀ e ∈ g, WF e) → ns.sum = (gs.flatten.map fun e => occ helloWorld (encode e)).sum
  | [], [], _, _, _ => rfl
  | [], _ :: _, h, _, _ => h.elim
  | g :: gs, ns, h10, hfit, hwm => by
    rw [List.map_cons] at h10
    obtain ⟨n, ns', rfl, h12, h13⟩ := each_step h10
    have h14 := (C136_raw g (hwm g (List.mem_cons_self ..)) (hfit _ (by simp)) num _).1 h12
    simp only [Res.ok.injEq, Report.number.injEq] at h14
    rw [List.sum_cons, each_raw gs ns' h13 (fun s hs => hfit s (List.mem_cons_of_mem _ hs))
      (fun g hg => hwm g (List.mem_cons_of_mem _ hg)), List.flatten_cons, List.map_append, List.sum_append, h14]

/-- **C136** `par_count_hello_world_raw` on the output of `dd_dlt` counts the places of the input at which the text stands within
one of the payloads that are in slices: the last `leftOut` payloads are in none. -/
theorem C136_dd_par (bd : Build) (addr : Ctor → UInt8) (ecuid appid size input : Bytes) (rest : List Bytes) (n : Nat)
    (hecu : ecuid.length = 4) (happ : appid.length = 4) (hsize : Decimal size n) (h1 : 1 ≤ n) (h2 : n ≤ 65502)
    (hk : input.length / n ≤ 42949673) (hfit : ∀ p ∈ chunks n input, LinesFit (roomBehind bd.late) p)
    (hid : NoStart helloWorld appid)
    (output : Bytes) (e : DdEnd) (hrun : DdMain bd addr (ecuid :: appid :: size :: rest) input output e)
    (num : Nat) (hnum : num ≠ 0) (r : Res Report) :
    RunCmd num output .parCountHelloWorldRaw r ↔
      r = .ok (.number (within helloWorld n (input.length / n - leftOut (input.length / n) (34 + n) num) input)) := by
  obtain ⟨output', msgs, h3, h4, h5, h6, hF, hwf, h7⟩ := C51_round_trip_partial bd addr ecuid appid size input rest n hecu
    happ hsize h1 (by omega) (.inr hk) fun i hi => hfit _ (List.mem_map.2 ⟨i, List.mem_range.2 hi, rfl⟩)
  obtain ⟨rfl, -⟩ := (h3 _ _).1 hrun
  obtain ⟨ecu, -, he⟩ := ofBytes_length hecu
  have hd := ddFile_of he.symm hk h5 h7
  obtain ⟨parts, h8, h9, h10⟩ := C84_dd_output bd addr ecuid appid size input rest n hecu happ hsize h1 (.inl (by omega)) (.inr hk)
  have hparts : parts = (List.range (input.length / n)).map (chunk n input) := by
    refine list_of_all h8 fun i p hp => ?_
    have hi : i < input.length / n := by have := (List.getElem?_eq_some_iff.1 hp).1; omega
    exact accepted_unique (h9 i p hp) (accepted_all_iff.2 (hfit _ (List.mem_map.2 ⟨i, List.mem_range.2 hi, rfl⟩)))
  have hout := ((h10 _ _).1 hrun).1
  have hchunk : ∀ i, i < input.length / n → (chunk n input i).length = n := by
    intro i hi
    have : (i + 1) * n ≤ input.length / n * n := Nat.mul_le_mul_right n hi
    have := Nat.div_mul_le_self input.length n
    unfold chunk
    rw [List.length_take, List.length_drop]
    rw [Nat.add_mul] at *
    omega
  have hmsgs : msgs.map encode =
      parts.mapIdx fun i p => ddHeader ecuid appid (MessageType.create addr true (.log .info)).msin n i ++ p := by
    refine flatten_inj (L := 34 + n) _ _ ?_ ?_ (by simp [h5, h8]) (by rw [← packed_map, ← h6, hout])
    · intro x hx
      obtain ⟨m, hm, rfl⟩ := List.mem_map.1 hx
      exact hd.length m hm
    · intro x hx
      obtain ⟨i, hi, rfl⟩ := List.mem_mapIdx.1 hx
      rw [List.length_append, ddHeader_length hecu happ]
      have : parts[i].length = n := by
        simp only [hparts, List.getElem_map, List.getElem_range]
        exact hchunk i (by omega)
      omega
  have hocc : msgs.map (fun m => occ helloWorld (encode m)) =
      (List.range (input.length / n)).map fun i => occ helloWorld (chunk n input i) := by
    have : msgs.map (fun m => occ helloWorld (encode m)) = (msgs.map encode).map (occ helloWorld) := by rw [List.map_map]; rfl
    rw [this, hmsgs, hparts]
    apply List.ext_getElem (by simp)
    intro i h11 h12
    simp only [List.getElem_map, List.getElem_mapIdx, List.getElem_range, occ_header ecuid appid _ n _ hecu happ,
      occ_behind hid (show appid.length < 11 by omega)]
  subst h6
  have heq : Equals msgs (input.length / n) (34 + n) := ⟨hwf, h5, hd.length, hF, by omega, by omega⟩
  obtain ⟨gs, hp, hgs, -, -, -, -, hgF, hgm⟩ := dd_slices hd heq hnum
  obtain ⟨slices, h11, h12⟩ := C69_counters num hnum (packed msgs) hF .parCountHelloWorldRaw (.inr (.inr (.inl rfl)))
  rw [hp] at h11
  have h11 := (Res.ok.inj h11).symm
  subst h11
  rcases h12 with ⟨⟨s, hs, h⟩, -⟩ | ⟨-, ns, h13, h14⟩
  · obtain ⟨g, hg, rfl⟩ := List.mem_map.1 hs
    have := (raw_iff _ (hgF g hg) _).1 h
    cases this
  · rw [h14, each_raw gs ns h13 hgF fun g hg m hm => hwf m (hgm g hg m hm), hgs,
      within_eq helloWorld (by decide) n h1 input _ (by
        have := Nat.mul_le_mul_right n (Nat.sub_le (input.length / n) (leftOut (input.length / n) (34 + n) num))
        have := Nat.div_mul_le_self input.length n
        omega), List.map_take, hocc, ← List.map_take, List.take_range, Nat.min_eq_left (Nat.sub_le ..)]

/-! ## The hypotheses can be met -/

/-- An input of 26 bytes, `"Hello World-"` twice and two bytes more, in payloads of 12 bytes: each text lies in one
payload. In payloads of 13 bytes the second text is cut. -/
example : within helloWorld 12 2 (helloWorld ++ [45] ++ helloWorld ++ [45, 46, 46]) = 2 ∧
    within helloWorld 13 2 (helloWorld ++ [45] ++ helloWorld ++ [45, 46, 46]) = 1 := by decide +kernel

example : NoStart helloWorld [97, 112, 112, 49] := by
  intro j h1 h2
  have h2 : j < 11 := h2
  match j, h1, h2 with
  | 1, _, _ | 2, _, _ | 3, _, _ | 4, _, _ => decide
  | j + 5, _, _ =>
    intro h
    have := h.length_le
    rw [List.length_take, show helloWorld.length = 11 from rfl] at this
    simp at this
    omega

/-- An application id that ends with the start of the text: the text is counted though it is not in the input. -/
example : occ helloWorld ([65, 65, 72, 101] ++ [108, 108, 111, 32, 87, 111, 114, 108, 100]) = 1 := by decide +kernel

end Verif
