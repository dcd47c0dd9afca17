import Verif.Lemmas.Mapped
import Verif.Props.Dltit

/-!
# C147: reading a mapped log while it is being written

`v c a` is the file as access number `a` of call number `c` of `next` sees it.
-/

set_option linter.unusedSimpArgs false

namespace Verif
open Spec

variable {T : Type} {S : SearchableMarker T}

/-! ## Whatever is written -/

/-- **C147** one call, on any message type that keeps the contract, whatever happens to the bytes meanwhile: no panic; the
offset stays inside the mapping and does not go back; what is returned lies inside the mapping, starts where the marker
was seen and is what `try_read_valid_marker` makes of the version seen right after that. -/
theorem C147_call_safe {T : Type} (S : SearchableMarker T) (L : Reads S) (hm : S.marker.length < 2 ^ 62) (n : Nat)
    (w : Nat → Bytes) (hn : n < 2 ^ 63) (hl : ∀ a, (w a).length = n) (a off : Nat) (hoff : off ≤ n) :
    (∃ off', readFallbackNextOn S n w a off = .ok (none, off') ∧ off ≤ off' ∧ off' ≤ n) ∨
    (∃ i x b, readFallbackNextOn S n w a off = .ok (some (i, x), i + S.len x) ∧ off ≤ i ∧ i + S.len x ≤ n ∧
      MarkerAt S (w b) i ∧ S.tryReadValidMarker ((w (b + 1)).drop i) = .ok (some (S.len x, x))) := by
  have hmp := S.marker_pos
  generalize hk : n - off = k
  induction k using Nat.strongRecOn generalizing a off with
  | ind k ih =>
    rw [readFallbackNextOn_unfold hl (by unfold usizeMax; omega)]
    by_cases hge : off + S.marker.length ≥ n
    · rw [if_pos hge]; exact Or.inl ⟨off, rfl, Nat.le_refl _, hoff⟩
    · rw [if_neg hge]
      by_cases hmk : ((w a).drop off).take S.marker.length = S.marker
      · rw [if_pos hmk]
        obtain ⟨r, hr⟩ := L.total ((w (a + 1)).drop off)
        rw [hr]
        rcases r with _ | ⟨q, x⟩
        · exact Or.inl ⟨off, rfl, Nat.le_refl _, hoff⟩
        · obtain ⟨rfl, h1, h2⟩ := L.size _ _ _ hr
          rw [List.length_drop, hl] at h2
          simp only [uadd_ok (show off + S.len x ≤ usizeMax by unfold usizeMax; omega)]
          exact Or.inr ⟨off, x, a, rfl, Nat.le_refl _, by omega, take_eq_iff_prefix.1 hmk, hr⟩
      · rw [if_neg hmk]
        cases hf : find S.marker ((w (a + 1)).drop off) with
        | none => exact Or.inl ⟨off, rfl, Nat.le_refl _, hoff⟩
        | some p =>
          obtain ⟨hp, -, -⟩ := find_some hf
          rw [List.length_drop, hl] at hp
          by_cases hp0 : p = 0
          · simp only [hp0, if_true]; exact Or.inl ⟨off, rfl, Nat.le_refl _, hoff⟩
          · simp only [hp0, if_false, uadd_ok (show off + p ≤ usizeMax by unfold usizeMax; omega)]
            rcases ih (n - (off + p)) (by omega) (a + 2) (off + p) (by omega) rfl with
              ⟨o, h1, h2, h3⟩ | ⟨i, x, b, h1, h2, h3⟩
            · exact Or.inl ⟨o, h1, by omega, h3⟩
            · exact Or.inr ⟨i, x, b, h1, by omega, h3⟩

/-- **C147** a call on a file none of whose versions differs from `bytes` behind the reader's offset is the call on `bytes`:
what is written over bytes the reader has passed does not matter. -/
theorem C147_call_unchanged {T : Type} (S : SearchableMarker T) (L : Reads S) (hm : S.marker.length < 2 ^ 62) (bytes : Bytes)
    (w : Nat → Bytes) (hF : Fits bytes) (hl : ∀ a, (w a).length = bytes.length) (a off : Nat) (hoff : off ≤ bytes.length)
    (h : ∀ a, (w a).drop off = bytes.drop off) :
    readFallbackNextOn S bytes.length w a off = readFallbackNext S bytes off := by
  have hmp := S.marker_pos
  have hF' := fits_le hF
  generalize hk : bytes.length - off = k
  induction k using Nat.strongRecOn generalizing a off with
  | ind k ih =>
    rw [readFallbackNextOn_unfold hl (by unfold usizeMax; omega), readFallbackNext_unfold (by unfold usizeMax; omega),
      h a, h (a + 1)]
    by_cases hge : off + S.marker.length ≥ bytes.length
    · rw [if_pos hge, if_pos hge]
    · rw [if_neg hge, if_neg hge]
      by_cases hmk : (bytes.drop off).take S.marker.length = S.marker
      · rw [if_pos hmk, if_pos hmk]
        rfl
      · rw [if_neg hmk, if_neg hmk]
        cases hf : find S.marker (bytes.drop off) with
        | none => rfl
        | some p =>
          obtain ⟨hp, -, -⟩ := find_some hf
          rw [List.length_drop] at hp
          by_cases hp0 : p = 0
          · simp only [hp0, if_true]
          · simp only [hp0, if_false, uadd_ok (show off + p ≤ usizeMax by unfold usizeMax; omega)]
            refine ih (bytes.length - (off + p)) (by omega) (a + 2) (off + p) (by omega) ?_ rfl
            intro a
            rw [← List.drop_drop, ← List.drop_drop, h a]

/-- A run of calls on a mapping that changes in any way. -/
theorem poll_safe {n : Nat} {v : Nat → Nat → Bytes} (hv : Mapped n v) (k c off : Nat) (hoff : off ≤ n) :
    ∃ rs, pollFrom (dltitMapped n v) k c off = .ok rs ∧ rs.length = k ∧
      ((rs.filterMap id).Pairwise fun x y => x.1 + x.2.len ≤ y.1) ∧
      (∀ x ∈ rs.filterMap id, off ≤ x.1) ∧
      ∀ d i x, rs[d]? = some (some (i, x)) → i + x.len ≤ n ∧ 20 ≤ x.len ∧ x.len = (encode x).length ∧
        ∃ b, dltMarker <+: (v (c + d) b).drop i ∧ encode x <+: (v (c + d) (b + 1)).drop i := by
  induction k generalizing c off with
  | zero => exact ⟨[], rfl, rfl, .nil, by simp, by simp⟩
  | succ k ih =>
    simp only [pollFrom]
    rcases C147_call_safe dltStorage dlt_lawful (by decide) n (v c) hv.1 (hv.2 c) 0 off hoff with
      ⟨o, h1, h2, h3⟩ | ⟨i, x, b, h1, h2, h3, h4, h5⟩
    · obtain ⟨rs, e1, e2, e3, e4, e5⟩ := ih (c + 1) o h3
      have h1' : dltitMapped n v c off = .ok (none, o) := h1
      refine ⟨none :: rs, by rw [h1']; simp only [e1], by simp [e2], by simpa using e3, ?_, ?_⟩
      · intro x hx
        have := e4 x (by simpa using hx)
        omega
      · intro d i x hd
        cases d with
        | zero => simp at hd
        | succ d =>
          have := e5 d i x (by simpa using hd)
          rwa [show c + 1 + d = c + (d + 1) by omega] at this
    · obtain ⟨hq, ⟨rest, hb⟩, hlen⟩ := tryReadRaw_some _ _ _ h5
      have hel := encode_length x
      have hq' : x.len = (encode x).length := hq
      have h3' : i + x.len ≤ n := h3
      obtain ⟨rs, e1, e2, e3, e4, e5⟩ := ih (c + 1) (i + x.len) h3
      have h1' : dltitMapped n v c off = .ok (some (i, x), i + x.len) := h1
      refine ⟨some (i, x) :: rs, by rw [h1']; simp only [e1], by simp [e2], ?_, ?_, ?_⟩
      · simp only [List.filterMap_cons, id]
        exact List.pairwise_cons.2 ⟨fun y hy => e4 y hy, e3⟩
      · intro y hy
        simp only [List.filterMap_cons, id, List.mem_cons] at hy
        rcases hy with rfl | hy
        · exact h2
        · have := e4 y hy; omega
      · intro d j y hd
        cases d with
        | zero =>
          simp only [List.getElem?_cons_zero, Option.some.injEq, Prod.mk.injEq] at hd
          obtain ⟨rfl, rfl⟩ := hd
          exact ⟨h3', by omega, hq', b, h4, ⟨rest, hb.symm⟩⟩
        | succ d =>
          have := e5 d j y (by simpa using hd)
          rwa [show c + 1 + d = c + (d + 1) by omega] at this

/-- **C147** whatever is written into a mapped file while it is read, and at whatever moments: calls of `next` never panic;
the messages returned do not overlap, are returned in the order of their offsets and lie inside the mapping, so that there
are at most `n / 20` of them however often it is called; each call returns bytes that were in the file at that place
during the call, behind a start marker that was there during the call. -/
theorem C147_safe (n : Nat) (v : Nat → Nat → Bytes) (hv : Mapped n v) (k : Nat) :
    ∃ rs, pollFrom (dltitMapped n v) k 0 0 = .ok rs ∧ rs.length = k ∧
      ((rs.filterMap id).Pairwise fun x y => x.1 + x.2.len ≤ y.1) ∧ (rs.filterMap id).length ≤ n / 20 ∧
      ∀ c i x, rs[c]? = some (some (i, x)) → i + x.len ≤ n ∧ x.len = (encode x).length ∧
        ∃ b, dltMarker <+: (v c b).drop i ∧ encode x <+: (v c (b + 1)).drop i := by
  obtain ⟨rs, h1, h2, h3, h4, h5⟩ := poll_safe hv k 0 0 (Nat.zero_le _)
  have hb : ∀ x ∈ rs.filterMap id, 20 ≤ x.2.len ∧ x.1 + x.2.len ≤ n := by
    intro x hx
    obtain ⟨y, hy, hyx⟩ := List.mem_filterMap.1 hx
    simp only [id] at hyx; subst hyx
    obtain ⟨d, hd⟩ := List.mem_iff_getElem?.1 hy
    have := h5 d x.1 x.2 hd
    exact ⟨this.2.1, this.1⟩
  have hs := disjoint_sum (len := StorageEntry.len) (n := n) (s := 0) (fun x hx => ⟨Nat.zero_le _, (hb x hx).2⟩) h3
    (Nat.zero_le _)
  have hq := length_mul_le_sum (len := StorageEntry.len) (k := 20) fun x hx => (hb x hx).1
  refine ⟨rs, h1, h2, h3, by omega, fun c i x hc => ?_⟩
  obtain ⟨a1, -, a3, b, a4, a5⟩ := h5 c i x hc
  rw [Nat.zero_add] at a4 a5
  exact ⟨a1, a3, b, a4, a5⟩

/-- **C147** what is written over the messages already read does not matter: if no call sees a byte different from `bytes`
behind the last message returned before that call, the calls return the messages of `bytes`, then `None` for ever. -/
theorem C147_behind (bytes : Bytes) (hF : Fits bytes) (v : Nat → Nat → Bytes) (hv : Mapped bytes.length v)
    (items : List (Nat × StorageEntry)) (hc : Collects (dltitOffsetNext bytes) 0 items)
    (h : ∀ c a, (v c a).drop (endOf StorageEntry.len 0 (items.take c)) =
      bytes.drop (endOf StorageEntry.len 0 (items.take c))) (k : Nat) :
    pollFrom (dltitMapped bytes.length v) k 0 0 =
      .ok ((List.range k).map fun c => items[c]?) := by
  have hF' := fits_le hF
  -- the offsets before each call
  have key : ∀ (items : List (Nat × StorageEntry)) (off c0 : Nat), off ≤ bytes.length →
      Collects (dltitOffsetNext bytes) off items →
      (∀ c a, (v (c0 + c) a).drop (endOf StorageEntry.len off (items.take c)) =
        bytes.drop (endOf StorageEntry.len off (items.take c))) →
      ∀ k, pollFrom (dltitMapped bytes.length v) k c0 off = .ok ((List.range k).map fun c => items[c]?) := by
    intro items
    induction items with
    | nil =>
      intro off c0 hoff hc h k
      induction k generalizing off c0 with
      | zero => rfl
      | succ k ih =>
        have hcall := C147_call_unchanged dltStorage dlt_lawful.toReads (by decide) bytes (v c0) hF (hv.2 c0) 0 off hoff
          (by have := h 0; simpa [endOf] using this)
        have hlt : off + dltStorage.marker.length ≤ usizeMax := by
          have : dltStorage.marker.length = 4 := rfl
          unfold usizeMax; omega
        rcases readFallbackNext_spec dlt_lawful.toReads hF off hlt with ⟨o, e1, e2, -⟩ | ⟨i, x, e1, -, -⟩
        · have ho : off ≤ o ∧ o ≤ bytes.length := by
            rcases C147_call_safe dltStorage dlt_lawful.toReads (by decide) _ (v c0) hv.1 (hv.2 c0) 0 off hoff with
              ⟨o', g1, g2, g3⟩ | ⟨i, x, b, g1, -⟩
            · rw [hcall, e1] at g1
              simp only [Res.ok.injEq, Prod.mk.injEq, true_and] at g1
              subst g1; exact ⟨g2, g3⟩
            · rw [hcall, e1] at g1; simp at g1
          have hcall' : dltitMapped bytes.length v c0 off = .ok (none, o) := by
            show readFallbackNextOn _ _ _ _ _ = _
            rw [hcall, e1]
          have hr := ih o (c0 + 1) ho.2 (Collects.nil e2) (fun c a => by
            have := h (c + 1) a
            simp only [List.take_nil, endOf] at this ⊢
            rw [show o = off + (o - off) by omega, ← List.drop_drop, ← List.drop_drop,
              show c0 + 1 + c = c0 + (c + 1) by omega, this])
          simp only [pollFrom, hcall', hr, List.range_succ_eq_map, List.map_cons, List.map_map]
          simp [Function.comp_def]
        · obtain ⟨_, h1, _⟩ := hc.cons_inv e1
          cases h1
    | cons y items ih =>
      intro off c0 hoff hc h k
      obtain ⟨i, x⟩ := y
      cases k with
      | zero => rfl
      | succ k =>
        have hlt : off + dltStorage.marker.length ≤ usizeMax := by
          have : dltStorage.marker.length = 4 := rfl
          unfold usizeMax; omega
        obtain ⟨off', e1, e2⟩ : ∃ off', dltitOffsetNext bytes off = .ok (some (i, x), off') ∧
            Collects (dltitOffsetNext bytes) off' items := by
          rcases readFallbackNext_spec dlt_lawful.toReads hF off hlt with ⟨o, e1, -, -⟩ | ⟨i', x', e1, -, -⟩
          · have := hc.unique (Collects.nil e1); cases this
          · obtain ⟨_, h1, h2⟩ := hc.cons_inv e1
            cases h1
            exact ⟨_, e1, h2⟩
        have hcall := C147_call_unchanged dltStorage dlt_lawful.toReads (by decide) bytes (v c0) hF (hv.2 c0) 0 off hoff
          (by have := h 0; simpa [endOf] using this)
        have e1' : readFallbackNext dltStorage bytes off = .ok (some (i, x), off') := e1
        have ho : off' = i + x.len ∧ off' ≤ bytes.length := by
          rcases C147_call_safe dltStorage dlt_lawful.toReads (by decide) _ (v c0) hv.1 (hv.2 c0) 0 off hoff with
            ⟨o', g1, g2, g3⟩ | ⟨i', x', b, g1, g2, g3, -⟩
          · rw [hcall, e1'] at g1; simp at g1
          · rw [hcall, e1'] at g1
            simp only [Res.ok.injEq, Prod.mk.injEq, Option.some.injEq] at g1
            obtain ⟨⟨rfl, rfl⟩, rfl⟩ := g1; exact ⟨rfl, g3⟩
        have hcall' : dltitMapped bytes.length v c0 off = .ok (some (i, x), off') := by
          show readFallbackNextOn _ _ _ _ _ = _
          rw [hcall, e1']
        have hr := ih off' (c0 + 1) ho.2 e2 (fun c a => by
          have := h (c + 1) a
          simp only [List.take_succ_cons, endOf] at this
          rw [ho.1, show c0 + 1 + c = c0 + (c + 1) by omega, this]) k
        simp only [pollFrom, hcall', hr, List.range_succ_eq_map, List.map_cons, List.map_map]
        simp [Function.comp_def]
  exact key items 0 0 (Nat.zero_le _) hc (fun c a => by rw [Nat.zero_add]; exact h c a) k

/-! ## A log that is written byte after byte -/

/-- **C147** a log that gets written into a file of `n` zeros, `m c a` of its bytes being there when access `a` of call `c`
happens: message number `j`, when it is its turn, is returned by call `c` if the call first sees its marker and then its
20 bytes of headers; what is returned is complete if the whole message was there by then, and otherwise has zeros in the
place of the rest. The offsets and sizes are right in any case. The one exception that is assumed away is an access that
sees exactly 19 bytes of a message, if that message has a length of 256 or more. -/
theorem C147_written (n : Nat) (es : List StorageEntry) (m : Nat → Nat → Nat) (hF : n < 2 ^ 63) (hw : ∀ e ∈ es, WF e)
    (hn : (backToBack es).length ≤ n) (hm : ∀ c a, m c a ≤ (backToBack es).length)
    (h19 : ∀ c j e, es[j]? = some e → m c 1 = startOf es j + 19 → e.dlt.header.length.toNat < 256) (k : Nat) :
    let can := fun c j => startOf es j + 4 ≤ m c 0 ∧ startOf es j + 20 ≤ m c 1
    pollFrom (dltitMapped n fun c a => written n es (m c a)) k 0 0 =
      .ok ((List.range k).map fun c => if can c (taken can c) then
          (es[taken can c]?).map fun e =>
            (startOf es (taken can c), half e (m c 1 - startOf es (taken can c)))
        else none) := by
  intro can
  rw [List.range_eq_range']
  refine pollFrom_of (fun c => startOf es (taken can c)) _ (fun c => ?_) k 0
  show readFallbackNextOn _ _ _ _ _ = _
  rw [call_written (m := m c) hF hw hn (fun _ => rfl) (hm c) (taken can c) (fun e => h19 c _ e)]
  simp only [taken]
  by_cases hc : can c (taken can c)
  · rw [if_pos hc, if_pos hc, if_pos hc]
  · rw [if_neg hc, if_neg hc, if_neg hc]

/-! ## A log that is written message after message -/

theorem filled_eq (n : Nat) (es : List StorageEntry) (p : Nat) : filled n es p = written n es (startOf es p) := by
  unfold filled written startOf
  have : (backToBack es).take (backToBack (es.take p)).length = backToBack (es.take p) := by
    rw [backToBack_split es p, List.take_left]
  rw [this]

theorem startOf_lt {es : List StorageEntry} {i j : Nat} (h : i < j) (hj : j ≤ es.length) :
    startOf es i + 20 ≤ startOf es j := by
  have he : es[i]? = some es[i] := List.getElem?_eq_getElem (by omega)
  have h1 := startOf_succ he
  have h2 := encode_length es[i]
  have h3 := startOf_mono es (show i + 1 ≤ j by omega)
  omega

/-- **C147** a log that gets written into a file of `n` zeros message by message, `p c a` of them being there when access `a`
of call `c` happens: call `c` returns the next message if that is there when the call begins, complete and at its offset,
and `None` if not. -/
theorem C147_filled (n : Nat) (es : List StorageEntry) (p : Nat → Nat → Nat) (hF : n < 2 ^ 63) (hw : ∀ e ∈ es, WF e)
    (hn : (backToBack es).length ≤ n) (hp : ∀ c, p c 0 ≤ p c 1) (hl : ∀ c a, p c a ≤ es.length) (k : Nat) :
    let can := fun c j => j < p c 0
    pollFrom (dltitMapped n fun c a => filled n es (p c a)) k 0 0 =
      .ok ((List.range k).map fun c => if taken can c < p c 0 then (placed es)[taken can c]? else none) := by
  intro can
  have hcan : ∀ c j, (startOf es j + 4 ≤ startOf es (p c 0) ∧ startOf es j + 20 ≤ startOf es (p c 1)) ↔ j < p c 0 := by
    intro c j
    constructor
    · rintro ⟨h, -⟩
      apply Nat.lt_of_not_le; intro hle
      have := startOf_mono es hle; omega
    · intro h
      have h1 := startOf_lt h (hl c 0)
      have h2 := startOf_mono es (hp c)
      omega
  have hv : (fun c a => filled n es (p c a)) = fun c a => written n es (startOf es (p c a)) := by
    funext c a; exact filled_eq n es (p c a)
  have := C147_written n es (fun c a => startOf es (p c a)) hF hw hn (fun c a => startOf_le es _) (by
    intro c j e he h
    rcases Nat.lt_or_ge j (p c 1) with hlt | hge
    · have := startOf_lt hlt (hl c 1); omega
    · have := startOf_mono es hge; omega) k
  rw [hv, this]
  have ht : ∀ c, taken (fun c j => startOf es j + 4 ≤ startOf es (p c 0) ∧ startOf es j + 20 ≤ startOf es (p c 1)) c =
      taken can c := by
    intro c
    induction c with
    | zero => rfl
    | succ c ih =>
      simp only [taken, ih]
      by_cases h : can c (taken can c)
      · rw [if_pos h, if_pos ((hcan c _).2 h)]
      · rw [if_neg h, if_neg (fun h' => h ((hcan c _).1 h'))]
  simp only [ht]
  congr 1
  apply List.map_congr_left
  intro c _
  by_cases h : taken can c < p c 0
  · rw [if_pos h, if_pos ((hcan c _).2 h)]
    have hj : taken can c < es.length := Nat.lt_of_lt_of_le h (hl c 0)
    have he : es[taken can c]? = some es[taken can c] := List.getElem?_eq_getElem hj
    have h1 := startOf_mono es (show taken can c + 1 ≤ p c 1 from Nat.le_trans h (hp c))
    rw [startOf_succ he] at h1
    simp only [placed, List.getElem?_mapIdx, he, Option.map_some]
    rw [half_whole (by omega)]
  · rw [if_neg h, if_neg (fun h' => h ((hcan c _).1 h'))]

theorem taken_answers {es : List StorageEntry} {q : Nat → Nat} (hl : ∀ c, q c ≤ es.length) (k : Nat) :
    ((List.range k).map fun c => if taken (fun c j => j < q c) c < q c then (placed es)[taken (fun c j => j < q c) c]?
      else none).filterMap id = (placed es).take (taken (fun c j => j < q c) k) := by
  induction k with
  | zero => rfl
  | succ k ih =>
    rw [List.range_succ, List.map_append, List.filterMap_append, ih]
    simp only [taken, List.map_cons, List.map_nil]
    by_cases h : taken (fun c j => j < q c) k < q k
    · have hj : taken (fun c j => j < q c) k < (placed es).length := by
        unfold placed; rw [List.length_mapIdx]; have := hl k; omega
      rw [if_pos h, if_pos h, List.getElem?_eq_getElem hj, List.take_add_one, List.getElem?_eq_getElem hj]
      rfl
    · rw [if_neg h, if_neg h]; simp

/-- **C147** whoever keeps asking sees, of such a log, complete messages only, in order, none twice and none left out; after
`k` calls a first part of the log; and all of it, if the log is complete from call number `c` on and there are `es.length`
calls from there on. -/
theorem C147_follow (n : Nat) (es : List StorageEntry) (p : Nat → Nat → Nat) (hF : n < 2 ^ 63) (hw : ∀ e ∈ es, WF e)
    (hn : (backToBack es).length ≤ n) (hp : ∀ c, p c 0 ≤ p c 1) (hl : ∀ c a, p c a ≤ es.length) (k : Nat) :
    ∃ rs, pollFrom (dltitMapped n fun c a => filled n es (p c a)) k 0 0 = .ok rs ∧
      (∃ j, rs.filterMap id = (placed es).take j) ∧
      ∀ c0, (∀ c, c0 ≤ c → p c 0 = es.length) → c0 + es.length ≤ k → rs.filterMap id = placed es := by
  refine ⟨_, C147_filled n es p hF hw hn hp hl k, ⟨_, taken_answers (fun c => hl c 0) k⟩, fun c0 hc hk => ?_⟩
  rw [taken_answers (fun c => hl c 0) k, List.take_of_length_le]
  unfold placed; rw [List.length_mapIdx]
  have hge : ∀ i, i ≤ es.length → i ≤ taken (fun c j => j < p c 0) (c0 + i) := by
    intro i
    induction i with
    | zero => intro _; exact Nat.zero_le _
    | succ i ih =>
      intro hi
      have := ih (by omega)
      rw [← Nat.add_assoc]
      simp only [taken]
      have hq := hc (c0 + i) (by omega)
      split <;> omega
  have hmono : ∀ i d, taken (fun c j => j < p c 0) i ≤ taken (fun c j => j < p c 0) (i + d) := by
    intro i d
    induction d with
    | zero => exact Nat.le_refl _
    | succ d ih => rw [← Nat.add_assoc]; simp only [taken]; split <;> omega
  have h1 := hge es.length (Nat.le_refl _)
  have h2 := hmono (c0 + es.length) (k - (c0 + es.length))
  rw [show c0 + es.length + (k - (c0 + es.length)) = k by omega] at h2
  omega

/-! ## What is not guaranteed -/

/-- **C147** a message can be returned half written: `msg1` has been written in two pieces, the headers first; the reader takes
it with zeros in the place of its 21 other bytes, and never returns the message that the file then contains. -/
theorem C147_half_message : ∃ (n : Nat) (e x : StorageEntry) (m : Nat → Nat → Nat), WF e ∧ x ≠ e ∧
    (∀ c a, m c a ≤ m c (a + 1) ∧ m c a ≤ m (c + 1) 0) ∧ (∀ c a, 0 < c → written n [e] (m c a) = encode e) ∧
    ∀ k, pollFrom (dltitMapped n fun c a => written n [e] (m c a)) (k + 1) 0 0 =
      .ok (some (0, x) :: List.replicate k none) := by
  refine ⟨41, msg1, half msg1 20, fun c _ => if c = 0 then 20 else 41, by decide, by decide, ?_, ?_, ?_⟩
  · intro c a; constructor
    · exact Nat.le_refl _
    · show (if c = 0 then 20 else 41) ≤ if c + 1 = 0 then 20 else 41
      rcases c with _ | c <;> simp
  · intro c a hc
    show written 41 [msg1] (if c = 0 then 20 else 41) = _
    rw [if_neg (by omega)]; decide
  · intro k
    have hb : (backToBack [msg1]).length = 41 := rfl
    rw [C147_written 41 [msg1] (fun c _ => if c = 0 then 20 else 41) (by decide) (by decide) (by rw [hb]; exact Nat.le_refl _)
      (by intro c a; rw [hb]; show (if c = 0 then 20 else 41) ≤ 41; split <;> omega)
      (by
        intro c j e he _
        have : e ∈ [msg1] := List.mem_of_getElem? he
        simp only [List.mem_singleton] at this
        subst this; decide)]
    have ht : ∀ c, taken (fun c j => startOf [msg1] j + 4 ≤ (if c = 0 then 20 else 41) ∧
        startOf [msg1] j + 20 ≤ if c = 0 then 20 else 41) (c + 1) = 1 := by
      intro c
      induction c with
      | zero => rfl
      | succ c ih =>
        rw [taken, ih, if_neg]
        rintro ⟨h, -⟩
        rw [if_neg (by omega)] at h
        exact absurd h (by decide)
    simp only [List.range_succ_eq_map, List.map_cons, List.map_map]
    congr 1
    refine List.cons_eq_cons.2 ⟨rfl, ?_⟩
    rw [List.eq_replicate_iff]
    refine ⟨by simp, ?_⟩
    intro b hb
    obtain ⟨c, -, rfl⟩ := List.mem_map.1 hb
    simp only [Function.comp_apply, Nat.succ_eq_add_one, ht]
    split <;> rfl

/-- A message of 316 bytes. -/
def msg316 : StorageEntry := ⟨msg1.storageHeader, ⟨⟨⟨0x20⟩, 3, 300⟩, List.replicate 296 7⟩⟩

/-- **C147** the exception in `C147_written` is needed: of a message of 316 bytes the call sees the first 19, the last of them the
first byte of the length, 300; it returns a message of 272 bytes, and the reader goes on in the middle of the message. -/
theorem C147_wrong_size : WF msg316 ∧ msg316.len = 316 ∧
    ∃ x, dltitMapped 316 (fun _ _ => written 316 [msg316] 19) 0 0 = .ok (some (0, x), 272) := by
  refine ⟨by decide +kernel, by decide +kernel, ?_⟩
  exact ⟨⟨msg1.storageHeader, ⟨⟨⟨0x20⟩, 3, 256⟩, List.replicate 252 0⟩⟩, by decide +kernel⟩

/-! ## The hypotheses can be met -/

/-- Three messages appear one after the other, the second while the second call is running; five calls. -/
example : pollFrom (dltitMapped 100 fun c a => filled 100 [msg0, msg1, msg0]
    (if c = 0 then 1 else if c = 1 then (if a = 0 then 1 else 2) else 3)) 5 0 0 =
    .ok [some (0, msg0), none, some (20, msg1), some (61, msg0), none] := by
  rw [C147_filled 100 [msg0, msg1, msg0] _ (by decide) (by decide) (by decide)
    (by intro c; show (if c = 0 then 1 else if c = 1 then (if 0 = 0 then 1 else 2) else 3) ≤
          if c = 0 then 1 else if c = 1 then (if 1 = 0 then 1 else 2) else 3
        split <;> (try split) <;> simp)
    (by intro c a; show (if c = 0 then 1 else if c = 1 then (if a = 0 then 1 else 2) else 3) ≤ 3
        split <;> (try split) <;> (try split) <;> omega)]
  rfl

/-- The first message is overwritten while the second is read. -/
example : Mapped 40 (fun c _ => if c = 0 then encode msg0 ++ encode msg0 else List.replicate 20 5 ++ encode msg0) ∧
    Collects (dltitOffsetNext (encode msg0 ++ encode msg0)) 0 [(0, msg0), (20, msg0)] := by
  refine ⟨⟨by decide, fun c a => ?_⟩, 3, by decide +kernel⟩
  show (if c = 0 then encode msg0 ++ encode msg0 else List.replicate 20 5 ++ encode msg0).length = 40
  split <;> decide

end Verif
