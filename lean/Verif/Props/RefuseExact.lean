import Verif.Props.Refuse
import Verif.Props.DdExact

/-! # C105: from which point on `dd_dlt` does not notice that its output is incomplete -/

set_option linter.unusedSimpArgs false

namespace Verif

open Spec

/-! ## Less room is noticed earlier -/

/-- The room is used up, and the next write of at least one byte goes to the raw output first. -/
def Eager (r : Nat) (w : StdoutOn) : Prop :=
  w.sink.length = r ∧ w.buf ≠ [] ∧ (w.buf.getLast? = some 10 ∨ LineWriter.capacity ≤ w.buf.length)

/-- How a run with less room (`r`) and a run with more are related while the former has not been refused anything. -/
def Behind (r : Nat) (w w' : StdoutOn) : Prop :=
  (w.sink = w'.sink ∧ w.buf = w'.buf ∧ w.sink.length ≤ r) ∨ Eager r w ∨ (w.sink.length = r ∧ w.buf = w'.buf)

theorem used_flush {r : Nat} {w : StdoutOn} (h : w.sink.length = r) (hb : w.buf ≠ []) : (w.flush (.upTo r)).2 = false := by
  rcases hf : w.flush (.upTo r) with ⟨v, b⟩
  cases b with
  | false => rfl
  | true => exact absurd ((full_flush h).1 v hf).2 hb

theorem nil_flush (acc : Outlet) {w : StdoutOn} (h : w.buf = []) : w.flush acc = (w, true) := by
  rw [flushOn_eq, if_pos h]

theorem used_bufWrite {r : Nat} {w : StdoutOn} {data : Bytes} (h : w.sink.length = r) :
    (w.bufWrite (.upTo r) data).2 = none ∨
    (∀ (acc : Outlet) (w' : StdoutOn), w'.buf = w.buf → ∃ k, w'.bufWrite acc data = (⟨w'.sink, w'.buf ++ data, w'.calls⟩, some k)) := by
  unfold StdoutOn.bufWrite
  by_cases hlt : data.length < LineWriter.capacity - w.buf.length
  · exact .inr fun acc w' hb => ⟨_, by rw [hb, if_pos hlt]⟩
  · rw [if_neg hlt]
    have push : ∀ {u : StdoutOn}, u.sink.length = r → (u.bufPush (.upTo r) data).2 = none ∨ data.length < LineWriter.capacity := by
      intro u hu
      unfold StdoutOn.bufPush
      by_cases hge : data.length ≥ LineWriter.capacity
      · rw [if_pos hge, upTo_direct, if_pos (Nat.le_of_eq hu.symm)]
        exact .inl rfl
      · exact .inr (by omega)
    by_cases hgt : data.length > LineWriter.capacity - w.buf.length
    · rw [if_pos hgt]
      by_cases hb : w.buf = []
      · rw [nil_flush _ hb]
        dsimp only
        rcases push h with h1 | h1
        · exact .inl h1
        · rw [hb] at hgt
          simp at hgt
          omega
      · left
        have := used_flush h hb
        rcases hf : w.flush (.upTo r) with ⟨v, b⟩
        rw [hf] at this
        dsimp only at this
        subst this
        rfl
    · rw [if_neg hgt]
      rcases push h with h1 | h1
      · exact .inl h1
      · right
        intro acc w' hb
        refine ⟨data.length, ?_⟩
        rw [hb, if_neg hlt, if_neg hgt]
        unfold StdoutOn.bufPush
        rw [if_neg (by omega), hb]

/-- When the room is used up, a write that needs the raw output is refused, and all others only buffer. -/
theorem used_write {r : Nat} (late : Bool) {w : StdoutOn} {data : Bytes} (h : w.sink.length = r) :
    (w.write late (.upTo r) data).2 = none ∨
    (∀ (acc : Outlet) (w' : StdoutOn), w'.buf = w.buf → ∃ k, w'.write late acc data = (⟨w'.sink, w'.buf ++ data, w'.calls⟩, some k)) := by
  unfold StdoutOn.write
  cases hr : rfind [10] data with
  | some i =>
    left
    dsimp only
    by_cases hb : w.buf = []
    · rw [nil_flush _ hb]
      dsimp only
      rw [upTo_direct, if_pos (Nat.le_of_eq h.symm)]
    · have := used_flush h hb
      rcases hf : w.flush (.upTo r) with ⟨v, b⟩
      rw [hf] at this
      dsimp only at this
      subst this
      rfl
  | none =>
    dsimp only
    unfold StdoutOn.flushIfCompletedLine
    by_cases hl : w.buf.getLast? = some 10
    · left
      rw [if_pos hl]
      have hb : w.buf ≠ [] := by intro h; rw [h] at hl; cases hl
      have := used_flush h hb
      rcases hf : w.flush (.upTo r) with ⟨v, b⟩
      rw [hf] at this
      dsimp only at this
      subst this
      rfl
    · rw [if_neg hl]
      dsimp only
      rcases used_bufWrite (data := data) h with h1 | h1
      · exact .inl h1
      · right
        intro acc w' hb
        obtain ⟨k, hk⟩ := h1 acc w' hb
        refine ⟨k, ?_⟩
        rw [hb, if_neg hl]
        dsimp only
        rw [hk, hb]

theorem eager_write {r : Nat} (late : Bool) {w : StdoutOn} {data : Bytes} (h : Eager r w) (hd : data ≠ []) :
    (w.write late (.upTo r) data).2 = none := by
  obtain ⟨h1, h2, h3⟩ := h
  have hfl := used_flush h1 h2
  rcases hf : w.flush (.upTo r) with ⟨v, b⟩
  rw [hf] at hfl
  dsimp only at hfl
  subst hfl
  unfold StdoutOn.write
  cases hr : rfind [10] data with
  | some i => dsimp only; rw [hf]
  | none =>
    dsimp only
    unfold StdoutOn.flushIfCompletedLine
    by_cases hl : w.buf.getLast? = some 10
    · rw [if_pos hl, hf]
    · rw [if_neg hl]
      have hcap := h3.resolve_left hl
      have hp : 0 < data.length := List.length_pos_iff.2 hd
      dsimp only
      unfold StdoutOn.bufWrite
      rw [if_neg (by omega), if_pos (by omega), hf]

/-- What `write` tries to buffer when the raw output took only a part of the lines. -/
theorem tail_eager {late : Bool} {data : Bytes} {i fl : Nat} (hr : rfind [10] data = some i) (h : fl < i + 1) :
    let t := StdoutOn.tail late data (i + 1) fl
    t ≠ [] ∧ t.length ≤ LineWriter.capacity ∧ (t.getLast? = some 10 ∨ LineWriter.capacity ≤ t.length) := by
  have hc : LineWriter.capacity = 1024 := rfl
  have hat : data[i]? = some 10 := (nl_at data i).1 (rfind_some (by decide) hr).1
  have hi : i < data.length := (List.getElem?_eq_some_iff.1 hat).1
  dsimp only
  unfold StdoutOn.tail
  rw [if_neg (by omega)]
  split
  · rename_i hle
    have hlen : ((data.take (i + 1)).drop fl).length = i + 1 - fl := by rw [List.length_drop, List.length_take]; omega
    refine ⟨fun h0 => ?_, by omega, .inl ?_⟩
    · rw [h0] at hlen; simp at hlen; omega
    · rw [List.getLast?_eq_getElem?, hlen, List.getElem?_drop, List.getElem?_take, if_pos (by omega)]
      rw [show fl + (i + 1 - fl - 1) = i by omega]
      exact hat
  · rename_i hgt
    dsimp only
    have hlen : ((data.drop fl).take LineWriter.capacity).length = 1024 := by rw [List.length_take, List.length_drop]; omega
    cases hj : rfind [10] ((data.drop fl).take LineWriter.capacity) with
    | none =>
      dsimp only
      refine ⟨fun h0 => ?_, by omega, .inr (by omega)⟩
      rw [h0] at hlen; simp at hlen
    | some j =>
      dsimp only
      have hjt := (nl_at _ j).1 (rfind_some (by decide) hj).1
      have hjl : j < _ := (List.getElem?_eq_some_iff.1 hjt).1
      have hl2 : (((data.drop fl).take LineWriter.capacity).take (j + 1)).length = j + 1 := by rw [List.length_take]; omega
      refine ⟨fun h0 => ?_, by omega, .inl ?_⟩
      · rw [h0] at hl2; simp at hl2
      · rw [List.getLast?_eq_getElem?, hl2, List.getElem?_take, if_pos (by omega)]
        exact hjt

theorem behind_write {r r' : Nat} (hr' : r ≤ r') (late : Bool) {w w' v : StdoutOn} {data : Bytes} {k : Nat} (h : Behind r w w')
    (hd : data ≠ []) (hw : w.write late (.upTo r) data = (v, some k)) :
    ∃ v' k', w'.write late (.upTo r') data = (v', some k') ∧ Behind r v v' := by
  rcases h with ⟨h1, h2, h3⟩ | h | ⟨h1, h2⟩
  · -- the same so far
    have push : ∀ {u u' : StdoutOn}, u.sink = u'.sink → u.buf = u'.buf → u.sink.length ≤ r → u.bufPush (.upTo r) data = (v, some k) →
        ∃ v' k', u'.bufPush (.upTo r') data = (v', some k') ∧ Behind r v v' := by
      intro u u' e1 e2 e3 hu
      unfold StdoutOn.bufPush at hu ⊢
      by_cases hge : data.length ≥ LineWriter.capacity
      · rw [if_pos hge, upTo_direct] at hu
        rw [if_pos hge, upTo_direct]
        by_cases hL : r ≤ u.sink.length
        · rw [if_pos hL] at hu; cases hu
        · rw [if_neg hL] at hu
          rw [if_neg (by rw [← e1]; omega)]
          injection hu with hu hk
          subst hu
          refine ⟨_, _, rfl, ?_⟩
          by_cases hfit : data.length ≤ r - u.sink.length
          · left
            rw [List.take_of_length_le hfit, List.take_of_length_le (by rw [← e1]; omega)]
            exact ⟨by rw [e1], e2, by simp; omega⟩
          · right; right
            exact ⟨by simp; omega, e2⟩
      · rw [if_neg hge] at hu ⊢
        injection hu with hu hk
        subst hu
        exact ⟨_, _, rfl, .inl ⟨e1, by rw [e2], e3⟩⟩
    have flush : ∀ {u u' x : StdoutOn}, u.sink = u'.sink → u.buf = u'.buf → u.sink.length ≤ r → u.flush (.upTo r) = (x, true) →
        ∃ x', u'.flush (.upTo r') = (x', true) ∧ x.sink = x'.sink ∧ x.buf = x'.buf ∧ x.sink.length ≤ r ∧ x.buf = [] := by
      intro u u' x e1 e2 e3 hu
      obtain ⟨c, hc⟩ := upTo_flush u e3
      obtain ⟨c', hc'⟩ := upTo_flush (L := r') u' (by rw [← e1]; omega)
      rw [hc] at hu
      injection hu with hu hb
      have hb := of_decide_eq_true hb
      subst hu
      rw [hc', ← e1, ← e2, decide_eq_true (by omega), List.take_of_length_le (by omega), List.drop_of_length_le (by omega),
        List.take_of_length_le hb, List.drop_of_length_le hb]
      exact ⟨_, rfl, rfl, rfl, by simp; omega, rfl⟩
    have bw : ∀ {u u' : StdoutOn}, u.sink = u'.sink → u.buf = u'.buf → u.sink.length ≤ r → u.bufWrite (.upTo r) data = (v, some k) →
        ∃ v' k', u'.bufWrite (.upTo r') data = (v', some k') ∧ Behind r v v' := by
      intro u u' e1 e2 e3 hu
      unfold StdoutOn.bufWrite at hu ⊢
      rw [← e2]
      by_cases hlt : data.length < LineWriter.capacity - u.buf.length
      · rw [if_pos hlt] at hu ⊢
        injection hu with hu hk
        subst hu
        exact ⟨_, _, rfl, .inl ⟨e1, rfl, e3⟩⟩
      · rw [if_neg hlt] at hu ⊢
        by_cases hgt : data.length > LineWriter.capacity - u.buf.length
        · rw [if_pos hgt] at hu ⊢
          rcases hf : u.flush (.upTo r) with ⟨x, b⟩
          rw [hf] at hu
          cases b with
          | false => cases hu
          | true =>
            obtain ⟨x', g1, g2, g3, g4, _⟩ := flush e1 e2 e3 hf
            rw [g1]
            exact push g2 g3 g4 hu
        · rw [if_neg hgt] at hu ⊢
          exact push e1 e2 e3 hu
    unfold StdoutOn.write at hw ⊢
    cases hr : rfind [10] data with
    | none =>
      rw [hr] at hw
      dsimp only at hw ⊢
      unfold StdoutOn.flushIfCompletedLine at hw ⊢
      rw [← h2]
      by_cases hl : w.buf.getLast? = some 10
      · rw [if_pos hl] at hw ⊢
        rcases hf : w.flush (.upTo r) with ⟨x, b⟩
        rw [hf] at hw
        cases b with
        | false => cases hw
        | true =>
          obtain ⟨x', g1, g2, g3, g4, _⟩ := flush h1 h2 h3 hf
          rw [g1]
          exact bw g2 g3 g4 hw
      · rw [if_neg hl] at hw ⊢
        exact bw h1 h2 h3 hw
    | some i =>
      have hi : i < data.length := (List.getElem?_eq_some_iff.1 ((nl_at data i).1 (rfind_some (by decide) hr).1)).1
      have hl : (data.take (i + 1)).length = i + 1 := by rw [List.length_take]; omega
      rw [hr] at hw
      dsimp only at hw ⊢
      rcases hf : w.flush (.upTo r) with ⟨x, b⟩
      rw [hf] at hw
      cases b with
      | false => cases hw
      | true =>
        obtain ⟨x', g1, g2, g3, g4, g5⟩ := flush h1 h2 h3 hf
        rw [g1]
        dsimp only at hw ⊢
        rw [upTo_direct] at hw ⊢
        by_cases hL : r ≤ x.sink.length
        · rw [if_pos hL] at hw; cases hw
        · rw [if_neg hL] at hw
          rw [if_neg (by rw [← g2]; omega)]
          dsimp only at hw ⊢
          rw [hl] at hw ⊢
          rw [if_neg (by omega)] at hw
          rw [if_neg (by rw [← g2]; omega)]
          injection hw with hw hk
          subst hw
          refine ⟨_, _, rfl, ?_⟩
          by_cases hfit : i + 1 ≤ r - x.sink.length
          · left
            rw [Nat.min_eq_left hfit, Nat.min_eq_left (by rw [← g2]; omega),
              List.take_of_length_le (l := data.take (i + 1)) (i := r - x.sink.length) (by omega),
              List.take_of_length_le (l := data.take (i + 1)) (i := r' - x'.sink.length) (by rw [← g2]; omega)]
            unfold StdoutOn.writeToBuf
            dsimp only
            refine ⟨by rw [g2], by rw [g3], by rw [List.length_append]; omega⟩
          · right; left
            rw [Nat.min_eq_right (by omega)]
            obtain ⟨t1, t2, t3⟩ := tail_eager (late := late) (fl := r - x.sink.length) hr (by omega)
            unfold StdoutOn.writeToBuf
            dsimp only
            rw [g5, List.length_nil, Nat.sub_zero, Nat.min_eq_right t2, List.take_length, List.nil_append]
            exact ⟨by dsimp only; rw [List.length_append, List.length_take, hl]; omega, t1, t3⟩
  · have := eager_write late h hd
    rw [hw] at this
    cases this
  · rcases used_write late (data := data) h1 with h3 | h3
    · rw [hw] at h3
      cases h3
    · obtain ⟨k1, e1⟩ := h3 (.upTo r) w rfl
      obtain ⟨k2, e2⟩ := h3 (.upTo r') w' h2.symm
      rw [hw] at e1
      injection e1 with e1
      subst e1
      exact ⟨_, _, e2, .inr (.inr ⟨h1, by rw [h2]⟩)⟩

/-! ## Turns -/

/-- The run with less room has been refused something, or both go on alike, or both end alike. -/
def Follows (r : Nat) (x x' : DdStateOn ⊕ DdStateOn × DdEndOn) : Prop :=
  (∃ s, x = .inr (s, .refused)) ∨ (∃ i c o o', x = .inl ⟨i, c, o⟩ ∧ x' = .inl ⟨i, c, o'⟩ ∧ Behind r o o') ∨
  (∃ i c o o' e, x = .inr (⟨i, c, o⟩, .ended e) ∧ x' = .inr (⟨i, c, o'⟩, .ended e))

theorem follows_write {r r' : Nat} (hr : r ≤ r') (late : Bool) {i : Bytes} {c : UInt32} {w w' : StdoutOn} {data : Bytes}
    {k k' : StdoutOn → DdStateOn ⊕ DdStateOn × DdEndOn} (h : Behind r w w') (hd : data ≠ [])
    (hk : ∀ o o', Behind r o o' → Follows r (k o) (k' o')) :
    Follows r (writeOr late (.upTo r) i c w data k) (writeOr late (.upTo r') i c w' data k') := by
  unfold writeOr
  rcases hw : w.write late (.upTo r) data with ⟨v, o⟩
  cases o with
  | none => exact .inl ⟨_, rfl⟩
  | some m =>
    obtain ⟨v', m', h1, h2⟩ := behind_write hr late h hd hw
    rw [h1]
    exact hk v v' h2

theorem follows_turn {r r' : Nat} (hr : r ≤ r') (a : DdArgs) (hn : 0 < a.payloadSize.toNat) (i : Bytes) (c : UInt32) (o o' : StdoutOn)
    (h : Behind r o o') : Follows r (ddTurnOn (.upTo r) a ⟨i, c, o⟩) (ddTurnOn (.upTo r') a ⟨i, c, o'⟩) := by
  have fin : ∀ (i : Bytes) (c : UInt32) (o o' : StdoutOn) (e : DdEnd),
      Follows r (.inr (⟨i, c, o⟩, .ended e)) (.inr (⟨i, c, o'⟩, .ended e)) := fun i c o o' e => .inr (.inr ⟨i, c, o, o', e, rfl, rfl⟩)
  unfold ddTurnOn
  dsimp only
  by_cases hl : i.length < a.payloadSize.toNat
  · rw [if_pos hl, if_pos hl]; exact fin _ _ _ _ _
  · rw [if_neg hl, if_neg hl]
    cases B4.ofBytes? a.ecuid with
    | none => exact fin _ _ _ _ _
    | some ecu =>
      dsimp only
      cases add16 a.build.checks (4 + 10 + 4) a.payloadSize with
      | panic => exact fin _ _ _ _ _
      | ok len =>
        dsimp only
        cases B4.ofBytes? a.appid with
        | none => exact fin _ _ _ _ _
        | some app =>
          dsimp only
          refine follows_write hr _ h (by unfold StorageHeader.asBytes B4.toBytes; simp) fun o o' h => ?_
          refine follows_write hr _ h (by unfold StdHeader.asBytes; simp) fun o o' h => ?_
          cases mul32 a.build.checks c 100 with
          | panic => exact fin _ _ _ _ _
          | ok ts =>
            dsimp only
            refine follows_write hr _ h (by unfold B4.toBytes; simp) fun o o' h => ?_
            refine follows_write hr _ h (by unfold ExtHeader.asBytes; simp) fun o o' h => ?_
            refine follows_write hr _ h (fun h0 => ?_) fun o o' h => ?_
            · have := congrArg List.length h0
              rw [List.length_take, List.length_nil] at this
              omega
            · cases add32 a.build.checks c 1 with
              | panic => exact fin _ _ _ _ _
              | ok count => exact .inr (.inl ⟨_, _, _, _, rfl, rfl, h⟩)

theorem follows_turns {r r' : Nat} (hr : r ≤ r') (a : DdArgs) (hn : 0 < a.payloadSize.toNat) : ∀ (k : Nat) (i : Bytes) (c : UInt32) (o o' : StdoutOn),
    Behind r o o' → Follows r (ddTurnsOn (.upTo r) a k ⟨i, c, o⟩) (ddTurnsOn (.upTo r') a k ⟨i, c, o'⟩)
  | 0, i, c, o, o', h => .inr (.inl ⟨i, c, o, o', rfl, rfl, h⟩)
  | k + 1, i, c, o, o', h => by
    unfold ddTurnsOn
    rcases follows_turn hr a hn i c o o' h with ⟨s, h1⟩ | ⟨i', c', p, p', h1, h2, h3⟩ | ⟨i', c', p, p', e, h1, h2⟩
    · rw [h1]; exact .inl ⟨s, rfl⟩
    · rw [h1, h2]; exact follows_turns hr a hn k i' c' p p' h3
    · rw [h1, h2]; exact .inr (.inr ⟨_, _, _, _, _, rfl, rfl⟩)

theorem decimal_parse {size : Bytes} {n : Nat} (h : Decimal size n) (hn : n ≤ 65535) : parseU16 size = some n :=
  (C52_size_argument size n).2 ⟨h, hn⟩

theorem refused_mono {r r' : Nat} (hr : r ≤ r') {bd : Build} {addr : Ctor → UInt8} {ecuid appid size : Bytes} {rest : List Bytes}
    {n : Nat} (hsize : Decimal size n) (h1 : 1 ≤ n) (h2 : n ≤ 65535) {input out out' : Bytes} {e : DdEndOn}
    (h : DdMainOn (.upTo r) bd addr (ecuid :: appid :: size :: rest) input out e)
    (h' : DdMainOn (.upTo r') bd addr (ecuid :: appid :: size :: rest) input out' .refused) : e = .refused := by
  rw [ddMainOn_iff (decimal_parse hsize h2)] at h h'
  obtain ⟨k, s, hk, _⟩ := h
  obtain ⟨k', s', hk', _⟩ := h'
  have hn : 0 < (UInt16.ofNat n).toNat := by
    show 0 < n % 2 ^ 16
    rw [Nat.mod_eq_of_lt (by omega)]
    omega
  have g1 := ddTurnsOn_mono k' hk
  have g2 := ddTurnsOn_mono k hk'
  rw [Nat.add_comm] at g2
  rcases follows_turns hr ⟨bd, addr, ecuid, appid, UInt16.ofNat n⟩ hn (k + k') input 0 .empty .empty
      (.inl ⟨rfl, rfl, by simp [StdoutOn.empty]⟩) with ⟨t, h3⟩ | ⟨i', c', p, p', h3, h4, h5⟩ | ⟨i', c', p, p', e', h3, h4⟩
  · rw [g1] at h3
    injection h3 with h3
    injection h3
  · rw [g1] at h3; cases h3
  · rw [g2] at h4
    injection h4 with h4
    injection h4 with h4 h5
    cases h5

theorem ddMainOn_det {acc : Outlet} {bd : Build} {addr : Ctor → UInt8} {args : List Bytes} {input o1 o2 : Bytes} {e1 e2 : DdEndOn}
    (h1 : DdMainOn acc bd addr args input o1 e1) (h2 : DdMainOn acc bd addr args input o2 e2) : o1 = o2 ∧ e1 = e2 := by
  rcases args_cases args with ⟨ecuid, appid, size, rest, rfl⟩ | h
  · cases hs : parseU16 size with
    | none =>
      rw [ddMainOn_none hs] at h1 h2
      exact ⟨h1.2.trans h2.2.symm, h1.1.trans h2.1.symm⟩
    | some n =>
      rw [ddMainOn_iff hs] at h1 h2
      obtain ⟨k1, s1, h1, rfl⟩ := h1
      obtain ⟨k2, s2, h2, rfl⟩ := h2
      have g1 := ddTurnsOn_mono k2 h1
      have g2 := ddTurnsOn_mono k1 h2
      rw [Nat.add_comm, g1] at g2
      injection g2 with g2
      injection g2 with g2 g3
      exact ⟨by rw [g2], g3⟩
  · rw [ddMainOn_short h] at h1 h2
    exact ⟨h1.2.trans h2.2.symm, h1.1.trans h2.1.symm⟩

theorem least_of {P : Nat → Prop} : ∀ (m : Nat), P m → ∃ t, t ≤ m ∧ P t ∧ ∀ r, r < t → ¬ P r := by
  intro m
  induction m using Nat.strongRecOn with
  | _ m ih =>
    intro h
    by_cases hex : ∃ r, r < m ∧ P r
    · obtain ⟨r, h1, h2⟩ := hex
      obtain ⟨t, h3, h4, h5⟩ := ih r h1 h2
      exact ⟨t, by omega, h4, h5⟩
    · exact ⟨m, Nat.le_refl _, h, fun r h1 h2 => hex ⟨r, h1, h2⟩⟩

/-- **C105** for each run there is one point in its output: if the room ends in front of it the error is reported, if the
room ends at it or behind it, it is not. The point is at most the standard library's buffer and one write away from the
end. -/
theorem C105_point_of_silence (bd : Build) (addr : Ctor → UInt8) (ecuid appid size : Bytes) (rest : List Bytes)
    (n : Nat) (hsize : Decimal size n) (h1 : 1 ≤ n) (h2 : n ≤ 65535) (input full : Bytes) (e : DdEnd)
    (hfull : DdMain bd addr (ecuid :: appid :: size :: rest) input full e) :
    ∃ point, point ≤ full.length ∧ full.length ≤ point + 1024 + max 16 n ∧
      ∀ room out e', DdMainOn (.upTo room) bd addr (ecuid :: appid :: size :: rest) input out e' →
        (e' = .refused ↔ room < point) ∧ (e' ≠ .refused → e' = .ended e) := by
  have hfits : ∀ out e', DdMainOn (.upTo full.length) bd addr (ecuid :: appid :: size :: rest) input out e' → e' ≠ .refused := by
    intro out e' h hr
    rw [(C104_front _ _ _ _ _ _ _ _ _ hfull h).2 (Nat.le_refl _)] at hr
    cases hr
  obtain ⟨t, ht, hP, hmin⟩ := least_of (P := fun r => ∀ out e', DdMainOn (.upTo r) bd addr (ecuid :: appid :: size :: rest) input out e' →
    e' ≠ .refused) full.length hfits
  have hlt : ∀ room, room < t → ∀ out e', DdMainOn (.upTo room) bd addr (ecuid :: appid :: size :: rest) input out e' → e' = .refused := by
    intro room hr out e' h
    apply Classical.byContradiction
    intro hne
    refine hmin room hr fun o2 e2 h2 => ?_
    rw [← (ddMainOn_det h h2).2]
    exact hne
  refine ⟨t, ht, ?_, fun room out e' h => ⟨⟨fun he => ?_, fun hr => hlt room hr out e' h⟩, fun hne => ?_⟩⟩
  · apply Classical.byContradiction
    intro hgt
    obtain ⟨out, e', h⟩ := C105_ends t bd addr (ecuid :: appid :: size :: rest) input
    exact hP out e' h (C105_reported_partial t bd addr ecuid appid size rest n hsize h2 input full out e e' hfull h (by omega))
  · apply Classical.byContradiction
    intro hge
    subst he
    obtain ⟨o2, e2, hh⟩ := C105_ends t bd addr (ecuid :: appid :: size :: rest) input
    exact hP o2 e2 hh (refused_mono (by omega) hsize h1 h2 hh h)
  · obtain ⟨w, _, g1, _⟩ := ddMain_sim (any_sim bd.late (.upTo room) 65535) (by simp [StdoutOn.all, StdoutOn.empty])
      (decimal_parse hsize h2) (by omega) h2 h
    cases e' with
    | refused => exact absurd rfl hne
    | ended e'' =>
      obtain ⟨f, g3, _⟩ := g1 e'' rfl
      rw [(ddMain_det g3 hfull).2]

/-! ## The last payload -/

/-- Same contents, there was room for them, the buffer is not overfull. -/
def Fine (room : Nat) (w : StdoutOn) (f : LineWriter) : Prop :=
  w.sink = f.sink ∧ w.buf = f.buf ∧ w.buf.length ≤ LineWriter.capacity ∧ f.output.length ≤ room

theorem room_flush {room : Nat} {w : StdoutOn} (h : w.sink.length + w.buf.length ≤ room) :
    ∃ c, w.flush (.upTo room) = (⟨w.sink ++ w.buf, [], c⟩, true) := by
  obtain ⟨c, hc⟩ := upTo_flush (L := room) w (by omega)
  rw [hc, decide_eq_true (by omega), List.take_of_length_le (by omega), List.drop_of_length_le (by omega)]
  exact ⟨c, rfl⟩

theorem room_direct {room : Nat} {w : StdoutOn} {data : Bytes} (hd : data ≠ []) (h : w.sink.length + data.length ≤ room) :
    w.direct (.upTo room) data = (⟨w.sink ++ data, w.buf, w.calls + 1⟩, some data.length) := by
  have hp : 0 < data.length := List.length_pos_iff.2 hd
  rw [upTo_direct, if_neg (by omega), List.take_of_length_le (by omega), Nat.min_eq_left (by omega)]

theorem room_write {room : Nat} (late : Bool) {w : StdoutOn} {f : LineWriter} {data : Bytes} (h : Fine room w f)
    (hroom : (f.write late data).1.output.length ≤ room) :
    ∃ v k, w.write late (.upTo room) data = (v, some k) ∧ Fine room v (f.write late data).1 := by
  have hc : LineWriter.capacity = 1024 := rfl
  obtain ⟨h1, h2, h3, h4⟩ := h
  have hout := (write_output late f data).1
  have hflen : f.output.length = w.sink.length + w.buf.length := by
    unfold LineWriter.output; rw [List.length_append, h1, h2]
  suffices ∃ v k, w.write late (.upTo room) data = (v, some k) ∧ v.sink = (f.write late data).1.sink ∧
      v.buf = (f.write late data).1.buf ∧ v.buf.length ≤ LineWriter.capacity by
    obtain ⟨v, k, g1, g2, g3, g4⟩ := this
    exact ⟨v, k, g1, g2, g3, g4, hroom⟩
  rw [hout, List.length_append, List.length_take] at hroom
  have htk := taken_le late data
  unfold StdoutOn.write LineWriter.write
  unfold taken at hroom htk
  cases hr : rfind [10] data with
  | none =>
    rw [hr] at hroom
    dsimp only at hroom ⊢
    have push : ∀ {x : StdoutOn} {g : LineWriter}, x.sink = g.sink → x.buf = g.buf → (LineWriter.capacity ≤ data.length → x.buf = []) →
        (data.length < LineWriter.capacity → x.buf.length + data.length ≤ LineWriter.capacity) →
        x.sink.length + x.buf.length + data.length ≤ room →
        ∃ v k, x.bufPush (.upTo room) data = (v, some k) ∧
          v.sink = (if data.length ≥ LineWriter.capacity then (⟨g.sink ++ data, g.buf⟩, data.length)
            else (⟨g.sink, g.buf ++ data⟩, data.length) : LineWriter × Nat).1.sink ∧
          v.buf = (if data.length ≥ LineWriter.capacity then (⟨g.sink ++ data, g.buf⟩, data.length)
            else (⟨g.sink, g.buf ++ data⟩, data.length) : LineWriter × Nat).1.buf ∧ v.buf.length ≤ LineWriter.capacity := by
      intro x g e1 e2 e3 e4 e5
      unfold StdoutOn.bufPush
      by_cases hge : data.length ≥ LineWriter.capacity
      · rw [if_pos hge, if_pos hge, room_direct (by intro h0; rw [h0] at hge; simp at hge; omega) (by omega)]
        exact ⟨_, _, rfl, by rw [e1], e2, by rw [e3 hge]; simp⟩
      · rw [if_neg hge, if_neg hge]
        have := e4 (by omega)
        exact ⟨_, _, rfl, e1, by rw [e2], by simp; omega⟩
    have hbw : ∀ {x : StdoutOn} {g : LineWriter}, x.sink = g.sink → x.buf = g.buf → x.buf.length ≤ LineWriter.capacity →
        x.sink.length + x.buf.length + data.length ≤ room →
        ∃ v k, x.bufWrite (.upTo room) data = (v, some k) ∧ v.sink = (g.bufWrite data).1.sink ∧ v.buf = (g.bufWrite data).1.buf ∧
          v.buf.length ≤ LineWriter.capacity := by
      intro x g e1 e2 e3 e5
      unfold StdoutOn.bufWrite LineWriter.bufWrite
      rw [← e2]
      by_cases hlt : data.length < LineWriter.capacity - x.buf.length
      · rw [if_pos hlt, if_pos hlt]
        exact ⟨_, _, rfl, e1, rfl, by simp; omega⟩
      · rw [if_neg hlt, if_neg hlt]
        by_cases hgt : data.length > LineWriter.capacity - x.buf.length
        · rw [if_pos hgt, if_pos hgt]
          obtain ⟨c, hfl⟩ := room_flush (room := room) (w := x) (by omega)
          rw [hfl]
          dsimp only
          exact push (g := g.flush) (by simp [LineWriter.flush, e1, e2]) rfl (fun _ => rfl) (fun h => by simp; omega) (by simp; omega)
        · rw [if_neg hgt, if_neg hgt]
          dsimp only
          refine push e1 e2 (fun h => ?_) (fun h => by omega) e5
          apply List.eq_nil_of_length_eq_zero
          omega
    unfold StdoutOn.flushIfCompletedLine LineWriter.flushIfCompletedLine
    rw [← h2]
    by_cases hl : w.buf.getLast? = some 10
    · rw [if_pos hl, if_pos hl]
      obtain ⟨c, hfl⟩ := room_flush (room := room) (w := w) (by omega)
      rw [hfl]
      exact hbw (g := f.flush) (by simp [LineWriter.flush, h1, h2]) rfl (by simp) (by simp; omega)
    · rw [if_neg hl, if_neg hl]
      exact hbw h1 h2 h3 (by omega)
  | some i =>
    rw [hr] at hroom
    dsimp only at hroom ⊢
    have hi : i < data.length := (List.getElem?_eq_some_iff.1 ((nl_at data i).1 (rfind_some (by decide) hr).1)).1
    have hl : (data.take (i + 1)).length = i + 1 := by rw [List.length_take]; omega
    have hfit : w.sink.length + w.buf.length + (i + 1) ≤ room := by
      split at hroom <;> omega
    obtain ⟨c, hfl⟩ := room_flush (room := room) (w := w) (by omega)
    rw [hfl]
    dsimp only
    rw [room_direct (by intro h0; rw [h0] at hl; simp at hl) (by dsimp only; rw [List.length_append, hl]; exact hfit), hl]
    dsimp only
    rw [if_neg (Nat.add_one_ne_zero _), if_neg (Nat.add_one_ne_zero _)]
    have ht : StdoutOn.tail late data (i + 1) (i + 1) = LineWriter.behind late (data.drop (i + 1)) := by
      unfold StdoutOn.tail; rw [if_pos (Nat.le_refl _)]
    rw [ht]
    refine ⟨_, _, rfl, ?_, rfl, writeToBuf_cap _ _ (by simp)⟩
    unfold StdoutOn.writeToBuf LineWriter.writeToBuf LineWriter.flush
    dsimp only
    rw [h1, h2]

/-- As long as everything fits, the run is that on an output that takes everything. -/
theorem room_sim (late : Bool) (room D : Nat) : Sim late (.upTo room) D (fun w f => Fine room w f ∨ room < f.output.length)
    (fun _ f => room < f.output.length) := by
  have grow : ∀ (f : LineWriter) (data : Bytes), f.output.length ≤ (f.write late data).1.output.length :=
    fun f data => (write_prefix late f data).length_le
  refine ⟨fun {w f data w' k} h _ hw => ?_, fun {w f data w'} h _ hw => ?_, fun {w f} data h => ?_⟩
  · by_cases hr : (f.write late data).1.output.length ≤ room
    · have := grow f data
      obtain ⟨v, k', g1, g2⟩ := room_write late (h.resolve_right (by omega)) hr
      rw [hw] at g1
      injection g1 with g1
      subst g1
      exact .inl g2
    · exact .inr (by omega)
  · by_cases hr : (f.write late data).1.output.length ≤ room
    · have := grow f data
      obtain ⟨v, k', g1, g2⟩ := room_write late (h.resolve_right (by omega)) hr
      rw [hw] at g1
      cases g1
    · omega
  · have := grow f data
    omega

/-- If there is room for one byte more, the next write is not refused. -/
theorem room_for_one {room : Nat} (late : Bool) {w : StdoutOn} {f : LineWriter} {data : Bytes} (h : Fine room w f)
    (hroom : f.output.length < room) : ∃ v k, w.write late (.upTo room) data = (v, some k) := by
  have hc : LineWriter.capacity = 1024 := rfl
  obtain ⟨h1, h2, h3, h4⟩ := h
  have hflen : f.output.length = w.sink.length + w.buf.length := by
    unfold LineWriter.output; rw [List.length_append, h1, h2]
  have push : ∀ {x : StdoutOn}, x.sink.length < room → ∃ v k, x.bufPush (.upTo room) data = (v, some k) := by
    intro x hx
    unfold StdoutOn.bufPush
    split
    · rw [upTo_direct, if_neg (by omega)]; exact ⟨_, _, rfl⟩
    · exact ⟨_, _, rfl⟩
  have bw : ∀ {x : StdoutOn}, x.sink.length + x.buf.length < room → ∃ v k, x.bufWrite (.upTo room) data = (v, some k) := by
    intro x hx
    unfold StdoutOn.bufWrite
    split
    · exact ⟨_, _, rfl⟩
    · split
      · obtain ⟨c, hfl⟩ := room_flush (room := room) (w := x) (by omega)
        rw [hfl]
        exact push (by simp; omega)
      · exact push (by omega)
  unfold StdoutOn.write
  cases hr : rfind [10] data with
  | none =>
    dsimp only
    unfold StdoutOn.flushIfCompletedLine
    by_cases hl : w.buf.getLast? = some 10
    · rw [if_pos hl]
      obtain ⟨c, hfl⟩ := room_flush (room := room) (w := w) (by omega)
      rw [hfl]
      exact bw (by simp; omega)
    · rw [if_neg hl]
      exact bw (by omega)
  | some i =>
    dsimp only
    obtain ⟨c, hfl⟩ := room_flush (room := room) (w := w) (by omega)
    rw [hfl]
    dsimp only
    rw [upTo_direct, if_neg (by simp; omega)]
    dsimp only
    split <;> exact ⟨_, _, rfl⟩

/-- If there is no room for one byte more, a write that goes to the raw output is refused. -/
theorem no_room_for_one {room : Nat} (late : Bool) {w : StdoutOn} {f : LineWriter} {data : Bytes} (h : Fine room w f)
    (hroom : f.output.length = room) (hd : 10 ∈ data ∨ 1024 ≤ data.length) :
    ∃ v, w.write late (.upTo room) data = (v, none) := by
  have hc : LineWriter.capacity = 1024 := rfl
  obtain ⟨h1, h2, h3, h4⟩ := h
  have hflen : f.output.length = w.sink.length + w.buf.length := by
    unfold LineWriter.output; rw [List.length_append, h1, h2]
  unfold StdoutOn.write
  cases hr : rfind [10] data with
  | none =>
    have hno : 10 ∉ data := by
      intro hm
      obtain ⟨j, hj, hx⟩ := List.getElem_of_mem hm
      refine rfind_none hr j ((nl_at data j).2 ?_)
      rw [List.getElem?_eq_getElem hj, hx]
    have hlen := hd.resolve_left hno
    dsimp only
    unfold StdoutOn.flushIfCompletedLine
    have bw : ∀ {x : StdoutOn}, x.sink.length + x.buf.length = room → ∃ v, x.bufWrite (.upTo room) data = (v, none) := by
      intro x hx
      unfold StdoutOn.bufWrite
      rw [if_neg (by omega)]
      have push : ∀ {y : StdoutOn}, y.sink.length = room → ∃ v, y.bufPush (.upTo room) data = (v, none) := by
        intro y hy
        unfold StdoutOn.bufPush
        rw [if_pos (by omega), upTo_direct, if_pos (by omega)]
        exact ⟨_, rfl⟩
      split
      · obtain ⟨c, hfl⟩ := room_flush (room := room) (w := x) (by omega)
        rw [hfl]
        exact push (by simp; omega)
      · exact push (by omega)
    by_cases hl : w.buf.getLast? = some 10
    · rw [if_pos hl]
      obtain ⟨c, hfl⟩ := room_flush (room := room) (w := w) (by omega)
      rw [hfl]
      exact bw (by simp; omega)
    · rw [if_neg hl]
      exact bw (by omega)
  | some i =>
    dsimp only
    obtain ⟨c, hfl⟩ := room_flush (room := room) (w := w) (by omega)
    rw [hfl]
    dsimp only
    rw [upTo_direct, if_pos (by simp; omega)]
    exact ⟨_, rfl⟩

/-- What a turn that goes on does. -/
theorem turn_shape {a : DdArgs} {s s' : DdState} (h : ddTurn a s = .inl s') :
    ∃ g : LineWriter, s.out.output.length ≤ g.output.length ∧ s'.input = s.input.drop a.payloadSize.toNat ∧
      a.payloadSize.toNat ≤ s.input.length ∧
      s'.out = (g.write a.build.late (s.input.take a.payloadSize.toNat)).1 ∧
      ∀ (room : Nat) (o : StdoutOn), Fine room o s.out → g.output.length ≤ room → ∃ w, Fine room w g ∧
        ddTurnOn (.upTo room) a ⟨s.input, s.count, o⟩ =
          writeOr a.build.late (.upTo room) s'.input s.count w (s.input.take a.payloadSize.toNat) fun o => .inl ⟨s'.input, s'.count, o⟩ := by
  unfold ddTurn at h
  dsimp only at h
  by_cases hl : s.input.length < a.payloadSize.toNat
  · rw [if_pos hl] at h; cases h
  · rw [if_neg hl] at h
    cases hecu : B4.ofBytes? a.ecuid with
    | none => rw [hecu] at h; cases h
    | some ecu =>
      rw [hecu] at h
      dsimp only at h
      cases hlen : add16 a.build.checks (4 + 10 + 4) a.payloadSize with
      | panic => rw [hlen] at h; cases h
      | ok len =>
        rw [hlen] at h
        dsimp only at h
        cases happ : B4.ofBytes? a.appid with
        | none => rw [happ] at h; cases h
        | some app =>
          rw [happ] at h
          dsimp only at h
          cases hm : mul32 a.build.checks s.count 100 with
          | panic => rw [hm] at h; cases h
          | ok ts =>
            rw [hm] at h
            dsimp only at h
            cases ha : add32 a.build.checks s.count 1 with
            | panic => rw [ha] at h; cases h
            | ok c =>
              rw [ha] at h
              injection h with h
              subst h
              have mono : ∀ (f : LineWriter) (d : Bytes), f.output.length ≤ (f.write a.build.late d).1.output.length :=
                fun f d => (write_prefix a.build.late f d).length_le
              refine ⟨_, ?_, rfl, by omega, rfl, fun room o ho hroom => ?_⟩
              · exact Nat.le_trans (mono _ _) (Nat.le_trans (mono _ _) (Nat.le_trans (mono _ _) (mono _ _)))
              · have m4 := hroom
                have m3 := Nat.le_trans (mono _ _) m4
                have m2 := Nat.le_trans (mono _ _) m3
                have m1 := Nat.le_trans (mono _ _) m2
                obtain ⟨w1, k1, e1, f1⟩ := room_write a.build.late ho m1
                obtain ⟨w2, k2, e2, f2⟩ := room_write a.build.late f1 m2
                obtain ⟨w3, k3, e3, f3⟩ := room_write a.build.late f2 m3
                obtain ⟨w4, k4, e4, f4⟩ := room_write a.build.late f3 m4
                refine ⟨w4, f4, ?_⟩
                unfold ddTurnOn
                dsimp only
                rw [if_neg hl, hecu]
                dsimp only
                rw [hlen]
                dsimp only
                rw [happ]
                dsimp only
                unfold writeOr
                rw [e1]
                dsimp only
                rw [e2]
                dsimp only
                rw [hm]
                dsimp only
                rw [e3]
                dsimp only
                rw [e4]
                dsimp only
                simp only [ha]

theorem turn_finished {a : DdArgs} {s t : DdState} {c : UInt32} (h : ddTurn a s = .inr (t, .finished c)) :
    t = s ∧ s.input.length < a.payloadSize.toNat := by
  unfold ddTurn at h
  dsimp only at h
  by_cases hl : s.input.length < a.payloadSize.toNat
  · rw [if_pos hl] at h
    injection h with h
    injection h with h
    exact ⟨h.symm, hl⟩
  · rw [if_neg hl] at h
    cases hecu : B4.ofBytes? a.ecuid with
    | none => rw [hecu] at h; cases h
    | some ecu =>
      rw [hecu] at h
      dsimp only at h
      cases hlen : add16 a.build.checks (4 + 10 + 4) a.payloadSize with
      | panic => rw [hlen] at h; cases h
      | ok len =>
        rw [hlen] at h
        dsimp only at h
        cases happ : B4.ofBytes? a.appid with
        | none => rw [happ] at h; cases h
        | some app =>
          rw [happ] at h
          dsimp only at h
          cases hm : mul32 a.build.checks s.count 100 with
          | panic => rw [hm] at h; cases h
          | ok ts =>
            rw [hm] at h
            dsimp only at h
            cases ha : add32 a.build.checks s.count 1 with
            | panic => rw [ha] at h; cases h
            | ok c => rw [ha] at h; cases h

theorem turns_finished {a : DdArgs} : ∀ (k : Nat) {s t : DdState} {c : UInt32}, ddTurns a k s = .inr (t, .finished c) →
    ∃ m, ddTurns a m s = .inl t ∧ t.input.length < a.payloadSize.toNat
  | 0, s, t, c, h => by simp [ddTurns] at h
  | k + 1, s, t, c, h => by
    unfold ddTurns at h
    cases ht : ddTurn a s with
    | inl s' =>
      rw [ht] at h
      obtain ⟨m, h1, h2⟩ := turns_finished k h
      exact ⟨m + 1, by rw [ddTurns_step ht, h1], h2⟩
    | inr e =>
      rw [ht] at h
      injection h with h
      subst h
      obtain ⟨h1, h2⟩ := turn_finished ht
      subst h1
      exact ⟨0, rfl, h2⟩

theorem turns_snoc {a : DdArgs} : ∀ (m : Nat) {s t : DdState}, ddTurns a (m + 1) s = .inl t →
    ∃ u, ddTurns a m s = .inl u ∧ ddTurn a u = .inl t
  | 0, s, t, h => by
    unfold ddTurns at h
    cases ht : ddTurn a s with
    | inl s' => rw [ht] at h; injection h with h; subst h; exact ⟨s, rfl, ht⟩
    | inr e => rw [ht] at h; cases h
  | m + 1, s, t, h => by
    rw [ddTurns] at h
    cases ht : ddTurn a s with
    | inl s' =>
      rw [ht] at h
      obtain ⟨u, h1, h2⟩ := turns_snoc m h
      exact ⟨u, by rw [ddTurns_step ht, h1], h2⟩
    | inr e => rw [ht] at h; cases h

theorem turns_input {a : DdArgs} : ∀ (m : Nat) {s t : DdState}, ddTurns a m s = .inl t →
    t.input = s.input.drop (m * a.payloadSize.toNat) ∧ m * a.payloadSize.toNat ≤ s.input.length
  | 0, s, t, h => by
    injection h with h
    subst h
    simp
  | m + 1, s, t, h => by
    unfold ddTurns at h
    cases ht : ddTurn a s with
    | inl s' =>
      rw [ht] at h
      obtain ⟨h1, h2⟩ := turns_input m h
      obtain ⟨g, _, h3, h4, _⟩ := turn_shape ht
      rw [h3, List.length_drop] at h2
      rw [h1, h3, List.drop_drop, Nat.succ_mul]
      exact ⟨by congr 1; omega, by omega⟩
    | inr e => rw [ht] at h; cases h

theorem turnsOn_snoc {acc : Outlet} {a : DdArgs} : ∀ (m : Nat) {s u : DdStateOn}, ddTurnsOn acc a m s = .inl u →
    ddTurnsOn acc a (m + 1) s = match ddTurnOn acc a u with
      | .inl t => .inl t
      | .inr e => .inr e
  | 0, s, u, h => by
    injection h with h
    subst h
    unfold ddTurnsOn
    cases ddTurnOn acc a s <;> rfl
  | m + 1, s, u, h => by
    unfold ddTurnsOn at h ⊢
    cases ht : ddTurnOn acc a s with
    | inl s' => rw [ht] at h; exact turnsOn_snoc m h
    | inr e => rw [ht] at h; cases h

/-- **C105** a loss inside the last payload is never noticed: the program ends as if all had been taken. And if the last
payload is longer than the buffer or has a newline, every other loss is noticed. `part` is what the program puts out of
the last payload when there is room (all of it, but for C84's cut). -/
theorem C105_last_payload (bd : Build) (addr : Ctor → UInt8) (ecuid appid size : Bytes) (rest : List Bytes)
    (n : Nat) (hsize : Decimal size n) (h1 : 1 ≤ n) (h2 : n ≤ 65535) (input full : Bytes) (c : UInt32)
    (hfull : DdMain bd addr (ecuid :: appid :: size :: rest) input full (.finished c)) (hmsg : n ≤ input.length)
    (last part : Bytes) (hlast : last = chunk n input (input.length / n - 1)) (hpart : Accepted bd.late last part)
    (room : Nat) (out : Bytes) (e' : DdEndOn)
    (hout : DdMainOn (.upTo room) bd addr (ecuid :: appid :: size :: rest) input out e') :
    (full.length < room + part.length → e' = .ended (.finished c)) ∧
    (10 ∈ last ∨ 1024 ≤ n → room + part.length ≤ full.length → e' = .refused) := by
  have hs := decimal_parse hsize h2
  have hn16 : (UInt16.ofNat n).toNat = n := by
    show n % 2 ^ 16 = n
    exact Nat.mod_eq_of_lt (by omega)
  obtain ⟨t, ⟨k, hk⟩, rfl⟩ := (ddMain_iff hs).1 hfull
  obtain ⟨m, hm, hshort⟩ := turns_finished k hk
  obtain ⟨hin, hml⟩ := turns_input m hm
  dsimp only at hin hml
  rw [hn16] at hin hml hshort
  rw [hin, List.length_drop] at hshort
  have hm0 : m ≠ 0 := by
    intro h0
    rw [h0, Nat.zero_mul] at hshort
    omega
  obtain ⟨q, rfl⟩ := Nat.exists_eq_succ_of_ne_zero hm0
  have hdiv : input.length / n = q + 1 := by
    rw [Nat.div_eq_iff (by omega)]
    have e1 : q.succ * n = (q + 1) * n := rfl
    rw [e1] at hml hshort
    omega
  obtain ⟨u, hu, htu⟩ := turns_snoc q hm
  obtain ⟨hui, _⟩ := turns_input q hu
  dsimp only at hui
  rw [hn16] at hui
  obtain ⟨g, hgu, hgi, hgl, hgo, hturn⟩ := turn_shape htu
  dsimp only at hgi hgl hgo hturn
  rw [hn16] at hgi hgl hgo hturn
  have hpay : u.input.take n = last := by
    rw [hlast, hui, hdiv]
    rfl
  rw [hpay] at hgo hturn
  have hplen : last.length = n := by rw [← hpay, List.length_take]; omega
  have hfl : t.out.output.length = g.output.length + part.length := by
    rw [hgo, (write_output bd.late g last).1, List.length_append, accepted_unique hpart (accepted_taken bd.late last)]
  -- the run up to the last payload
  have run : ∀ room, g.output.length ≤ room → ∃ o w, ddTurnsOn (.upTo room) ⟨bd, addr, ecuid, appid, UInt16.ofNat n⟩ q ⟨input, 0, .empty⟩ = .inl ⟨u.input, u.count, o⟩ ∧
      Fine room w g ∧ ddTurnOn (.upTo room) ⟨bd, addr, ecuid, appid, UInt16.ofNat n⟩ ⟨u.input, u.count, o⟩ =
        writeOr bd.late (.upTo room) t.input u.count w last fun o => .inl ⟨t.input, t.count, o⟩ := by
    intro room hroom
    have sim := ddTurns_sim ⟨bd, addr, ecuid, appid, UInt16.ofNat n⟩ (room_sim bd.late room 65535) (by omega)
      (by show (UInt16.ofNat n).toNat ≤ _; omega) q ⟨input, 0, .empty⟩ .empty
      (.inl ⟨rfl, rfl, by simp [StdoutOn.empty], by simp [LineWriter.output, LineWriter.empty]⟩)
    dsimp only at sim
    rw [hu] at sim
    rcases hx : ddTurnsOn (.upTo room) ⟨bd, addr, ecuid, appid, UInt16.ofNat n⟩ q ⟨input, 0, .empty⟩ with s | ⟨s, e⟩
    · obtain ⟨f', g1, g2⟩ := sim.1 s hx
      injection g1 with g1
      have g3 : Fine room s.out u.out := by
        rw [g1]
        rcases g2 with g2 | g2
        · exact g2
        · rw [g1] at hgu
          dsimp only at hgu g2
          omega
      obtain ⟨w, h5, h6⟩ := hturn room s.out g3 hroom
      refine ⟨s.out, w, ?_, h5, h6⟩
      rw [g1]
    · cases e with
      | ended e =>
        obtain ⟨f', g1, _⟩ := sim.2.1 s e hx
        cases g1
      | refused =>
        have := sim.2.2 s hx
        dsimp only [stateOf] at this
        omega
  have big : g.output.length < room → e' = .ended (.finished c) := by
    intro hroom
    obtain ⟨o, w, r1, r2, r3⟩ := run room (by omega)
    obtain ⟨v, j, r4⟩ := room_for_one bd.late (data := last) r2 hroom
    unfold writeOr at r3
    rw [r4] at r3
    dsimp only at r3
    have r5 := turnsOn_snoc q r1
    rw [r3] at r5
    dsimp only at r5
    have r6 := turnsOn_snoc (q + 1) r5
    have r7 : ddTurnOn (.upTo room) ⟨bd, addr, ecuid, appid, UInt16.ofNat n⟩ ⟨t.input, t.count, v⟩ = .inr (⟨t.input, t.count, v⟩, .ended (.finished t.count)) := by
      unfold ddTurnOn
      dsimp only
      rw [if_pos]
      rw [hin, List.length_drop, hn16]
      exact hshort
    rw [r7] at r6
    dsimp only at r6
    have hc : t.count = c := by
      have h7 := ddTurns_mono (q + 2) hk
      have h8 : ddTurns ⟨bd, addr, ecuid, appid, UInt16.ofNat n⟩ (k + (q + 2)) ⟨input, 0, .empty⟩ = _ := h7
      have sim := ddTurns_sim ⟨bd, addr, ecuid, appid, UInt16.ofNat n⟩ (any_sim bd.late (.upTo room) 65535) (by omega)
        (by show (UInt16.ofNat n).toNat ≤ _; omega) (q + 2 + k) ⟨input, 0, .empty⟩ .empty (by simp [StdoutOn.all, StdoutOn.empty])
      obtain ⟨f', g1, _⟩ := sim.2.1 _ _ (ddTurnsOn_mono k r6)
      dsimp only at g1
      rw [Nat.add_comm, h8] at g1
      injection g1 with g1
      injection g1 with g1 g2
      injection g2 with g2
      exact g2.symm
    have r8 : DdMainOn (.upTo room) bd addr (ecuid :: appid :: size :: rest) input (v.output (.upTo room)) (.ended (.finished t.count)) :=
      (ddMainOn_iff hs).2 ⟨_, _, r6, rfl⟩
    rw [(ddMainOn_det hout r8).2, hc]
  refine ⟨fun h => big (by omega), fun hd h => ?_⟩
  obtain ⟨o, w, r1, r2, r3⟩ := run g.output.length (Nat.le_refl _)
  obtain ⟨v, r4⟩ := no_room_for_one bd.late (data := last) r2 rfl (by rw [hplen]; exact hd)
  unfold writeOr at r3
  rw [r4] at r3
  dsimp only at r3
  have r5 := turnsOn_snoc q r1
  rw [r3] at r5
  dsimp only at r5
  have r8 : DdMainOn (.upTo g.output.length) bd addr (ecuid :: appid :: size :: rest) input (v.output (.upTo g.output.length)) .refused :=
    (ddMainOn_iff hs).2 ⟨_, _, r5, rfl⟩
  exact refused_mono (by omega) hsize h1 h2 hout r8

/-! ## Cases -/

/-- C105: for the payload `A\nB` in a message of 37 bytes, room for 34 bytes or less is noticed, room for 35 is not. -/
example (late : Bool) (room : Nat) (out : Bytes) (e' : DdEndOn)
    (h : DdMainOn (.upTo room) ⟨true, late⟩ (fun _ => 0) exArgs exInput out e') : e' = .refused ↔ room ≤ 34 := by
  have hx := C105_last_payload ⟨true, late⟩ (fun _ => 0) _ _ _ _ 3 ((C52_size_argument [51] 3).1 (by decide +kernel)).1 (by decide)
    (by decide) exInput exFull 1 (ddMain_ex late) (by decide) exInput exInput (by decide)
    (.inr ⟨[65], [66], by decide, by decide, by cases late <;> decide⟩) room out e' h
  have h37 : exFull.length = 37 := by decide
  have h3 : exInput.length = 3 := by decide
  rw [h37, h3] at hx
  constructor
  · intro he
    apply Classical.byContradiction
    intro hr
    rw [hx.1 (by omega)] at he
    cases he
  · intro hr
    exact hx.2 (.inl (by decide)) (by omega)

/-- C105: the point of silence of that run. -/
example (late : Bool) : ∃ point, point ≤ 37 ∧ ∀ room out e', DdMainOn (.upTo room) ⟨true, late⟩ (fun _ => 0) exArgs exInput out e' →
    (e' = .refused ↔ room < point) := by
  obtain ⟨point, h1, _, h2⟩ := C105_point_of_silence ⟨true, late⟩ (fun _ => 0) _ _ _ _ 3 ((C52_size_argument [51] 3).1 (by decide +kernel)).1
    (by decide) (by decide) exInput exFull _ (ddMain_ex late)
  exact ⟨point, h1, fun room out e' h => (h2 room out e' h).1⟩

end Verif
