import Verif.Spec.Refuse
import Verif.Lemmas.DdDlt

/-! # Lemmas about `dd_dlt` on an output that takes only part of what is written, or refuses it -/

set_option linter.unusedSimpArgs false

namespace Verif

open Spec

/-! ## `Stdout::write` on any output -/

/-- What has gone out and what is buffered. -/
def StdoutOn.all (w : StdoutOn) : Bytes := w.sink ++ w.buf

theorem flushOn_eq (acc : Outlet) (w : StdoutOn) : w.flush acc =
    if w.buf = [] then (w, true)
    else match acc w.calls w.sink.length w.buf.length with
      | none => (⟨w.sink, w.buf, w.calls + 1⟩, false)
      | some 0 => (⟨w.sink, w.buf, w.calls + 1⟩, false)
      | some (k + 1) => StdoutOn.flush acc ⟨w.sink ++ w.buf.take (k + 1), w.buf.drop (k + 1), w.calls + 1⟩ := by
  rw [StdoutOn.flush]
  by_cases h : w.buf = []
  · rw [dif_pos h, if_pos h]
  · rw [dif_neg h, if_neg h]
    cases acc w.calls w.sink.length w.buf.length with
    | none => rfl
    | some k => cases k <;> rfl

/-- Flushing moves bytes out, never drops any; it reports success exactly if none are left; it never buffers more. -/
theorem flushOn_spec (acc : Outlet) (w : StdoutOn) : (w.flush acc).1.all = w.all ∧
    ((w.flush acc).2 = true → (w.flush acc).1.buf = []) ∧ w.sink <+: (w.flush acc).1.sink ∧
    (w.flush acc).1.buf.length ≤ w.buf.length := by
  induction h : w.buf.length using Nat.strongRecOn generalizing w with
  | _ m ih =>
    rw [flushOn_eq]
    by_cases hb : w.buf = []
    · rw [if_pos hb]; exact ⟨rfl, fun _ => hb, List.prefix_refl _, Nat.le_of_eq h⟩
    · rw [if_neg hb]
      cases hacc : acc w.calls w.sink.length w.buf.length with
      | none => exact ⟨rfl, fun h => (by cases h), List.prefix_refl _, by dsimp only; omega⟩
      | some k =>
        cases k with
        | zero => exact ⟨rfl, fun h => (by cases h), List.prefix_refl _, by dsimp only; omega⟩
        | succ k =>
          have hp : 0 < w.buf.length := List.length_pos_iff.2 hb
          have hlt : (w.buf.drop (k + 1)).length < m := by rw [List.length_drop]; omega
          obtain ⟨h1, h2, h3, h4⟩ := ih _ hlt ⟨w.sink ++ w.buf.take (k + 1), w.buf.drop (k + 1), w.calls + 1⟩ rfl
          dsimp only
          refine ⟨?_, h2, (List.prefix_append _ _).trans h3, by omega⟩
          rw [h1]
          unfold StdoutOn.all
          dsimp only
          rw [List.append_assoc, List.take_append_drop]

theorem outputOn_prefix (acc : Outlet) (w : StdoutOn) : w.output acc <+: w.all := by
  have := (flushOn_spec acc w).1
  rw [← this]
  exact List.prefix_append _ _

theorem directOn_spec (acc : Outlet) (w : StdoutOn) (data : Bytes) :
    (∀ k, (w.direct acc data).2 = some k → (w.direct acc data).1.sink = w.sink ++ data.take k ∧ k ≤ data.length) ∧
    ((w.direct acc data).2 = none → (w.direct acc data).1.sink = w.sink) ∧ (w.direct acc data).1.buf = w.buf := by
  unfold StdoutOn.direct
  cases acc w.calls w.sink.length data.length with
  | none => exact ⟨fun k h => (by cases h), fun _ => rfl, rfl⟩
  | some k =>
    refine ⟨fun j h => ?_, fun h => (by cases h), rfl⟩
    injection h with h
    subst h
    refine ⟨?_, Nat.min_le_right _ _⟩
    dsimp only
    congr 1
    rw [List.take_eq_take_iff]
    omega

theorem flushIfOn_spec (acc : Outlet) (w : StdoutOn) : (w.flushIfCompletedLine acc).1.all = w.all ∧
    (w.flushIfCompletedLine acc).1.buf.length ≤ w.buf.length := by
  unfold StdoutOn.flushIfCompletedLine
  split
  · exact ⟨(flushOn_spec acc w).1, (flushOn_spec acc w).2.2.2⟩
  · exact ⟨rfl, Nat.le_refl _⟩

/-- What one `write` does to `all`: `Ok(k)` appends the first `k` bytes, an error nothing. -/
def Appends (w : StdoutOn) (data : Bytes) (m : Nat) (r : StdoutOn × Option Nat) : Prop :=
  (∀ k, r.2 = some k → r.1.all = w.all ++ data.take k ∧ k ≤ m) ∧ (r.2 = none → r.1.all = w.all)

theorem bufPushOn_spec (acc : Outlet) (w : StdoutOn) (data : Bytes) (h : LineWriter.capacity ≤ data.length → w.buf = []) :
    Appends w data data.length (w.bufPush acc data) := by
  unfold StdoutOn.bufPush
  split
  · rename_i hge
    obtain ⟨h1, h2, h3⟩ := directOn_spec acc w data
    have hb := h hge
    refine ⟨fun k hk => ?_, fun hn => ?_⟩
    · obtain ⟨h4, h5⟩ := h1 k hk
      unfold StdoutOn.all
      rw [h4, h3, hb, List.append_nil, List.append_nil]
      exact ⟨rfl, h5⟩
    · unfold StdoutOn.all
      rw [h2 hn, h3]
  · refine ⟨fun k hk => ?_, fun hn => (by cases hn)⟩
    injection hk with hk
    subst hk
    unfold StdoutOn.all
    dsimp only
    rw [List.take_length, List.append_assoc]
    exact ⟨rfl, Nat.le_refl _⟩

theorem appends_of_all {w v : StdoutOn} {data : Bytes} {m : Nat} {r : StdoutOn × Option Nat} (h : w.all = v.all)
    (ha : Appends w data m r) : Appends v data m r := by
  unfold Appends at *
  rwa [h] at ha

theorem bufWriteOn_spec (acc : Outlet) (w : StdoutOn) (data : Bytes) : Appends w data data.length (w.bufWrite acc data) := by
  unfold StdoutOn.bufWrite
  split
  · refine ⟨fun k hk => ?_, fun hn => (by cases hn)⟩
    injection hk with hk
    subst hk
    unfold StdoutOn.all
    dsimp only
    rw [List.take_length, List.append_assoc]
    exact ⟨rfl, Nat.le_refl _⟩
  · split
    · obtain ⟨h1, h2, _⟩ := flushOn_spec acc w
      rcases hf : w.flush acc with ⟨v, b⟩
      rw [hf] at h1 h2
      cases b with
      | false => exact ⟨fun k hk => (by cases hk), fun _ => h1⟩
      | true => exact appends_of_all h1 (bufPushOn_spec acc v data (fun _ => h2 rfl))
    · refine bufPushOn_spec acc w data (fun h => ?_)
      have : LineWriter.capacity = 1024 := rfl
      apply List.eq_nil_of_length_eq_zero
      omega

theorem tailOn_spec {late : Bool} {data : Bytes} {i flushed : Nat} (hi : i < data.length) (hf : flushed ≤ i + 1) :
    ∃ m, StdoutOn.tail late data (i + 1) flushed = (data.drop flushed).take m ∧
      flushed + min LineWriter.capacity (StdoutOn.tail late data (i + 1) flushed).length ≤
        if late = true ∧ data.length ≥ i + 1 + 1024 then i + 1 else min data.length (i + 1 + 1024) := by
  have hc : LineWriter.capacity = 1024 := rfl
  unfold StdoutOn.tail
  by_cases hge : flushed ≥ i + 1
  · rw [if_pos hge]
    unfold LineWriter.behind
    rw [List.length_drop, hc]
    by_cases hb : late = true ∧ data.length ≥ i + 1 + 1024
    · rw [if_pos hb, if_pos ⟨hb.1, by omega⟩]
      exact ⟨0, by simp, by simp; omega⟩
    · rw [if_neg hb, if_neg fun h => hb ⟨h.1, by have := h.2; omega⟩]
      refine ⟨data.length, ?_, ?_⟩
      · rw [List.take_of_length_le]; rw [List.length_drop]; omega
      · rw [List.length_drop]; omega
  · rw [if_neg hge]
    have low : ∀ x, x ≤ i + 1 → x ≤ if late = true ∧ data.length ≥ i + 1 + 1024 then i + 1 else min data.length (i + 1 + 1024) := by
      intro x hx; split <;> omega
    split
    · refine ⟨i + 1 - flushed, ?_, low _ ?_⟩
      · rw [List.drop_take]
      · rw [List.length_drop, List.length_take]; omega
    · dsimp only
      cases rfind [10] ((data.drop flushed).take LineWriter.capacity) with
      | none =>
        refine ⟨_, rfl, low _ ?_⟩
        rw [List.length_take, List.length_drop]; omega
      | some j =>
        refine ⟨min (j + 1) LineWriter.capacity, ?_, low _ ?_⟩
        · dsimp only; rw [List.take_take]
        · dsimp only; rw [List.take_take, List.length_take, List.length_drop]; omega

/-- **the contract of `Stdout::write`**: `Ok(k)` is a promise to put out the first `k` bytes, an error one to put out
none; and never more is taken than on an output that takes everything. -/
theorem writeOn_spec (late : Bool) (acc : Outlet) (w : StdoutOn) (data : Bytes) :
    Appends w data (taken late data) (w.write late acc data) := by
  unfold StdoutOn.write taken
  cases h : rfind [10] data with
  | none =>
    dsimp only
    have h1 := (flushIfOn_spec acc w).1
    rcases hf : w.flushIfCompletedLine acc with ⟨v, b⟩
    rw [hf] at h1
    cases b with
    | false => exact ⟨fun k hk => (by cases hk), fun _ => h1⟩
    | true => exact appends_of_all h1 (bufWriteOn_spec acc v data)
  | some i =>
    dsimp only
    have hi : i < data.length := by
      have h1 := (rfind_some (by decide) h).1
      have h2 := h1.length_le
      simp at h2
      omega
    obtain ⟨h1, h2, _⟩ := flushOn_spec acc w
    rcases hf : w.flush acc with ⟨v, b⟩
    rw [hf] at h1 h2
    cases b with
    | false => exact ⟨fun k hk => (by cases hk), fun _ => h1⟩
    | true =>
      dsimp only at h1 h2 ⊢
      refine appends_of_all h1 ?_
      have hvb : v.buf = [] := h2 rfl
      obtain ⟨h3, h4, h5⟩ := directOn_spec acc v (data.take (i + 1))
      rcases hd : v.direct acc (data.take (i + 1)) with ⟨u, o⟩
      rw [hd] at h3 h4 h5
      dsimp only at h3 h4 h5
      cases o with
      | none =>
        refine ⟨fun k hk => (by cases hk), fun _ => ?_⟩
        unfold StdoutOn.all
        dsimp only
        rw [h4 rfl, h5]
      | some fl =>
        obtain ⟨h6, h7⟩ := h3 fl rfl
        dsimp only
        by_cases hz : fl = 0
        · subst hz
          rw [if_pos rfl]
          refine ⟨fun k hk => ?_, fun hn => (by cases hn)⟩
          injection hk with hk
          subst hk
          unfold StdoutOn.all
          show u.sink ++ u.buf = _ ∧ _
          rw [h6, h5]
          exact ⟨by simp, Nat.zero_le _⟩
        · rw [if_neg hz]
          rw [List.length_take] at h7
          refine ⟨fun k hk => ?_, fun hn => (by cases hn)⟩
          injection hk with hk
          obtain ⟨m, ht, hle⟩ := tailOn_spec (late := late) (flushed := fl) hi (by omega)
          subst hk
          unfold StdoutOn.writeToBuf StdoutOn.all
          dsimp only
          rw [h5, hvb, List.length_nil, Nat.sub_zero]
          refine ⟨?_, hle⟩
          rw [h6, List.take_take, Nat.min_eq_left (by omega), ht, List.take_take, List.nil_append, List.append_nil, List.append_assoc,
            List.take_add (i := fl)]
          congr 2
          rw [List.take_eq_take_iff, List.length_take, List.length_drop]
          omega

/-! ## Turns -/

/-- How the two programs are compared: while both go on, and after a refusal. -/
structure Sim (late : Bool) (acc : Outlet) (D : Nat) (R E : StdoutOn → LineWriter → Prop) : Prop where
  ok : ∀ {w f data w' k}, R w f → data.length ≤ D → w.write late acc data = (w', some k) → R w' (f.write late data).1
  err : ∀ {w f data w'}, R w f → data.length ≤ D → w.write late acc data = (w', none) → E w' (f.write late data).1
  stable : ∀ {w f} (data : Bytes), E w f → E w (f.write late data).1

/-- The state after some turns. -/
def stateOf : DdState ⊕ DdState × DdEnd → DdState
  | .inl s => s
  | .inr (s, _) => s

/-- The two programs agree, or the output has been refused. -/
def Agree (R E : StdoutOn → LineWriter → Prop) (x : DdStateOn ⊕ DdStateOn × DdEndOn) (y : DdState ⊕ DdState × DdEnd) : Prop :=
  (∀ s', x = .inl s' → ∃ f', y = .inl ⟨s'.input, s'.count, f'⟩ ∧ R s'.out f') ∧
  (∀ s' e, x = .inr (s', .ended e) → ∃ f', y = .inr (⟨s'.input, s'.count, f'⟩, e) ∧ R s'.out f') ∧
  (∀ s', x = .inr (s', .refused) → E s'.out (stateOf y).out)

theorem agree_end {R E : StdoutOn → LineWriter → Prop} {i : Bytes} {c : UInt32} {o : StdoutOn} {g : LineWriter} (e : DdEnd) (h : R o g) :
    Agree R E (.inr (⟨i, c, o⟩, .ended e)) (.inr (⟨i, c, g⟩, e)) := by
  refine ⟨fun s' h1 => (by cases h1), fun s' e' h1 => ?_, fun s' h1 => (by cases h1)⟩
  injection h1 with h1
  injection h1 with h1 h2
  injection h2 with h2
  subst h1 h2
  exact ⟨g, rfl, h⟩

theorem agree_next {R E : StdoutOn → LineWriter → Prop} {i : Bytes} {c : UInt32} {o : StdoutOn} {g : LineWriter} (h : R o g) :
    Agree R E (.inl ⟨i, c, o⟩) (.inl ⟨i, c, g⟩) := by
  refine ⟨fun s' h1 => ?_, fun s' e' h1 => (by cases h1), fun s' h1 => (by cases h1)⟩
  injection h1 with h1
  subst h1
  exact ⟨g, rfl, h⟩

theorem agree_write {late : Bool} {acc : Outlet} {D : Nat} {R E : StdoutOn → LineWriter → Prop} (S : Sim late acc D R E) {i : Bytes} {c : UInt32}
    {w : StdoutOn} {f : LineWriter} {data : Bytes} {k : StdoutOn → DdStateOn ⊕ DdStateOn × DdEndOn}
    {y : DdState ⊕ DdState × DdEnd} (h : R w f) (hd : data.length ≤ D)
    (hk : ∀ o, R o (f.write late data).1 → Agree R E (k o) y) (hK : ∀ w', E w' (f.write late data).1 → E w' (stateOf y).out) :
    Agree R E (writeOr late acc i c w data k) y := by
  unfold writeOr
  rcases hw : w.write late acc data with ⟨w', o⟩
  cases o with
  | some m => exact hk _ (S.ok h hd hw)
  | none =>
    dsimp only
    refine ⟨fun s' h1 => (by cases h1), fun s' e' h1 => (by cases h1), fun s' h1 => ?_⟩
    injection h1 with h1
    injection h1 with h1 h2
    subst h1
    exact hK _ (S.err h hd hw)

theorem ddTurn_sim {acc : Outlet} {D : Nat} {R E : StdoutOn → LineWriter → Prop} (a : DdArgs) (S : Sim a.build.late acc D R E) (h16 : 16 ≤ D)
    (hn : a.payloadSize.toNat ≤ D) (s : DdStateOn) (f : LineWriter) (h : R s.out f) :
    Agree R E (ddTurnOn acc a s) (ddTurn a ⟨s.input, s.count, f⟩) := by
  unfold ddTurnOn ddTurn
  dsimp only
  by_cases hl : s.input.length < a.payloadSize.toNat
  · rw [if_pos hl, if_pos hl]
    exact agree_end _ h
  · rw [if_neg hl, if_neg hl]
    cases B4.ofBytes? a.ecuid with
    | none => exact agree_end _ h
    | some ecu =>
      dsimp only
      cases add16 a.build.checks (4 + 10 + 4) a.payloadSize with
      | panic => exact agree_end _ h
      | ok len =>
        dsimp only
        cases B4.ofBytes? a.appid with
        | none => exact agree_end _ h
        | some app =>
          dsimp only
          have l1 : ∀ x : StorageHeader, x.asBytes.length ≤ D := fun x => Nat.le_trans (by
            unfold StorageHeader.asBytes B4.toBytes; simp) h16
          have l2 : ∀ x : StdHeader, x.asBytes.length ≤ D := fun x => Nat.le_trans (by
            unfold StdHeader.asBytes encBE16; simp) h16
          have l3 : ∀ x : B4, x.toBytes.length ≤ D := fun x => Nat.le_trans (by unfold B4.toBytes; simp) h16
          have l4 : ∀ x : ExtHeader, x.asBytes.length ≤ D := fun x => Nat.le_trans (by
            unfold ExtHeader.asBytes B4.toBytes; simp) h16
          have l5 : (s.input.take a.payloadSize.toNat).length ≤ D := by rw [List.length_take]; omega
          refine agree_write S h (l1 _) (fun o hR => ?_) (fun w' hE => ?_)
          · refine agree_write S hR (l2 _) (fun o hR => ?_) (fun w' hE => ?_)
            · cases mul32 a.build.checks s.count 100 with
              | panic => exact agree_end _ hR
              | ok ts =>
                dsimp only
                refine agree_write S hR (l3 _) (fun o hR => ?_) (fun w' hE => ?_)
                · refine agree_write S hR (l4 _) (fun o hR => ?_) (fun w' hE => ?_)
                  · refine agree_write S hR l5 (fun o hR => ?_) (fun w' hE => ?_)
                    · cases add32 a.build.checks s.count 1 with
                      | panic => exact agree_end _ hR
                      | ok count => exact agree_next hR
                    · cases add32 a.build.checks s.count 1 <;> exact hE
                  · cases add32 a.build.checks s.count 1 <;> exact S.stable _ hE
                · cases add32 a.build.checks s.count 1 <;> exact S.stable _ (S.stable _ hE)
            · cases mul32 a.build.checks s.count 100 with
              | panic => exact hE
              | ok ts => cases add32 a.build.checks s.count 1 <;> exact S.stable _ (S.stable _ (S.stable _ hE))
          · cases mul32 a.build.checks s.count 100 with
            | panic => exact S.stable _ hE
            | ok ts => cases add32 a.build.checks s.count 1 <;> exact S.stable _ (S.stable _ (S.stable _ (S.stable _ hE)))

theorem stable_turn {acc : Outlet} {D : Nat} {R E : StdoutOn → LineWriter → Prop} (a : DdArgs) (S : Sim a.build.late acc D R E) (s : DdState)
    {w : StdoutOn} (h : E w s.out) : E w (stateOf (ddTurn a s)).out := by
  unfold ddTurn
  dsimp only
  by_cases hl : s.input.length < a.payloadSize.toNat
  · rw [if_pos hl]; exact h
  · rw [if_neg hl]
    cases B4.ofBytes? a.ecuid with
    | none => exact h
    | some ecu =>
      cases add16 a.build.checks (4 + 10 + 4) a.payloadSize with
      | panic => exact h
      | ok len =>
        cases B4.ofBytes? a.appid with
        | none => exact h
        | some app =>
          dsimp only
          cases mul32 a.build.checks s.count 100 with
          | panic => exact S.stable _ (S.stable _ h)
          | ok ts => cases add32 a.build.checks s.count 1 <;> exact S.stable _ (S.stable _ (S.stable _ (S.stable _ (S.stable _ h))))

theorem stable_turns {acc : Outlet} {D : Nat} {R E : StdoutOn → LineWriter → Prop} (a : DdArgs) (S : Sim a.build.late acc D R E) : ∀ (k : Nat)
    (s : DdState) {w : StdoutOn}, E w s.out → E w (stateOf (ddTurns a k s)).out
  | 0, _, _, h => h
  | k + 1, s, w, h => by
    have h1 := stable_turn a S s h
    unfold ddTurns
    cases ht : ddTurn a s with
    | inl s' => rw [ht] at h1; exact stable_turns a S k s' h1
    | inr e => rw [ht] at h1; exact h1

theorem ddTurns_sim {acc : Outlet} {D : Nat} {R E : StdoutOn → LineWriter → Prop} (a : DdArgs) (S : Sim a.build.late acc D R E) (h16 : 16 ≤ D)
    (hn : a.payloadSize.toNat ≤ D) : ∀ (k : Nat) (s : DdStateOn) (f : LineWriter), R s.out f →
    Agree R E (ddTurnsOn acc a k s) (ddTurns a k ⟨s.input, s.count, f⟩)
  | 0, s, f, h => agree_next h
  | k + 1, s, f, h => by
    obtain ⟨h1, h2, h3⟩ := ddTurn_sim a S h16 hn s f h
    unfold ddTurnsOn ddTurns
    cases ht : ddTurnOn acc a s with
    | inl s' =>
      obtain ⟨f', h4, h5⟩ := h1 s' ht
      rw [h4]
      exact ddTurns_sim a S h16 hn k s' f' h5
    | inr r =>
      obtain ⟨s', e⟩ := r
      cases e with
      | ended e =>
        obtain ⟨f', h4, h5⟩ := h2 s' e ht
        rw [h4]
        exact agree_end e h5
      | refused =>
        have h4 := h3 s' ht
        refine ⟨fun _ h5 => (by cases h5), fun _ _ h5 => (by cases h5), fun s'' h5 => ?_⟩
        injection h5 with h5
        injection h5 with h5 h6
        subst h5
        cases hu : ddTurn a ⟨s.input, s.count, f⟩ with
        | inl f' => rw [hu] at h4; exact stable_turns a S k f' h4
        | inr f' => rw [hu] at h4; exact h4

theorem ddTurnsOn_mono {acc : Outlet} {a : DdArgs} : ∀ {k : Nat} {s : DdStateOn} {r : DdStateOn × DdEndOn} (m : Nat),
    ddTurnsOn acc a k s = .inr r → ddTurnsOn acc a (k + m) s = .inr r
  | 0, s, r, m, h => by simp [ddTurnsOn] at h
  | k + 1, s, r, m, h => by
    rw [Nat.add_right_comm]
    unfold ddTurnsOn at h ⊢
    cases ht : ddTurnOn acc a s with
    | inl s' =>
      rw [ht] at h
      exact ddTurnsOn_mono m h
    | inr e =>
      rw [ht] at h
      exact h

theorem ddMainOn_iff {acc : Outlet} {bd : Build} {addr : Ctor → UInt8} {ecuid appid size input out : Bytes} {rest : List Bytes}
    {e : DdEndOn} {n : Nat} (hsize : parseU16 size = some n) :
    DdMainOn acc bd addr (ecuid :: appid :: size :: rest) input out e ↔
      ∃ k s, ddTurnsOn acc ⟨bd, addr, ecuid, appid, UInt16.ofNat n⟩ k ⟨input, 0, .empty⟩ = .inr (s, e) ∧ out = s.out.output acc := by
  unfold DdMainOn
  simp only [hsize]

theorem ddMain_iff {bd : Build} {addr : Ctor → UInt8} {ecuid appid size input out : Bytes} {rest : List Bytes}
    {e : DdEnd} {n : Nat} (hsize : parseU16 size = some n) :
    DdMain bd addr (ecuid :: appid :: size :: rest) input out e ↔
      ∃ s, DdLoop ⟨bd, addr, ecuid, appid, UInt16.ofNat n⟩ ⟨input, 0, .empty⟩ s e ∧ out = s.out.output := by
  unfold DdMain
  simp only [hsize]

/-- The run on an output that takes everything, or gets far enough, goes through this state. -/
def Reaches (a : DdArgs) (input : Bytes) (f : LineWriter) : Prop :=
  ∃ k, (stateOf (ddTurns a k ⟨input, 0, .empty⟩)).out = f

/-- What a run on this output tells about the run on an output that takes everything. -/
theorem ddMain_sim {acc : Outlet} {D : Nat} {R E : StdoutOn → LineWriter → Prop}
    {bd : Build} (S : Sim bd.late acc D R E) (h0 : R .empty .empty) {addr : Ctor → UInt8} {ecuid appid size input out : Bytes} {rest : List Bytes} {e : DdEndOn} {n : Nat}
    (hsize : parseU16 size = some n) (h16 : 16 ≤ D) (hn : n ≤ D)
    (h : DdMainOn acc bd addr (ecuid :: appid :: size :: rest) input out e) :
    ∃ w, out = w.output acc ∧
      (∀ e', e = .ended e' → ∃ f : LineWriter, DdMain bd addr (ecuid :: appid :: size :: rest) input f.output e' ∧ R w f) ∧
      (e = .refused → ∀ full e', DdMain bd addr (ecuid :: appid :: size :: rest) input full e' →
        ∃ f : LineWriter, full = f.output ∧ E w f) := by
  rw [ddMainOn_iff hsize] at h
  simp only [ddMain_iff hsize]
  obtain ⟨k, s, h1, h2⟩ := h
  have hn' : (UInt16.ofNat n).toNat ≤ D := Nat.le_trans (Nat.mod_le _ _) hn
  refine ⟨s.out, h2, fun e' he => ?_, fun he full e' hfull => ?_⟩
  · subst he
    obtain ⟨f', h3, h4⟩ := (ddTurns_sim ⟨bd, addr, ecuid, appid, UInt16.ofNat n⟩ S h16 hn' k _ _ h0).2.1 s e' h1
    exact ⟨f', ⟨_, ⟨k, h3⟩, rfl⟩, h4⟩
  · subst he
    obtain ⟨f, ⟨m, hm⟩, rfl⟩ := hfull
    refine ⟨f.out, rfl, ?_⟩
    have h3 := (ddTurns_sim ⟨bd, addr, ecuid, appid, UInt16.ofNat n⟩ S h16 hn' (k + m) _ _ h0).2.2 s (ddTurnsOn_mono m h1)
    have h4 := ddTurns_mono k hm
    rw [Nat.add_comm] at h4
    rw [h4] at h3
    exact h3

/-! ## Outputs with limited room -/

theorem upTo_flush {L : Nat} (w : StdoutOn) (h : w.sink.length ≤ L) :
    ∃ c, w.flush (.upTo L) = (⟨w.sink ++ w.buf.take (L - w.sink.length), w.buf.drop (L - w.sink.length), c⟩,
      decide (w.buf.length ≤ L - w.sink.length)) := by
  rw [flushOn_eq]
  by_cases hb : w.buf = []
  · rw [if_pos hb]
    refine ⟨w.calls, ?_⟩
    obtain ⟨s, b, c⟩ := w
    dsimp only at hb
    subst hb
    simp
  · rw [if_neg hb]
    have hp : 0 < w.buf.length := List.length_pos_iff.2 hb
    unfold Outlet.upTo
    by_cases hL : L ≤ w.sink.length
    · rw [if_pos hL]
      refine ⟨w.calls + 1, ?_⟩
      have : L - w.sink.length = 0 := by omega
      rw [this]
      simp
      omega
    · rw [if_neg hL]
      have hm : min w.buf.length (L - w.sink.length) ≠ 0 := by omega
      obtain ⟨m, hm'⟩ := Nat.exists_eq_succ_of_ne_zero hm
      rw [hm']
      dsimp only
      rw [flushOn_eq]
      dsimp only
      have hm'' : m + 1 = min w.buf.length (L - w.sink.length) := hm'.symm
      by_cases hd : w.buf.drop (m + 1) = []
      · rw [if_pos hd]
        rw [List.drop_eq_nil_iff] at hd
        refine ⟨w.calls + 1, ?_⟩
        rw [List.take_of_length_le hd, List.take_of_length_le (by omega), List.drop_of_length_le hd,
          List.drop_of_length_le (by omega), decide_eq_true (by omega)]
      · rw [if_neg hd]
        have hd' : ¬ w.buf.length ≤ m + 1 := fun h => hd (List.drop_eq_nil_iff.2 h)
        rw [if_pos (by rw [List.length_append, List.length_take]; omega)]
        refine ⟨w.calls + 1 + 1, ?_⟩
        have : m + 1 = L - w.sink.length := by omega
        rw [this, decide_eq_false (by omega)]

theorem upTo_direct {L : Nat} (w : StdoutOn) (data : Bytes) :
    w.direct (.upTo L) data = if L ≤ w.sink.length then (⟨w.sink, w.buf, w.calls + 1⟩, none)
      else (⟨w.sink ++ data.take (L - w.sink.length), w.buf, w.calls + 1⟩, some (min data.length (L - w.sink.length))) := by
  unfold StdoutOn.direct Outlet.upTo
  split <;> rename_i h <;> split at h
  · rename_i h1; rw [if_pos h1]
  · cases h
  · cases h
  · rename_i h1
    rw [if_neg h1]
    injection h with h
    subst h
    congr 2
    · congr 1
      rw [List.take_eq_take_iff]
      omega
    · omega

/-- Nothing more fits, and what has gone out is the front of the complete output. -/
def Full (L : Nat) (w : StdoutOn) (f : LineWriter) : Prop := w.sink.length = L ∧ w.sink <+: f.output

/-- While no write has been refused. -/
def Within (L D : Nat) (w : StdoutOn) (f : LineWriter) : Prop :=
  w.buf.length ≤ LineWriter.capacity ∧
  ((w.sink = f.sink ∧ w.buf = f.buf ∧ w.sink.length ≤ L) ∨
    (Full L w f ∧ f.output.length ≤ L + w.buf.length + D))

/-- Same contents, and there was room for them. -/
def Same (L : Nat) (w : StdoutOn) (f : LineWriter) : Prop := w.sink = f.sink ∧ w.buf = f.buf ∧ w.sink.length ≤ L

theorem same_flush {L : Nat} {w : StdoutOn} {f : LineWriter} (h : Same L w f) :
    (∀ v, w.flush (.upTo L) = (v, true) → Same L v f.flush ∧ v.buf = []) ∧
    (∀ v, w.flush (.upTo L) = (v, false) → Full L v f) := by
  obtain ⟨h1, h2, h3⟩ := h
  obtain ⟨c, hc⟩ := upTo_flush w h3
  refine ⟨fun v hv => ?_, fun v hv => ?_⟩
  · rw [hc] at hv
    injection hv with hv hb
    have hb := of_decide_eq_true hb
    subst hv
    rw [List.take_of_length_le hb, List.drop_of_length_le hb]
    exact ⟨⟨by simp [LineWriter.flush, h1, h2], rfl, by simp; omega⟩, rfl⟩
  · rw [hc] at hv
    injection hv with hv hb
    have hb := of_decide_eq_false hb
    subst hv
    refine ⟨by simp; omega, ?_⟩
    dsimp only
    unfold LineWriter.output
    rw [h1, h2, List.prefix_append_right_inj]
    exact List.take_prefix _ _

theorem full_flush {L : Nat} {w : StdoutOn} (h : w.sink.length = L) :
    (∀ v, w.flush (.upTo L) = (v, true) → v = w ∧ w.buf = []) ∧ (∀ v, w.flush (.upTo L) = (v, false) → v.sink = w.sink) := by
  obtain ⟨c, hc⟩ := upTo_flush w (Nat.le_of_eq h)
  have h0 : L - w.sink.length = 0 := by omega
  rw [h0] at hc
  refine ⟨fun v hv => ?_, fun v hv => ?_⟩
  · have hb : w.buf = [] := by
      rw [hc] at hv
      injection hv with hv hb
      have hb := of_decide_eq_true hb
      exact List.eq_nil_of_length_eq_zero (by omega)
    rw [flushOn_eq, if_pos hb] at hv
    injection hv with hv
    exact ⟨hv.symm, hb⟩
  · rw [hc] at hv
    injection hv with hv hb
    subst hv
    simp

theorem full_mono {L : Nat} {w v : StdoutOn} {f g : LineWriter} (h : Full L w f) (hs : v.sink = w.sink) (hg : f.output <+: g.output) :
    Full L v g := by
  unfold Full at *
  rw [hs]
  exact ⟨h.1, h.2.trans hg⟩

theorem write_prefix (late : Bool) (f : LineWriter) (data : Bytes) : f.output <+: (f.write late data).1.output := by
  rw [(write_output late f data).1]
  exact List.prefix_append _ _

theorem upTo_bufPush {L D : Nat} {w : StdoutOn} {f : LineWriter} {data : Bytes} (h : Same L w f)
    (hb : LineWriter.capacity ≤ data.length → w.buf = []) (hs : data.length < LineWriter.capacity → w.buf.length + data.length ≤ LineWriter.capacity)
    (hD : data.length ≤ D) (g : LineWriter) (hg : g = if data.length ≥ LineWriter.capacity then ⟨f.sink ++ data, f.buf⟩ else ⟨f.sink, f.buf ++ data⟩) :
    (∀ v k, w.bufPush (.upTo L) data = (v, some k) → Within L D v g) ∧
    (∀ v, w.bufPush (.upTo L) data = (v, none) → Full L v g) := by
  obtain ⟨h1, h2, h3⟩ := h
  unfold StdoutOn.bufPush
  by_cases hge : data.length ≥ LineWriter.capacity
  · rw [if_pos hge] at hg ⊢
    have hwb := hb hge
    rw [upTo_direct]
    by_cases hL : L ≤ w.sink.length
    · rw [if_pos hL]
      refine ⟨fun v k hv => (by cases hv), fun v hv => ?_⟩
      injection hv with hv
      subst hv hg
      refine ⟨by dsimp only; omega, ?_⟩
      unfold LineWriter.output
      dsimp only
      rw [h1, List.append_assoc]
      exact List.prefix_append _ _
    · rw [if_neg hL]
      refine ⟨fun v k hv => ?_, fun v hv => (by cases hv)⟩
      injection hv with hv
      subst hv hg
      refine ⟨by simp [hwb], ?_⟩
      by_cases hfit : data.length ≤ L - w.sink.length
      · left
        rw [List.take_of_length_le hfit]
        exact ⟨by simp [h1], h2, by simp; omega⟩
      · right
        refine ⟨⟨by simp; omega, ?_⟩, ?_⟩
        · unfold LineWriter.output
          dsimp only
          rw [h1, List.append_assoc, List.prefix_append_right_inj]
          exact (List.take_prefix _ _).trans (List.prefix_append _ _)
        · unfold LineWriter.output
          dsimp only
          rw [← h2, hwb, ← h1]
          simp
          omega
  · rw [if_neg hge] at hg ⊢
    refine ⟨fun v k hv => ?_, fun v hv => (by cases hv)⟩
    injection hv with hv
    subst hv hg
    have := hs (by omega)
    refine ⟨by simp; omega, .inl ⟨h1, by simp [h2], h3⟩⟩

/-- Buffering on an output with room. -/
theorem same_bufWrite {L D : Nat} {w : StdoutOn} {f : LineWriter} {data : Bytes} (h : Same L w f)
    (hcap : w.buf.length ≤ LineWriter.capacity) (hD : data.length ≤ D) :
    (∀ v k, w.bufWrite (.upTo L) data = (v, some k) → Within L D v (f.bufWrite data).1) ∧
    (∀ v, w.bufWrite (.upTo L) data = (v, none) → Full L v (f.bufWrite data).1) := by
  have hc : LineWriter.capacity = 1024 := rfl
  have hpre : f.output <+: (f.bufWrite data).1.output := by
    rw [(bufWrite_output f data).1]; exact List.prefix_append _ _
  have hf := h.2.1
  unfold StdoutOn.bufWrite
  unfold LineWriter.bufWrite at hpre ⊢
  rw [hf] at hcap ⊢
  by_cases hlt : data.length < LineWriter.capacity - f.buf.length
  · rw [if_pos hlt] at hpre ⊢
    rw [if_pos hlt]
    refine ⟨fun v k hv => ?_, fun v hv => (by cases hv)⟩
    injection hv with hv
    subst hv
    exact ⟨by simp; omega, .inl ⟨h.1, by simp, h.2.2⟩⟩
  · rw [if_neg hlt] at hpre ⊢
    rw [if_neg hlt]
    by_cases hgt : data.length > LineWriter.capacity - f.buf.length
    · rw [if_pos hgt] at hpre ⊢
      rw [if_pos hgt]
      rcases hfl : w.flush (.upTo L) with ⟨v, b⟩
      cases b with
      | false =>
        dsimp only
        refine ⟨fun v k hv => (by cases hv), fun v' hv => ?_⟩
        injection hv with hv
        subst hv
        exact full_mono ((same_flush h).2 v hfl) rfl hpre
      | true =>
        dsimp only
        obtain ⟨h1, h2⟩ := (same_flush h).1 v hfl
        refine upTo_bufPush h1 (fun _ => h2) (fun h => by rw [h2]; simp; omega) hD _ ?_
        dsimp only [LineWriter.flush]
        split <;> rfl
    · rw [if_neg hgt] at hpre ⊢
      rw [if_neg hgt]
      refine upTo_bufPush h (fun h => ?_) (fun h => ?_) hD _ ?_
      · apply List.eq_nil_of_length_eq_zero
        rw [hf]
        omega
      · rw [hf]; omega
      · split <;> rfl

/-- Buffering on an output that is full. -/
theorem full_bufWrite {L D : Nat} {w : StdoutOn} {f : LineWriter} {data : Bytes} (h : Full L w f)
    (hcap : w.buf.length ≤ LineWriter.capacity) (hlen : f.output.length ≤ L + w.buf.length + D) {g : LineWriter}
    (hg : g.output = f.output ++ data) :
    (∀ v k, w.bufWrite (.upTo L) data = (v, some k) → Within L D v g) ∧
    (∀ v, w.bufWrite (.upTo L) data = (v, none) → Full L v g) := by
  have hc : LineWriter.capacity = 1024 := rfl
  have hpre : f.output <+: g.output := by rw [hg]; exact List.prefix_append _ _
  have hok : ∀ {c : Nat}, w.buf.length + data.length ≤ LineWriter.capacity → Within L D ⟨w.sink, w.buf ++ data, c⟩ g := by
    intro c hle
    refine ⟨by simp; omega, .inr ⟨full_mono h rfl hpre, ?_⟩⟩
    rw [hg]
    simp
    omega
  have hpush : (LineWriter.capacity ≤ data.length → w.buf = []) → (data.length < LineWriter.capacity → w.buf.length + data.length ≤ LineWriter.capacity) →
      (∀ v k, w.bufPush (.upTo L) data = (v, some k) → Within L D v g) ∧ (∀ v, w.bufPush (.upTo L) data = (v, none) → Full L v g) := by
    intro hb hs
    unfold StdoutOn.bufPush
    by_cases hge : data.length ≥ LineWriter.capacity
    · rw [if_pos hge, upTo_direct, if_pos (Nat.le_of_eq h.1.symm)]
      refine ⟨fun v k hv => (by cases hv), fun v hv => ?_⟩
      injection hv with hv
      subst hv
      exact full_mono h rfl hpre
    · rw [if_neg hge]
      refine ⟨fun v k hv => ?_, fun v hv => (by cases hv)⟩
      injection hv with hv
      subst hv
      exact hok (hs (by omega))
  unfold StdoutOn.bufWrite
  by_cases hlt : data.length < LineWriter.capacity - w.buf.length
  · rw [if_pos hlt]
    refine ⟨fun v k hv => ?_, fun v hv => (by cases hv)⟩
    injection hv with hv
    subst hv
    exact hok (by omega)
  · rw [if_neg hlt]
    by_cases hgt : data.length > LineWriter.capacity - w.buf.length
    · rw [if_pos hgt]
      rcases hfl : w.flush (.upTo L) with ⟨v, b⟩
      cases b with
      | false =>
        dsimp only
        refine ⟨fun v k hv => (by cases hv), fun v' hv => ?_⟩
        injection hv with hv
        subst hv
        exact full_mono h ((full_flush h.1).2 v hfl) hpre
      | true =>
        dsimp only
        obtain ⟨rfl, h2⟩ := (full_flush h.1).1 v hfl
        exact hpush (fun _ => h2) (fun h => by rw [h2]; simp; omega)
    · rw [if_neg hgt]
      refine hpush (fun h => ?_) (fun h => by omega)
      apply List.eq_nil_of_length_eq_zero
      omega

theorem writeToBuf_cap (v : StdoutOn) (d : Bytes) (h : v.buf.length ≤ LineWriter.capacity) :
    (v.writeToBuf d).1.buf.length ≤ LineWriter.capacity := by
  unfold StdoutOn.writeToBuf
  simp
  omega

theorem upTo_sim (late : Bool) (L D : Nat) : Sim late (.upTo L) D (Within L D) (Full L) := by
  have key : ∀ {w : StdoutOn} {f : LineWriter} {data : Bytes}, Within L D w f → data.length ≤ D →
      (∀ w' k, w.write late (.upTo L) data = (w', some k) → Within L D w' (f.write late data).1) ∧
      (∀ w', w.write late (.upTo L) data = (w', none) → Full L w' (f.write late data).1) := by
    intro w f data hw hD
    have hpre := write_prefix late f data
    obtain ⟨hcap, hw⟩ := hw
    have hout := (write_output late f data).1
    unfold StdoutOn.write
    unfold taken at hout
    cases hr : rfind [10] data with
    | none =>
      rw [hr] at hout
      dsimp only at hout ⊢
      rw [List.take_length] at hout
      have hwr : (f.write late data).1 = (f.flushIfCompletedLine.bufWrite data).1 := by
        unfold LineWriter.write; rw [hr]
      rw [hwr] at hpre hout ⊢
      unfold StdoutOn.flushIfCompletedLine
      rcases hw with hw | ⟨hw, hlen⟩
      · by_cases hlast : w.buf.getLast? = some 10
        · rw [if_pos hlast]
          have hf : f.flushIfCompletedLine = f.flush := by
            unfold LineWriter.flushIfCompletedLine; rw [← hw.2.1, if_pos hlast]
          rw [hf] at hpre hout ⊢
          rcases hfl : w.flush (.upTo L) with ⟨v, b⟩
          cases b with
          | false =>
            dsimp only
            refine ⟨fun v k hv => (by cases hv), fun v' hv => ?_⟩
            injection hv with hv
            subst hv
            exact full_mono ((same_flush hw).2 v hfl) rfl hpre
          | true =>
            dsimp only
            obtain ⟨h1, h2⟩ := (same_flush hw).1 v hfl
            exact same_bufWrite h1 (by rw [h2]; simp) hD
        · rw [if_neg hlast]
          have hf : f.flushIfCompletedLine = f := by
            unfold LineWriter.flushIfCompletedLine; rw [← hw.2.1, if_neg hlast]
          rw [hf]
          exact same_bufWrite hw hcap hD
      · by_cases hlast : w.buf.getLast? = some 10
        · rw [if_pos hlast]
          rcases hfl : w.flush (.upTo L) with ⟨v, b⟩
          cases b with
          | false =>
            dsimp only
            refine ⟨fun v k hv => (by cases hv), fun v' hv => ?_⟩
            injection hv with hv
            subst hv
            exact full_mono hw ((full_flush hw.1).2 v hfl) hpre
          | true =>
            obtain ⟨_, h2⟩ := (full_flush hw.1).1 v hfl
            rw [h2] at hlast
            cases hlast
        · rw [if_neg hlast]
          exact full_bufWrite hw hcap hlen hout
    | some i =>
      rw [hr] at hout
      dsimp only at hout ⊢
      have hi : i < data.length := by
        have h1 := (rfind_some (by decide) hr).1
        have h2 := h1.length_le
        simp at h2
        omega
      rcases hw with hw | ⟨hw, hlen⟩
      · rcases hfl : w.flush (.upTo L) with ⟨v, b⟩
        cases b with
        | false =>
          dsimp only
          refine ⟨fun v k hv => (by cases hv), fun v' hv => ?_⟩
          injection hv with hv
          subst hv
          exact full_mono ((same_flush hw).2 v hfl) rfl hpre
        | true =>
          obtain ⟨⟨h1, h2, h3⟩, hvb⟩ := (same_flush hw).1 v hfl
          dsimp only
          rw [upTo_direct]
          have hfo : f.output = v.sink := by rw [h1]; rfl
          by_cases hL : L ≤ v.sink.length
          · rw [if_pos hL]
            dsimp only
            refine ⟨fun v k hv => (by cases hv), fun v' hv => ?_⟩
            injection hv with hv
            subst hv
            refine ⟨by dsimp only; omega, ?_⟩
            rw [← hfo]
            exact hpre
          · rw [if_neg hL]
            dsimp only
            have hm : min (data.take (i + 1)).length (L - v.sink.length) ≠ 0 := by rw [List.length_take]; omega
            rw [if_neg hm]
            refine ⟨fun v' k hv => ?_, fun v' hv => (by cases hv)⟩
            injection hv with hv
            subst hv
            refine ⟨writeToBuf_cap _ _ (by simp [hvb]), ?_⟩
            by_cases hfit : i + 1 ≤ L - v.sink.length
            · left
              have hl : (data.take (i + 1)).length = i + 1 := by rw [List.length_take]; omega
              rw [hl, Nat.min_eq_left hfit, List.take_of_length_le (by omega)]
              have ht : StdoutOn.tail late data (i + 1) (i + 1) = LineWriter.behind late (data.drop (i + 1)) := by
                unfold StdoutOn.tail; rw [if_pos (Nat.le_refl _)]
              rw [ht]
              unfold LineWriter.write StdoutOn.writeToBuf LineWriter.writeToBuf
              simp only [hr, hl, Nat.add_one_ne_zero, if_false]
              refine ⟨by rw [h1], ?_, ?_⟩
              · rw [h2]
              · rw [List.length_append, hl]; omega
            · right
              have hl : (data.take (i + 1)).length = i + 1 := by rw [List.length_take]; omega
              unfold StdoutOn.writeToBuf
              refine ⟨⟨?_, ?_⟩, ?_⟩
              · dsimp only
                rw [List.length_append, List.length_take, hl]
                omega
              · dsimp only
                rw [hout, hfo, List.prefix_append_right_inj, List.take_take]
                exact List.take_prefix_take_left (by split <;> omega)
              · rw [hout, hfo, List.length_append, List.length_take]
                omega
      · rcases hfl : w.flush (.upTo L) with ⟨v, b⟩
        cases b with
        | false =>
          dsimp only
          refine ⟨fun v k hv => (by cases hv), fun v' hv => ?_⟩
          injection hv with hv
          subst hv
          exact full_mono hw ((full_flush hw.1).2 v hfl) hpre
        | true =>
          obtain ⟨rfl, h2⟩ := (full_flush hw.1).1 v hfl
          dsimp only
          rw [upTo_direct, if_pos (Nat.le_of_eq hw.1.symm)]
          dsimp only
          refine ⟨fun v k hv => (by cases hv), fun v' hv => ?_⟩
          injection hv with hv
          subst hv
          exact full_mono hw rfl hpre
  exact ⟨fun h hD hw => (key h hD).1 _ _ hw, fun h hD hw => (key h hD).2 _ hw,
    fun data h => full_mono h rfl (write_prefix late _ data)⟩

/-- The output of a run that has not been refused anything. -/
theorem within_output {L D : Nat} {w : StdoutOn} {f : LineWriter} (h : Within L D w f) :
    w.output (.upTo L) = f.output.take L := by
  obtain ⟨_, ⟨h1, h2, h3⟩ | ⟨⟨h1, h2⟩, _⟩⟩ := h
  · obtain ⟨c, hc⟩ := upTo_flush w h3
    unfold StdoutOn.output LineWriter.output
    rw [hc, ← h1, ← h2, List.take_append, List.take_of_length_le h3]
  · obtain ⟨c, hc⟩ := upTo_flush w (Nat.le_of_eq h1)
    unfold StdoutOn.output
    rw [hc, show L - w.sink.length = 0 by omega, List.take_zero, List.append_nil]
    obtain ⟨r, hr⟩ := h2
    rw [← hr, ← h1, List.take_left]

theorem full_output {L : Nat} {w : StdoutOn} {f : LineWriter} (h : Full L w f) : w.output (.upTo L) = f.output.take L := by
  obtain ⟨h1, h2⟩ := h
  obtain ⟨c, hc⟩ := upTo_flush w (Nat.le_of_eq h1)
  unfold StdoutOn.output
  rw [hc, show L - w.sink.length = 0 by omega, List.take_zero, List.append_nil]
  obtain ⟨r, hr⟩ := h2
  rw [← hr, ← h1, List.take_left]

/-! ## Any output -/

theorem flushOn_false (acc : Outlet) (w : StdoutOn) : ∀ v, w.flush acc = (v, false) → v.buf ≠ [] := by
  induction h : w.buf.length using Nat.strongRecOn generalizing w with
  | _ m ih =>
    intro v hv
    rw [flushOn_eq] at hv
    by_cases hb : w.buf = []
    · rw [if_pos hb] at hv; cases hv
    · rw [if_neg hb] at hv
      cases hacc : acc w.calls w.sink.length w.buf.length with
      | none => rw [hacc] at hv; injection hv with hv; subst hv; exact hb
      | some k =>
        rw [hacc] at hv
        cases k with
        | zero => injection hv with hv; subst hv; exact hb
        | succ k =>
          have hp : 0 < w.buf.length := List.length_pos_iff.2 hb
          exact ih (w.buf.drop (k + 1)).length (by rw [List.length_drop]; omega) ⟨_, _, _⟩ rfl v hv

theorem sink_lt_of_buf {w v : StdoutOn} (h : v.all = w.all) (hb : v.buf ≠ []) : v.sink.length < w.all.length := by
  have hp : 0 < v.buf.length := List.length_pos_iff.2 hb
  rw [← h]
  unfold StdoutOn.all
  rw [List.length_append]
  omega

/-- A write is refused only if there was something to write. -/
theorem writeOn_none (late : Bool) (acc : Outlet) (w v : StdoutOn) (data : Bytes) (h : w.write late acc data = (v, none)) :
    v.sink.length < w.all.length + taken late data := by
  have hc : LineWriter.capacity = 1024 := rfl
  have hall := (writeOn_spec late acc w data).2 (by rw [h])
  rw [h] at hall
  dsimp only at hall
  by_cases hb : v.buf = []
  · have hs : v.sink.length = w.all.length := by
      rw [← hall]
      unfold StdoutOn.all
      rw [hb, List.append_nil]
    have : 0 < taken late data := by
      unfold StdoutOn.write at h
      unfold taken
      cases hr : rfind [10] data with
      | some i =>
        have hi : i < data.length := by
          have h1 := (rfind_some (by decide) hr).1
          have h2 := h1.length_le
          simp at h2
          omega
        dsimp only
        split <;> omega
      | none =>
        rw [hr] at h
        dsimp only at h ⊢
        rcases hf : w.flushIfCompletedLine acc with ⟨u, b⟩
        rw [hf] at h
        cases b with
        | false =>
          dsimp only at h
          injection h with h
          subst h
          unfold StdoutOn.flushIfCompletedLine at hf
          split at hf
          · exact absurd hb (flushOn_false acc w _ hf)
          · cases hf
        | true =>
          dsimp only at h
          have push : ∀ {x : StdoutOn}, x.bufPush acc data = (v, none) → 0 < data.length := by
            intro x hx
            unfold StdoutOn.bufPush at hx
            split at hx
            · omega
            · cases hx
          unfold StdoutOn.bufWrite at h
          split at h
          · cases h
          · split at h
            · rcases hg : u.flush acc with ⟨x, b⟩
              rw [hg] at h
              cases b with
              | false =>
                dsimp only at h
                injection h with h
                subst h
                exact absurd hb (flushOn_false acc u _ hg)
              | true => exact push h
            · exact push h
    omega
  · have := sink_lt_of_buf hall hb
    omega

/-- Whatever the output does, bytes are only lost, never changed, added or reordered. -/
theorem any_sim (late : Bool) (acc : Outlet) (D : Nat) : Sim late acc D (fun w f => w.all.Sublist f.output)
    (fun w f => w.all.Sublist f.output ∧ w.sink.length < f.output.length) := by
  refine ⟨fun {w f data w' k} h _ hw => ?_, fun {w f data w'} h _ hw => ?_, fun {w f} data h => ?_⟩
  · obtain ⟨h1, h2⟩ := (writeOn_spec late acc w data).1 k (by rw [hw])
    rw [hw] at h1
    dsimp only at h1
    rw [h1, (write_output late f data).1]
    exact h.append (List.take_sublist_take_left h2)
  · have h1 := (writeOn_spec late acc w data).2 (by rw [hw])
    rw [hw] at h1
    dsimp only at h1
    rw [h1, (write_output late f data).1]
    refine ⟨h.trans (List.sublist_append_left _ _), ?_⟩
    have h2 := writeOn_none late acc w w' data hw
    have h3 := h.length_le
    have h4 := taken_le late data
    rw [List.length_append, List.length_take]
    omega
  · have := write_prefix late f data
    exact ⟨h.1.trans this.sublist, Nat.lt_of_lt_of_le h.2 this.length_le⟩

theorem Sim.and {late : Bool} {acc : Outlet} {D : Nat} {R E R' E' : StdoutOn → LineWriter → Prop} (S : Sim late acc D R E) (S' : Sim late acc D R' E') :
    Sim late acc D (fun w f => R w f ∧ R' w f) (fun w f => E w f ∧ E' w f) :=
  ⟨fun h hD hw => ⟨S.ok h.1 hD hw, S'.ok h.2 hD hw⟩, fun h hD hw => ⟨S.err h.1 hD hw, S'.err h.2 hD hw⟩,
    fun data h => ⟨S.stable data h.1, S'.stable data h.2⟩⟩

/-! ## Outputs that take every write whole -/

theorem whole_flush {acc : Outlet} {N : Nat} (hacc : TakesWhole N acc) (w : StdoutOn) (hb : w.buf.length ≤ N) :
    ∃ c, w.flush acc = (⟨w.sink ++ w.buf, [], c⟩, true) := by
  rw [flushOn_eq]
  by_cases h : w.buf = []
  · rw [if_pos h]
    obtain ⟨s, b, c⟩ := w
    dsimp only at h
    subst h
    exact ⟨c, by simp⟩
  · rw [if_neg h]
    obtain ⟨k, h1, h2⟩ := hacc w.calls w.sink.length w.buf.length hb
    have hp : 0 < w.buf.length := List.length_pos_iff.2 h
    obtain ⟨m, rfl⟩ := Nat.exists_eq_succ_of_ne_zero (show k ≠ 0 by omega)
    rw [h1]
    dsimp only
    have h2 : w.buf.length ≤ m + 1 := h2
    rw [flushOn_eq, if_pos (by dsimp only; exact List.drop_of_length_le h2), List.take_of_length_le h2, List.drop_of_length_le h2]
    exact ⟨_, rfl⟩

theorem whole_direct {acc : Outlet} {N : Nat} (hacc : TakesWhole N acc) (w : StdoutOn) (data : Bytes) (h : data.length ≤ N) :
    w.direct acc data = (⟨w.sink ++ data, w.buf, w.calls + 1⟩, some data.length) := by
  unfold StdoutOn.direct
  obtain ⟨k, h1, h2⟩ := hacc w.calls w.sink.length data.length h
  rw [h1]
  dsimp only
  rw [List.take_of_length_le h2, Nat.min_eq_right h2]

/-- Same contents. -/
def Equal (w : StdoutOn) (f : LineWriter) : Prop := w.sink = f.sink ∧ w.buf = f.buf ∧ w.buf.length ≤ LineWriter.capacity

theorem whole_write (late : Bool) {acc : Outlet} {N : Nat} (hacc : TakesWhole N acc) (hN : LineWriter.capacity ≤ N) {w : StdoutOn} {f : LineWriter}
    (h : Equal w f) {data : Bytes} (hd : data.length ≤ N) :
    ∃ w' k, w.write late acc data = (w', some k) ∧ Equal w' (f.write late data).1 := by
  have hc : LineWriter.capacity = 1024 := rfl
  obtain ⟨h1, h2, h3⟩ := h
  have push : ∀ {x : StdoutOn} {g : LineWriter}, x.sink = g.sink → x.buf = g.buf → (LineWriter.capacity ≤ data.length → x.buf = []) →
      (data.length < LineWriter.capacity → x.buf.length + data.length ≤ LineWriter.capacity) →
      ∃ w' k, x.bufPush acc data = (w', some k) ∧
        Equal w' (if data.length ≥ LineWriter.capacity then (⟨g.sink ++ data, g.buf⟩, data.length)
          else (⟨g.sink, g.buf ++ data⟩, data.length) : LineWriter × Nat).1 := by
    intro x g hs hb h4 h5
    unfold StdoutOn.bufPush
    by_cases hge : data.length ≥ LineWriter.capacity
    · rw [if_pos hge, if_pos hge, whole_direct hacc x data hd]
      exact ⟨_, _, rfl, by rw [hs], hb, by rw [h4 hge]; simp⟩
    · rw [if_neg hge, if_neg hge]
      have := h5 (by omega)
      exact ⟨_, _, rfl, hs, by rw [hb], by simp; omega⟩
  have hbw : ∀ {x : StdoutOn} {g : LineWriter}, x.sink = g.sink → x.buf = g.buf → x.buf.length ≤ LineWriter.capacity →
      ∃ w' k, x.bufWrite acc data = (w', some k) ∧ Equal w' (g.bufWrite data).1 := by
    intro x g hs hb h4
    unfold StdoutOn.bufWrite LineWriter.bufWrite
    rw [hb] at h4 ⊢
    by_cases hlt : data.length < LineWriter.capacity - g.buf.length
    · rw [if_pos hlt, if_pos hlt]
      exact ⟨_, _, rfl, hs, rfl, by simp; omega⟩
    · rw [if_neg hlt, if_neg hlt]
      by_cases hgt : data.length > LineWriter.capacity - g.buf.length
      · rw [if_pos hgt, if_pos hgt]
        obtain ⟨c, hfl⟩ := whole_flush hacc x (by rw [hb]; omega)
        rw [hfl]
        dsimp only
        exact push (g := g.flush) (by simp [LineWriter.flush, hs, hb]) rfl (fun _ => rfl) (fun h => by simp; omega)
      · rw [if_neg hgt, if_neg hgt]
        dsimp only
        refine push hs hb (fun h => ?_) (fun h => by rw [hb]; omega)
        apply List.eq_nil_of_length_eq_zero
        rw [hb]
        omega
  unfold StdoutOn.write LineWriter.write
  cases hr : rfind [10] data with
  | none =>
    dsimp only
    unfold StdoutOn.flushIfCompletedLine LineWriter.flushIfCompletedLine
    rw [h2]
    by_cases hl : f.buf.getLast? = some 10
    · rw [if_pos hl, if_pos hl]
      obtain ⟨c, hfl⟩ := whole_flush hacc w (by omega)
      rw [hfl]
      exact hbw (g := f.flush) (by simp [LineWriter.flush, h1, h2]) rfl (by simp)
    · rw [if_neg hl, if_neg hl]
      exact hbw h1 h2 h3
  | some i =>
    dsimp only
    have hi : i < data.length := by
      have h1 := (rfind_some (by decide) hr).1
      have h2 := h1.length_le
      simp at h2
      omega
    have hl : (data.take (i + 1)).length = i + 1 := by rw [List.length_take]; omega
    obtain ⟨c, hfl⟩ := whole_flush hacc w (by omega)
    rw [hfl]
    dsimp only
    rw [whole_direct hacc _ _ (by omega), hl]
    dsimp only
    rw [if_neg (Nat.add_one_ne_zero _), if_neg (Nat.add_one_ne_zero _)]
    have ht : StdoutOn.tail late data (i + 1) (i + 1) = LineWriter.behind late (data.drop (i + 1)) := by
      unfold StdoutOn.tail; rw [if_pos (Nat.le_refl _)]
    rw [ht]
    refine ⟨_, _, rfl, ?_, rfl, writeToBuf_cap _ _ (by simp)⟩
    unfold StdoutOn.writeToBuf LineWriter.writeToBuf LineWriter.flush
    dsimp only
    rw [h1, h2]

theorem whole_sim (late : Bool) {acc : Outlet} {N : Nat} (hacc : TakesWhole N acc) (hN : LineWriter.capacity ≤ N) :
    Sim late acc N Equal (fun _ _ => False) := by
  refine ⟨fun {w f data w' k} h hD hw => ?_, fun {w f data w'} h hD hw => ?_, fun _ h => h⟩
  · obtain ⟨w'', k', h1, h2⟩ := whole_write late hacc hN h hD
    rw [hw] at h1
    injection h1 with h1
    subst h1
    exact h2
  · obtain ⟨w'', k', h1, h2⟩ := whole_write late hacc hN h hD
    rw [hw] at h1
    cases h1

theorem equal_output {acc : Outlet} {N : Nat} (hacc : TakesWhole N acc) (hN : LineWriter.capacity ≤ N) {w : StdoutOn} {f : LineWriter}
    (h : Equal w f) : w.output acc = f.output := by
  obtain ⟨c, hc⟩ := whole_flush hacc w (Nat.le_trans h.2.2 hN)
  unfold StdoutOn.output LineWriter.output
  rw [hc, h.1, h.2.1]

end Verif
