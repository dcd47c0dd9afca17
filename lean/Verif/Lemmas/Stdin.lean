import Verif.Model.Stdin
import Verif.Spec.Stdin

/-! # Lemmas about standard input -/

set_option linter.unusedSimpArgs false
set_option linter.unusedVariables false

namespace Verif

open Spec

/-- The bytes that can still be read in front of the end or an error. -/
def StdinIn.left (s : StdinIn) : Bytes := s.buf ++ delivered s.events

theorem rawRead_spec (m : Nat) (hm : 0 < m) (events : List ReadEvent) :
    match StdinIn.rawRead m events with
    | (.got [], rest) => delivered events = []
    | (.got (b :: bs), rest) => delivered events = b :: bs ++ delivered rest ∧ (b :: bs).length ≤ m
    | (.interrupted, rest) => delivered events = delivered rest
    | (.error, rest) => delivered events = [] := by
  match events with
  | [] => rfl
  | .interrupted :: rest => rfl
  | .error :: rest => rfl
  | .data b bs :: rest =>
    unfold StdinIn.rawRead
    dsimp only
    cases hd : (b :: bs).drop m with
    | nil => exact ⟨by simp [delivered], List.drop_eq_nil_iff.1 hd⟩
    | cons c cs =>
      dsimp only
      obtain ⟨k, rfl⟩ : ∃ k, m = k + 1 := ⟨m - 1, by omega⟩
      rw [List.take_succ_cons]
      dsimp only
      refine ⟨?_, by simp; omega⟩
      have h1 : b :: bs = (b :: bs).take (k + 1) ++ (c :: cs) := by rw [← hd, List.take_append_drop]
      have h2 : delivered (ReadEvent.data b bs :: rest) = b :: bs ++ delivered rest := by simp [delivered]
      have h3 : delivered (ReadEvent.data c cs :: rest) = c :: cs ++ delivered rest := by simp [delivered]
      rw [h2, h3, ← List.append_assoc, ← List.take_succ_cons, ← h1]

theorem read_spec (m : Nat) (hm : 0 < m) (s : StdinIn) :
    match s.read m with
    | (.got [], s') => s.left = []
    | (.got (b :: bs), s') => s.left = b :: bs ++ s'.left ∧ (b :: bs).length ≤ m
    | (.interrupted, s') => s.left = s'.left
    | (.error, s') => s.left = [] := by
  obtain ⟨k, rfl⟩ : ∃ k, m = k + 1 := ⟨m - 1, by omega⟩
  obtain ⟨buf, events⟩ := s
  unfold StdinIn.read StdinIn.left
  dsimp only
  cases buf with
  | cons b bs =>
    rw [if_pos (List.cons_ne_nil b bs), List.take_succ_cons]
    dsimp only
    refine ⟨?_, by simp; omega⟩
    rw [List.drop_succ_cons, List.cons_append, List.cons_append, ← List.append_assoc, List.take_append_drop]
  | nil =>
    rw [if_neg (by simp)]
    by_cases hc : StdinIn.capacity ≤ k + 1
    · rw [if_pos hc]
      have h := rawRead_spec (k + 1) hm events
      rcases hr : StdinIn.rawRead (k + 1) events with ⟨x, rest⟩
      rw [hr] at h
      cases x with
      | got data =>
        cases data with
        | nil => exact h
        | cons b bs => exact h
      | interrupted => exact h
      | error => exact h
    · rw [if_neg hc]
      have h := rawRead_spec StdinIn.capacity (by decide) events
      rcases hr : StdinIn.rawRead StdinIn.capacity events with ⟨x, rest⟩
      rw [hr] at h
      cases x with
      | got data =>
        cases data with
        | nil => exact h
        | cons b bs =>
          dsimp only at h ⊢
          rw [List.take_succ_cons, List.drop_succ_cons]
          dsimp only
          refine ⟨?_, by simp; omega⟩
          rw [List.nil_append, h.1, List.cons_append, List.cons_append, ← List.append_assoc, List.take_append_drop]
      | interrupted => exact h
      | error => exact h

theorem readLoop_eq (m : Nat) (s : StdinIn) : s.readLoop m =
    if m = 0 then (some [], s)
    else match s.read m with
      | (.got [], s') => (none, s')
      | (.got (b :: bs), s') => (((s'.readLoop (m - (bs.length + 1))).1.map fun data => b :: (bs ++ data)),
          (s'.readLoop (m - (bs.length + 1))).2)
      | (.interrupted, s') => s'.readLoop m
      | (.error, s') => (none, s') := by
  rw [StdinIn.readLoop]
  by_cases h : m = 0
  · rw [if_pos h, if_pos h]
  · rw [if_neg h, if_neg h]
    rcases hr : s.read m with ⟨x, s'⟩
    split
    all_goals simp_all

theorem readLoop_spec (m : Nat) (s : StdinIn) :
    (m ≤ s.left.length → (s.readLoop m).1 = some (s.left.take m) ∧ (s.readLoop m).2.left = s.left.drop m) ∧
    (s.left.length < m → (s.readLoop m).1 = none) := by
  induction hk : m + s.events.length using Nat.strongRecOn generalizing m s with
  | _ k ih =>
    rw [readLoop_eq]
    by_cases h0 : m = 0
    · subst h0
      rw [if_pos rfl]
      exact ⟨fun _ => ⟨by simp, by simp⟩, fun h => by omega⟩
    · rw [if_neg h0]
      have hs := read_spec m (by omega) s
      have he := StdinIn.read_events m s
      rcases hr : s.read m with ⟨x, s'⟩
      rw [hr] at hs he
      dsimp only at he
      cases x with
      | got data =>
        cases data with
        | nil =>
          dsimp only at hs ⊢
          rw [hs]
          exact ⟨fun h => absurd (Nat.le_zero.1 h) h0, fun _ => rfl⟩
        | cons b bs =>
          dsimp only at hs ⊢
          obtain ⟨h1, h2⟩ := hs
          rw [List.length_cons] at h2
          obtain ⟨h3, h4⟩ := ih (m - (bs.length + 1) + s'.events.length) (by omega) (m - (bs.length + 1)) s' rfl
          have hl : s.left.length = bs.length + 1 + s'.left.length := by rw [h1]; simp; omega
          constructor
          · intro h
            obtain ⟨h5, h6⟩ := h3 (by omega)
            rw [h5, h6, h1, List.take_append, List.drop_append]
            have e1 : (b :: bs).take m = b :: bs := List.take_of_length_le (by simp; omega)
            have e2 : (b :: bs).drop m = [] := List.drop_eq_nil_iff.2 (by simp; omega)
            rw [e1, e2]
            exact ⟨by simp, by simp⟩
          · intro h
            rw [h4 (by omega)]
            rfl
      | interrupted =>
        dsimp only at hs ⊢
        rw [hs]
        exact ih (m + s'.events.length) (by have := he.2 rfl; omega) m s' rfl
      | error =>
        dsimp only at hs ⊢
        rw [hs]
        exact ⟨fun h => absurd (Nat.le_zero.1 h) h0, fun _ => rfl⟩

/-- `read_exact` gives the next bytes, or an error if there are too few. -/
theorem readExact_spec (m : Nat) (s : StdinIn) :
    (m ≤ s.left.length → (s.readExact m).1 = some (s.left.take m) ∧ (s.readExact m).2.left = s.left.drop m) ∧
    (s.left.length < m → (s.readExact m).1 = none) := by
  unfold StdinIn.readExact
  split
  · rename_i h
    refine ⟨fun _ => ⟨?_, ?_⟩, fun h' => ?_⟩
    · unfold StdinIn.left
      dsimp only
      rw [List.take_append_of_le_length h]
    · unfold StdinIn.left
      dsimp only
      rw [List.drop_append_of_le_length h]
    · unfold StdinIn.left at h'
      rw [List.length_append] at h'
      omega
  · exact readLoop_spec m s

/-! ## The loop -/

/-- The same with another input. -/
def withInput (input : Bytes) : DdStateOn ⊕ DdStateOn × DdEndOn → DdStateOn ⊕ DdStateOn × DdEndOn
  | .inl t => .inl ⟨input, t.count, t.out⟩
  | .inr (t, e) => .inr (⟨input, t.count, t.out⟩, e)

theorem withInput_writeOr (late : Bool) (acc : Outlet) (input i : Bytes) (count : UInt32) (o : StdoutOn) (data : Bytes)
    (k k' : StdoutOn → DdStateOn ⊕ DdStateOn × DdEndOn) (h : ∀ o, withInput input (k o) = k' o) :
    withInput input (writeOr late acc i count o data k) = writeOr late acc input count o data k' := by
  unfold writeOr
  rcases hr : o.write late acc data with ⟨o', x⟩
  cases x with
  | none => rfl
  | some _ => exact h o'

/-- A turn takes its payload from the front of the input and does not look at the rest. -/
theorem ddTurnOn_input (acc : Outlet) (a : DdArgs) (s : DdStateOn) (h : a.payloadSize.toNat ≤ s.input.length) :
    ddTurnOn acc a s = withInput (s.input.drop a.payloadSize.toNat) (ddTurnOn acc a ⟨s.input.take a.payloadSize.toNat, s.count, s.out⟩) := by
  unfold ddTurnOn
  dsimp only
  have hl : (s.input.take a.payloadSize.toNat).length = a.payloadSize.toNat := by rw [List.length_take]; omega
  rw [if_neg (by omega), hl, if_neg (by omega), List.take_take, Nat.min_self]
  cases B4.ofBytes? a.ecuid with
  | none => rfl
  | some ecu =>
    dsimp only
    cases add16 a.build.checks (4 + 10 + 4) a.payloadSize with
    | panic => rfl
    | ok len =>
      dsimp only
      cases B4.ofBytes? a.appid with
      | none => rfl
      | some app =>
        dsimp only
        refine (withInput_writeOr _ _ _ _ _ _ _ _ _ fun o => ?_).symm
        refine withInput_writeOr _ _ _ _ _ _ _ _ _ fun o => ?_
        cases mul32 a.build.checks s.count 100 with
        | panic => rfl
        | ok ts =>
          dsimp only
          refine withInput_writeOr _ _ _ _ _ _ _ _ _ fun o => ?_
          refine withInput_writeOr _ _ _ _ _ _ _ _ _ fun o => ?_
          refine withInput_writeOr _ _ _ _ _ _ _ _ _ fun o => ?_
          cases add32 a.build.checks s.count 1 with
          | panic => rfl
          | ok c => rfl

/-- What is left to read instead of the state of standard input. -/
def DdStateIn.flat (s : DdStateIn) : DdStateOn := ⟨s.stdin.left, s.count, s.out⟩

theorem ddTurnIn_sim (acc : Outlet) (a : DdArgs) (s : DdStateIn) :
    (∀ t, ddTurnIn acc a s = .inl t → ddTurnOn acc a s.flat = .inl t.flat) ∧
    (∀ t e, ddTurnIn acc a s = .inr (t, e) → ∃ u, ddTurnOn acc a s.flat = .inr (u, e) ∧ u.out = t.out) := by
  obtain ⟨h1, h2⟩ := readExact_spec a.payloadSize.toNat s.stdin
  unfold ddTurnIn
  by_cases h : a.payloadSize.toNat ≤ s.stdin.left.length
  · obtain ⟨h3, h4⟩ := h1 h
    rcases hr : s.stdin.readExact a.payloadSize.toNat with ⟨x, stdin⟩
    rw [hr] at h3 h4
    dsimp only at h3 h4
    subst h3
    dsimp only
    rw [ddTurnOn_input acc a s.flat h]
    show (∀ t, _ → withInput _ (ddTurnOn acc a ⟨s.stdin.left.take a.payloadSize.toNat, s.count, s.out⟩) = _) ∧
      (∀ t e, _ → ∃ u, withInput _ (ddTurnOn acc a ⟨s.stdin.left.take a.payloadSize.toNat, s.count, s.out⟩) = _ ∧ _)
    cases ddTurnOn acc a ⟨s.stdin.left.take a.payloadSize.toNat, s.count, s.out⟩ with
    | inl t =>
      refine ⟨fun t' h' => ?_, fun t' e h' => (by cases h')⟩
      cases h'
      show Sum.inl _ = Sum.inl (DdStateOn.mk _ _ _)
      unfold DdStateIn.flat
      rw [h4]
    | inr r =>
      obtain ⟨t, e⟩ := r
      refine ⟨fun t' h' => (by cases h'), fun t' e' h' => ?_⟩
      cases h'
      exact ⟨_, rfl, rfl⟩
  · have h3 := h2 (by omega)
    rcases hr : s.stdin.readExact a.payloadSize.toNat with ⟨x, stdin⟩
    rw [hr] at h3
    dsimp only at h3
    subst h3
    refine ⟨fun t h' => (by cases h'), fun t e h' => ?_⟩
    cases h'
    refine ⟨s.flat, ?_, rfl⟩
    unfold ddTurnOn
    dsimp only
    rw [if_pos (show s.flat.input.length < _ from Nat.lt_of_not_le h)]
    rfl

theorem ddTurnsIn_sim (acc : Outlet) (a : DdArgs) : ∀ (k : Nat) (s : DdStateIn),
    (∀ t, ddTurnsIn acc a k s = .inl t → ddTurnsOn acc a k s.flat = .inl t.flat) ∧
    (∀ t e, ddTurnsIn acc a k s = .inr (t, e) → ∃ u, ddTurnsOn acc a k s.flat = .inr (u, e) ∧ u.out = t.out)
  | 0, s => ⟨fun t h => (by cases h; rfl), fun t e h => (by cases h)⟩
  | k + 1, s => by
    obtain ⟨h1, h2⟩ := ddTurnIn_sim acc a s
    unfold ddTurnsIn ddTurnsOn
    cases ht : ddTurnIn acc a s with
    | inl t =>
      rw [h1 t ht]
      exact ddTurnsIn_sim acc a k t
    | inr r =>
      obtain ⟨t, e⟩ := r
      obtain ⟨u, h3, h4⟩ := h2 t e ht
      rw [h3]
      refine ⟨fun t' h' => (by cases h'), fun t' e' h' => ?_⟩
      cases h'
      exact ⟨u, rfl, h4⟩

/-- `dd_dlt` sees of standard input only the bytes in front of the end or an error. -/
theorem ddMainIn_iff (acc : Outlet) (bd : Build) (addr : Ctor → UInt8) (args : List Bytes) (events : List ReadEvent) (out : Bytes) (e : DdEndOn) :
    DdMainIn acc bd addr args events out e ↔ DdMainOn acc bd addr args (delivered events) out e := by
  match args with
  | [] => exact Iff.rfl
  | [_] => exact Iff.rfl
  | [_, _] => exact Iff.rfl
  | ecuid :: appid :: size :: rest =>
    unfold DdMainIn DdMainOn
    dsimp only
    cases parseU16 size with
    | none => exact Iff.rfl
    | some n =>
      dsimp only
      have hs := ddTurnsIn_sim acc ⟨bd, addr, ecuid, appid, UInt16.ofNat n⟩
      have hf : DdStateIn.flat ⟨⟨[], events⟩, 0, .empty⟩ = ⟨delivered events, 0, .empty⟩ := rfl
      constructor
      · rintro ⟨k, s, h1, rfl⟩
        obtain ⟨u, h2, h3⟩ := (hs k _).2 s e h1
        rw [hf] at h2
        exact ⟨k, u, h2, by rw [h3]⟩
      · rintro ⟨k, u, h1, rfl⟩
        cases ht : ddTurnsIn acc ⟨bd, addr, ecuid, appid, UInt16.ofNat n⟩ k ⟨⟨[], events⟩, 0, .empty⟩ with
        | inl t =>
          have := (hs k _).1 t ht
          rw [hf, h1] at this
          cases this
        | inr r =>
          obtain ⟨t, e'⟩ := r
          obtain ⟨u', h2, h3⟩ := (hs k _).2 t e' ht
          rw [hf, h1] at h2
          cases h2
          exact ⟨k, t, ht, by rw [h3]⟩

end Verif
