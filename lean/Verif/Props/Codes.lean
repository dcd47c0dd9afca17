import Verif.Props.Header

/-! # C75: the type info codes -/

namespace Verif

open Spec

/-- **C75** converting a number to a log level, trace kind, network kind or control kind gives the kind that has this
number in the standard's table, and nothing else. -/
theorem C75_from_code (n : UInt8) :
    (∀ i, LogInfo.fromU8 n = some i ↔ msgTypeOfCodes 0 n.toNat = some (.log i)) ∧
    (∀ i, TraceInfo.fromU8 n = some i ↔ msgTypeOfCodes 1 n.toNat = some (.appTrace i)) ∧
    (∀ i, NwInfo.fromU8 n = some i ↔ msgTypeOfCodes 2 n.toNat = some (.nwTrace i)) ∧
    (∀ i, CtrlInfo.fromU8 n = some i ↔ msgTypeOfCodes 3 n.toNat = some (.control i)) := by
  have key : ∀ n : Fin 256,
      (LogInfo.fromU8 (UInt8.ofNat n)).map MsgType.log = msgTypeOfCodes 0 (UInt8.ofNat n).toNat ∧
      (TraceInfo.fromU8 (UInt8.ofNat n)).map MsgType.appTrace = msgTypeOfCodes 1 (UInt8.ofNat n).toNat ∧
      (NwInfo.fromU8 (UInt8.ofNat n)).map MsgType.nwTrace = msgTypeOfCodes 2 (UInt8.ofNat n).toNat ∧
      (CtrlInfo.fromU8 (UInt8.ofNat n)).map MsgType.control = msgTypeOfCodes 3 (UInt8.ofNat n).toNat := by
    decide +kernel
  obtain ⟨h1, h2, h3, h4⟩ := forall_u8 (P := fun n =>
      (LogInfo.fromU8 n).map MsgType.log = msgTypeOfCodes 0 n.toNat ∧
      (TraceInfo.fromU8 n).map MsgType.appTrace = msgTypeOfCodes 1 n.toNat ∧
      (NwInfo.fromU8 n).map MsgType.nwTrace = msgTypeOfCodes 2 n.toNat ∧
      (CtrlInfo.fromU8 n).map MsgType.control = msgTypeOfCodes 3 n.toNat) key n
  refine ⟨fun i => ?_, fun i => ?_, fun i => ?_, fun i => ?_⟩
  · rw [← h1]; cases LogInfo.fromU8 n <;> simp
  · rw [← h2]; cases TraceInfo.fromU8 n <;> simp
  · rw [← h3]; cases NwInfo.fromU8 n <;> simp
  · rw [← h4]; cases CtrlInfo.fromU8 n <;> simp

/-- **C75** casting a kind to a number gives its number in the standard's table, and converting that number back gives the
kind. -/
theorem C75_to_code :
    (∀ i : LogInfo, i.toU8.toNat = (codes (.log i)).2 ∧ LogInfo.fromU8 i.toU8 = some i) ∧
    (∀ i : TraceInfo, i.toU8.toNat = (codes (.appTrace i)).2 ∧ TraceInfo.fromU8 i.toU8 = some i) ∧
    (∀ i : NwInfo, i.toU8.toNat = (codes (.nwTrace i)).2 ∧ NwInfo.fromU8 i.toU8 = some i) ∧
    (∀ i : CtrlInfo, i.toU8.toNat = (codes (.control i)).2 ∧ CtrlInfo.fromU8 i.toU8 = some i) := by
  refine ⟨fun i => ?_, fun i => ?_, fun i => ?_, fun i => ?_⟩ <;> cases i <;> decide

/-- The two tables of the standard say the same. -/
theorem C75_tables_agree (s i : Nat) (t : MsgType) : msgTypeOfCodes s i = some t ↔ codes t = (s, i) := by
  constructor
  · unfold msgTypeOfCodes
    split <;> intro h <;> cases h <;> rfl
  · intro h
    obtain ⟨rfl, rfl⟩ : (codes t).1 = s ∧ (codes t).2 = i := by rw [h]; exact ⟨rfl, rfl⟩
    rcases t with t | t | t | t <;> cases t <;> rfl

example : LogInfo.fromU8 6 = some .verbose ∧ LogInfo.fromU8 7 = none ∧ CtrlInfo.fromU8 2 = some .response := by decide

end Verif
