import Verif.Spec.Alike
import Verif.Spec.Main

/-! # What the commands look at -/

namespace Verif.Spec

open Verif

/-- The message type as reported, if the message holds the extended header. -/
def infoOf (e : StorageEntry) : Option (Bool × Option MsgType) :=
  if optLen e.dlt + 10 ≤ e.dlt.tail.length then some (MessageType.info ⟨infoByte e⟩) else none

/-- Two messages are the same as far as a command that works on the messages of the file is concerned. -/
def SameFor : Cmd → StorageEntry → StorageEntry → Prop
  | .count, _, _ => True
  | .histogramMessageSize, e, e' => (encode e).length = (encode e').length
  | .histogramTimestamp, e, e' => secsOf e = secsOf e'
  | .splitTimestamp, e, e' => secsOf e = secsOf e' ∧ e.storageHeader.ecu = e'.storageHeader.ecu
  | .iter, e, e' | .itertools, e, e' => flag e.dlt 4 = flag e'.dlt 4 ∧ timeOf e = timeOf e'
  | .histogramLifecycles, e, e' => flag e.dlt 4 = flag e'.dlt 4 ∧
      (flag e.dlt 4 = true → timeOf e = timeOf e' ∧ ecuOf e = ecuOf e')
  | .splitLifecycles, e, e' => flag e.dlt 4 = flag e'.dlt 4 ∧
      (flag e.dlt 4 = true → timeOf e = timeOf e' ∧ e.storageHeader.ecu = e'.storageHeader.ecu)
  | .histogramMessageType, e, e' => flag e.dlt 0 = flag e'.dlt 0 ∧ (flag e.dlt 0 = true → infoOf e = infoOf e')
  | .histogramPayloadSize, e, e' =>
      ((flag e.dlt 0 = true ∧ e.dlt.tail.length < optLen e.dlt) ↔
        (flag e'.dlt 0 = true ∧ e'.dlt.tail.length < optLen e'.dlt)) ∧
      ((payloadOf e).getD []).length = ((payloadOf e').getD []).length
  | .countHelloWorld, e, e' => (payloadOf e = none ↔ payloadOf e' = none) ∧ (hasText helloWorld e ↔ hasText helloWorld e')
  | _, _, _ => False

/-- The commands that report on the messages of the file, one by one. The others search the raw bytes or cut the file
into slices. -/
def perMessage : Cmd → Bool
  | .count | .histogramMessageSize | .histogramTimestamp | .splitTimestamp | .iter | .itertools | .histogramLifecycles
  | .splitLifecycles | .histogramMessageType | .histogramPayloadSize | .countHelloWorld => true
  | _ => false

/-- The same but for the payload: same storage header, same header, same optional fields and extended header, a payload
of the same length. -/
def SameButPayload (e e' : StorageEntry) : Prop :=
  e.storageHeader = e'.storageHeader ∧ e.dlt.header = e'.dlt.header ∧ e.dlt.tail.length = e'.dlt.tail.length ∧
  e.dlt.tail.take (preLen e) = e'.dlt.tail.take (preLen e)

/-- Byte `p` of the file belongs to the payload of one of the messages. -/
def InPayload (items : List (Nat × StorageEntry)) (p : Nat) : Prop :=
  ∃ x ∈ items, x.1 + 20 + preLen x.2 ≤ p ∧ p < x.1 + (encode x.2).length

/-- The commands that report on messages, but not on what their payloads say. -/
def blindToPayload : Cmd → Bool
  | .count | .histogramMessageSize | .histogramTimestamp | .splitTimestamp | .iter | .itertools | .histogramLifecycles
  | .splitLifecycles | .histogramMessageType | .histogramPayloadSize => true
  | _ => false

end Verif.Spec
