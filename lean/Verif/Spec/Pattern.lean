import Verif.Model.Pattern
import Verif.Spec.Stats

/-! # What patterns match, without an order of preference -/

namespace Verif.Spec

/-- One Unicode scalar value in UTF-8: well-formed text that is not two pieces of text. -/
def Scalar (c : Bytes) : Prop := Utf8 c ∧ c ≠ [] ∧ ∀ x y, c = x ++ y → Utf8 x → Utf8 y → x = [] ∨ y = []

/-- The language of a pattern without assertions: the texts it matches. -/
inductive Text : Pat → Bytes → Prop where
  | empty : Text .empty []
  | byte {q : UInt8 → Bool} {b : UInt8} : q b = true → Text (.byte q) [b]
  | char {q : Bytes → Bool} {c : Bytes} : Scalar c → q c = true → Text (.char q) c
  | seq {a b : Pat} {x y : Bytes} : Text a x → Text b y → Text (.seq a b) (x ++ y)
  | left {a b : Pat} {x : Bytes} : Text a x → Text (.alt a b) x
  | right {a b : Pat} {x : Bytes} : Text b x → Text (.alt a b) x
  | stop {g : Bool} {a : Pat} : Text (.star g a) []
  | more {g : Bool} {a : Pat} {x y : Bytes} : Text a x → Text (.star g a) y → Text (.star g a) (x ++ y)
  | group {n : Nat} {a : Pat} {x : Bytes} : Text a x → Text (.group n a) x

/-- The pattern matches the bytes from `s` up to `e` of the haystack (assertions look at the whole haystack). -/
inductive Span (bs : Bytes) : Pat → Nat → Nat → Prop where
  | empty {s : Nat} : Span bs .empty s s
  | byte {q : UInt8 → Bool} {b : UInt8} {s : Nat} : bs[s]? = some b → q b = true → Span bs (.byte q) s (s + 1)
  | char {q : Bytes → Bool} {c : Bytes} {s : Nat} : Scalar c → c <+: bs.drop s → q c = true →
      Span bs (.char q) s (s + c.length)
  | look {q : Bytes → Nat → Bool} {s : Nat} : q bs s = true → Span bs (.look q) s s
  | seq {a b : Pat} {s m e : Nat} : Span bs a s m → Span bs b m e → Span bs (.seq a b) s e
  | left {a b : Pat} {s e : Nat} : Span bs a s e → Span bs (.alt a b) s e
  | right {a b : Pat} {s e : Nat} : Span bs b s e → Span bs (.alt a b) s e
  | stop {g : Bool} {a : Pat} {s : Nat} : Span bs (.star g a) s s
  | more {g : Bool} {a : Pat} {s m e : Nat} : Span bs a s m → Span bs (.star g a) m e → Span bs (.star g a) s e
  | group {n : Nat} {a : Pat} {s e : Nat} : Span bs a s e → Span bs (.group n a) s e

/-- The pattern has no assertions. -/
def LookFree : Pat → Prop
  | .empty | .byte _ | .char _ => True
  | .look _ => False
  | .seq a b | .alt a b => LookFree a ∧ LookFree b
  | .star _ a | .group _ a => LookFree a

/-- The pattern matches the empty text, as far as that can be seen without looking at the assertions. -/
def nullable : Pat → Bool
  | .empty | .look _ | .star _ _ => true
  | .byte _ | .char _ => false
  | .seq a b => nullable a && nullable b
  | .alt a b => nullable a || nullable b
  | .group _ a => nullable a

/-- Every match has the group 1: each way through the pattern passes a group with that number. -/
def hasGroup : Pat → Bool
  | .empty | .byte _ | .char _ | .look _ | .star _ _ => false
  | .seq a b => hasGroup a || hasGroup b
  | .alt a b => hasGroup a && hasGroup b
  | .group n a => n == 1 || hasGroup a

/-- The patterns in the groups with number 1. -/
def groupBodies : Pat → List Pat
  | .empty | .byte _ | .char _ | .look _ => []
  | .seq a b | .alt a b => groupBodies a ++ groupBodies b
  | .star _ a => groupBodies a
  | .group n a => (if n = 1 then [a] else []) ++ groupBodies a

end Verif.Spec
