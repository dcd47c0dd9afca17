/-!
# Primitives shared by all models

Rust-level notions used by every model file: panics, `usize` arithmetic, slice indexing and the
substring search of the `memchr` crate.
-/

namespace Verif

/-- A Rust byte slice `&[u8]`. -/
abbrev Bytes := List UInt8

/-- Outcome of a Rust computation that terminates: a value or a panic.
(A panic path is an explicit error value.) -/
inductive Res (α : Type u) where
  | ok (a : α)
  | panic
  deriving DecidableEq, Repr

namespace Res

/-- Sequencing: a panic aborts. -/
protected def bind {α : Type u} {β : Type v} (x : Res α) (f : α → Res β) : Res β :=
  match x with
  | .ok a => f a
  | .panic => .panic

instance : Monad Res where
  pure := Res.ok
  bind := Res.bind

@[simp] theorem pure_eq {α : Type u} (a : α) : (pure a : Res α) = .ok a := rfl
@[simp] theorem ok_bind {α β : Type u} (a : α) (f : α → Res β) : (Res.ok a >>= f) = f a := rfl
@[simp] theorem panic_bind {α β : Type u} (f : α → Res β) : ((Res.panic : Res α) >>= f) = .panic := rfl
@[simp] theorem ok_map {α β : Type u} (a : α) (f : α → β) : (f <$> Res.ok a) = .ok (f a) := rfl
@[simp] theorem panic_map {α β : Type u} (f : α → β) : (f <$> (Res.panic : Res α)) = .panic := rfl

/-- `Option::unwrap` / `Option::expect`: panics on `None`. -/
def unwrap {α : Type u} : Option α → Res α
  | some a => .ok a
  | none => .panic

end Res

/-- `usize::MAX` on the 64-bit targets the tool is built for. -/
def usizeMax : Nat := 2 ^ 64 - 1

/-- Checked `usize` addition: overflow panics (as in a debug build). -/
def uadd (a b : Nat) : Res Nat :=
  if a + b ≤ usizeMax then .ok (a + b) else .panic

/-- `&bytes[a..]`: panics iff `a > bytes.len()`. -/
def sliceFrom (bs : Bytes) (a : Nat) : Res Bytes :=
  if a ≤ bs.length then .ok (bs.drop a) else .panic

/-- `&bytes[..b]`: panics iff `b > bytes.len()`. -/
def sliceTo (bs : Bytes) (b : Nat) : Res Bytes :=
  if b ≤ bs.length then .ok (bs.take b) else .panic

/-- `&bytes[a..b]`: panics iff `a > b` or `b > bytes.len()`. -/
def slice (bs : Bytes) (a b : Nat) : Res Bytes :=
  if a ≤ b ∧ b ≤ bs.length then .ok ((bs.take b).drop a) else .panic

/-- Checked `u32` subtraction: underflow panics (as in a debug build). -/
def subU32 (a b : UInt32) : Res UInt32 :=
  if b ≤ a then .ok (a - b) else .panic

/-- `memchr::memmem::Finder::new(needle).find(hay)`: index of the leftmost occurrence. -/
def find (needle : Bytes) : Bytes → Option Nat
  | [] => if needle.isPrefixOf [] then some 0 else none
  | b :: bs =>
    if needle.isPrefixOf (b :: bs) then some 0
    else (find needle bs).map (· + 1)

/-- `memchr::memmem::FinderRev::new(needle).rfind(hay)`: index of the rightmost occurrence. -/
def rfind (needle : Bytes) : Bytes → Option Nat
  | [] => if needle.isPrefixOf [] then some 0 else none
  | b :: bs =>
    match rfind needle bs with
    | some i => some (i + 1)
    | none => if needle.isPrefixOf (b :: bs) then some 0 else none

/-- Worker of `findIter`: `skip` bytes are still covered by the previous match, `pos` is the
absolute index of the head of the remaining haystack. -/
def findIterAux (needle : Bytes) : (skip pos : Nat) → Bytes → List Nat
  | 0, pos, [] => if needle.isPrefixOf [] then [pos] else []
  | _ + 1, _, [] => []
  | 0, pos, b :: bs =>
    if needle.isPrefixOf (b :: bs) then pos :: findIterAux needle (needle.length - 1) (pos + 1) bs
    else findIterAux needle 0 (pos + 1) bs
  | skip + 1, pos, _ :: bs => findIterAux needle skip (pos + 1) bs

/-- `memchr::memmem::Finder::new(needle).find_iter(hay)`: indices of the successive leftmost
non-overlapping occurrences (after a match at `i` the search resumes at
`i + max(1, needle.len())`). -/
def findIter (needle hay : Bytes) : List Nat := findIterAux needle 0 0 hay

end Verif
