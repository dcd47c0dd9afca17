import Verif.Model.Ripdlt

/-!
# Model of the pattern `H.* World` (ripdlt/src/main.rs:122,257)

`regex::bytes` in its default mode: `.` matches the UTF-8 encoding of one Unicode scalar value other than `\n`;
`.*` is greedy: longer repetitions are tried first.
-/

namespace Verif

/-- The length of the Unicode scalar value encoded at the front: the shortest non-empty prefix that is well-formed
UTF-8. -/
def scalarLen (bs : Bytes) : Option Nat := [1, 2, 3, 4].find? fun k => decide (k ≤ bs.length) && utf8Valid (bs.take k)

/-- The lengths `.*` can match at the front, in order of preference (`fuel`: at most that many repetitions). A scalar
value other than `\n` does not contain the byte 10. -/
def dotStar : Nat → Bytes → List Nat
  | 0, _ => [0]
  | fuel + 1, bs =>
    match scalarLen bs with
    | none => [0]
    | some k => if 10 ∈ bs.take k then [0] else (dotStar fuel (bs.drop k)).map (· + k) ++ [0]

/-- `" World"`. -/
def worldText : Bytes := [32, 87, 111, 114, 108, 100]

/-- The match of `H.* World` at the front of a byte string: its length. -/
def helloMatchLen : Bytes → Option Nat
  | 72 :: rest => ((dotStar rest.length rest).find? fun k => decide (worldText <+: rest.drop k)).map fun k => 1 + k + 6
  | _ => none

theorem helloMatchLen_le {bs : Bytes} {n : Nat} (h : helloMatchLen bs = some n) : n ≤ bs.length := by
  unfold helloMatchLen at h
  split at h
  · next rest =>
    rw [Option.map_eq_some_iff] at h
    obtain ⟨k, h1, h2⟩ := h
    have := List.find?_some h1
    have h3 : worldText <+: rest.drop k := by simpa using this
    have h4 := h3.length_le
    rw [List.length_drop] at h4
    have h5 : worldText.length = 6 := rfl
    simp only [List.length_cons]
    omega
  · cases h

/-- `Regex::new("H.* World")`. It has no capture group. -/
def helloRegex : Regex where
  matchAt bs s := (helloMatchLen (bs.drop s)).map fun n => (s + n, none)
  law bs s e g h := by
    rw [Option.map_eq_some_iff] at h
    obtain ⟨n, h1, h2⟩ := h
    have h3 := helloMatchLen_le h1
    rw [List.length_drop] at h3
    have h4 : n ≠ 0 := by
      intro hn
      subst hn
      unfold helloMatchLen at h1
      split at h1
      · rw [Option.map_eq_some_iff] at h1
        obtain ⟨k, -, h1⟩ := h1
        omega
      · cases h1
    cases h2
    exact ⟨by omega, by omega, fun a b h => by cases h⟩

end Verif
