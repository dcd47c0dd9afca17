import Verif.Model.Hello

/-!
# Model of the pattern language (`Regex::new(pattern)`, matchit/src/searchable/grepit.rs:24, 93)

The patterns of `regex::bytes` after parsing, and what the crate documents about their matches: leftmost-first, that is
alternatives in the order written, greedy repetitions longest first, lazy ones shortest first. Simplifications: the
concrete syntax and its errors are not modelled (a pattern that does not parse makes `new` panic); counted repetitions are
written out (`a{2,3}` is `seq a (seq a (opt a))`); of the capture groups only group 1 is kept, the one
`RegExMatcherIterator` looks at; a repetition makes another turn only if the turn before matched something, so repetitions of bodies that
match the empty string are outside of what is claimed for the crate.
-/

namespace Verif

/-- A parsed pattern. -/
inductive Pat where
  /-- the empty pattern -/
  | empty
  /-- one byte of a class, as in `(?-u:[\x00-\x1f])`; a literal byte -/
  | byte (q : UInt8 → Bool)
  /-- one Unicode scalar value of a class, given by its UTF-8 encoding, as in `[äöü]` or `.` -/
  | char (q : Bytes → Bool)
  /-- an assertion about the position, as `^`, `$`, `\b` -/
  | look (q : Bytes → Nat → Bool)
  /-- one after the other -/
  | seq (a b : Pat)
  /-- `a|b` -/
  | alt (a b : Pat)
  /-- `a*` (greedy) or `a*?` -/
  | star (greedy : Bool) (a : Pat)
  /-- a group, captured under its number: `(a)` -/
  | group (n : Nat) (a : Pat)

namespace Pat

/-- A position and the range of group 1. -/
abbrev St : Type := Nat × Option (Nat × Nat)

/-- The ways to repeat `step`, in order of preference. Each turn gets further, so `fuel` bytes allow `fuel` turns. -/
def repeatRuns (greedy : Bool) (step : St → List St) : Nat → St → List St
  | 0, st => [st]
  | fuel + 1, st =>
    let more := ((step st).filter fun x => decide (st.1 < x.1)).flatMap (repeatRuns greedy step fuel)
    if greedy then more ++ [st] else st :: more

/-- The ways a pattern can match from a position on, in order of preference. -/
def runs (bs : Bytes) : Pat → St → List St
  | empty, st => [st]
  | byte q, st => match bs[st.1]? with
    | some b => if q b then [(st.1 + 1, st.2)] else []
    | none => []
  | char q, st => match scalarLen (bs.drop st.1) with
    | some k => if q ((bs.drop st.1).take k) then [(st.1 + k, st.2)] else []
    | none => []
  | look q, st => if q bs st.1 then [st] else []
  | seq a b, st => (runs bs a st).flatMap (runs bs b)
  | alt a b, st => runs bs a st ++ runs bs b st
  | star greedy a, st => repeatRuns greedy (runs bs a) (bs.length - st.1) st
  | group n a, st => (runs bs a st).map fun x => (x.1, if n = 1 then some (st.1, x.1) else x.2)

/-- Everything a way to match can do: it goes forward inside the haystack, group 1 lies in what has been matched. -/
def Forward (len lo : Nat) (st st' : St) : Prop :=
  st.1 ≤ st'.1 ∧ st'.1 ≤ len ∧
    ((∀ a b, st.2 = some (a, b) → lo ≤ a ∧ a ≤ b ∧ b ≤ st.1) → ∀ a b, st'.2 = some (a, b) → lo ≤ a ∧ a ≤ b ∧ b ≤ st'.1)

theorem Forward.trans {len lo : Nat} {x y z : St} (h1 : Forward len lo x y) (h2 : Forward len lo y z) : Forward len lo x z :=
  ⟨by have := h1.1; have := h2.1; omega, h2.2.1, fun h => h2.2.2 (h1.2.2 h)⟩

theorem Forward.refl {len lo : Nat} {x : St} (h : x.1 ≤ len) : Forward len lo x x := ⟨Nat.le_refl _, h, id⟩

theorem repeatRuns_forward {len lo : Nat} {greedy : Bool} {step : St → List St}
    (h : ∀ st, lo ≤ st.1 → st.1 ≤ len → ∀ x ∈ step st, Forward len lo st x) :
    ∀ n st, lo ≤ st.1 → st.1 ≤ len → ∀ x ∈ repeatRuns greedy step n st, Forward len lo st x
  | 0, st, h1, h2, x, hx => by
    rw [repeatRuns, List.mem_singleton] at hx
    subst hx
    exact .refl h2
  | n + 1, st, h1, h2, x, hx => by
    have key : x = st ∨ ∃ y ∈ step st, x ∈ repeatRuns greedy step n y := by
      rw [repeatRuns] at hx
      split at hx
      · rw [List.mem_append, List.mem_flatMap, List.mem_singleton] at hx
        rcases hx with ⟨y, hy, hx⟩ | hx
        · exact .inr ⟨y, (List.mem_filter.1 hy).1, hx⟩
        · exact .inl hx
      · rw [List.mem_cons, List.mem_flatMap] at hx
        rcases hx with hx | ⟨y, hy, hx⟩
        · exact .inl hx
        · exact .inr ⟨y, (List.mem_filter.1 hy).1, hx⟩
    rcases key with rfl | ⟨y, hy, hx⟩
    · exact .refl h2
    · have h3 := h st h1 h2 y hy
      exact h3.trans (repeatRuns_forward h n y (by have := h3.1; omega) h3.2.1 x hx)

theorem scalarLen_le {bs : Bytes} {k : Nat} (h : scalarLen bs = some k) : k ≤ bs.length := by
  unfold scalarLen at h
  have h1 := List.find?_some h
  simp only [Bool.and_eq_true, decide_eq_true_eq] at h1
  exact h1.1

theorem runs_forward (bs : Bytes) (lo : Nat) : ∀ (p : Pat) (st : St), lo ≤ st.1 → st.1 ≤ bs.length → ∀ x ∈ runs bs p st,
    Forward bs.length lo st x
  | empty, st, h1, h2, x, hx => by
    rw [runs, List.mem_singleton] at hx; subst hx; exact .refl h2
  | byte q, st, h1, h2, x, hx => by
    rw [runs] at hx
    split at hx
    · next b hb =>
      have hlt := (List.getElem?_eq_some_iff.1 hb).1
      split at hx
      · rw [List.mem_singleton] at hx; subst hx
        refine ⟨by dsimp only; omega, hlt, fun h a b hab => ?_⟩
        have := h a b hab
        dsimp only; omega
      · cases hx
    · cases hx
  | char q, st, h1, h2, x, hx => by
    rw [runs] at hx
    split at hx
    · next k hk =>
      have hle := scalarLen_le hk
      rw [List.length_drop] at hle
      split at hx
      · rw [List.mem_singleton] at hx; subst hx
        refine ⟨by dsimp only; omega, by dsimp only; omega, fun h a b hab => ?_⟩
        have := h a b hab
        dsimp only; omega
      · cases hx
    · cases hx
  | look q, st, h1, h2, x, hx => by
    rw [runs] at hx
    split at hx
    · rw [List.mem_singleton] at hx; subst hx; exact .refl h2
    · cases hx
  | seq a b, st, h1, h2, x, hx => by
    rw [runs, List.mem_flatMap] at hx
    obtain ⟨y, hy, hx⟩ := hx
    have h3 := runs_forward bs lo a st h1 h2 y hy
    exact h3.trans (runs_forward bs lo b y (by have := h3.1; omega) h3.2.1 x hx)
  | alt a b, st, h1, h2, x, hx => by
    rw [runs, List.mem_append] at hx
    rcases hx with hx | hx
    · exact runs_forward bs lo a st h1 h2 x hx
    · exact runs_forward bs lo b st h1 h2 x hx
  | star greedy a, st, h1, h2, x, hx => by
    rw [runs] at hx
    exact repeatRuns_forward (fun st h1 h2 => runs_forward bs lo a st h1 h2) _ st h1 h2 x hx
  | group n a, st, h1, h2, x, hx => by
    rw [runs, List.mem_map] at hx
    obtain ⟨y, hy, rfl⟩ := hx
    have h3 := runs_forward bs lo a st h1 h2 y hy
    refine ⟨h3.1, h3.2.1, fun h a b hab => ?_⟩
    dsimp only at hab ⊢
    split at hab
    · cases hab; exact ⟨h1, h3.1, Nat.le_refl _⟩
    · exact h3.2.2 h a b hab

/-- `Regex::new`: at each position the preferred way to match. -/
def compile (p : Pat) : Regex where
  matchAt bs s := if s ≤ bs.length then (runs bs p (s, none)).head? else none
  law bs s e g h := by
    split at h
    · next hs =>
      have h1 := runs_forward bs s p (s, none) (Nat.le_refl _) hs (e, g) (List.mem_of_head? h)
      exact ⟨h1.1, h1.2.1, fun a b hg => h1.2.2 (fun a b h => by cases h) a b hg⟩
    · cases h

/-- `.`: any Unicode scalar value but a line feed. -/
def dot : Pat := char fun c => decide (c ≠ [10])

/-- `(?s-u:.)`: any byte. -/
def anyByte : Pat := byte fun _ => true

/-- A literal byte. -/
def lit1 (b : UInt8) : Pat := byte fun x => x == b

/-- Literal text (a literal character is the bytes of its encoding). -/
def lit : Bytes → Pat
  | [] => empty
  | b :: rest => seq (lit1 b) (lit rest)

/-- `a+` and `a+?`. -/
def plus (greedy : Bool) (a : Pat) : Pat := seq a (star greedy a)

/-- `a?` and `a??`. -/
def opt (greedy : Bool) (a : Pat) : Pat := if greedy then alt a empty else alt empty a

/-- `^` and `$` without flags: the start and the end of the text; with `(?m)`: of a line. -/
def startText : Pat := look fun _ s => s == 0
def endText : Pat := look fun bs s => s == bs.length
def startLine : Pat := look fun bs s => s == 0 || bs[s - 1]? == some 10
def endLine : Pat := look fun bs s => s == bs.length || bs[s]? == some 10

end Pat

end Verif
