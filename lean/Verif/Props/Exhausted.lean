import Verif.Props.Dltit
import Verif.Model.Build
import Verif.Props.Search

/-! # C124: the searching iterators after `None` -/

set_option linter.unusedSimpArgs false

namespace Verif

open Spec

variable {T : Type} (S : SearchableMarker T)

theorem searchSearch_behind {bytes : Bytes} {off : Nat} (h : bytes.length ≤ off) : searchSearch S bytes off = .ok none := by
  unfold searchSearch
  rw [if_pos h]

theorem searchNext_behind {bytes : Bytes} {off : Nat} (h : bytes.length ≤ off) :
    searchNext S bytes off =
      if off + S.marker.length ≤ usizeMax then .ok (none, off + S.marker.length) else .panic := by
  by_cases hu : off + S.marker.length ≤ usizeMax
  · rw [if_pos hu, searchNext_unfold (searchSearch_behind S h) (uadd_ok hu), if_pos (by omega)]
  · rw [if_neg hu, searchNext]
    simp only [searchSearch_behind S h]
    split
    · rfl
    · next h' => unfold uadd at h'; rw [if_neg hu] at h'; cases h'

theorem searchNext_none {bytes : Bytes} : ∀ (k off off' : Nat), bytes.length - off = k →
    searchNext S bytes off = .ok (none, off') → bytes.length ≤ off' := by
  intro k
  induction k using Nat.strongRecOn with
  | ind k ih =>
    intro off off' hk h
    rcases hs : searchSearch S bytes off with o | _
    · rcases hu : uadd off S.marker.length with e | _
      · cases o with
        | none =>
          rw [searchNext_unfold hs hu] at h
          have he : e = off + S.marker.length := by
            unfold uadd at hu; split at hu <;> cases hu; rfl
          have hp := S.marker_pos
          split at h
          · cases h; assumption
          · exact ih (bytes.length - e) (by omega) e off' rfl h
        | some x =>
          rw [searchNext] at h
          simp only [hs] at h
          split at h <;> cases h
      · rw [searchNext] at h
        cases o with
        | none =>
          simp only [hs] at h
          split at h
          · cases h
          · next h' => rw [hu] at h'; cases h'
        | some x =>
          simp only [hs] at h
          split at h <;> cases h
    · rw [searchNext] at h
      simp only [hs] at h
      cases h

/-- **C124 (partial)** once `SearchIterator::next` has returned `None`, every further call returns `None`, for every message
type and every slice, as long as the offset, which moves on by the length of the marker with every call, is a `usize`. -/
theorem C124_search_partial (bytes : Bytes) (off off' : Nat) (h : searchNext S bytes off = .ok (none, off')) (n : Nat)
    (hn : off' + n * S.marker.length ≤ usizeMax) :
    nextTimes (searchNext S bytes) n off' = .ok (List.replicate n none) := by
  have hge := searchNext_none S _ _ _ rfl h
  clear h
  induction n generalizing off' with
  | zero => rfl
  | succ n ih =>
    rw [Nat.add_mul, Nat.one_mul] at hn
    rw [nextTimes, searchNext_behind S hge, if_pos (by omega)]
    dsimp only
    rw [ih (off' + S.marker.length) (by omega) (by omega)]
    rfl

/-- **C124 (violated)** when the offset is no `usize` any more, a debug build panics. -/
theorem C124_search_panics (bytes : Bytes) (off off' : Nat) (h : searchNext S bytes off = .ok (none, off')) (n : Nat)
    (hle : off' ≤ usizeMax) (hn : usizeMax < off' + n * S.marker.length) :
    nextTimes (searchNext S bytes) n off' = .panic := by
  have hge := searchNext_none S _ _ _ rfl h
  clear h
  induction n generalizing off' with
  | zero => omega
  | succ n ih =>
    rw [Nat.add_mul, Nat.one_mul] at hn
    rw [nextTimes, searchNext_behind S hge]
    by_cases hu : off' + S.marker.length ≤ usizeMax
    · rw [if_pos hu]
      dsimp only
      rw [ih (off' + S.marker.length) hu (by omega) (by omega)]
    · rw [if_neg hu]

/-- **C124 (violated)** and a release build starts again at the front of the slice. -/
theorem C124_release_starts_again (bytes : Bytes) (off : Nat) (hge : bytes.length ≤ off)
    (hlt : off < 2 ^ 64) (hover : 2 ^ 64 ≤ off + S.marker.length) (hfront : off + S.marker.length - 2 ^ 64 < bytes.length) :
    searchNextA .release S bytes off = searchNextA .release S bytes (off + S.marker.length - 2 ^ 64) := by
  rw [searchNextA]
  have h1 : searchSearchA .release S bytes off = .ok none := by
    unfold searchSearchA; rw [if_pos hge]
  rw [h1]
  have h2 : Arith.release.add off S.marker.length = .ok (off + S.marker.length - 2 ^ 64) := by
    have h3 : (off + S.marker.length) % 2 ^ 64 = off + S.marker.length - 2 ^ 64 := by
      rw [Nat.mod_eq_sub_mod hover, Nat.mod_eq_of_lt (by omega)]
    rw [← h3]; rfl
  rw [h2]
  dsimp only
  rw [if_neg (by omega)]

/-- The offset-based iterators whose `next` may not return, as iterators. -/
@[reducible] def pullOfD {α : Type} (next : Nat → Option (Res (Option α × Nat))) : Pull α where
  σ := Nat
  next off :=
    match next off with
    | none => none
    | some .panic => some .panic
    | some (.ok (o, off')) => some (.ok (off', o))

theorem calls_fixed {α : Type} (next : Nat → Option (Res (Option α × Nat))) (off : Nat)
    (h : next off = some (.ok (none, off))) (n : Nat) :
    (pullOfD next).calls n off = some (.ok (List.replicate n none)) := by
  induction n with
  | zero => rfl
  | succ n ih =>
    have h1 : (pullOfD next).next off = some (.ok (off, none)) := by simp only [h]
    rw [Pull.calls, h1]; dsimp only; rw [ih]; rfl

/-- **C124** once `GrepIterator::next` has returned `None`, every further call returns `None`, for every message type, pattern
and slice. -/
theorem C124_grep (re : Regex) (bytes : Bytes) (off off' : Nat)
    (h : grepNext S re bytes off = some (.ok (none, off'))) (n : Nat) :
    (pullOfD (grepNext S re bytes)).calls n off' = some (.ok (List.replicate n none)) := by
  have h1 : off' = off := by
    unfold grepNext at h
    split at h
    · cases h
    · cases h
    · cases h; rfl
    · split at h <;> cases h
  subst h1
  exact calls_fixed _ _ h n

/-- **C124** and so does `RegExMatcherIterator::next` (although `None` may only mean that the group was not part of the
match). -/
theorem C124_captures (re : Regex) (bytes : Bytes) (off off' : Nat)
    (h : regexNext S re bytes off = some (.ok (none, off'))) (n : Nat) :
    (pullOfD (regexNext S re bytes)).calls n off' = some (.ok (List.replicate n none)) := by
  have h1 : off' = off := by
    unfold regexNext at h
    split at h
    · cases h
    · cases h
    · cases h; rfl
    · split at h <;> cases h
  subst h1
  exact calls_fixed _ _ h n

/-- **C124** a case: three more calls behind the end of ten bytes. -/
example : nextTimes (searchNext dltStorage (List.replicate 10 0)) 3 12 = .ok [none, none, none] :=
  C124_search_partial dltStorage (List.replicate 10 0) 0 12 (by decide +kernel) 3 (by decide)

/-- **C124** a case: from the last offset below `2 ^ 64` a release build is at the front again. -/
example : searchNextA .release dltStorage (List.replicate 10 0) (2 ^ 64 - 4) =
    searchNextA .release dltStorage (List.replicate 10 0) 0 :=
  C124_release_starts_again dltStorage (List.replicate 10 0) (2 ^ 64 - 4) (by decide) (by decide) (by decide) (by decide)

end Verif
