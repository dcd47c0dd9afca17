import Verif.Model.Work
import Verif.Model.Cost
import Verif.Lemmas.Iter

/-! # Work: erasing the counters -/

set_option linter.unusedSimpArgs false

namespace Verif

open Spec

section
variable {T : Type} {S : SearchableMarker T}

theorem uadd_eq {a b e : Nat} (h : uadd a b = .ok e) : e = a + b := by
  unfold uadd at h; split at h <;> cases h; rfl

/-- Unfolding `readFallbackNextW` once, below the `usize` limit. -/
theorem readFallbackNextW_unfold {bytes : Bytes} {off : Nat} (hoff : off + S.marker.length ≤ usizeMax) :
    readFallbackNextW S bytes off =
      if off + S.marker.length ≥ bytes.length then (.ok (none, off), ⟨1, 0, 0⟩)
      else if (bytes.drop off).take S.marker.length = S.marker then
        match S.tryReadValidMarker (bytes.drop off) with
        | .panic => (.panic, ⟨1, S.marker.length, 1⟩)
        | .ok (some (bytesRead, val)) =>
          match uadd off bytesRead with
          | .panic => (.panic, ⟨1, S.marker.length, 1⟩)
          | .ok offset' => (.ok (some (off, val), offset'), ⟨1, S.marker.length, 1⟩)
        | .ok none => (.ok (none, off), ⟨1, S.marker.length, 1⟩)
      else
        match find S.marker (bytes.drop off) with
        | some position =>
          if position = 0 then (.ok (none, off), ⟨1, S.marker.length + findSpan S.marker (bytes.drop off), 0⟩)
          else
            match uadd off position with
            | .panic => (.panic, ⟨1, S.marker.length + findSpan S.marker (bytes.drop off), 0⟩)
            | .ok offset' => ((readFallbackNextW S bytes offset').1,
                Work.plus ⟨1, S.marker.length + findSpan S.marker (bytes.drop off), 0⟩
                  (readFallbackNextW S bytes offset').2)
        | none => (.ok (none, off), ⟨1, S.marker.length + findSpan S.marker (bytes.drop off), 0⟩) := by
  rw [readFallbackNextW]
  split
  · next h => rw [uadd_ok hoff] at h; cases h
  · next e h =>
    rw [uadd_ok hoff] at h
    cases h
    by_cases hge : off + S.marker.length ≥ bytes.length
    · rw [dif_pos hge, if_pos hge]; rfl
    · rw [dif_neg hge, if_neg hge]
      simp only [slice_eq_marker (bs := bytes) (a := off) (m := S.marker) (by omega),
        sliceFrom_ok (show off ≤ bytes.length by omega), searchMarker, Work.zero, Work.frame, Work.scan, Work.read,
        Nat.zero_add]
      split
      · rfl
      · cases find S.marker (bytes.drop off) with
        | none => rfl
        | some p =>
          by_cases hp : p = 0
          · simp only [hp, dif_pos, if_true]
          · simp only [hp, dif_neg, not_false_iff, if_false]
            split
            · next h => rw [h]
            · next h => rw [h]

/-- Without the counters `readFallbackNextW` is `readFallbackNext`. -/
theorem readFallbackNextW_erase (bytes : Bytes) (off : Nat) :
    (readFallbackNextW S bytes off).1 = readFallbackNext S bytes off := by
  generalize hk : bytes.length - off = k
  induction k using Nat.strongRecOn generalizing off with
  | ind k ih =>
    by_cases hoff : off + S.marker.length ≤ usizeMax
    · rw [readFallbackNextW_unfold hoff, readFallbackNext_unfold hoff]
      by_cases hge : off + S.marker.length ≥ bytes.length
      · rw [if_pos hge, if_pos hge]
      · rw [if_neg hge, if_neg hge]
        by_cases hs : (bytes.drop off).take S.marker.length = S.marker
        · rw [if_pos hs, if_pos hs]
          rcases S.tryReadValidMarker (bytes.drop off) with o | _
          · rcases o with _ | ⟨n, v⟩
            · rfl
            · dsimp only
              cases uadd off n <;> rfl
          · rfl
        · rw [if_neg hs, if_neg hs]
          cases find S.marker (bytes.drop off) with
          | none => rfl
          | some p =>
            dsimp only
            by_cases hp : p = 0
            · rw [if_pos hp, if_pos hp]
            · rw [if_neg hp, if_neg hp]
              rcases hu : uadd off p with o' | _
              · have := uadd_eq hu
                exact ih (bytes.length - o') (by omega) o' rfl
              · rfl
    · have hu : uadd off S.marker.length = .panic := by unfold uadd; rw [if_neg hoff]
      rw [readFallbackNextW, readFallbackNext]
      split
      · split
        · rfl
        · next h => rw [hu] at h; cases h
      · next h => rw [hu] at h; cases h

/-- Without the counters `searchSearchW` is `searchSearch`. -/
theorem searchSearchW_erase (bytes : Bytes) (off : Nat) :
    (searchSearchW S bytes off).1 = searchSearch S bytes off := by
  unfold searchSearchW searchSearch
  by_cases h : off ≥ bytes.length
  · rw [if_pos h, if_pos h]
  · rw [if_neg h, if_neg h]
    cases sliceFrom bytes off with
    | panic => rfl
    | ok t =>
      dsimp only
      cases find S.marker t with
      | none => rfl
      | some c =>
        dsimp only
        cases uadd c off with
        | panic => rfl
        | ok c =>
          dsimp only
          cases sliceFrom bytes c with
          | panic => rfl
          | ok t' =>
            dsimp only
            cases S.tryReadValidMarker t' with
            | panic => rfl
            | ok o =>
              cases o with
              | none => rfl
              | some x => rfl

theorem searchNextW_unfold {bytes : Bytes} {off off' : Nat} (h : (searchSearchW S bytes off).1 = .ok none)
    (hu : uadd off S.marker.length = .ok off') :
    searchNextW S bytes off =
      if off' ≥ bytes.length then (.ok (none, off'), (searchSearchW S bytes off).2.frame)
      else ((searchNextW S bytes off').1, (searchSearchW S bytes off).2.frame.plus (searchNextW S bytes off').2) := by
  rw [searchNextW]
  simp only [h]
  split
  · next h' => rw [hu] at h'; cases h'
  · next h' => rw [hu] at h'; cases h'; rfl

/-- Without the counters `searchNextW` is `searchNext`. -/
theorem searchNextW_erase (bytes : Bytes) (off : Nat) :
    (searchNextW S bytes off).1 = searchNext S bytes off := by
  generalize hk : bytes.length - off = k
  induction k using Nat.strongRecOn generalizing off with
  | ind k ih =>
    have he := searchSearchW_erase (S := S) bytes off
    rcases hs : searchSearch S bytes off with o | _
    · rw [hs] at he
      cases o with
      | some x =>
        obtain ⟨i, v⟩ := x
        rw [searchNextW, searchNext]
        simp only [he, hs]
        cases uadd i (S.len v) <;> rfl
      | none =>
        rcases hu : uadd off S.marker.length with o' | _
        · rw [searchNextW_unfold he hu, searchNext_unfold hs hu]
          have := uadd_eq hu
          have := S.marker_pos
          by_cases hge : o' ≥ bytes.length
          · rw [if_pos hge, if_pos hge]
          · rw [if_neg hge, if_neg hge]
            exact ih (bytes.length - o') (by omega) o' rfl
        · rw [searchNextW, searchNext]
          simp only [he, hs]
          split
          · split
            · rfl
            · next h => rw [hu] at h; cases h
          · next h => rw [hu] at h; cases h
    · rw [hs] at he
      rw [searchNextW, searchNext]
      simp only [he, hs]

/-- Without the counters `revSearchW` is `revSearch`. -/
theorem revSearchW_erase (bytes : Bytes) (off : Nat) :
    (revSearchW S bytes off).1 = revSearch S bytes off := by
  unfold revSearchW revSearch
  by_cases h : off > bytes.length ∨ off = usizeMax
  · rw [if_pos h, if_pos h]
  · rw [if_neg h, if_neg h]
    cases sliceTo bytes off with
    | panic => rfl
    | ok t =>
      dsimp only
      cases rfind S.marker t with
      | none => rfl
      | some c =>
        dsimp only
        cases sliceFrom bytes c with
        | panic => rfl
        | ok t' =>
          dsimp only
          cases S.tryReadValidMarker t' with
          | panic => rfl
          | ok o =>
            cases o with
            | none => rfl
            | some x => rfl

/-- Without the counters `revNextW` is `revNext`. -/
theorem revNextW_erase (bytes : Bytes) (off : Nat) :
    (revNextW S bytes off).1 = revNext S bytes off := by
  induction off using Nat.strongRecOn with
  | ind off ih =>
    rw [revNextW, revNext, ← revSearchW_erase]
    dsimp only
    cases (revSearchW S bytes off).1 with
    | panic => rfl
    | ok o =>
      cases o with
      | some x => rfl
      | none =>
        dsimp only
        have := S.marker_pos
        by_cases h : S.marker.length ≤ off
        · rw [dif_pos h, dif_pos h]
          by_cases h2 : off - S.marker.length = usizeMax
          · rw [if_pos h2, if_pos h2]
          · rw [if_neg h2, if_neg h2]
            exact ih _ (by omega)
        · rw [dif_neg h, dif_neg h]

/-- Without the counters `grepStackW` is `grepStack`. -/
theorem grepStackW_erase (re : Regex) (bytes : Bytes) (k off : Nat) :
    (grepStackW S re bytes k off).map (·.1) = grepStack S re bytes k off := by
  induction k generalizing off with
  | zero => rfl
  | succ k ih =>
    rw [grepStackW, grepStack]
    by_cases h : off ≥ bytes.length
    · rw [if_pos h, if_pos h]; rfl
    · rw [if_neg h, if_neg h]
      cases re.findAt bytes off with
      | none => rfl
      | some m =>
        obtain ⟨s, e⟩ := m
        dsimp only
        rw [← revSearchW_erase]
        cases (revSearchW S bytes s).1 with
        | panic => rfl
        | ok o =>
          cases o with
          | none =>
            dsimp only
            by_cases h2 : e ≥ bytes.length
            · rw [if_pos h2, if_pos h2]; rfl
            · rw [if_neg h2, if_neg h2, Option.map_map, ← ih]; rfl
          | some x =>
            obtain ⟨i, v⟩ := x
            dsimp only
            cases uadd i (S.len v) with
            | panic => rfl
            | ok n =>
              dsimp only
              by_cases h2 : i < s ∧ n < e
              · rw [if_pos h2, if_pos h2, Option.map_map, ← ih]; rfl
              · rw [if_neg h2, if_neg h2]; rfl

/-- Without the counters `drainW` is `collectN`. -/
theorem drainW_erase {α : Type} (next : Nat → Res (Option α × Nat) × Work) (fuel off : Nat) :
    (drainW next fuel off).map (·.1) = collectN (fun o => (next o).1) fuel off := by
  induction fuel generalizing off with
  | zero => rfl
  | succ k ih =>
    rw [drainW, collectN]
    rcases (next off).1 with ⟨o, off'⟩ | _
    · cases o with
      | none => rfl
      | some a =>
        dsimp only
        rw [← ih off']
        rcases drainW next k off' with _ | ⟨r, w⟩
        · rfl
        · cases r <;> rfl
    · rfl

end

end Verif
