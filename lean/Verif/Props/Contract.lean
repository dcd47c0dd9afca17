import Verif.Props.Anywhere
import Verif.Model.TestStruct

/-! # C110: what the iterators need of a message type -/

set_option linter.unusedSimpArgs false

namespace Verif

open Spec

/-- A type whose marker `1 1` overlaps itself: the marker and one byte the type accepts. -/
def twin (ok : UInt8 → Bool) : SearchableMarker UInt8 where
  marker := [1, 1]
  marker_pos := by decide
  len _ := 3
  maxLen := 3
  tryReadValidMarker bs := .ok (match bs.drop 2 with | [] => none | x :: _ => if ok x then some (3, x) else none)
  tryRead bs := if [1, 1] <+: bs then .ok (match bs.drop 2 with | [] => none | x :: _ => if ok x then some (3, x) else none) else .ok none

theorem twin_reads (ok : UInt8 → Bool) : Reads (twin ok) where
  total bs := ⟨_, rfl⟩
  tryRead_eq bs := rfl
  size bs n v h := by
    have h' : (match bs.drop 2 with | [] => none | x :: _ => if ok x then some (3, x) else none) = some (n, v) := by
      have : (twin ok).tryReadValidMarker bs = .ok (match bs.drop 2 with | [] => none | x :: _ => if ok x then some (3, x) else none) := rfl
      rw [this] at h; injection h
    rcases hd : bs.drop 2 with _ | ⟨x, t⟩
    · rw [hd] at h'; cases h'
    · rw [hd] at h'
      dsimp only at h'
      have hl := congrArg List.length hd
      rw [List.length_drop, List.length_cons] at hl
      by_cases hx : ok x
      · rw [if_pos hx] at h'
        simp only [Option.some.injEq, Prod.mk.injEq] at h'
        obtain ⟨rfl, rfl⟩ := h'
        refine ⟨rfl, ?_, by omega⟩
        show 2 < 3
        omega
      · rw [if_neg hx] at h'; cases h'

/-- **C110 (violated)** if the marker overlaps itself, `SearchIterator` loses values that lie in no other value. -/
theorem C110_search_overlap : ∃ (S : SearchableMarker UInt8) (bytes : Bytes) (i : Nat) (v : UInt8), Reads S ∧ Fits bytes ∧
    ReadableAt S bytes i v ∧ (∀ j w, ReadableAt S bytes j w → j = i) ∧ Collects (searchNext S bytes) 0 [] := by
  refine ⟨twin (· == 2), [1, 1, 1, 2], 1, 2, twin_reads _, by decide, ⟨3, by decide +kernel⟩, ?_, ⟨1, by decide +kernel⟩⟩
  intro j w hj
  have hb := hj.bounds (twin_reads _)
  have hl : (twin (· == 2)).len w = 3 := rfl
  simp only [List.length_cons, List.length_nil, hl] at hb
  obtain ⟨n, hn⟩ := hj
  have : j = 0 ∨ j = 1 := by omega
  rcases this with rfl | rfl
  · exact absurd hn (by
      have : (twin (· == 2)).tryRead [1, 1, 1, 2] = .ok none := by decide +kernel
      rw [List.drop_zero, this]; simp)
  · rfl

/-- **C110 (violated)** and so does `RevSearchIterator`. -/
theorem C110_rev_overlap : ∃ (S : SearchableMarker UInt8) (bytes : Bytes) (i : Nat) (v : UInt8), Reads S ∧ Fits bytes ∧
    ReadableAt S bytes i v ∧ Collects (revNext S bytes) bytes.length [] :=
  ⟨twin (· == 1), [1, 1, 1], 0, 1, twin_reads _, by decide, ⟨3, by decide +kernel⟩, ⟨1, by decide +kernel⟩⟩

/-- **C110 (violated)** and `contained_by`: the byte 3 lies inside the only value, which is not found. -/
theorem C110_contained_by_overlap : ∃ (S : SearchableMarker UInt8) (bytes : Bytes) (i : Nat) (v : UInt8), Reads S ∧ Fits bytes ∧
    ReadableAt S bytes i v ∧ i < 3 ∧ 4 ≤ i + S.len v ∧ containedBy S bytes 3 4 = .ok none := by
  refine ⟨twin (· == 2), [1, 1, 1, 2, 0], 1, 2, twin_reads _, by decide, ⟨3, by decide +kernel⟩, by decide, by decide, ?_⟩
  have hf : (findIter (twin (· == 2)).marker (([1, 1, 1, 2, 0] : Bytes).drop (3 - (twin (· == 2)).maxLen))).map
      (· + (3 - (twin (· == 2)).maxLen)) = [0] := by decide +kernel
  have hr : (twin (· == 2)).tryRead [1, 1, 1, 2, 0] = .ok none := by decide +kernel
  have hs : sliceFrom ([1, 1, 1, 2, 0] : Bytes) 0 = .ok [1, 1, 1, 2, 0] := by decide
  rw [containedBy_unfold, if_neg (by decide), hf, containedByLoop, dif_neg (by decide)]
  simp only [hs, hr]
  rw [containedByLoop]

/-- **C110** the sequential reader needs only that `try_read` does not panic, looks for the marker and reports the length of
the value, which is longer than the marker and lies in the slice: the marker may overlap itself, and what is read may depend
on what follows. -/
theorem C110_reader_partial {T : Type} (S : SearchableMarker T) (L : Reads S) (hm : S.marker.length < 2 ^ 62) (bytes : Bytes)
    (hF : Fits bytes) (items : List (Nat × T)) :
    Collects (readFallbackNext S bytes) 0 items ↔ Scan S bytes 0 items :=
  C85_reader S L hm bytes hF 0 (Nat.zero_le _) items

/-- A file the reader reads although the marker overlaps itself. -/
example : Collects (readFallbackNext (twin (· == 2)) [7, 1, 1, 2, 1, 1, 2, 0]) 0 [(1, 2), (4, 2)] := ⟨3, by decide +kernel⟩

theorem never_ends {α : Type} {next : NextFn α} {off : Nat} {a : α} (h : next off = .ok (some a, off)) (items : List α) :
    ¬ Collects next off items := by
  rintro ⟨f, hf⟩
  induction f generalizing items with
  | zero => cases hf
  | succ f ih =>
    rw [collectN] at hf
    simp only [h] at hf
    rcases hc : collectN next f off with _ | r
    · rw [hc] at hf; cases hf
    · cases r with
      | panic => rw [hc] at hf; cases hf
      | ok as => exact ih as hc

/-- **C110** a type that reports size zero makes the sequential reader and `ReadIterator` yield the same value for ever. -/
theorem C110_size_zero_never_ends {T : Type} (S : SearchableMarker T) (bytes : Bytes) (hF : Fits bytes) (o : Nat) (v : T)
    (ho : o + S.marker.length < bytes.length) (hmark : MarkerAt S bytes o)
    (h : S.tryReadValidMarker (bytes.drop o) = .ok (some (0, v))) (h' : S.tryRead (bytes.drop o) = .ok (some (0, v)))
    (items : List (Nat × T)) :
    ¬ Collects (readFallbackNext S bytes) o items ∧ ¬ Collects (readNext S.toFromBytesReadable bytes) o items := by
  have hF' := fits_le hF
  constructor
  · refine never_ends (a := (o, v)) ?_ items
    rw [readFallbackNext_unfold (by unfold usizeMax; omega), if_neg (by omega),
      if_pos (take_eq_iff_prefix.2 hmark), h]
    dsimp only
    rw [uadd_ok (by unfold usizeMax; omega)]
    rfl
  · refine never_ends (a := (o, v)) ?_ items
    unfold readNext
    rw [if_neg (by omega), sliceFrom_ok (by omega)]
    dsimp only
    rw [h']
    dsimp only
    rw [uadd_ok (by unfold usizeMax; omega)]
    rfl

/-- **C110** the repository's own test type does not keep the contract: its `try_read` panics on slices shorter than the
marker, and so does `ReadIterator`. -/
theorem C110_test_type_panics (bytes : Bytes) (h0 : bytes ≠ []) (h4 : bytes.length < 4) :
    readNext TestStruct.searchable.toFromBytesReadable bytes 0 = .panic := by
  have hp : 0 < bytes.length := List.length_pos_iff.2 h0
  unfold readNext
  rw [if_neg (by omega), sliceFrom_ok (by omega)]
  dsimp only
  have : TestStruct.searchable.tryRead (bytes.drop 0) = .panic := by
    show (match slice (bytes.drop 0) 0 4 with | .panic => Res.panic | .ok s => _) = _
    have : slice (bytes.drop 0) 0 4 = .panic := by unfold slice; rw [List.drop_zero, if_neg (by omega)]
    rw [this]
  rw [this]

end Verif
