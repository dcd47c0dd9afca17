import Verif.Lemmas.BuildText

/-!
# C119: debug and release builds do the same

A debug build panics on overflow, a release build wraps around. On everything that fits into an address space no addition,
multiplication or subtraction of the code overflows, so there is no difference. The theorems are for any arithmetic that is
right where nothing overflows (`Spec.Exact`).
-/

set_option linter.unusedSimpArgs false

namespace Verif

open Spec

/-! ## The iterators -/

/-- **C119** both builds compute correctly where nothing overflows. -/
theorem C119_builds : Exact .debug ∧ Exact .release := ⟨exact_debug, exact_release⟩

section
variable {A : Arith} (hA : Exact A) {T : Type} {S : SearchableMarker T} {bytes : Bytes}

/-- **C119** the scanning iterators return, and return the same in every build, from every position that leaves room for a
marker below `2^64`. -/
theorem C119_scanning (hA : Exact A) (L : Lawful S) (hF : Fits bytes) (off : Nat) (hoff : off + S.marker.length < 2 ^ 64) :
    readFallbackNextA A S bytes off = some (readFallbackNext S bytes off) ∧
    (S.marker.length < 2 ^ 62 → searchNextA A S bytes off = some (searchNext S bytes off)) :=
  ⟨readFallbackNextA_eq hA.to L.toReads (Room.of_fits hF) off (by unfold usizeMax; omega),
    fun hm => searchNextA_eq hA.to L.toReads (Room.of_fits hF) (by unfold usizeMax; omega) off (by unfold usizeMax; omega)⟩

/-- **C119** so do the iterator of `FromBytesReadable` and the searches for a pattern, from every position. -/
theorem C119_reading (hA : Exact A) (L : Lawful S) (hF : Fits bytes) (re : Regex) (off : Nat) :
    (∀ R : FromBytesReadable T, (∀ bs n v, R.tryRead bs = .ok (some (n, v)) → n ≤ bs.length) →
      readNextA A R bytes off = readNext R bytes off) ∧
    grepNextA A S re bytes off = grepNext S re bytes off ∧ regexNextA A S re bytes off = regexNext S re bytes off :=
  ⟨fun _ hR => readNextA_eq hA.to hR (Room.of_fits hF) off, grepNextA_eq hA.to L (Room.of_fits hF) re off,
    regexNextA_eq hA.to L (Room.of_fits hF) re off⟩

/-- **C119** and so do `contained_by` and `partition`. -/
theorem C119_slicing (hA : Exact A) (L : Lawful S) (hF : Fits bytes) :
    (∀ p0 p1, containedByA A S bytes p0 p1 = containedBy S bytes p0 p1) ∧
    ∀ num, partitionFromA A S bytes num = partitionFrom S bytes num :=
  ⟨containedByA_eq hA.to L (Room.of_fits hF), partitionFromA_eq hA.to L (Room.of_fits hF)⟩

end

/-- **C119** the bound on the position is needed: four bytes below the end of the address space a debug build panics. In a
release build the sum wraps to the front of the file: `dltit` slices out of range (a panic of its own) or says there is
nothing, depending on the length of the file, and `SearchIterator` starts again and reports the first message. -/
theorem C119_far_positions :
    readFallbackNextA .debug dltStorage (packed (four 1 2 3 4)) (2 ^ 64 - 4) = some .panic ∧
    readFallbackNextA .release dltStorage (packed (four 1 2 3 4)) (2 ^ 64 - 4) = some .panic ∧
    readFallbackNextA .debug dltStorage [] (2 ^ 64 - 4) = some .panic ∧
    readFallbackNextA .release dltStorage [] (2 ^ 64 - 4) = some (.ok (none, 2 ^ 64 - 4)) ∧
    searchNextA .debug dltStorage (packed (four 1 2 3 4)) (2 ^ 64 - 4) = some .panic ∧
    searchNextA .release dltStorage (packed (four 1 2 3 4)) (2 ^ 64 - 4) = some (.ok (some (0, secMsg 1), 20)) := by
  have hu : uadd (2 ^ 64 - 4) 4 = .panic := by decide
  have hm : dltStorage.marker.length = 4 := rfl
  have hl := four_len 1 2 3 4
  refine ⟨?_, ?_, ?_, ?_, ?_, ?_⟩
  · rw [readFallbackNextA, show Arith.debug.add (2 ^ 64 - 4) dltStorage.marker.length = .panic from hu]
  · rw [readFallbackNextA, show Arith.release.add (2 ^ 64 - 4) dltStorage.marker.length = .ok 0 from rfl]
    dsimp only
    rw [if_neg (by rw [hl]; decide)]
    have : slice (packed (four 1 2 3 4)) (2 ^ 64 - 4) 0 = .panic := by unfold slice; rw [if_neg (by omega)]
    rw [this]
  · rw [readFallbackNextA, show Arith.debug.add (2 ^ 64 - 4) dltStorage.marker.length = .panic from hu]
  · rw [readFallbackNextA, show Arith.release.add (2 ^ 64 - 4) dltStorage.marker.length = .ok 0 from rfl]
    dsimp only
    rw [if_pos (by decide)]
  · have h1 : searchSearchA .debug dltStorage (packed (four 1 2 3 4)) (2 ^ 64 - 4) = .ok none := by
      unfold searchSearchA; rw [if_pos (by rw [hl]; decide)]
    rw [searchNextA, h1]
    dsimp only
    rw [show Arith.debug.add (2 ^ 64 - 4) dltStorage.marker.length = .panic from hu]
  · have h1 : searchSearchA .release dltStorage (packed (four 1 2 3 4)) (2 ^ 64 - 4) = .ok none := by
      unfold searchSearchA; rw [if_pos (by rw [hl]; decide)]
    rw [searchNextA, h1]
    dsimp only
    rw [show Arith.release.add (2 ^ 64 - 4) dltStorage.marker.length = .ok 0 from rfl]
    dsimp only
    rw [if_neg (by rw [hl]; decide), searchNextA]
    have h2 : searchSearchA .release dltStorage (packed (four 1 2 3 4)) 0 = .ok (some (0, secMsg 1)) := by decide +kernel
    rw [h2]
    rfl

/-! ## `ripdlt` -/

/-- **C119** every command of `ripdlt` prints the same and ends the same way in every build, for every way in which the
threads are scheduled. -/
theorem C119_commands {A : Arith} (hA : Exact A) {bytes : Bytes} (hF : Fits bytes) (num : Nat) (c : Cmd) (out : Bytes × Bool) :
    CmdTextA A num bytes c out ↔ CmdText num bytes c out := by
  refine commands_to hA.to (Room.of_fits hF) (by decide) num c out ?_ ?_
  · intro _ m h e he
    obtain ⟨msgs, hm⟩ := messages_exists hF
    obtain ⟨runs, m', -, h3, h5, -⟩ := C46_timestamp_histogram bytes hF msgs hm
    rw [h] at h3
    cases h3
    obtain ⟨r, -, hr⟩ := List.mem_map.1 (hist_key h5 he)
    have := secSpanOf_lt r
    unfold usizeMax
    omega
  · intro _ m h e he
    by_cases hnum : num = 0
    · unfold ParTimestampHistogram at h
      rw [(C30_partition_panics_iff bytes hF num).2 hnum] at h
      cases h
    · obtain ⟨slices, runss, m', -, h1, -, h4⟩ := C35_par_histogram bytes num hnum hF
      have h5 := (h1 _).1 h
      cases h5
      obtain ⟨r, -, hr⟩ := List.mem_map.1 (hist_key h4 he)
      have := secSpanOf_lt r
      unfold usizeMax
      omega

/-- **C119** a run of `ripdlt` prints the same and ends the same way in every build: for every file that fits into an address
space, every command line and every number of threads. -/
theorem C119_ripdlt (A : Arith) (hA : Exact A) (num : Nat) (f : OsFile) (hf : Faithful f) (hF : Fits f.contents) (prog : String)
    (args : List String) (out : Bytes × Bool) : RipTextA A num f prog args out ↔ RipText num f prog args out := by
  match args with
  | [] => exact Iff.rfl
  | [_] => exact Iff.rfl
  | [_, _] => exact Iff.rfl
  | m :: c :: name :: rest =>
    unfold RipTextA RipText
    dsimp only
    have hfit : ∀ b, (if m = "mmap" then DltBuffer.mmapFile f else if m = "read" then DltBuffer.readFile f else none) = some b →
        Fits b.asSlice := by
      intro b hb
      by_cases h1 : m = "mmap"
      · rw [if_pos h1] at hb
        rw [((C60_mmap_file f b).1 hb).2.2.2]
        exact hF
      · rw [if_neg h1] at hb
        by_cases h2 : m = "read"
        · rw [if_pos h2] at hb
          have h1 := ((C54_read_file_partial f hf).2 b hb).1.length_le
          unfold Fits at hF ⊢
          omega
        · rw [if_neg h2] at hb; cases hb
    cases hb : (if m = "mmap" then DltBuffer.mmapFile f else if m = "read" then DltBuffer.readFile f else none) with
    | none => exact Iff.rfl
    | some b =>
      dsimp only
      cases Cmd.ofString c with
      | none => exact Iff.rfl
      | some k => exact exists_congr fun o => and_congr_left fun _ => C119_commands hA (hfit b hb) num k o

/-- **C119** in particular a release build and a debug build of `ripdlt` do the same. -/
theorem C119_release_is_debug (num : Nat) (f : OsFile) (hf : Faithful f) (hF : Fits f.contents) (prog : String)
    (args : List String) (out : Bytes × Bool) :
    (RipTextA .release num f prog args out ↔ RipTextA .debug num f prog args out) ∧
    (RipTextA .debug num f prog args out ↔ RipText num f prog args out) := by
  have h := C119_ripdlt .debug exact_debug num f hf hF prog args out
  exact ⟨(C119_ripdlt .release exact_release num f hf hF prog args out).trans h.symm, h⟩

/-- The hypotheses are met: a release build counts the four messages of a file. -/
example : CmdTextA .release 2 (packed (four 1 2 3 4)) .count (text "4 messages\n", true) := by
  rw [C119_commands exact_release (four_fits 1 2 3 4)]
  refine ⟨.ok 4, ?_, rfl⟩
  exact pullCount_eq (streams_dlt (four_fits 1 2 3 4) (messages_packed (four_wf 1 2 3 4))) (by decide)

end Verif
