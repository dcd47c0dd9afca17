import Verif.Spec.Buffer
import Verif.Spec.Scan

/-! # C54, C55: the file buffers -/

namespace Verif

open Spec

theorem readToEnd_prefix {evs : List ReadEvent} {d : Bytes} (h : Delivers evs d) :
    (readToEnd evs).1 <+: d ∧ ((readToEnd evs).2 = true ↔ ReadEvent.error ∉ evs) ∧
      (ReadEvent.error ∉ evs → (readToEnd evs).1 = d) := by
  induction h with
  | eof => exact ⟨List.prefix_refl _, by simp [readToEnd], fun _ => rfl⟩
  | data b bs _ ih =>
    obtain ⟨h1, h2, h3⟩ := ih
    refine ⟨?_, ?_, ?_⟩
    · exact (List.prefix_cons_inj b).2 ((List.prefix_append_right_inj bs).2 h1)
    · simpa [readToEnd] using h2
    · intro hn
      have := h3 (by simpa using hn)
      simp [readToEnd, this]
  | interrupted _ ih =>
    obtain ⟨h1, h2, h3⟩ := ih
    exact ⟨h1, by simpa [readToEnd] using h2, fun hn => h3 (by simpa using hn)⟩
  | error rest d => exact ⟨List.nil_prefix, by simp [readToEnd], fun h => absurd (List.mem_cons_self ..) h⟩

/-- **C54 (partial)** `read_file` fails exactly if the file cannot be opened; what it returns is a beginning of the
file, and the whole file if no read fails. -/
theorem C54_read_file_partial (f : OsFile) (hf : Faithful f) :
    (DltBuffer.readFile f = none ↔ f.opens = false) ∧
    (∀ b, DltBuffer.readFile f = some b → b.asSlice <+: f.contents ∧
      (ReadEvent.error ∉ f.reads → b.asSlice = f.contents)) := by
  obtain ⟨h1, -, h3⟩ := readToEnd_prefix hf
  unfold DltBuffer.readFile
  cases f.opens
  · exact ⟨⟨fun _ => rfl, fun _ => rfl⟩, fun b hb => by cases hb⟩
  · refine ⟨⟨fun h => (by cases h), fun h => (by cases h)⟩, ?_⟩
    intro b hb
    cases hb
    exact ⟨h1, h3⟩

/-- **C54** an error after any number of bytes is not reported: the file ends there. (So C54 does not hold.) -/
theorem C54_read_error_truncates (pre : List ReadEvent) (delivered missing : Bytes) (rest : List ReadEvent)
    (hpre : Delivers pre delivered) (hno : ReadEvent.error ∉ pre) :
    ∃ f : OsFile, f.reads = pre ++ .error :: rest ∧ f.contents = delivered ++ missing ∧ Faithful f ∧
      ∃ b, DltBuffer.readFile f = some b ∧ b.asSlice = delivered := by
  have key : Delivers (pre ++ .error :: rest) (delivered ++ missing) ∧ (readToEnd (pre ++ .error :: rest)).1 = delivered := by
    induction hpre with
    | eof => exact ⟨.error _ _, rfl⟩
    | data b bs _ ih =>
      obtain ⟨h1, h2⟩ := ih (by simpa using hno)
      constructor
      · have := Delivers.data b bs h1
        simpa using this
      · simp [readToEnd, h2]
    | interrupted _ ih =>
      obtain ⟨h1, h2⟩ := ih (by simpa using hno)
      exact ⟨.interrupted h1, h2⟩
    | error rest d => exact absurd (List.mem_cons_self ..) hno
  exact ⟨⟨true, pre ++ .error :: rest, delivered ++ missing, true⟩, rfl, rfl, key.1, _, rfl, key.2⟩

/-- **C54** a concrete case: a file of three bytes, the second read fails; `read_file` returns one byte and `Ok`. -/
theorem C54_read_file_ok_but_short : ∃ f : OsFile, Faithful f ∧ f.contents = [1, 2, 3] ∧
    DltBuffer.readFile f = some (.read [1]) :=
  ⟨⟨true, [.data 1 [], .error], [1, 2, 3], true⟩, .data 1 [] (.error [] [2, 3]), rfl, rfl⟩

example : Faithful ⟨true, [.data 68 [76], .interrupted, .data 84 [1, 0]], [68, 76, 84, 1, 0], true⟩ :=
  .data 68 [76] (.interrupted (.data 84 [1, 0] .eof))

/-- **C55** the length of a buffer is the length of its slice. -/
theorem C55_len (b : DltBuffer) : b.len = b.asSlice.length := by cases b <;> rfl

/-- **C55** buffers of the two kinds with the same contents cannot be told apart. -/
theorem C55_same_contents (a b : DltBuffer) (h : a.asSlice = b.asSlice) :
    a.len = b.len ∧ ∀ (T : Type) (S : SearchableMarker T) (num : Nat), a.partition S num = b.partition S num := by
  refine ⟨by rw [C55_len, C55_len, h], fun T S num => ?_⟩
  unfold DltBuffer.partition
  rw [h]

/-- **C55** one file, read in both ways without an error, gives buffers that agree in everything. -/
theorem C55_read_and_mmap_agree (f : OsFile) (hf : Faithful f) (hno : ReadEvent.error ∉ f.reads) (a b : DltBuffer)
    (ha : DltBuffer.mmapFile f = some a) (hb : DltBuffer.readFile f = some b) :
    a.asSlice = f.contents ∧ b.asSlice = f.contents ∧ a.len = f.contents.length ∧ b.len = f.contents.length ∧
    ∀ (T : Type) (S : SearchableMarker T) (num : Nat),
      a.partition S num = partitionFrom S f.contents num ∧ b.partition S num = partitionFrom S f.contents num := by
  have h1 := ((C54_read_file_partial f hf).2 b hb).2 hno
  have h2 : a.asSlice = f.contents := by
    unfold DltBuffer.mmapFile at ha
    split at ha
    · split at ha
      · cases ha
      · split at ha
        · cases ha; rfl
        · cases ha
    · cases ha
  refine ⟨h2, h1, by rw [C55_len, h2], by rw [C55_len, h1], fun T S num => ?_⟩
  unfold DltBuffer.partition
  rw [h1, h2]
  exact ⟨rfl, rfl⟩

example : ∃ a b, DltBuffer.mmapFile ⟨true, [.data 68 [76], .data 84 [1, 0]], [68, 76, 84, 1, 0], true⟩ = some a ∧
    DltBuffer.readFile ⟨true, [.data 68 [76], .data 84 [1, 0]], [68, 76, 84, 1, 0], true⟩ = some b ∧ a ≠ b ∧
    a.asSlice = b.asSlice := ⟨_, _, rfl, rfl, by decide, rfl⟩

/-- **C60** `mmap_file` succeeds exactly on non-empty files that can be opened and mapped, with the whole contents. -/
theorem C60_mmap_file (f : OsFile) (b : DltBuffer) : DltBuffer.mmapFile f = some b ↔
    f.opens = true ∧ f.maps = true ∧ f.contents ≠ [] ∧ b = .mmap f.contents := by
  unfold DltBuffer.mmapFile
  cases f.opens <;> cases f.maps <;> cases f.contents <;> simp [eq_comm]

/-- **C60** on an empty file the two constructors differ: `mmap_file` fails, `read_file` gives an empty buffer. -/
theorem C60_empty_file (f : OsFile) (hf : Faithful f) (hopen : f.opens = true) (hempty : f.contents = []) :
    DltBuffer.mmapFile f = none ∧ ∃ b, DltBuffer.readFile f = some b ∧ b.asSlice = [] ∧ b.len = 0 := by
  constructor
  · unfold DltBuffer.mmapFile
    rw [hopen, hempty]
    rfl
  · have h := readToEnd_prefix hf
    rw [hempty] at h
    have h1 : (readToEnd f.reads).1 = [] := List.prefix_nil.1 h.1
    refine ⟨.read [], ?_, rfl, rfl⟩
    unfold DltBuffer.readFile
    rw [hopen]
    show some (DltBuffer.read (readToEnd f.reads).1) = _
    rw [h1]

example : Faithful ⟨true, [.interrupted], [], true⟩ := .interrupted .eof

end Verif
