import Verif.Lemmas.RefuseRip

/-! # C107: `ripdlt` on an output that takes only part of what is written, or refuses it -/

set_option linter.unusedSimpArgs false

namespace Verif

open Spec

/-! ## Every text consists of complete lines -/

/-- Nothing, or complete lines. -/
def Lines (s : Bytes) : Prop := s = [] ∨ EndsLine s

theorem lines_append {a b : Bytes} (ha : Lines a) (hb : Lines b) : Lines (a ++ b) := by
  rcases hb with rfl | hb
  · rwa [List.append_nil]
  · refine .inr ?_
    unfold EndsLine at *
    rwa [getLast?_append_ne (by rintro rfl; cases hb)]

theorem lines_nl (a : Bytes) : Lines (a ++ [10]) := .inr (by unfold EndsLine; simp)

instance (s : Bytes) : Decidable (EndsLine s) := by unfold EndsLine; infer_instance

theorem lines_end (a : Bytes) {b : Bytes} (h : EndsLine b) : Lines (a ++ b) := by
  refine .inr ?_
  unfold EndsLine at *
  rwa [getLast?_append_ne (by rintro rfl; cases h)]

theorem ends_text (s t : String) (h : EndsLine (text t)) : EndsLine (text (s ++ t)) := by
  rw [text_append]
  rcases lines_end (text s) h with h1 | h1
  · rw [(List.append_eq_nil_iff.1 h1).2] at h
    cases h
  · exact h1

/-- A text with a literal end. -/
theorem lines_text (s t : String) (h : EndsLine (text t)) : Lines (text (s ++ t)) := by
  rw [text_append]
  exact lines_end _ h

theorem lines_flatten : ∀ {ls : List Bytes}, (∀ l ∈ ls, Lines l) → Lines ls.flatten
  | [], _ => .inl rfl
  | l :: ls, h => by
    rw [List.flatten_cons]
    exact lines_append (h l (List.mem_cons_self)) (lines_flatten fun x hx => h x (List.mem_cons_of_mem _ hx))

theorem lines_loop {α : Type} {line : α → Res Bytes} (h : ∀ x l, line x = .ok l → Lines l) : ∀ xs, Lines (printLoop line xs).1
  | [] => .inl rfl
  | x :: xs => by
    unfold printLoop
    cases hl : line x with
    | panic => exact .inl rfl
    | ok l => exact lines_append (h x l hl) (lines_loop h xs)

theorem lines_around {α : Type} {head : Bytes} {q : Res α} {body : α → Bytes × Bool} (hh : Lines head) (hb : ∀ a, Lines (body a).1) :
    Lines (around head q body).1 := by
  unfold around
  cases q with
  | panic => exact hh
  | ok a => exact lines_append hh (hb a)

theorem lines_bucket (x : Nat × Nat) (l : Bytes) (h : bucketLine x = .ok l) : Lines l := by
  unfold bucketLine at h
  cases hu : uadd x.1 1 with
  | panic => rw [hu] at h; cases h
  | ok k =>
    rw [hu] at h
    injection h with h
    subst h
    exact lines_text _ _ (by decide +kernel)

theorem lines_ecu (x : B4 × (OrdMap UInt32 Nat × Nat)) (l : Bytes) (h : ecuLine x = .ok l) : Lines l := by
  unfold ecuLine at h
  split at h
  · injection h with h
    subst h
    rw [text_append, ← List.append_assoc]
    exact lines_end _ (ends_text _ _ (by decide +kernel))
  · cases h

theorem lines_info (x : (Bool × Option MsgType) × Nat) (l : Bytes) (h : infoLine x = .ok l) : Lines l := by
  unfold infoLine at h
  injection h with h
  subst h
  exact lines_text _ _ (ends_text _ _ (by decide +kernel))

theorem bind_ok_of {α β : Type} {r : Res α} {f : α → Res β} {b : β} (h : r.bind f = .ok b) : ∃ a, f a = .ok b := by
  cases r with
  | panic => cases h
  | ok a => exact ⟨a, h⟩

theorem lines_offset (x : Nat × Nat) (l : Bytes) (h : offsetLine x = .ok l) : Lines l := by
  unfold offsetLine at h
  obtain ⟨a, h⟩ := bind_ok_of h
  obtain ⟨k, h⟩ := bind_ok_of h
  obtain ⟨b, h⟩ := bind_ok_of h
  injection h with h
  subst h
  refine lines_text _ "\n" ?_
  decide +kernel

theorem lines_size (label : String) : ∀ (xs : List (Nat × Nat)) (total : Nat), Lines (sizeLoop label total xs).1
  | [], total => lines_text _ _ (by decide +kernel)
  | (k, v) :: rest, total => by
    unfold sizeLoop
    cases umul k v with
    | panic => exact .inl rfl
    | ok size =>
      dsimp only
      cases uadd total size with
      | panic => exact lines_text _ _ (by decide +kernel)
      | ok total' => exact lines_append (lines_text _ _ (by decide +kernel)) (lines_size label rest total')

theorem lines_number (what : String) (n : Nat) : Lines (numberLine what n).1 := lines_text _ _ (by decide +kernel)

theorem lines_slices (num : Nat) (bytes : Bytes) : Lines (slicesLine num bytes) := by
  unfold slicesLine
  cases partitionRanges dltStorage bytes num with
  | panic => exact .inl rfl
  | ok rs => exact lines_text _ _ (by decide +kernel)

theorem lines_cmd {num : Nat} {bytes : Bytes} {c : Cmd} {out : Bytes × Bool} (h : CmdText num bytes c out) : Lines out.1 := by
  have loop := @lines_loop
  cases c <;> unfold CmdText at h <;> dsimp only at h
  case parIter =>
    obtain ⟨q, slices, lines, _, _, _, h1, h2⟩ := h
    rw [h2]
    refine lines_append (lines_slices _ _) (lines_flatten fun l hl => ?_)
    have key : ∀ x l, iterLine x = some l → Lines l := by
      intro x l hx
      unfold iterLine at hx
      split at hx
      · injection hx with hx
        subst hx
        exact lines_text _ _ (by decide +kernel)
      · cases hx
    unfold ParIterLines at h1
    split at h1
    · obtain ⟨ls, h3, h4⟩ := h1
      have h5 : some l ∈ ls.map some := List.mem_map_of_mem (h4.mem_iff.1 hl)
      rw [← h3, List.mem_map] at h5
      obtain ⟨x, _, hx⟩ := h5
      exact key x l hx
    · obtain ⟨ls, h3, h4⟩ := h1
      have h5 := h3.subset (h4.mem_iff.1 hl)
      rw [List.mem_filterMap] at h5
      obtain ⟨x, _, hx⟩ := h5
      exact key x l hx
  all_goals
    obtain ⟨q, _, rfl⟩ := h
    refine lines_around ?_ fun a => ?_
    · first
        | exact .inl rfl
        | exact lines_slices _ _
        | exact .inr (by decide +kernel)
        | exact lines_append (.inr (by decide +kernel)) (lines_slices _ _)
    · first
        | exact lines_loop lines_bucket a
        | exact lines_loop lines_ecu a
        | exact lines_loop lines_info a
        | exact lines_loop lines_offset a
        | exact lines_size _ a 0
        | exact lines_number _ a

theorem lines_rip {num : Nat} {f : OsFile} {prog : String} {args : List String} {t : Bytes} {ok : Bool}
    (h : RipText num f prog args (t, ok)) : Lines t := by
  have hecho : ∀ s : String, Lines (text (s ++ "\n")) := fun s => lines_text _ _ (by decide +kernel)
  have usage : ∀ {t : Bytes}, (t, ok) = (text (s!"usage: {prog} <file_access_method> <test_name> <filename.dlt>\n" ++
      "  runs ripdlt tests with different implementations\n"), true) → Lines t := by
    intro t h
    injection h with h
    subst h
    exact lines_text _ _ (by decide +kernel)
  match args with
  | [] => exact usage h
  | [_] => exact usage h
  | [_, _] => exact usage h
  | m :: c :: x :: r =>
    unfold RipText at h
    dsimp only at h
    cases hb : (if m = "mmap" then DltBuffer.mmapFile f else if m = "read" then DltBuffer.readFile f else none) with
    | none =>
      rw [hb] at h
      injection h with h
      subst h
      exact hecho _
    | some b =>
      rw [hb] at h
      dsimp only at h
      cases hc : Cmd.ofString c with
      | none =>
        rw [hc] at h
        injection h with h
        subst h
        exact hecho _
      | some c =>
        rw [hc] at h
        obtain ⟨o, h1, h2⟩ := h
        injection h2 with h2
        subst h2
        exact lines_append (hecho _) (lines_cmd h1)

/-- **C107** whatever the output does, a run of `ripdlt` that does not panic because of it has put out its complete text;
in any case what comes out is the front of this text. -/
theorem C107_complete_or_panic (acc : Outlet) (num : Nat) (f : OsFile) (prog : String) (args : List String) (text out : Bytes)
    (e : RipEndOn) (h : RipTextOn acc num f prog args text out e) :
    out <+: text ∧ (∀ ok, e = .ended ok → out = text ∧ RipText num f prog args (text, ok)) := by
  obtain ⟨ok, pieces, h1, rfl, rfl, rfl⟩ := h
  obtain ⟨h2, h3⟩ := print_lines acc pieces (lines_rip h1)
  cases hp : (StdoutOn.printAll acc .empty pieces).2 with
  | true =>
    obtain ⟨h4, _⟩ := h2 hp
    rw [h4]
    refine ⟨List.prefix_refl _, fun ok' h5 => ⟨rfl, ?_⟩⟩
    rw [if_pos rfl] at h5
    injection h5 with h5
    subst h5
    exact h1
  | false =>
    obtain ⟨h4, _⟩ := h3 hp
    refine ⟨h4, fun ok' h5 => ?_⟩
    rw [if_neg (by decide)] at h5
    cases h5

/-- **C107** on an output with room for `room` bytes exactly the first `room` bytes of the text come out, and the run
panics because of it exactly if the text is longer. -/
theorem C107_limited (room num : Nat) (f : OsFile) (prog : String) (args : List String) (text out : Bytes)
    (e : RipEndOn) (h : RipTextOn (.upTo room) num f prog args text out e) :
    out = text.take room ∧ (e = .refused ↔ room < text.length) := by
  have hpre := (C107_complete_or_panic _ num f prog args text out e h).1
  obtain ⟨ok, pieces, h1, rfl, rfl, rfl⟩ := h
  obtain ⟨h2, h3⟩ := print_lines (.upTo room) pieces (lines_rip h1)
  have hb := bounded_pieces pieces .empty (L := room) (Nat.zero_le _)
  cases hp : (StdoutOn.printAll (.upTo room) .empty pieces).2 with
  | true =>
    obtain ⟨h4, h5⟩ := h2 hp
    have h6 := hb.1
    rw [h5] at h6
    rw [h4, List.take_of_length_le h6]
    refine ⟨rfl, fun h => ?_, fun h => by omega⟩
    rw [if_pos rfl] at h
    cases h
  | false =>
    obtain ⟨h4, h5⟩ := h3 hp
    have h6 := hb.2 hp
    refine ⟨?_, fun _ => by omega, fun _ => by rw [if_neg (by decide)]⟩
    obtain ⟨c, hc⟩ := upTo_flush (StdoutOn.printAll (.upTo room) .empty pieces).1 (Nat.le_of_eq h6)
    have h7 : (StdoutOn.printAll (.upTo room) .empty pieces).1.output (.upTo room) =
        (StdoutOn.printAll (.upTo room) .empty pieces).1.sink := by
      unfold StdoutOn.output
      rw [hc, h6]
      simp
    rw [h7] at hpre ⊢
    rw [List.prefix_iff_eq_take.1 hpre, h6]

/-- C107: the hypotheses can be met with any text of any run, cut into pieces at will. -/
theorem ripTextOn_exists (acc : Outlet) {num : Nat} {f : OsFile} {prog : String} {args : List String} {text : Bytes} {ok : Bool}
    (h : RipText num f prog args (text, ok)) (pieces : List Bytes) (hp : pieces.flatten = text) :
    ∃ out e, RipTextOn acc num f prog args text out e := ⟨_, _, ok, pieces, h, hp, rfl, rfl⟩

/-- The usage message on an output with room for 9 bytes: the run panics. -/
example (num : Nat) (f : OsFile) : ∃ t, RipTextOn (.upTo 9) num f "ripdlt" [] t (utf8 "usage: ri") .refused := by
  obtain ⟨out, e, h⟩ := ripTextOn_exists (.upTo 9) (num := num) (f := f) (prog := "ripdlt") (args := []) rfl [_]
    (List.append_nil _)
  obtain ⟨h1, h2⟩ := C107_limited 9 num f _ _ _ _ _ h
  have h3 := h2.2 (by decide +kernel)
  subst h3
  have h4 : out = utf8 "usage: ri" := h1.trans (by decide +kernel)
  subst h4
  exact ⟨_, h⟩

end Verif
