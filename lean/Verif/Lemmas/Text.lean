import Verif.Model.Print
import Verif.Spec.Text

/-! # Printed text: rendering and unique readability -/

set_option linter.unusedSimpArgs false

namespace Verif
open Spec

theorem text_eq (s : String) : text s = utf8 s := rfl

theorem utf8_append (s t : String) : utf8 (s ++ t) = utf8 s ++ utf8 t := by
  unfold utf8; rw [String.toList_append, List.flatMap_append]

theorem text_append (s t : String) : text (s ++ t) = text s ++ text t := utf8_append s t

theorem utf8_empty : utf8 "" = [] := rfl

/-- The digits of a number. -/
def digits (n : Nat) : Bytes := utf8 (toString n)

theorem utf8_toString (n : Nat) : utf8 (toString n) = digits n := rfl

/-- A decimal digit. -/
def isDigit (b : UInt8) : Prop := 48 ≤ b.toNat ∧ b.toNat ≤ 57

instance (b : UInt8) : Decidable (isDigit b) := by unfold isDigit; infer_instance

theorem encodeChar_ascii {c : Char} (h : c.val.toNat ≤ 127) : String.utf8EncodeChar c = [UInt8.ofNat c.val.toNat] := by
  unfold String.utf8EncodeChar
  simp only
  rw [if_pos h]

theorem char_isDigit {c : Char} (h : c.isDigit = true) : 48 ≤ c.val.toNat ∧ c.val.toNat ≤ 57 := by
  unfold Char.isDigit at h
  simp only [ge_iff_le, Bool.and_eq_true, decide_eq_true_eq, UInt32.le_iff_toNat_le] at h
  exact h

theorem digits_eq (n : Nat) : digits n = (Nat.toDigits 10 n).map fun c => UInt8.ofNat c.val.toNat := by
  unfold digits utf8
  rw [show (toString n).toList = Nat.toDigits 10 n from Nat.toList_repr]
  have h : ∀ l : List Char, (∀ c ∈ l, c.isDigit = true) →
      l.flatMap String.utf8EncodeChar = l.map fun c => UInt8.ofNat c.val.toNat := by
    intro l
    induction l with
    | nil => intro _; rfl
    | cons c l ih =>
      intro hl
      have := char_isDigit (hl c List.mem_cons_self)
      rw [List.flatMap_cons, List.map_cons, encodeChar_ascii (by omega), ih fun d hd => hl d (List.mem_cons_of_mem _ hd)]
      rfl
  exact h _ fun c hc => Nat.isDigit_of_mem_toDigits (by decide) (by decide) hc

theorem digits_isDigit {n : Nat} {b : UInt8} (h : b ∈ digits n) : isDigit b := by
  rw [digits_eq, List.mem_map] at h
  obtain ⟨c, hc, rfl⟩ := h
  have := char_isDigit (Nat.isDigit_of_mem_toDigits (by decide) (by decide) hc)
  unfold isDigit
  rw [UInt8.toNat_ofNat']
  omega

theorem digits_ne_nil (n : Nat) : digits n ≠ [] := by
  rw [digits_eq]
  intro h
  exact Nat.toDigits_ne_nil (List.map_eq_nil_iff.1 h)

theorem digits_inj {n m : Nat} (h : digits n = digits m) : n = m := by
  rw [digits_eq, digits_eq] at h
  have hchars : Nat.toDigits 10 n = Nat.toDigits 10 m := by
    have key : ∀ l l' : List Char, (∀ c ∈ l, c.isDigit = true) → (∀ c ∈ l', c.isDigit = true) →
        (l.map fun c => UInt8.ofNat c.val.toNat) = (l'.map fun c => UInt8.ofNat c.val.toNat) → l = l' := by
      intro l
      induction l with
      | nil =>
        intro l' _ _ h
        cases l' with
        | nil => rfl
        | cons => simp at h
      | cons c l ih =>
        intro l' h1 h2 h
        cases l' with
        | nil => simp at h
        | cons c' l' =>
          rw [List.map_cons, List.map_cons, List.cons.injEq] at h
          have hc := char_isDigit (h1 c List.mem_cons_self)
          have hc' := char_isDigit (h2 c' List.mem_cons_self)
          have he : c = c' := by
            have := congrArg UInt8.toNat h.1
            rw [UInt8.toNat_ofNat', UInt8.toNat_ofNat'] at this
            apply Char.ext
            apply UInt32.toNat_inj.1
            omega
          rw [he, ih l' (fun d hd => h1 d (List.mem_cons_of_mem _ hd)) (fun d hd => h2 d (List.mem_cons_of_mem _ hd)) h.2]
    exact key _ _ (fun c hc => Nat.isDigit_of_mem_toDigits (by decide) (by decide) hc)
      (fun c hc => Nat.isDigit_of_mem_toDigits (by decide) (by decide) hc) h
  rw [← Nat.ofDigitChars_ten_toDigits (n := n), hchars, Nat.ofDigitChars_ten_toDigits]

/-- A run of digits ends at the first other byte. -/
theorem run_unique : ∀ {xs ys s t : Bytes} {c d : UInt8}, (∀ b ∈ xs, isDigit b) → (∀ b ∈ ys, isDigit b) →
    ¬ isDigit c → ¬ isDigit d → xs ++ c :: s = ys ++ d :: t → xs = ys ∧ c :: s = d :: t
  | [], [], _, _, _, _, _, _, _, _, h => ⟨rfl, h⟩
  | [], y :: ys, _, _, _, _, _, hy, hc, _, h => by
    simp only [List.nil_append, List.cons_append, List.cons.injEq] at h
    exact absurd (hy y List.mem_cons_self) (by rw [← h.1]; exact hc)
  | x :: xs, [], _, _, _, _, hx, _, _, hd, h => by
    simp only [List.nil_append, List.cons_append, List.cons.injEq] at h
    exact absurd (hx x List.mem_cons_self) (by rw [h.1]; exact hd)
  | x :: xs, y :: ys, _, _, _, _, hx, hy, hc, hd, h => by
    simp only [List.cons_append, List.cons.injEq] at h
    obtain ⟨h1, h2⟩ := run_unique (fun b hb => hx b (List.mem_cons_of_mem _ hb))
      (fun b hb => hy b (List.mem_cons_of_mem _ hb)) hc hd h.2
    exact ⟨by rw [h.1, h1], h2⟩

theorem digits_read {n m : Nat} {c d : UInt8} {s t : Bytes} (hc : ¬ isDigit c) (hd : ¬ isDigit d)
    (h : digits n ++ c :: s = digits m ++ d :: t) : n = m ∧ c :: s = d :: t := by
  obtain ⟨h1, h2⟩ := run_unique (fun b => digits_isDigit) (fun b => digits_isDigit) hc hd h
  exact ⟨digits_inj h1, h2⟩

/-- `f` is a prefix code: what follows an encoded value does not matter for reading it. -/
def Readable {α : Type} (f : α → Bytes) : Prop :=
  (∀ a, f a ≠ []) ∧ ∀ a b s t, f a ++ s = f b ++ t → a = b ∧ s = t

theorem Readable.flatten {α : Type} {f : α → Bytes} (h : Readable f) : ∀ {xs ys : List α},
    (xs.map f).flatten = (ys.map f).flatten → xs = ys
  | [], [], _ => rfl
  | [], y :: ys, he => by
    simp only [List.map_nil, List.flatten_nil, List.map_cons, List.flatten_cons] at he
    exact absurd (List.append_eq_nil_iff.1 he.symm).1 (h.1 y)
  | x :: xs, [], he => by
    simp only [List.map_nil, List.flatten_nil, List.map_cons, List.flatten_cons] at he
    exact absurd (List.append_eq_nil_iff.1 he).1 (h.1 x)
  | x :: xs, y :: ys, he => by
    simp only [List.map_cons, List.flatten_cons] at he
    obtain ⟨h1, h2⟩ := h.2 _ _ _ _ he
    rw [h1, h.flatten h2]

/-- Lines that start with a digit, followed by something that does not. -/
theorem Readable.flatten_tail {α : Type} {f : α → Bytes} (h : Readable f)
    (hd : ∀ a, ∃ b r, f a = b :: r ∧ isDigit b) {c d : UInt8} {s t : Bytes} (hc : ¬ isDigit c) (hd' : ¬ isDigit d) :
    ∀ {xs ys : List α}, (xs.map f).flatten ++ c :: s = (ys.map f).flatten ++ d :: t → xs = ys ∧ c :: s = d :: t
  | [], [], he => ⟨rfl, he⟩
  | [], y :: ys, he => by
    obtain ⟨b, r, h1, h2⟩ := hd y
    simp only [List.map_nil, List.flatten_nil, List.map_cons, List.flatten_cons, h1, List.nil_append, List.cons_append,
      List.cons.injEq] at he
    rw [he.1] at hc; exact absurd h2 hc
  | x :: xs, [], he => by
    obtain ⟨b, r, h1, h2⟩ := hd x
    simp only [List.map_nil, List.flatten_nil, List.map_cons, List.flatten_cons, h1, List.nil_append, List.cons_append,
      List.cons.injEq] at he
    rw [← he.1] at hd'; exact absurd h2 hd'
  | x :: xs, y :: ys, he => by
    simp only [List.map_cons, List.flatten_cons, List.append_assoc] at he
    obtain ⟨h1, h2⟩ := h.2 _ _ _ _ he
    obtain ⟨h3, h4⟩ := h.flatten_tail hd hc hd' h2
    exact ⟨by rw [h1, h3], h4⟩

theorem digits_cons (n : Nat) : ∃ b r, digits n = b :: r ∧ isDigit b := by
  cases h : digits n with
  | nil => exact absurd h (digits_ne_nil n)
  | cons b r => exact ⟨b, r, rfl, digits_isDigit (n := n) (by rw [h]; exact List.mem_cons_self)⟩

theorem toString_str (s : String) : toString s = s := rfl

/-- The text starts with a byte that is no digit. -/
def noDigit (l : String) : Bool :=
  match utf8 l with
  | [] => false
  | c :: _ => decide (¬ isDigit c)

theorem noDigit_cons {l : String} (h : noDigit l = true) : ∃ c r, utf8 l = c :: r ∧ ¬ isDigit c := by
  unfold noDigit at h
  cases hu : utf8 l with
  | nil => rw [hu] at h; cases h
  | cons c r => rw [hu] at h; exact ⟨c, r, rfl, of_decide_eq_true h⟩

/-- A number is read up to the text behind it. -/
theorem read_num (l : String) (hl : noDigit l = true) {n m : Nat} {s t : Bytes}
    (h : digits n ++ (utf8 l ++ s) = digits m ++ (utf8 l ++ t)) : n = m ∧ s = t := by
  obtain ⟨c, r, hc, hd⟩ := noDigit_cons hl
  rw [hc] at h
  obtain ⟨h1, h2⟩ := digits_read hd hd h
  exact ⟨h1, by simpa using h2⟩

theorem digits_append_ne_nil (n : Nat) (s : Bytes) : digits n ++ s ≠ [] := by
  intro h
  exact digits_ne_nil n (List.append_eq_nil_iff.1 h).1

theorem bucket_text (a b c : Nat) : utf8 s!"{a}-{b} secs: {c}\n" =
    digits a ++ (utf8 "-" ++ (digits b ++ (utf8 " secs: " ++ (digits c ++ utf8 "\n")))) := by
  simp only [utf8_append, toString_str, utf8_toString, List.append_assoc]

theorem size_text (a b c : Nat) : utf8 s!"{a}b: {b}, overall: {c} kB\n" =
    digits a ++ (utf8 "b: " ++ (digits b ++ (utf8 ", overall: " ++ (digits c ++ utf8 " kB\n")))) := by
  simp only [utf8_append, toString_str, utf8_toString, List.append_assoc]

theorem offset_text (a b c : Nat) : utf8 s!"Offset {a}M-{b}M: {c}\n" =
    utf8 "Offset " ++ (digits a ++ (utf8 "M-" ++ (digits b ++ (utf8 "M: " ++ (digits c ++ utf8 "\n"))))) := by
  simp only [utf8_append, toString_str, utf8_toString, List.append_assoc]

theorem bucket_readable : Readable fun l : Nat × Nat × Nat => utf8 s!"{l.1}-{l.2.1} secs: {l.2.2}\n" := by
  refine ⟨fun l => ?_, fun a b s t h => ?_⟩
  · show utf8 _ ≠ []; rw [bucket_text]; exact digits_append_ne_nil _ _
  · simp only [bucket_text, List.append_assoc] at h
    obtain ⟨h1, h⟩ := read_num "-" (by decide) h
    obtain ⟨h2, h⟩ := read_num " secs: " (by decide) h
    obtain ⟨h3, h⟩ := read_num "\n" (by decide) h
    exact ⟨Prod.ext h1 (Prod.ext h2 h3), h⟩

theorem size_readable : Readable fun l : Nat × Nat × Nat => utf8 s!"{l.1}b: {l.2.1}, overall: {l.2.2} kB\n" := by
  refine ⟨fun l => ?_, fun a b s t h => ?_⟩
  · show utf8 _ ≠ []; rw [size_text]; exact digits_append_ne_nil _ _
  · simp only [size_text, List.append_assoc] at h
    obtain ⟨h1, h⟩ := read_num "b: " (by decide) h
    obtain ⟨h2, h⟩ := read_num ", overall: " (by decide) h
    obtain ⟨h3, h⟩ := read_num " kB\n" (by decide) h
    exact ⟨Prod.ext h1 (Prod.ext h2 h3), h⟩

theorem offset_readable : Readable fun l : Nat × Nat × Nat => utf8 s!"Offset {l.1}M-{l.2.1}M: {l.2.2}\n" := by
  refine ⟨fun l => ?_, fun a b s t h => ?_⟩
  · show utf8 _ ≠ []; rw [offset_text]; intro h; exact absurd (List.append_eq_nil_iff.1 h).1 (by decide)
  · simp only [offset_text, List.append_assoc] at h
    replace h := List.append_cancel_left h
    obtain ⟨h1, h⟩ := read_num "M-" (by decide) h
    obtain ⟨h2, h⟩ := read_num "M: " (by decide) h
    obtain ⟨h3, h⟩ := read_num "\n" (by decide) h
    exact ⟨Prod.ext h1 (Prod.ext h2 h3), h⟩

/-! ## Maps -/

/-- The entries of a printed map behind the first, and the closing brace. -/
def mapRest : List (UInt32 × Nat) → Bytes
  | [] => utf8 "}"
  | e :: rest => utf8 ", " ++ (digits e.1.toNat ++ (utf8 ": " ++ (digits e.2 ++ mapRest rest)))

theorem foldl_join (xs : List String) (a : String) : utf8 (xs.foldl (fun r s => r ++ s) a) = utf8 a ++ (xs.map utf8).flatten := by
  induction xs generalizing a with
  | nil => simp
  | cons x xs ih => rw [List.foldl_cons, ih, utf8_append, List.map_cons, List.flatten_cons, List.append_assoc]

theorem mapRest_eq (m : List (UInt32 × Nat)) :
    ((m.map fun e => s!", {e.1.toNat}: {e.2}").map utf8).flatten ++ utf8 "}" = mapRest m := by
  induction m with
  | nil => rfl
  | cons e m ih =>
    rw [List.map_cons, List.map_cons, List.flatten_cons, mapRest, ← ih]
    simp only [utf8_append, toString_str, utf8_toString, List.append_assoc]

theorem mapText_nil : utf8 (mapText []) = utf8 "{}" := rfl

theorem mapText_cons (e : UInt32 × Nat) (m : List (UInt32 × Nat)) :
    utf8 (mapText (e :: m)) = utf8 "{" ++ (digits e.1.toNat ++ (utf8 ": " ++ (digits e.2 ++ mapRest m))) := by
  obtain ⟨k, v⟩ := e
  unfold mapText
  simp only [utf8_append, toString_str, utf8_toString, List.append_assoc, String.join, foldl_join, utf8_empty,
    List.nil_append]
  rw [← mapRest_eq]
  simp only [utf8_append, toString_str, utf8_toString, List.append_assoc]

theorem mapRest_cons (m : List (UInt32 × Nat)) : ∃ c r, mapRest m = c :: r ∧ ¬ isDigit c := by
  cases m with
  | nil => exact ⟨125, [], rfl, by decide⟩
  | cons e m => exact ⟨44, _, rfl, by decide⟩

theorem read_mapRest : ∀ {m m' : List (UInt32 × Nat)} {s t : Bytes}, mapRest m ++ s = mapRest m' ++ t → m = m' ∧ s = t
  | [], [], _, _, h => ⟨rfl, by simpa [mapRest] using h⟩
  | [], e :: m', s, t, h => by
    have : (125 : UInt8) :: s = 44 :: _ := h
    simp at this
  | e :: m, [], s, t, h => by
    have : (44 : UInt8) :: _ = 125 :: t := h
    simp at this
  | e :: m, e' :: m', s, t, h => by
    simp only [mapRest, List.append_assoc] at h
    replace h := List.append_cancel_left h
    obtain ⟨h1, h⟩ := read_num ": " (by decide) h
    obtain ⟨c, r, hc, hd⟩ := mapRest_cons m
    obtain ⟨c', r', hc', hd'⟩ := mapRest_cons m'
    rw [hc, hc', List.cons_append, List.cons_append] at h
    obtain ⟨h2, h⟩ := digits_read hd hd' h
    rw [← List.cons_append, ← List.cons_append, ← hc, ← hc'] at h
    obtain ⟨h3, h4⟩ := read_mapRest h
    exact ⟨by rw [h3, Prod.ext (UInt32.toNat_inj.1 h1) h2], h4⟩

theorem read_map {m m' : List (UInt32 × Nat)} {s t : Bytes} (h : utf8 (mapText m) ++ s = utf8 (mapText m') ++ t) :
    m = m' ∧ s = t := by
  cases m with
  | nil =>
    cases m' with
    | nil => exact ⟨rfl, List.append_cancel_left h⟩
    | cons e m' =>
      rw [mapText_nil, mapText_cons] at h
      obtain ⟨b, r, h1, h2⟩ := digits_cons e.1.toNat
      rw [h1] at h
      have h3 : (123 : UInt8) :: 125 :: s = 123 :: b :: _ := h
      simp only [List.cons.injEq, true_and] at h3
      rw [← h3.1] at h2; exact absurd h2 (by decide)
  | cons e m =>
    cases m' with
    | nil =>
      rw [mapText_nil, mapText_cons] at h
      obtain ⟨b, r, h1, h2⟩ := digits_cons e.1.toNat
      rw [h1] at h
      have h3 : (123 : UInt8) :: b :: _ = 123 :: 125 :: t := h
      simp only [List.cons.injEq, true_and] at h3
      rw [h3.1] at h2; exact absurd h2 (by decide)
    | cons e' m' =>
      rw [mapText_cons, mapText_cons] at h
      have hr : mapRest (e :: m) ++ s = mapRest (e' :: m') ++ t := by
        simp only [List.append_assoc, mapRest] at h ⊢
        rw [List.append_cancel_left h]
      exact read_mapRest hr

/-! ## Message types -/

/-- All message types a histogram can have as keys. -/
def allTypes : List (Bool × Option MsgType) :=
  [true, false].flatMap fun b => (none :: (
    ([.fatal, .error, .warn, .info, .debug, .verbose] : List LogInfo).map (fun i => some (MsgType.log i)) ++
    ([.variable, .functionIn, .functionOut, .state, .vfb] : List TraceInfo).map (fun i => some (MsgType.appTrace i)) ++
    ([.ipc, .can, .flexray, .most, .ethernet, .someip] : List NwInfo).map (fun i => some (MsgType.nwTrace i)) ++
    ([.request, .response] : List CtrlInfo).map (fun i => some (MsgType.control i)))).map fun t => (b, t)

theorem mem_allTypes (k : Bool × Option MsgType) : k ∈ allTypes := by
  obtain ⟨b, t⟩ := k
  cases b <;> rcases t with _ | (i | i | i | i) <;> first | decide | (cases i <;> decide)

/-- Different types are printed differently. -/
theorem types_differ : ∀ a ∈ allTypes, ∀ b ∈ allTypes, utf8 (typeText a) = utf8 (typeText b) → a = b := by decide +kernel

/-- The bytes up to the first colon. -/
def upToColon : Bytes → Bytes
  | [] => []
  | b :: r => if b = 58 then [] else b :: upToColon r

theorem upToColon_type : ∀ a ∈ allTypes, (58 : UInt8) ∉ utf8 (typeText a) := by decide +kernel

theorem upToColon_append {xs s : Bytes} (h : (58 : UInt8) ∉ xs) : upToColon (xs ++ 58 :: s) = xs := by
  induction xs with
  | nil => simp [upToColon]
  | cons x xs ih =>
    rw [List.mem_cons, not_or] at h
    rw [List.cons_append, upToColon, if_neg fun hx => h.1 hx.symm, ih h.2]

theorem read_type {a b : Bool × Option MsgType} {s t : Bytes}
    (h : utf8 (typeText a) ++ 58 :: s = utf8 (typeText b) ++ 58 :: t) : a = b ∧ s = t := by
  have h1 := congrArg upToColon h
  rw [upToColon_append (upToColon_type a (mem_allTypes a)), upToColon_append (upToColon_type b (mem_allTypes b))] at h1
  have h2 := types_differ a (mem_allTypes a) b (mem_allTypes b) h1
  subst h2
  exact ⟨rfl, by simpa using h⟩

theorem info_readable : Readable fun l : (Bool × Option MsgType) × Nat => utf8 s!"{typeText l.1}: {l.2}\n" := by
  have ht : ∀ l : (Bool × Option MsgType) × Nat, utf8 s!"{typeText l.1}: {l.2}\n" =
      utf8 (typeText l.1) ++ 58 :: (utf8 " " ++ (digits l.2 ++ utf8 "\n")) := by
    intro l
    simp only [utf8_append, toString_str, utf8_toString, List.append_assoc]
    rfl
  refine ⟨fun l => ?_, fun a b s t h => ?_⟩
  · show utf8 _ ≠ []; rw [ht]; intro h; exact absurd (List.append_eq_nil_iff.1 h).2 (by simp)
  · simp only [ht, List.append_assoc, List.cons_append] at h
    obtain ⟨h1, h⟩ := read_type h
    replace h := List.append_cancel_left h
    obtain ⟨h2, h⟩ := read_num "\n" (by decide) h
    exact ⟨Prod.ext h1 h2, h⟩

end Verif
