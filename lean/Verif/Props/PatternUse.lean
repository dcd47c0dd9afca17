import Verif.Props.Pattern

/-!
# C118: concrete patterns

The patterns used in the code and in the other theorems are patterns in this sense.
-/

set_option linter.unusedSimpArgs false

namespace Verif
open Spec Pat

theorem cons_prefix_drop {bs n : Bytes} {b : UInt8} {s : Nat} :
    b :: n <+: bs.drop s ↔ bs[s]? = some b ∧ n <+: bs.drop (s + 1) := by
  constructor
  · rintro ⟨r, hr⟩
    have h1 := congrArg (·[0]?) hr
    have h2 := congrArg (List.drop 1) hr
    rw [List.drop_drop] at h2
    refine ⟨?_, r, h2⟩
    have h1 : some b = (bs.drop s)[0]? := h1
    rw [List.getElem?_drop, Nat.add_zero] at h1
    exact h1.symm
  · rintro ⟨h1, r, hr⟩
    obtain ⟨h2, h3⟩ := List.getElem?_eq_some_iff.1 h1
    refine ⟨r, ?_⟩
    rw [List.drop_eq_getElem_cons h2, h3, ← hr]
    rfl

theorem runs_lit1 (bs : Bytes) (b : UInt8) (st : St) :
    runs bs (lit1 b) st = if bs[st.1]? = some b then [(st.1 + 1, st.2)] else [] := by
  unfold lit1
  rw [runs]
  rcases hb : bs[st.1]? with _ | c
  · rw [if_neg (by simp)]
  · dsimp only
    by_cases h : c = b
    · rw [if_pos (by simpa using h), if_pos (by rw [h])]
    · rw [if_neg (by simpa using h), if_neg (by simpa using h)]

open Classical in
theorem runs_lit (bs : Bytes) : ∀ (n : Bytes) (st : St),
    runs bs (lit n) st = if n <+: bs.drop st.1 then [(st.1 + n.length, st.2)] else []
  | [], st => by rw [if_pos List.nil_prefix]; rfl
  | b :: n, st => by
    rw [lit, runs, runs_lit1]
    by_cases h : bs[st.1]? = some b
    · rw [if_pos h]
      have ih := runs_lit bs n (st.1 + 1, st.2)
      rw [List.flatMap_cons, List.flatMap_nil, List.append_nil, ih]
      by_cases hp : n <+: bs.drop (st.1 + 1)
      · rw [if_pos hp, if_pos (cons_prefix_drop.2 ⟨h, hp⟩)]
        dsimp only
        rw [List.length_cons, Nat.add_assoc, Nat.add_comm 1]
      · rw [if_neg hp, if_neg fun h' => hp (cons_prefix_drop.1 h').2]
    · rw [if_neg h, List.flatMap_nil, if_neg fun h' => h (cons_prefix_drop.1 h').1]

/-- **C118** a literal text as a pattern is the search for that text. -/
theorem C118_literal (n bytes : Bytes) (s : Nat) : (compile (lit n)).matchAt bytes s = (literal n).matchAt bytes s := by
  show (if s ≤ bytes.length then (runs bytes (lit n) (s, none)).head? else none) = if n <+: bytes.drop s ∧ s ≤ bytes.length then _ else _
  rw [runs_lit]
  by_cases h1 : s ≤ bytes.length
  · rw [if_pos h1]
    by_cases h2 : n <+: bytes.drop s
    · rw [if_pos h2, if_pos ⟨h2, h1⟩]; rfl
    · rw [if_neg h2, if_neg fun h => h2 h.1]; rfl
  · rw [if_neg h1, if_neg fun h => h1 h.2]

/-- The texts of a literal. -/
theorem text_lit {n t : Bytes} : Text (lit n) t ↔ t = n := by
  induction n generalizing t with
  | nil =>
    constructor
    · intro h; cases h; rfl
    · rintro rfl; exact .empty
  | cons b n ih =>
    constructor
    · intro h
      rw [lit] at h
      cases h with
      | seq h1 h2 =>
        rw [ih.1 h2]
        unfold lit1 at h1
        cases h1 with
        | byte hq => rw [eq_of_beq hq]; rfl
    · rintro rfl
      exact .seq (x := [b]) (.byte (by simp)) (ih.2 rfl)

/-! ## `H.* World` -/

theorem scalar_no_lf {c : Bytes} (hc : Scalar c) (h : c ≠ [10]) : 10 ∉ c := by
  intro hm
  obtain ⟨hu, -, hd⟩ := hc
  cases hu with
  | nil => cases hm
  | @one a rest k h1 h2 hr =>
    have := hd [a] rest rfl (.one k h1 h2 .nil) hr
    rcases this with h3 | rfl
    · cases h3
    · rw [List.mem_singleton] at hm
      subst hm
      exact h rfl
  | @two a b rest k h1 h2 h3 h4 hr =>
    have := hd [a, b] rest rfl (.two k h1 h2 h3 h4 .nil) hr
    rcases this with h5 | rfl
    · cases h5
    · simp only [List.mem_cons, List.not_mem_nil, or_false] at hm
      have h10 : (10 : UInt8).toNat = 10 := rfl
      rcases hm with rfl | rfl <;> omega
  | @three a b d rest k h1 h2 h3 h4 h5 h6 hr =>
    have := hd [a, b, d] rest rfl (.three k h1 h2 h3 h4 h5 h6 .nil) hr
    rcases this with h7 | rfl
    · cases h7
    · simp only [List.mem_cons, List.not_mem_nil, or_false] at hm
      have h10 : (10 : UInt8).toNat = 10 := rfl
      rcases hm with rfl | rfl | rfl <;> omega
  | @four a b d e rest k h1 h2 h3 h4 h5 h6 hr =>
    have := hd [a, b, d, e] rest rfl (.four k h1 h2 h3 h4 h5 h6 .nil) hr
    rcases this with h7 | rfl
    · cases h7
    · simp only [List.mem_cons, List.not_mem_nil, or_false] at hm
      have h10 : (10 : UInt8).toNat = 10 := rfl
      rcases hm with rfl | rfl | rfl | rfl <;> omega

/-- The texts of `.*`. -/
theorem text_dotStar {g : Bool} {t : Bytes} : Text (star g dot) t ↔ Utf8 t ∧ 10 ∉ t := by
  constructor
  · intro h
    generalize hp : star g dot = p at h
    induction h with
    | stop => exact ⟨.nil, by simp⟩
    | more h1 h2 _ ih =>
      cases hp
      obtain ⟨h3, h4⟩ := ih rfl
      unfold dot at h1
      cases h1 with
      | char hc hq =>
        refine ⟨hc.1.append h3, fun hm => ?_⟩
        rcases List.mem_append.1 hm with hm | hm
        · exact scalar_no_lf hc (by simpa using hq) hm
        · exact h4 hm
    | _ => cases hp
  · rintro ⟨hu, hn⟩
    generalize hl : t.length = n
    induction n using Nat.strongRecOn generalizing t with
    | ind n ih =>
      rcases Classical.em (t = []) with rfl | hne
      · exact .stop
      · obtain ⟨k, hk, hkl, huk⟩ := hu.first hne
        have hk1 : 1 ≤ k := by simp at hk; omega
        rcases hs : scalarLen t with _ | j
        · have := scalarLen_none hs k hkl huk
          omega
        · obtain ⟨h1, h2, h3, h4⟩ := scalarLen_some hs
          have hsc := scalarLen_scalar hs
          have hrest : Utf8 (t.drop j) := h3.rest (by rw [List.take_append_drop]; exact hu)
          have hmore := ih (t.drop j).length (by rw [List.length_drop]; omega) hrest
            (fun hm => hn (List.mem_of_mem_drop hm)) rfl
          have := Text.more (g := g) (a := dot) (x := t.take j) (.char hsc (by
            simp only [decide_eq_true_eq]
            intro h10
            apply hn
            have : (10 : UInt8) ∈ t.take j := by rw [h10]; simp
            exact List.mem_of_mem_take this)) hmore
          rwa [List.take_append_drop] at this

/-- `H.* World`. -/
def helloPat : Pat := seq (lit [72]) (seq (star true dot) (lit worldText))

theorem helloPat_span {bs : Bytes} {s e : Nat} : Span bs helloPat s e ↔ HelloAt bs s e := by
  rw [span_text (by unfold helloPat dot worldText lit lit1; simp [LookFree, lit, lit1])]
  constructor
  · rintro ⟨t, ht, hp, rfl⟩
    unfold helloPat at ht
    cases ht with
    | seq h1 h2 =>
      cases h2 with
      | @seq _ _ mid w h3 h4 =>
        rw [text_lit.1 h1, text_lit.1 h4] at *
        obtain ⟨h5, h6⟩ := text_dotStar.1 h3
        exact ⟨mid, h5, h6, hp, by simp [worldText]⟩
  · rintro ⟨mid, h5, h6, hp, rfl⟩
    exact ⟨[72] ++ (mid ++ worldText), .seq (text_lit.2 rfl) (.seq (text_dotStar.2 ⟨h5, h6⟩) (text_lit.2 rfl)), hp,
      by simp [worldText]⟩

theorem repeatRuns_sorted {step : St → List St} (h1 : ∀ st, (step st).length ≤ 1) : ∀ (n : Nat) (st : St),
    (repeatRuns true step n st).Pairwise (fun a b => b.1 < a.1) ∧ ∀ x ∈ repeatRuns true step n st, st.1 ≤ x.1
  | 0, st => by
    rw [repeatRuns]
    exact ⟨List.pairwise_singleton _ _, fun x hx => by rw [List.mem_singleton.1 hx]; exact Nat.le_refl _⟩
  | n + 1, st => by
    rw [repeatRuns, if_pos rfl]
    have hf : ((step st).filter fun x => decide (st.1 < x.1)).length ≤ 1 :=
      Nat.le_trans (List.length_filter_le _ _) (h1 st)
    rcases hl : (step st).filter fun x => decide (st.1 < x.1) with _ | ⟨y, _ | ⟨z, l⟩⟩
    · rw [hl, List.flatMap_nil, List.nil_append]
      exact ⟨List.pairwise_singleton _ _, fun x hx => by rw [List.mem_singleton.1 hx]; exact Nat.le_refl _⟩
    · have hy : st.1 < y.1 := by
        have : y ∈ (step st).filter fun x => decide (st.1 < x.1) := by rw [hl]; simp
        simpa using (List.mem_filter.1 this).2
      rw [hl, List.flatMap_cons, List.flatMap_nil, List.append_nil]
      obtain ⟨h2, h3⟩ := repeatRuns_sorted h1 n y
      refine ⟨List.pairwise_append.2 ⟨h2, List.pairwise_singleton _ _, fun a ha b hb => ?_⟩, fun x hx => ?_⟩
      · rw [List.mem_singleton.1 hb]; have := h3 a ha; omega
      · rcases List.mem_append.1 hx with hx | hx
        · have := h3 x hx; omega
        · rw [List.mem_singleton.1 hx]; exact Nat.le_refl _
    · rw [hl] at hf; simp at hf

theorem runs_dot_le (bs : Bytes) (st : St) : (runs bs dot st).length ≤ 1 := by
  unfold dot
  rw [runs]
  split
  · split <;> simp
  · simp

theorem flatMap_sorted {f : St → List St} {k : Nat} (hf : ∀ st, f st = [] ∨ f st = [(st.1 + k, st.2)]) : ∀ (l : List St),
    l.Pairwise (fun a b => b.1 < a.1) → (l.flatMap f).Pairwise fun a b => b.1 < a.1
  | [], _ => .nil
  | x :: l, h => by
    rw [List.flatMap_cons]
    obtain ⟨h1, h2⟩ := List.pairwise_cons.1 h
    refine List.pairwise_append.2 ⟨?_, flatMap_sorted hf l h2, fun a ha b hb => ?_⟩
    · rcases hf x with h | h <;> rw [h]
      · exact .nil
      · exact List.pairwise_singleton _ _
    · obtain ⟨y, hy, hb⟩ := List.mem_flatMap.1 hb
      have := h1 y hy
      rcases hf x with h | h <;> rw [h] at ha
      · cases ha
      · rcases hf y with h' | h' <;> rw [h'] at hb
        · cases hb
        · rw [List.mem_singleton.1 ha, List.mem_singleton.1 hb]; dsimp only; omega

theorem hello_sorted (bs : Bytes) (st : St) : (runs bs helloPat st).Pairwise fun a b => b.1 < a.1 := by
  unfold helloPat
  rw [runs, runs_lit]
  split
  · rw [List.flatMap_cons, List.flatMap_nil, List.append_nil, runs, runs]
    refine flatMap_sorted (k := 6) (fun st => ?_) _ (repeatRuns_sorted (runs_dot_le bs) _ _).1
    rw [runs_lit]
    split
    · exact .inr rfl
    · exact .inl rfl
  · exact .nil

theorem groupBodies_lit (n : Bytes) : groupBodies (lit n) = [] := by
  induction n with
  | nil => rfl
  | cons b n ih => rw [lit, groupBodies, ih]; rfl

/-- **C118** the pattern of the commands, `H.* World`: the matcher finds what the model of these commands uses. -/
theorem C118_hello (bytes : Bytes) (s : Nat) : (compile helloPat).matchAt bytes s = helloRegex.matchAt bytes s := by
  have key : ∀ m, (compile helloPat).matchAt bytes s = some m → helloRegex.matchAt bytes s = some m := by
    rintro ⟨e, g⟩ h
    obtain ⟨hs, hsp⟩ := compile_some h
    have h1 : (compile helloPat).matchAt bytes s = (runs bytes helloPat (s, none)).head? := if_pos hs
    rw [h1] at h
    refine (helloRegex_iff bytes s e g).2 ⟨?_, helloPat_span.1 hsp, fun e' he' => ?_⟩
    · rcases g with _ | ⟨a, b⟩
      · rfl
      · rcases runs_group bytes helloPat (s, none) hs _ (List.mem_of_head? h) a b rfl with h' | ⟨q, hq, -⟩
        · cases h'
        · cases hq
    · obtain ⟨g', hg'⟩ := runs_complete (helloPat_span.2 he') hs none
      have hsort := hello_sorted bytes (s, none)
      rcases hr : runs bytes helloPat (s, none) with _ | ⟨m, l⟩
      · rw [hr] at h; cases h
      · rw [hr] at h hg' hsort
        cases h
        rcases List.mem_cons.1 hg' with h' | h'
        · cases h'; exact Nat.le_refl _
        · have := (List.pairwise_cons.1 hsort).1 _ h'
          exact Nat.le_of_lt this
  rcases hc : (compile helloPat).matchAt bytes s with _ | m
  · rcases hh : helloRegex.matchAt bytes s with _ | ⟨e, g⟩
    · rfl
    · have h1 := ((helloRegex_iff bytes s e g).1 hh).2.1
      have hs : s ≤ bytes.length := by
        have := helloRegex.law bytes s e g hh; omega
      obtain ⟨m, hm⟩ := compile_isSome.2 ⟨hs, e, helloPat_span.2 h1⟩
      rw [hc] at hm; cases hm
  · exact (key m hc).symm

/-- **C118** the patterns of the other theorems: nothing, `(?m)$`, `(?m)($)` and `(x)`. -/
theorem C118_others (bytes : Bytes) (s : Nat) :
    (compile .empty).matchAt bytes s = emptyPattern.matchAt bytes s ∧
    (compile endLine).matchAt bytes s = eol.matchAt bytes s ∧
    (compile (group 1 endLine)).matchAt bytes s = eolGroup.matchAt bytes s ∧
    (compile (group 1 (lit1 120))).matchAt bytes s = groupX.matchAt bytes s := by
  have hlook : ∀ st : St, runs bytes endLine st = if st.1 = bytes.length ∨ bytes[st.1]? = some 10 then [st] else [] := by
    intro st
    unfold endLine
    rw [runs]
    by_cases h : st.1 = bytes.length ∨ bytes[st.1]? = some 10
    · rw [if_pos h, if_pos (by simpa using h)]
    · rw [if_neg h, if_neg (by simpa using h)]
  have hle : s = bytes.length ∨ bytes[s]? = some 10 → s ≤ bytes.length := by
    rintro (h | h)
    · omega
    · have := (List.getElem?_eq_some_iff.1 h).1; omega
  refine ⟨rfl, ?_, ?_, ?_⟩
  · show (if s ≤ bytes.length then (runs bytes endLine (s, none)).head? else none) = if _ then _ else _
    rw [hlook]
    by_cases h : s = bytes.length ∨ bytes[s]? = some 10
    · rw [if_pos (hle h), if_pos h, if_pos h]; rfl
    · rw [if_neg h, if_neg h]; split <;> rfl
  · show (if s ≤ bytes.length then (runs bytes (group 1 endLine) (s, none)).head? else none) = if _ then _ else _
    rw [runs, hlook]
    by_cases h : s = bytes.length ∨ bytes[s]? = some 10
    · rw [if_pos (hle h), if_pos h, if_pos h]; rfl
    · rw [if_neg h, if_neg h]; split <;> rfl
  · show (if s ≤ bytes.length then (runs bytes (group 1 (lit1 120)) (s, none)).head? else none) = if _ then _ else _
    rw [runs, runs_lit1]
    by_cases h : bytes[s]? = some 120
    · rw [if_pos (by have := (List.getElem?_eq_some_iff.1 h).1; omega), if_pos h, if_pos h]; rfl
    · rw [if_neg h, if_neg h]; split <;> rfl

/-! ## A sufficient condition to read off the pattern -/

namespace Spec

/-- All classes of the pattern are made of bytes that satisfy `P`. -/
def OnlyBytes (P : UInt8 → Prop) : Pat → Prop
  | .empty | .look _ => True
  | .byte q => ∀ b, q b = true → P b
  | .char q => ∀ c, Scalar c → q c = true → ∀ b ∈ c, P b
  | .seq a b | .alt a b => OnlyBytes P a ∧ OnlyBytes P b
  | .star _ a | .group _ a => OnlyBytes P a

end Spec

theorem text_only {P : UInt8 → Prop} {p : Pat} {t : Bytes} (h : Text p t) (ho : OnlyBytes P p) : ∀ b ∈ t, P b := by
  induction h with
  | empty => simp
  | byte hq => intro b hb; rw [List.mem_singleton.1 hb]; exact ho _ hq
  | char hc hq => exact ho _ hc hq
  | seq _ _ ih1 ih2 =>
    intro b hb
    rcases List.mem_append.1 hb with hb | hb
    · exact ih1 ho.1 b hb
    · exact ih2 ho.2 b hb
  | left _ ih => exact ih ho.1
  | right _ ih => exact ih ho.2
  | stop => simp
  | more _ _ ih1 ih2 =>
    intro b hb
    rcases List.mem_append.1 hb with hb | hb
    · exact ih1 ho b hb
    · exact ih2 ho b hb
  | group _ ih => exact ih ho

/-- **C118** the search finds every message for patterns whose classes have neither the byte 1 nor the letter `D`. -/
theorem C118_stays (p : Pat) (h : OnlyBytes (fun b => b ≠ 1 ∧ b ≠ 68) p) : StaysInside p := by
  intro t ht
  have hb := text_only ht h
  refine ⟨fun h1 => (hb 1 h1).1 rfl, fun h1 => ?_, fun h1 => ?_, fun h1 => ?_⟩
  all_goals exact (hb 68 (h1.subset (by simp))).2 rfl

/-- `E[0-9]+`. -/
def errorPat : Pat := seq (lit [69]) (plus true (byte fun b => decide (48 ≤ b ∧ b ≤ 57)))

/-- `E12`, `ok`, `xE7` -/
def errorFile : List StorageEntry := [textMsg [69, 49, 50], textMsg [111, 107], textMsg [120, 69, 55]]

/-- The pattern and the file meet the hypotheses; two of the three messages contain a text. -/
example : LookFree errorPat ∧ ¬ Text errorPat [] ∧ nullable errorPat = false ∧ StaysInside errorPat ∧
    (∀ e ∈ errorFile, WF e) ∧ Fits (packed errorFile) ∧ MarkersAreMessages (packed errorFile) (packedAt 0 errorFile) ∧
    (∃ t, Text errorPat t ∧ t <:+: (encode (textMsg [120, 69, 55])).drop 4) ∧
    (compile errorPat).matchAt (packed errorFile) 20 = some (23, none) ∧
    (compile errorPat).matchAt (packed errorFile) 21 = none := by
  have hl : LookFree errorPat := by simp [errorPat, LookFree, lit, lit1, plus]
  have hs : StaysInside errorPat := by
    apply C118_stays
    simp only [errorPat, OnlyBytes, lit, lit1, plus, and_true]
    refine ⟨fun b hb => ?_, fun b hb => ?_, fun b hb => ?_⟩
    · rw [eq_of_beq hb]; decide
    all_goals
      simp only [decide_eq_true_eq, UInt8.le_iff_toNat_le] at hb
      refine ⟨?_, ?_⟩ <;> rintro rfl <;> revert hb <;> decide
  refine ⟨hl, fun h => ?_, rfl, hs, by decide, by decide, ?_, ⟨[69, 55], ?_, by decide⟩, by decide +kernel, by decide +kernel⟩
  · rw [text_nil hl] at h; cases h
  · intro j hm
    have hlt := Spec.MarkerAt.lt (S := dltStorage) hm
    have key : ∀ j, j < 68 → dltMarker <+: (packed errorFile).drop j → j = 0 ∨ j = 23 ∨ j = 45 := by decide
    have h4 : dltStorage.marker.length = 4 := rfl
    have hl : (packed errorFile).length = 68 := rfl
    rcases key j (by omega) hm with rfl | rfl | rfl
    · exact ⟨textMsg [69, 49, 50], by decide⟩
    · exact ⟨textMsg [111, 107], by decide⟩
    · exact ⟨textMsg [120, 69, 55], by decide⟩
  · exact .seq (x := [69]) (text_lit.2 rfl) (.seq (x := [55]) (y := []) (.byte (by decide)) .stop)

/-- The order of preference: alternatives as written, greedy repetitions longest first, lazy ones shortest first; group 1 is
what its last turn matched. -/
example : (compile (alt (lit [97]) (lit [97, 98]))).matchAt [97, 98] 0 = some (1, none) ∧
    (compile (alt (lit [97, 98]) (lit [97]))).matchAt [97, 98] 0 = some (2, none) ∧
    (compile (plus true (lit1 97))).matchAt [97, 97, 98] 0 = some (2, none) ∧
    (compile (plus false (lit1 97))).matchAt [97, 97, 98] 0 = some (1, none) ∧
    (compile (seq (star false anyByte) (group 1 (lit1 98)))).matchAt [97, 98, 98] 0 = some (2, some (1, 2)) ∧
    (compile (plus true (group 1 (alt (lit1 97) (lit1 98))))).matchAt [97, 98, 97, 99] 0 = some (3, some (2, 3)) ∧
    (compile (seq (opt true (lit1 97)) (opt false (lit1 97)))).matchAt [97, 97] 0 = some (1, none) ∧
    (compile dot).matchAt [0xC3, 0xA4] 0 = some (2, none) ∧ (compile dot).matchAt [0xC3, 0xA4] 1 = none ∧
    (compile dot).matchAt [10] 0 = none ∧ (compile (seq startText endText)).matchAt [] 0 = some (0, none) := by
  refine ⟨?_, ?_, ?_, ?_, ?_, ?_, ?_, ?_, ?_, ?_, ?_⟩ <;> decide +kernel

end Verif
