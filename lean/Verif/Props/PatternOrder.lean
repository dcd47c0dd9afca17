import Verif.Props.Pattern

/-!
# C118: the order of preference

What decides between several matches at one position, as equations between patterns.
-/

set_option linter.unusedSimpArgs false

namespace Verif
open Spec Pat

theorem flatMap_congr_mem {α β : Type} {l : List α} {f g : α → List β} (h : ∀ x ∈ l, f x = g x) : l.flatMap f = l.flatMap g := by
  induction l with
  | nil => rfl
  | cons x l ih =>
    rw [List.flatMap_cons, List.flatMap_cons, h x List.mem_cons_self, ih fun y hy => h y (List.mem_cons_of_mem _ hy)]

/-- More fuel does not change anything. -/
theorem repeatRuns_fuel {g : Bool} {step : St → List St} {len : Nat} (hf : ∀ st, st.1 ≤ len → ∀ y ∈ step st, y.1 ≤ len) :
    ∀ (n m : Nat) (st : St), st.1 ≤ len → len - st.1 ≤ n → len - st.1 ≤ m → repeatRuns g step n st = repeatRuns g step m st := by
  have none_left : ∀ st : St, st.1 ≤ len → len - st.1 = 0 → (step st).filter (fun x => decide (st.1 < x.1)) = [] := by
    intro st hs h0
    rw [List.filter_eq_nil_iff]
    intro y hy
    have := hf st hs y hy
    simp only [decide_eq_true_eq]
    omega
  have zero : ∀ (m : Nat) (st : St), st.1 ≤ len → len - st.1 = 0 → repeatRuns g step m st = [st] := by
    intro m st hs h0
    cases m with
    | zero => rfl
    | succ m =>
      rw [repeatRuns, none_left st hs h0, List.flatMap_nil]
      split <;> rfl
  intro n
  induction n with
  | zero =>
    intro m st hs hn hm
    rw [zero m st hs (by omega)]
    rfl
  | succ n ih =>
    intro m st hs hn hm
    cases m with
    | zero => rw [zero (n + 1) st hs (by omega)]; rfl
    | succ m =>
      rw [repeatRuns, repeatRuns]
      have : ((step st).filter fun x => decide (st.1 < x.1)).flatMap (repeatRuns g step n) =
          ((step st).filter fun x => decide (st.1 < x.1)).flatMap (repeatRuns g step m) := by
        refine flatMap_congr_mem fun y hy => ?_
        obtain ⟨h1, h2⟩ := List.mem_filter.1 hy
        have h2 : st.1 < y.1 := by simpa using h2
        have h3 := hf st hs y h1
        exact ih m y h3 (by omega) (by omega)
      rw [this]

/-- One turn more or none. -/
theorem runs_star {bs : Bytes} {g : Bool} {a : Pat} (hn : nullable a = false) {st : St} (hs : st.1 ≤ bs.length) :
    runs bs (star g a) st = if g then (runs bs a st).flatMap (runs bs (star g a)) ++ [st]
      else st :: (runs bs a st).flatMap (runs bs (star g a)) := by
  have hf : ∀ st : St, st.1 ≤ bs.length → ∀ y ∈ runs bs a st, y.1 ≤ bs.length := fun st h y hy => (runs_le h hy).2
  have hstep : ∀ y ∈ runs bs a st, st.1 < y.1 := fun y hy => span_pos (runs_sound hs hy) hn
  have hfil : (runs bs a st).filter (fun x => decide (st.1 < x.1)) = runs bs a st :=
    List.filter_eq_self.2 fun y hy => by simpa using hstep y hy
  have h1 : runs bs (star g a) st = repeatRuns g (runs bs a) (bs.length - st.1 + 1) st := by
    rw [runs]
    exact repeatRuns_fuel hf _ _ st hs (Nat.le_refl _) (by omega)
  have h2 : (runs bs a st).flatMap (repeatRuns g (runs bs a) (bs.length - st.1)) =
      (runs bs a st).flatMap (runs bs (star g a)) := by
    refine flatMap_congr_mem fun y hy => ?_
    have := hstep y hy
    have h3 := hf st hs y hy
    rw [runs]
    exact repeatRuns_fuel hf _ _ y h3 (by omega) (Nat.le_refl _)
  rw [h1, repeatRuns, hfil, h2]

theorem matchAt_eq {a b : Pat} {bs : Bytes} {s : Nat} (h : s ≤ bs.length → runs bs a (s, none) = runs bs b (s, none)) :
    (compile a).matchAt bs s = (compile b).matchAt bs s := by
  show (if s ≤ bs.length then _ else _) = if s ≤ bs.length then _ else _
  split
  · next hs => rw [h hs]
  · rfl

/-- **C118** which of several matches is taken. An alternative takes its left side if that matches, otherwise the right one;
in front of something else, each alternative is tried with what follows. A greedy repetition tries one more turn before it
goes on with what follows, a lazy one the other way round. (Sequences are associative.) -/
theorem C118_preference (bs : Bytes) (s : Nat) (a b k : Pat) :
    (compile (alt a b)).matchAt bs s = ((compile a).matchAt bs s).or ((compile b).matchAt bs s) ∧
    (compile (seq (alt a b) k)).matchAt bs s = (compile (alt (seq a k) (seq b k))).matchAt bs s ∧
    (nullable a = false →
      (compile (seq (star true a) k)).matchAt bs s = (compile (alt (seq a (seq (star true a) k)) k)).matchAt bs s ∧
      (compile (seq (star false a) k)).matchAt bs s = (compile (alt k (seq a (seq (star false a) k)))).matchAt bs s) ∧
    (compile (seq (seq a b) k)).matchAt bs s = (compile (seq a (seq b k))).matchAt bs s ∧
    (compile (seq .empty a)).matchAt bs s = (compile a).matchAt bs s := by
  refine ⟨?_, ?_, fun hn => ⟨?_, ?_⟩, ?_, ?_⟩
  · show (if s ≤ bs.length then _ else _) = Option.or (if s ≤ bs.length then _ else _) (if s ≤ bs.length then _ else _)
    split
    · rw [runs]
      rcases runs bs a (s, none) with _ | ⟨x, l⟩
      · rfl
      · rfl
    · rfl
  · refine matchAt_eq fun _ => ?_
    simp only [runs, List.flatMap_append]
  · refine matchAt_eq fun hs => ?_
    rw [runs, runs_star hn hs, if_pos rfl, List.flatMap_append, List.flatMap_cons, List.flatMap_nil, List.append_nil]
    simp only [runs, List.flatMap_assoc]
  · refine matchAt_eq fun hs => ?_
    rw [runs, runs_star hn hs, if_neg (by simp), List.flatMap_cons]
    simp only [runs, List.flatMap_assoc]
  · refine matchAt_eq fun _ => ?_
    simp only [runs, List.flatMap_assoc]
  · refine matchAt_eq fun _ => ?_
    simp only [runs, List.flatMap_cons, List.flatMap_nil, List.append_nil]

/-- **C118** group 1 of a pattern that is a group around everything is the match. -/
theorem C118_whole_group (bs : Bytes) (s : Nat) (a : Pat) :
    (compile (group 1 a)).matchAt bs s = ((compile a).matchAt bs s).map fun m => (m.1, some (s, m.1)) := by
  show (if s ≤ bs.length then _ else _) = Option.map _ (if s ≤ bs.length then _ else _)
  split
  · rw [runs, List.head?_map]
    rfl
  · rfl

/-- **C118** of several groups with the number 1 on the way the last one counts. -/
theorem C118_last_group (bs : Bytes) (s e : Nat) (g : Option (Nat × Nat)) (a b : Pat)
    (h : (compile (seq a (group 1 b))).matchAt bs s = some (e, g)) : ∃ i, g = some (i, e) ∧ Span bs a s i ∧ Span bs b i e := by
  have h1 : (if s ≤ bs.length then (runs bs (seq a (group 1 b)) (s, none)).head? else none) = some (e, g) := h
  split at h1
  · next hs =>
    have h2 := List.mem_of_head? h1
    rw [runs, List.mem_flatMap] at h2
    obtain ⟨y, hy, h2⟩ := h2
    rw [runs, List.mem_map] at h2
    obtain ⟨z, hz, h2⟩ := h2
    rw [if_pos rfl] at h2
    cases h2
    exact ⟨y.1, rfl, runs_sound (st := (s, none)) hs hy, runs_sound (runs_le (st := (s, none)) hs hy).2 hz⟩
  · cases h1

/-- `(a)|b`, then `(b)`, in `ab`. -/
example : (compile (seq (alt (group 1 (lit1 97)) (lit1 98)) (group 1 (lit1 98)))).matchAt [97, 98] 0 = some (2, some (1, 2)) := by
  decide +kernel

theorem text_star {g : Bool} {a : Pat} {t : Bytes} : Text (star g a) t ↔ ∃ l : List Bytes, (∀ x ∈ l, Text a x) ∧ t = l.flatten := by
  constructor
  · intro h
    generalize hp : star g a = p at h
    induction h with
    | stop => exact ⟨[], by simp, rfl⟩
    | @more _ _ x y h1 _ _ ih =>
      cases hp
      obtain ⟨l, h3, rfl⟩ := ih rfl
      refine ⟨x :: l, fun z hz => ?_, rfl⟩
      rcases List.mem_cons.1 hz with rfl | hz
      · exact h1
      · exact h3 z hz
    | _ => cases hp
  · rintro ⟨l, h, rfl⟩
    induction l with
    | nil => exact .stop
    | cons x l ih => exact .more (h x List.mem_cons_self) (ih fun y hy => h y (List.mem_cons_of_mem _ hy))

/-- **C118** what the abbreviations mean: `a*` any number of texts of `a`, `a+` at least one, `a?` one or none; `.` one
Unicode scalar value but a line feed, `(?s-u:.)` any byte; `^`, `$` the ends of the text or of lines. -/
theorem C118_notation (g : Bool) (a : Pat) (t bs : Bytes) (s e : Nat) :
    (Text (star g a) t ↔ ∃ l : List Bytes, (∀ x ∈ l, Text a x) ∧ t = l.flatten) ∧
    (Text (plus g a) t ↔ ∃ l : List Bytes, l ≠ [] ∧ (∀ x ∈ l, Text a x) ∧ t = l.flatten) ∧
    (Text (opt g a) t ↔ Text a t ∨ t = []) ∧
    (Text dot t ↔ Scalar t ∧ t ≠ [10]) ∧ (Text anyByte t ↔ t.length = 1) ∧
    (Span bs startText s e ↔ s = e ∧ s = 0) ∧ (Span bs endText s e ↔ s = e ∧ s = bs.length) ∧
    (Span bs startLine s e ↔ s = e ∧ (s = 0 ∨ bs[s - 1]? = some 10)) ∧
    (Span bs endLine s e ↔ s = e ∧ (s = bs.length ∨ bs[s]? = some 10)) := by
  have hlook : ∀ q : Bytes → Nat → Bool, Span bs (look q) s e ↔ s = e ∧ q bs s = true := by
    intro q
    constructor
    · intro h; cases h with | look h => exact ⟨rfl, h⟩
    · rintro ⟨rfl, h⟩; exact .look h
  refine ⟨text_star, ?_, ?_, ?_, ?_, ?_, ?_, ?_, ?_⟩
  · constructor
    · intro h
      unfold plus at h
      cases h with
      | @seq _ _ x y h1 h2 =>
        obtain ⟨l, h3, rfl⟩ := text_star.1 h2
        refine ⟨x :: l, by simp, fun z hz => ?_, rfl⟩
        rcases List.mem_cons.1 hz with rfl | hz
        · exact h1
        · exact h3 z hz
    · rintro ⟨l, hl, h, rfl⟩
      rcases l with _ | ⟨x, l⟩
      · exact absurd rfl hl
      · exact .seq (h x List.mem_cons_self) (text_star.2 ⟨l, fun y hy => h y (List.mem_cons_of_mem _ hy), rfl⟩)
  · unfold opt
    have he : Text .empty t ↔ t = [] := ⟨fun h => by cases h; rfl, by rintro rfl; exact .empty⟩
    have ha : ∀ a b : Pat, Text (alt a b) t ↔ Text a t ∨ Text b t := fun a b =>
      ⟨fun h => by cases h with | left h => exact .inl h | right h => exact .inr h, fun h => h.elim .left .right⟩
    split
    · rw [ha, he]
    · rw [ha, he, or_comm]
  · constructor
    · intro h
      unfold dot at h
      cases h with | char hc hq => exact ⟨hc, by simpa using hq⟩
    · rintro ⟨hc, hq⟩
      exact .char hc (by simpa using hq)
  · constructor
    · intro h
      unfold anyByte at h
      cases h with | byte => rfl
    · intro h
      obtain ⟨b, rfl⟩ := List.length_eq_one_iff.1 h
      exact .byte rfl
  · unfold startText; rw [hlook]; simp
  · unfold endText; rw [hlook]; simp
  · unfold startLine; rw [hlook]; simp
  · unfold endLine; rw [hlook]; simp

/-- The greedy and the lazy repetition of `a` in front of `b` in `aabab`. -/
example : nullable (alt (lit1 97) (lit1 98)) = false ∧
    (compile (seq (star true (alt (lit1 97) (lit1 98))) (lit1 98))).matchAt [97, 97, 98, 97, 98] 0 = some (5, none) ∧
    (compile (seq (star false (alt (lit1 97) (lit1 98))) (lit1 98))).matchAt [97, 97, 98, 97, 98] 0 = some (3, none) := by
  refine ⟨rfl, ?_, ?_⟩ <;> decide +kernel

end Verif
