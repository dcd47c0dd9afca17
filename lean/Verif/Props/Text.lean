import Verif.Lemmas.Text
import Verif.Props.Main

/-! # C88–C90: the text `ripdlt` prints -/

set_option linter.unusedSimpArgs false
set_option linter.unusedVariables false

namespace Verif

open Spec

/-! ## The standard library's renderings -/

theorem utf8_mk (l : List Char) : utf8 (String.ofList l) = l.flatMap String.utf8EncodeChar := by
  unfold utf8; rw [String.toList_ofList]

theorem utf8_intercalate (sep : String) (x : String) (xs : List String) :
    utf8 (String.intercalate sep (x :: xs)) = utf8 x ++ (xs.map fun y => utf8 sep ++ utf8 y).flatten := by
  unfold utf8
  rw [String.toList_intercalate, List.map_cons]
  induction xs generalizing x with
  | nil => simp [List.intercalate]
  | cons y ys ih =>
    have h : ∀ (s a b : List Char) (r : List (List Char)), s.intercalate (a :: b :: r) = a ++ (s ++ s.intercalate (b :: r)) := by
      intro s a b r; simp [List.intercalate, List.intersperse]
    rw [List.map_cons, h, List.flatMap_append, List.flatMap_append, ih y, List.map_cons, List.flatten_cons, List.append_assoc]

theorem text_debugMap (m : OrdMap UInt32 Nat) : text (debugMap m) = utf8 (mapText m) := by
  rw [text_eq]
  unfold debugMap
  cases m with
  | nil => decide
  | cons e m =>
    rw [utf8_append, utf8_append, List.map_cons, utf8_intercalate, mapText_cons, ← mapRest_eq]
    simp only [utf8_append, toString_str, utf8_toString, List.append_assoc, List.map_map]
    congr 6
    apply List.map_congr_left
    intro e _
    simp only [Function.comp, utf8_append, toString_str, utf8_toString, List.append_assoc]

theorem debugInfo_eq : ∀ k ∈ allTypes, text (debugInfo k) = utf8 (typeText k) := by decide +kernel

theorem text_debugInfo (k : Bool × Option MsgType) : text (debugInfo k) = utf8 (typeText k) :=
  debugInfo_eq k (mem_allTypes k)

/-! ## The loops -/

/-- A part of the program prints `txt` of its report, or panics as the report says. -/
def Linked {α : Type} (report : α → Res Report) (body : α → Bytes × Bool) (txt : Report → Bytes) : Prop :=
  ∀ a, (∃ rep, report a = .ok rep ∧ body a = (txt rep, true)) ∨ (report a = .panic ∧ (body a).2 = false)

theorem loop_linked {α β : Type} {line : α → Res Bytes} {rep : List α → Res (List β)} {one : α → Res β} {show' : β → Bytes}
    (hnil : rep [] = .ok [])
    (hcons : ∀ x xs, rep (x :: xs) = (one x).bind fun y => (rep xs).bind fun ys => .ok (y :: ys))
    (hline : ∀ x, line x = (one x).bind fun y => .ok (show' y)) : ∀ xs,
    (∃ ys, rep xs = .ok ys ∧ printLoop line xs = ((ys.map show').flatten, true)) ∨
    (rep xs = .panic ∧ (printLoop line xs).2 = false)
  | [] => .inl ⟨[], hnil, rfl⟩
  | x :: xs => by
    rw [hcons, printLoop, hline]
    cases one x with
    | panic => exact .inr ⟨rfl, rfl⟩
    | ok y =>
      rcases loop_linked hnil hcons hline xs with ⟨ys, h1, h2⟩ | ⟨h1, h2⟩
      · refine .inl ⟨y :: ys, ?_, ?_⟩
        · rw [Res.ok_bind', h1]; rfl
        · rw [Res.ok_bind']; simp only [h2, List.map_cons, List.flatten_cons]
      · refine .inr ⟨?_, ?_⟩
        · rw [Res.ok_bind', h1]; rfl
        · rw [Res.ok_bind']; exact h2

theorem Linked.of_loop {α β : Type} {line : α → Res Bytes} {rep : List α → Res (List β)} {mk : List β → Report}
    {show' : β → Bytes} {txt : Report → Bytes} (ht : ∀ ys, txt (mk ys) = (ys.map show').flatten)
    (h : ∀ xs, (∃ ys, rep xs = .ok ys ∧ printLoop line xs = ((ys.map show').flatten, true)) ∨
      (rep xs = .panic ∧ (printLoop line xs).2 = false)) :
    Linked (fun xs => (rep xs).bind fun ys => .ok (mk ys)) (printLoop line) txt := by
  intro xs
  rcases h xs with ⟨ys, h1, h2⟩ | ⟨h1, h2⟩
  · exact .inl ⟨mk ys, by simp only [h1]; rfl, by rw [h2, ht]⟩
  · exact .inr ⟨by simp only [h1]; rfl, h2⟩

theorem bucket_linked (c : Cmd) : Linked bucketReport (printLoop bucketLine) fun r => (linesOf c r).flatten := by
  refine Linked.of_loop (mk := .buckets) (fun ys => rfl) (loop_linked (one := fun e => (uadd e.1 1).bind fun k => .ok (e.1, k, e.2)) rfl ?_ ?_)
  · rintro ⟨k, v⟩ xs
    show (uadd k 1).bind _ = _
    cases uadd k 1 <;> rfl
  · rintro ⟨k, v⟩
    unfold bucketLine
    dsimp only
    cases uadd k 1 <;> rfl

/-- What one offset line shows. -/
def oneOffset (e : Nat × Nat) : Res (Nat × Nat × Nat) :=
  (umul e.1 100000000).bind fun a => (uadd e.1 1).bind fun k' => (umul k' 100000000).bind fun b =>
    .ok (a / 1000000, b / 1000000, e.2)

theorem Res.bind_assoc' {α β γ : Type} (r : Res α) (f : α → Res β) (g : β → Res γ) :
    (r.bind f).bind g = r.bind fun a => (f a).bind g := by cases r <;> rfl

theorem offset_linked (c : Cmd) : Linked offsetReport (printLoop offsetLine) fun r => (linesOf c r).flatten := by
  refine Linked.of_loop (mk := .offsets) (fun ys => rfl) (loop_linked (one := oneOffset)
    (show' := fun l => utf8 s!"Offset {l.1}M-{l.2.1}M: {l.2.2}\n") rfl ?_ ?_)
  · rintro ⟨k, v⟩ xs
    rw [offsetLines]
    unfold oneOffset
    simp only [Res.bind_assoc', Res.ok_bind']
  · rintro ⟨k, v⟩
    unfold offsetLine oneOffset
    simp only [Res.bind_assoc', Res.ok_bind', text_eq]

/-- The line of an ECU. -/
def ecuText (l : Bytes × (OrdMap UInt32 Nat × Nat)) : Bytes := l.1 ++ utf8 s!" #lifecycles: ({mapText l.2.1}, {l.2.2})\n"

theorem ecuLine_eq (e : B4 × (OrdMap UInt32 Nat × Nat)) : ecuLine e =
    if utf8Valid e.1.toBytes then .ok (ecuText (e.1.toBytes, e.2)) else .panic := by
  unfold ecuLine ecuText
  congr 3
  rw [text_append, text_append, text_debugMap]
  simp only [text_eq, utf8_append, toString_str, utf8_toString, List.append_assoc]

/-- What one ECU line shows. -/
def oneEcu (e : B4 × (OrdMap UInt32 Nat × Nat)) : Res (Bytes × (OrdMap UInt32 Nat × Nat)) :=
  if utf8Valid e.1.toBytes then .ok (e.1.toBytes, e.2) else .panic

theorem ecu_linked (c : Cmd) : Linked ecuReport (printLoop ecuLine) fun r => (linesOf c r).flatten := by
  refine Linked.of_loop (mk := .ecus) (fun ys => rfl) (loop_linked (one := oneEcu) (show' := ecuText) rfl ?_ ?_)
  · rintro ⟨k, v⟩ xs
    rw [ecuLines]
    unfold oneEcu
    cases utf8Valid k.toBytes <;> rfl
  · intro e
    rw [ecuLine_eq]
    unfold oneEcu
    cases utf8Valid e.1.toBytes <;> rfl

/-- Where the loop over ECUs stops. -/
theorem ecu_stops : ∀ m : List (B4 × (OrdMap UInt32 Nat × Nat)), (printLoop ecuLine m).2 = false →
    ∃ pre bad post, m = pre ++ bad :: post ∧ (∀ e ∈ pre, Utf8 e.1.toBytes) ∧ ¬ Utf8 bad.1.toBytes ∧
      (printLoop ecuLine m).1 = ((pre.map fun e => (e.1.toBytes, e.2)).map ecuText).flatten
  | [], h => by cases h
  | e :: m, h => by
    rw [printLoop, ecuLine_eq] at h ⊢
    cases hv : utf8Valid e.1.toBytes with
    | false =>
      refine ⟨[], e, m, rfl, fun e he => (by cases he), fun hu => ?_, rfl⟩
      rw [← utf8Valid_iff, hv] at hu
      cases hu
    | true =>
      rw [hv] at h
      obtain ⟨pre, bad, post, h1, h2, h3, h4⟩ := ecu_stops m h
      refine ⟨e :: pre, bad, post, by rw [h1]; rfl, fun x hx => ?_, h3, ?_⟩
      · rcases List.mem_cons.1 hx with rfl | hx
        · exact (utf8Valid_iff _).1 hv
        · exact h2 x hx
      · rw [List.map_cons, List.map_cons, List.flatten_cons, ← h4]
        rfl

theorem info_linked (c : Cmd) : Linked (fun m => .ok (.infos m)) (printLoop infoLine) fun r => (linesOf c r).flatten := by
  intro m
  refine .inl ⟨.infos m, rfl, ?_⟩
  have h : ∀ m, printLoop infoLine m = ((m.map fun l => utf8 s!"{typeText l.1}: {l.2}\n").flatten, true) := by
    intro m
    induction m with
    | nil => rfl
    | cons e m ih =>
      have h1 : infoLine e = .ok (utf8 s!"{typeText e.1}: {e.2}\n") := by
        unfold infoLine
        rw [text_append, text_debugInfo]
        simp only [text_eq, utf8_append, toString_str, utf8_toString, List.append_assoc]
      rw [printLoop, h1, List.map_cons, List.flatten_cons]
      simp only [ih]
  exact h m

theorem number_linked (c : Cmd) (what : String) (h : what = unitOf c) :
    Linked numberReport (numberLine what) fun r => (linesOf c r).flatten := by
  subst h
  intro n
  refine .inl ⟨.number n, rfl, ?_⟩
  unfold numberLine linesOf
  simp [text_eq]

theorem size_linked (c : Cmd) (what : String) (h : what = totalOf c) :
    Linked sizeReport (sizeLoop what 0) fun r => (linesOf c r).flatten := by
  subst h
  have key : ∀ (m : List (Nat × Nat)) (t : Nat),
      (∃ r, sizeLines t m = .ok r ∧ sizeLoop (totalOf c) t m = ((linesOf c (.sizes r.1 (r.2 / 1024))).flatten, true)) ∨
      (sizeLines t m = .panic ∧ (sizeLoop (totalOf c) t m).2 = false) := by
    intro m
    induction m with
    | nil =>
      intro t
      refine .inl ⟨_, rfl, ?_⟩
      simp [sizeLoop, linesOf, text_eq]
    | cons e m ih =>
      intro t
      obtain ⟨k, v⟩ := e
      rw [sizeLines, sizeLoop]
      cases umul k v with
      | panic => exact .inr ⟨rfl, rfl⟩
      | ok size =>
        rw [Res.ok_bind']
        dsimp only
        cases uadd t size with
        | panic => exact .inr ⟨rfl, rfl⟩
        | ok t' =>
          rw [Res.ok_bind']
          rcases ih t' with ⟨r, h1, h2⟩ | ⟨h1, h2⟩
          · refine .inl ⟨_, by rw [h1, Res.ok_bind'], ?_⟩
            simp only [h2, linesOf, List.map_cons, List.cons_append, List.flatten_cons, text_eq]
          · exact .inr ⟨by rw [h1]; rfl, h2⟩
  intro m
  unfold sizeReport
  rcases key m 0 with ⟨r, h1, h2⟩ | ⟨h1, h2⟩
  · exact .inl ⟨_, by rw [h1, Res.ok_bind'], h2⟩
  · exact .inr ⟨by rw [h1]; rfl, h2⟩

/-! ## Commands -/

theorem printed_iff {α β : Type} {x : Option (Res α)} {f : α → Res β} {r : Res β} :
    printed x f = some r ↔ ∃ q, x = some q ∧ r = q.bind f := by
  match x with
  | none => exact ⟨fun h => (by cases h), fun ⟨q, h, _⟩ => (by cases h)⟩
  | some .panic =>
    constructor
    · intro h; cases h; exact ⟨_, rfl, rfl⟩
    · rintro ⟨q, h, rfl⟩; cases h; rfl
  | some (.ok a) =>
    constructor
    · intro h; cases h; exact ⟨_, rfl, rfl⟩
    · rintro ⟨q, h, rfl⟩; cases h; rfl

theorem around_ok {α : Type} {Stat : Res α → Prop} {report : α → Res Report} {body : α → Bytes × Bool} {txt : Report → Bytes}
    (h : Linked report body txt) (head out : Bytes) :
    (∃ q, Stat q ∧ (out, true) = around head q body) ↔
      ∃ r, (∃ q, Stat q ∧ Res.ok r = q.bind report) ∧ out = head ++ txt r := by
  constructor
  · rintro ⟨q, hq, he⟩
    cases q with
    | panic => cases he
    | ok a =>
      rcases h a with ⟨rep, h1, h2⟩ | ⟨h1, h2⟩
      · simp only [around, h2] at he
        exact ⟨rep, ⟨.ok a, hq, h1.symm⟩, congrArg Prod.fst he⟩
      · have := congrArg Prod.snd he
        simp only [around, h2] at this
        cases this
  · rintro ⟨r, ⟨q, hq, hr⟩, he⟩
    cases q with
    | panic => cases hr
    | ok a =>
      rcases h a with ⟨rep, h1, h2⟩ | ⟨h1, h2⟩
      · have : Res.ok r = report a := hr
        rw [h1] at this
        cases this
        exact ⟨.ok a, hq, by simp only [around, h2, he]⟩
      · have : Res.ok r = report a := hr
        rw [h1] at this
        cases this

theorem around_panic {α : Type} {Stat : Res α → Prop} {report : α → Res Report} {body : α → Bytes × Bool} {txt : Report → Bytes}
    (h : Linked report body txt) (head : Bytes) :
    (∃ out, ∃ q, Stat q ∧ (out, false) = around head q body) ↔ ∃ q, Stat q ∧ Res.panic = q.bind report := by
  constructor
  · rintro ⟨out, q, hq, he⟩
    cases q with
    | panic => exact ⟨_, hq, rfl⟩
    | ok a =>
      rcases h a with ⟨rep, h1, h2⟩ | ⟨h1, h2⟩
      · simp only [around, h2] at he
        cases he
      · exact ⟨_, hq, h1.symm⟩
  · rintro ⟨q, hq, hr⟩
    cases q with
    | panic => exact ⟨head, _, hq, rfl⟩
    | ok a =>
      rcases h a with ⟨rep, h1, h2⟩ | ⟨h1, h2⟩
      · have : Res.panic = report a := hr
        rw [h1] at this
        cases this
      · exact ⟨head ++ (body a).1, .ok a, hq, by simp only [around, ← h2]⟩

theorem slicesLine_eq {num : Nat} {bytes : Bytes} {slices : List Bytes}
    (hp : partitionFrom dltStorage bytes num = .ok slices) : slicesLine num bytes = utf8 (startLine num slices.length) := by
  unfold partitionFrom at hp
  unfold slicesLine
  cases hr : partitionRanges dltStorage bytes num with
  | panic => rw [hr] at hp; cases hp
  | ok rs =>
    rw [hr] at hp
    cases hp
    rw [List.length_map]
    rfl

theorem opening_seq {num slices : Nat} {c : Cmd} (h : sequential c = true) : openingOf num slices c = utf8 (titleOf c) := by
  unfold openingOf; rw [if_pos h, List.append_nil]

theorem opening_par {num slices : Nat} {c : Cmd} (h : sequential c = false) :
    openingOf num slices c = utf8 (titleOf c) ++ utf8 (startLine num slices) := by
  unfold openingOf; rw [if_neg (by rw [h]; decide)]

theorem opening_count {num slices : Nat} {c : Cmd} (h : sequential c = false) (ht : titleOf c = "") :
    openingOf num slices c = utf8 (startLine num slices) := by
  rw [opening_par h, ht, utf8_empty, List.nil_append]

/-- What a command does, in one form: its statistics function, the text before its results, its report and its loop. -/
theorem cmd_shape (num : Nat) (bytes : Bytes) (c : Cmd) (hc : c ≠ .parIter) (slices : List Bytes)
    (hp : partitionFrom dltStorage bytes num = .ok slices) :
    ∃ (α : Type) (Stat : Res α → Prop) (report : α → Res Report) (body : α → Bytes × Bool),
      Linked report body (fun r => (linesOf c r).flatten) ∧
      (∀ r, RunCmd num bytes c r ↔ ∃ q, Stat q ∧ r = q.bind report) ∧
      (∀ out, CmdText num bytes c out ↔ ∃ q, Stat q ∧ out = around (openingOf num slices.length c) q body) := by
  have hs := slicesLine_eq hp
  cases c
  case parIter => exact absurd rfl hc
  case histogramLifecycles => exact ⟨_, _, _, _, bucket_linked _, fun r => printed_iff, fun out => by rw [opening_seq rfl]; exact Iff.rfl⟩
  case splitLifecycles => exact ⟨_, _, _, _, ecu_linked _, fun r => printed_iff, fun out => by rw [opening_seq rfl]; exact Iff.rfl⟩
  case splitTimestamp => exact ⟨_, _, _, _, ecu_linked _, fun r => printed_iff, fun out => by rw [opening_seq rfl]; exact Iff.rfl⟩
  case parSplitTimestamp =>
    refine ⟨_, _, _, _, ecu_linked _, fun r => Iff.rfl, fun out => ?_⟩
    unfold CmdText; rw [hs, opening_par rfl]; exact Iff.rfl
  case histogramTimestamp => exact ⟨_, _, _, _, bucket_linked _, fun r => printed_iff, fun out => by rw [opening_seq rfl]; exact Iff.rfl⟩
  case parHistogramTimestamp =>
    refine ⟨_, _, _, _, bucket_linked _, fun r => Iff.rfl, fun out => ?_⟩
    unfold CmdText; rw [hs, opening_par rfl]; exact Iff.rfl
  case histogramMessageType => exact ⟨_, _, _, _, info_linked _, fun r => printed_iff, fun out => by rw [opening_seq rfl]; exact Iff.rfl⟩
  case histogramPayloadSize => exact ⟨_, _, _, _, size_linked _ _ rfl, fun r => printed_iff, fun out => by rw [opening_seq rfl]; exact Iff.rfl⟩
  case histogramMessageSize => exact ⟨_, _, _, _, size_linked _ _ rfl, fun r => printed_iff, fun out => by rw [opening_seq rfl]; exact Iff.rfl⟩
  case count => exact ⟨_, _, _, _, number_linked _ _ rfl, fun r => printed_iff, fun out => by rw [opening_seq rfl]; exact Iff.rfl⟩
  case parCount =>
    refine ⟨_, _, _, _, number_linked _ _ rfl, fun r => Iff.rfl, fun out => ?_⟩
    unfold CmdText; rw [hs, opening_count rfl rfl]; exact Iff.rfl
  case histogramHelloWorld => exact ⟨_, _, _, _, offset_linked _, fun r => printed_iff, fun out => by rw [opening_seq rfl]; exact Iff.rfl⟩
  case countHelloWorld => exact ⟨_, _, _, _, number_linked _ _ rfl, fun r => printed_iff, fun out => by rw [opening_seq rfl]; exact Iff.rfl⟩
  case countHelloWorldRaw => exact ⟨_, _, _, _, number_linked _ _ rfl, fun r => printed_iff, fun out => by rw [opening_seq rfl]; exact Iff.rfl⟩
  case countHelloWorldGrepit => exact ⟨_, _, _, _, number_linked _ _ rfl, fun r => printed_iff, fun out => by rw [opening_seq rfl]; exact Iff.rfl⟩
  case parCountHelloWorld =>
    refine ⟨_, _, _, _, number_linked _ _ rfl, fun r => Iff.rfl, fun out => ?_⟩
    unfold CmdText; rw [hs, opening_count rfl rfl]; exact Iff.rfl
  case parCountHelloWorldRaw =>
    refine ⟨_, _, _, _, number_linked _ _ rfl, fun r => Iff.rfl, fun out => ?_⟩
    unfold CmdText; rw [hs, opening_count rfl rfl]; exact Iff.rfl
  case parCountHelloWorldGrepit =>
    refine ⟨_, _, _, _, number_linked _ _ rfl, fun r => Iff.rfl, fun out => ?_⟩
    unfold CmdText; rw [hs, opening_count rfl rfl]; exact Iff.rfl
  case iter => exact ⟨_, _, _, _, number_linked _ _ rfl, fun r => printed_iff, fun out => by rw [opening_seq rfl]; exact Iff.rfl⟩
  case itertools => exact ⟨_, _, _, _, number_linked _ _ rfl, fun r => printed_iff, fun out => by rw [opening_seq rfl]; exact Iff.rfl⟩

/-- **C88** a command that ends has printed its title and the lines of its report, and nothing else. -/
theorem C88_text (num : Nat) (bytes : Bytes) (c : Cmd) (hc : c ≠ .parIter) (slices : List Bytes)
    (hp : partitionFrom dltStorage bytes num = .ok slices) (out : Bytes) :
    CmdText num bytes c (out, true) ↔
      ∃ r, RunCmd num bytes c (.ok r) ∧ out = openingOf num slices.length c ++ (linesOf c r).flatten := by
  obtain ⟨α, Stat, report, body, h1, h2, h3⟩ := cmd_shape num bytes c hc slices hp
  rw [h3, around_ok h1]
  simp only [h2]

/-- **C88** it panics exactly if the run of the command does. -/
theorem C88_panics (num : Nat) (bytes : Bytes) (c : Cmd) (hc : c ≠ .parIter) (slices : List Bytes)
    (hp : partitionFrom dltStorage bytes num = .ok slices) :
    (∃ out, CmdText num bytes c (out, false)) ↔ RunCmd num bytes c .panic := by
  obtain ⟨α, Stat, report, body, h1, h2, h3⟩ := cmd_shape num bytes c hc slices hp
  simp only [h3, h2, around_panic h1]

theorem stat_unique {α : Type} {Stat : Res α → Prop} {q : Res α} (h : ∀ q', Stat q' ↔ q' = q) {head : Bytes}
    {body : α → Bytes × Bool} (out : Bytes × Bool) :
    (∃ q, Stat q ∧ out = around head q body) ↔ out = around head q body := by
  constructor
  · rintro ⟨q', h1, h2⟩; rw [(h q').1 h1] at h2; exact h2
  · intro h2; exact ⟨q, (h q).2 rfl, h2⟩

theorem stat_some {α : Type} {x : Option (Res α)} (h : x ≠ none) : ∃ q, ∀ q', x = some q' ↔ q' = q := by
  cases x with
  | none => exact absurd rfl h
  | some q => exact ⟨q, fun q' => by rw [Option.some.injEq, eq_comm]⟩

theorem some_of_run {α : Type} {x : Option (Res α)} {f : α → Res Report} {r : Res Report} (h : printed x f = some r) :
    x ≠ none := by
  rintro rfl
  cases h

/-- **C88** whatever the schedule of its threads, a command (other than `par_iter`) prints the same text. -/
theorem C88_one_output (num : Nat) (hnum : num ≠ 0) (bytes : Bytes) (hF : Fits bytes) (c : Cmd) (hc : c ≠ .parIter) :
    ∃ out, ∀ out', CmdText num bytes c out' ↔ out' = out := by
  have hcount : ∀ (f : Bytes → Option (Res Nat)) (what : String), (∀ s, Fits s → f s ≠ none) → ∃ out, ∀ out',
      (∃ q, Multithreaded f bytes num q ∧ out' = around (slicesLine num bytes) q (numberLine what)) ↔ out' = out :=
    fun f what hf => by
      obtain ⟨q, hq⟩ := C35_counters f bytes num hF hf
      exact ⟨_, stat_unique hq⟩
  have hseq : ∀ {α : Type} {x : Option (Res α)} {f : α → Res Report} (head : Bytes) (body : α → Bytes × Bool) (r : Res Report),
      printed x f = some r → ∃ out, ∀ out', (∃ q, x = some q ∧ out' = around head q body) ↔ out' = out :=
    fun head body r h => by
      obtain ⟨q, hq⟩ := stat_some (some_of_run h)
      exact ⟨_, stat_unique hq⟩
  obtain ⟨r, hr⟩ := C66_one_result num hnum bytes hF c
  have hrun := (hr r).2 rfl
  cases c
  case parIter => exact absurd rfl hc
  case parSplitTimestamp =>
    obtain ⟨-, -, m, -, h2, -⟩ := C35_par_split bytes num hnum hF
    exact ⟨_, stat_unique h2⟩
  case parHistogramTimestamp =>
    obtain ⟨-, -, m, -, h2, -⟩ := C35_par_histogram bytes num hnum hF
    exact ⟨_, stat_unique h2⟩
  case parCount => exact hcount _ _ ripCount_total
  case parCountHelloWorld => exact hcount _ _ countHelloWorld_total
  case parCountHelloWorldRaw => exact hcount _ _ countHelloWorldRaw_total
  case parCountHelloWorldGrepit => exact hcount _ _ grepit_total
  all_goals exact hseq _ _ r hrun

/-! ## What a command that panics has printed -/

theorem around_cut {head : Bytes} {q : Res (List (B4 × (OrdMap UInt32 Nat × Nat)))} {out : Bytes}
    (h : (out, false) = around head q (printLoop ecuLine)) :
    (q = .panic ∧ out = head) ∨ ∃ m, q = .ok m ∧ ∃ pre bad post, (m.map fun e => (e.1.toBytes, e.2)) = pre ++ bad :: post ∧
      (∀ e ∈ pre, Utf8 e.1) ∧ ¬ Utf8 bad.1 ∧ out = head ++ (pre.map ecuText).flatten := by
  cases q with
  | panic => exact .inl ⟨rfl, congrArg Prod.fst h⟩
  | ok m =>
    have h2 : (printLoop ecuLine m).2 = false := (congrArg Prod.snd h).symm
    obtain ⟨pre, bad, post, e1, e2, e3, e4⟩ := ecu_stops m h2
    refine .inr ⟨m, rfl, pre.map fun e => (e.1.toBytes, e.2), (bad.1.toBytes, bad.2), post.map fun e => (e.1.toBytes, e.2),
      by rw [e1, List.map_append, List.map_cons], ?_, e3, ?_⟩
    · intro e he
      obtain ⟨x, hx, rfl⟩ := List.mem_map.1 he
      exact e2 x hx
    · rw [← e4]; exact congrArg Prod.fst h

/-- **C88** `split_timestamp` prints the ECUs in order up to the first whose id is not text, and panics there. -/
theorem C88_split_timestamp_stops (num : Nat) (bytes : Bytes) (hF : Fits bytes) (msgs : List StorageEntry)
    (h : Messages bytes msgs) (out : Bytes) (ho : CmdText num bytes .splitTimestamp (out, false)) :
    ∃ ls pre bad post, Prints bytes msgs .splitTimestamp (.ecus ls) ∧ ls = pre ++ bad :: post ∧ (∀ e ∈ pre, Utf8 e.1) ∧
      ¬ Utf8 bad.1 ∧ out = utf8 (titleOf .splitTimestamp) ++ (linesOf .splitTimestamp (.ecus pre)).flatten := by
  obtain ⟨q, hq, he⟩ := ho
  obtain ⟨m, a, b, -, c⟩ := C47_split_timestamp bytes hF msgs h
  rw [a] at hq
  cases hq
  rcases around_cut he with ⟨hc, -⟩ | ⟨m', hm, pre, bad, post, h1, h2, h3, h4⟩
  · cases hc
  · cases hm
    exact ⟨_, pre, bad, post, ⟨m, b, fun ecu hist n hm => (c ecu hist n hm).2, rfl⟩, h1, h2, h3, h4⟩

/-- **C88** so does `split_lifecycles`, unless a time stamp is cut: then it prints only its title. -/
theorem C88_split_lifecycles_stops (num : Nat) (bytes : Bytes) (hF : Fits bytes) (msgs : List StorageEntry)
    (h : Messages bytes msgs) (out : Bytes) (ho : CmdText num bytes .splitLifecycles (out, false)) :
    ((∃ e ∈ timed msgs, timeOf e = none) ∧ out = utf8 (titleOf .splitLifecycles)) ∨
    ∃ ls pre bad post, Prints bytes msgs .splitLifecycles (.ecus ls) ∧ ls = pre ++ bad :: post ∧ (∀ e ∈ pre, Utf8 e.1) ∧
      ¬ Utf8 bad.1 ∧ out = utf8 (titleOf .splitLifecycles) ++ (linesOf .splitLifecycles (.ecus pre)).flatten := by
  obtain ⟨q, hq, he⟩ := ho
  obtain ⟨h1, h2⟩ := C48_lifecycle_split_partial bytes hF msgs h
  by_cases ht : TimesComplete msgs
  · obtain ⟨m, a, b, c⟩ := h2 ht
    rw [a] at hq
    cases hq
    rcases around_cut he with ⟨hc, -⟩ | ⟨m', hm, pre, bad, post, h1, h2, h3, h4⟩
    · cases hc
    · cases hm
      exact .inr ⟨_, pre, bad, post, ⟨m, b, fun ecu hist n hm => (c ecu hist n hm).2, rfl⟩, h1, h2, h3, h4⟩
  · rw [h1.2 ht] at hq
    cases hq
    exact .inl ⟨not_complete.1 ht, congrArg Prod.fst he⟩

/-- **C88** every other command that panics has printed only its title and, if it is a multithreaded one, the number of
slices. -/
theorem C88_panic_prints_title (num : Nat) (hnum : num ≠ 0) (bytes : Bytes) (hF : Fits bytes) (c : Cmd)
    (hc : c ≠ .parIter ∧ c ≠ .splitTimestamp ∧ c ≠ .splitLifecycles ∧ c ≠ .parSplitTimestamp) (slices : List Bytes)
    (hp : partitionFrom dltStorage bytes num = .ok slices) (out : Bytes) (ho : CmdText num bytes c (out, false)) :
    out = openingOf num slices.length c := by
  obtain ⟨msgs, hm, -⟩ := messages_of_file bytes hF
  have hpanic := (C88_panics num bytes c hc.1 slices hp).1 ⟨out, ho⟩
  have hnever : ∀ {α : Type} {Stat : Res α → Prop} {head : Bytes} {body : α → Bytes × Bool}, (∀ a, (body a).2 = true) →
      (∃ q, Stat q ∧ (out, false) = around head q body) → out = head := by
    rintro α Stat head body hb ⟨q, -, he⟩
    cases q with
    | panic => exact congrArg Prod.fst he
    | ok a =>
      have := congrArg Prod.snd he
      simp only [around, hb] at this
      cases this
  have hnum' : ∀ what n, (numberLine what n).2 = true := fun _ _ => rfl
  have hstat : ∀ {α : Type} {x : Option (Res α)} {head : Bytes} {body : α → Bytes × Bool}, x = some .panic →
      (∃ q, x = some q ∧ (out, false) = around head q body) → out = head := by
    rintro α x head body hx ⟨q, hq, he⟩
    rw [hx] at hq
    cases hq
    exact congrArg Prod.fst he
  cases c
  case parIter => exact absurd rfl hc.1
  case splitTimestamp => exact absurd rfl hc.2.1
  case splitLifecycles => exact absurd rfl hc.2.2.1
  case parSplitTimestamp => exact absurd rfl hc.2.2.2
  case parHistogramTimestamp =>
    obtain ⟨-, mss, -, -, hpp⟩ := C69_parallel_panics num hnum bytes hF
    obtain ⟨_, _, hfalse⟩ := (hpp _ rfl).1 hpanic
    exact False.elim hfalse
  case histogramTimestamp => exact ((C67_sequential_panics num bytes hF msgs hm _ rfl).1 hpanic).elim
  case histogramMessageSize => exact ((C67_sequential_panics num bytes hF msgs hm _ rfl).1 hpanic).elim
  case histogramHelloWorld => exact ((C67_sequential_panics num bytes hF msgs hm _ rfl).1 hpanic).elim
  case histogramLifecycles =>
    rw [opening_seq rfl]
    refine hstat ((C48_lifecycle_histogram_partial bytes hF msgs hm).1.2 (not_complete.2 ?_)) ho
    exact (C67_sequential_panics num bytes hF msgs hm .histogramLifecycles rfl).1 hpanic
  case histogramPayloadSize =>
    rw [opening_seq rfl]
    refine hstat ((C50_payload_sizes_partial bytes hF msgs hm).1.2 ?_) ho
    exact (C67_sequential_panics num bytes hF msgs hm .histogramPayloadSize rfl).1 hpanic
  case histogramMessageType =>
    rw [opening_seq rfl]
    refine hstat ((C50_message_types_partial bytes hF msgs hm).1.2 ?_) ho
    exact (C67_sequential_panics num bytes hF msgs hm .histogramMessageType rfl).1 hpanic
  all_goals first
    | (rw [opening_seq rfl]; exact hnever (hnum' _) ho)
    | (rw [opening_count rfl rfl, ← slicesLine_eq hp]; exact hnever (hnum' _) ho)

/-- **C88** `par_split_timestamp` prints the ECUs of the slices in order up to the first whose id is not text. -/
theorem C88_par_split_stops (num : Nat) (hnum : num ≠ 0) (bytes : Bytes) (hF : Fits bytes) (slices : List Bytes)
    (hp : partitionFrom dltStorage bytes num = .ok slices) (out : Bytes)
    (ho : CmdText num bytes .parSplitTimestamp (out, false)) :
    ∃ m pre bad post, ParTimestampSplit bytes num (.ok m) ∧ (m.map fun e => (e.1.toBytes, e.2)) = pre ++ bad :: post ∧
      (∀ e ∈ pre, Utf8 e.1) ∧ ¬ Utf8 bad.1 ∧
      out = openingOf num slices.length .parSplitTimestamp ++ (linesOf .parSplitTimestamp (.ecus pre)).flatten := by
  obtain ⟨q, hq, he⟩ := ho
  obtain ⟨-, -, m, -, h2, -⟩ := C35_par_split bytes num hnum hF
  have := (h2 q).1 hq
  subst this
  rcases around_cut he with ⟨hc, -⟩ | ⟨m', hm, pre, bad, post, h1, h2, h3, h4⟩
  · cases hc
  · cases hm
    refine ⟨m, pre, bad, post, hq, h1, h2, h3, ?_⟩
    rw [h4, opening_par rfl, slicesLine_eq hp]
    rfl

/-! ## Reading the text back -/

theorem bytes4_eq {a b : Bytes} {s t : Bytes} (ha : a.length = 4) (hb : b.length = 4) (h : a ++ s = b ++ t) : a = b ∧ s = t :=
  List.append_inj h (by rw [ha, hb])

theorem ecuText_eq (l : Bytes × (OrdMap UInt32 Nat × Nat)) : ecuText l =
    l.1 ++ (utf8 " #lifecycles: (" ++ (utf8 (mapText l.2.1) ++ (utf8 ", " ++ (digits l.2.2 ++ utf8 ")\n")))) := by
  unfold ecuText
  simp only [utf8_append, toString_str, utf8_toString, List.append_assoc]

theorem ecus_flatten : ∀ {xs ys : List (Bytes × (OrdMap UInt32 Nat × Nat))}, (∀ e ∈ xs, e.1.length = 4) → (∀ e ∈ ys, e.1.length = 4) →
    (xs.map ecuText).flatten = (ys.map ecuText).flatten → xs = ys
  | [], [], _, _, _ => rfl
  | [], y :: ys, _, _, he => by
    simp only [List.map_nil, List.flatten_nil, List.map_cons, List.flatten_cons, ecuText_eq, List.append_assoc] at he
    have := congrArg List.length he
    rw [show utf8 " #lifecycles: (" = 32 :: (utf8 " #lifecycles: (").tail from by decide] at this
    simp at this
  | x :: xs, [], _, _, he => by
    simp only [List.map_nil, List.flatten_nil, List.map_cons, List.flatten_cons, ecuText_eq, List.append_assoc] at he
    have := congrArg List.length he
    rw [show utf8 " #lifecycles: (" = 32 :: (utf8 " #lifecycles: (").tail from by decide] at this
    simp at this
  | x :: xs, y :: ys, hx, hy, he => by
    simp only [List.map_cons, List.flatten_cons, ecuText_eq, List.append_assoc] at he
    obtain ⟨h1, he⟩ := bytes4_eq (hx x List.mem_cons_self) (hy y List.mem_cons_self) he
    obtain ⟨h2, he⟩ := read_map (List.append_cancel_left he)
    obtain ⟨h3, he⟩ := read_num ")\n" (by decide) (List.append_cancel_left he)
    rw [ecus_flatten (fun e h => hx e (List.mem_cons_of_mem _ h)) (fun e h => hy e (List.mem_cons_of_mem _ h)) he,
      Prod.ext h1 (Prod.ext h2 h3)]

/-- The shape of the report of a command. -/
def reportShape (c : Cmd) (r : Report) : Prop :=
  match c, r with
  | .histogramLifecycles, .buckets _ | .histogramTimestamp, .buckets _ | .parHistogramTimestamp, .buckets _ => True
  | .splitLifecycles, .ecus ls | .splitTimestamp, .ecus ls | .parSplitTimestamp, .ecus ls => ∀ e ∈ ls, e.1.length = 4
  | .histogramMessageType, .infos _ => True
  | .histogramPayloadSize, .sizes _ _ | .histogramMessageSize, .sizes _ _ => True
  | .histogramHelloWorld, .offsets _ => True
  | .count, .number _ | .parCount, .number _ | .countHelloWorld, .number _ | .countHelloWorldRaw, .number _
  | .countHelloWorldGrepit, .number _ | .parCountHelloWorld, .number _ | .parCountHelloWorldRaw, .number _
  | .parCountHelloWorldGrepit, .number _ | .iter, .number _ | .itertools, .number _ => True
  | .parIter, .nothing => True
  | _, _ => False

theorem bind_ok' {α β : Type} {q : Res α} {f : α → Res β} {b : β} (h : Res.ok b = q.bind f) : ∃ a, q = .ok a ∧ f a = .ok b := by
  cases q with
  | panic => cases h
  | ok a => exact ⟨a, rfl, h.symm⟩

theorem ecuLines_four {m : List (B4 × (OrdMap UInt32 Nat × Nat))} {r : Report} (h : ecuReport m = .ok r) :
    ∃ ls, r = .ecus ls ∧ ∀ e ∈ ls, e.1.length = 4 := by
  have hu : ∀ e ∈ m, Utf8 e.1.toBytes := fun e he => by
    apply Classical.byContradiction
    intro hn
    rw [ecuReport_of.1.2 ⟨e, he, hn⟩] at h
    cases h
  rw [ecuReport_of.2 hu] at h
  cases h
  refine ⟨_, rfl, fun e he => ?_⟩
  obtain ⟨x, -, rfl⟩ := List.mem_map.1 he
  rfl

theorem run_shape {num : Nat} {bytes : Bytes} {c : Cmd} {r : Report} (h : RunCmd num bytes c (.ok r)) : reportShape c r := by
  have hb : ∀ {m}, bucketReport m = .ok r → ∃ ls, r = .buckets ls := fun {m} h => by
    unfold bucketReport at h
    obtain ⟨a, -, h2⟩ := bind_ok' h.symm
    cases h2; exact ⟨_, rfl⟩
  have hs : ∀ {m}, sizeReport m = .ok r → ∃ ls t, r = .sizes ls t := fun {m} h => by
    unfold sizeReport at h
    obtain ⟨a, -, h2⟩ := bind_ok' h.symm
    cases h2; exact ⟨_, _, rfl⟩
  have hof : ∀ {m}, offsetReport m = .ok r → ∃ ls, r = .offsets ls := fun {m} h => by
    unfold offsetReport at h
    obtain ⟨a, -, h2⟩ := bind_ok' h.symm
    cases h2; exact ⟨_, rfl⟩
  have hn : ∀ {n}, numberReport n = .ok r → ∃ n, r = .number n := fun {n} h => by cases h; exact ⟨_, rfl⟩
  have seq : ∀ {α : Type} {x : Option (Res α)} {f : α → Res Report}, printed x f = some (.ok r) → ∃ a, f a = .ok r := by
    intro α x f h
    obtain ⟨q, -, h2⟩ := printed_iff.1 h
    obtain ⟨a, -, h3⟩ := bind_ok' h2
    exact ⟨a, h3⟩
  have par : ∀ {α : Type} {P : Res α → Prop} {f : α → Res Report}, (∃ q, P q ∧ Res.ok r = q.bind f) → ∃ a, f a = .ok r := by
    rintro α P f ⟨q, -, h2⟩
    obtain ⟨a, -, h3⟩ := bind_ok' h2
    exact ⟨a, h3⟩
  cases c
  case histogramLifecycles => obtain ⟨a, ha⟩ := seq h; obtain ⟨ls, rfl⟩ := hb ha; trivial
  case histogramTimestamp => obtain ⟨a, ha⟩ := seq h; obtain ⟨ls, rfl⟩ := hb ha; trivial
  case parHistogramTimestamp => obtain ⟨a, ha⟩ := par h; obtain ⟨ls, rfl⟩ := hb ha; trivial
  case splitLifecycles => obtain ⟨a, ha⟩ := seq h; obtain ⟨ls, rfl, h4⟩ := ecuLines_four ha; exact h4
  case splitTimestamp => obtain ⟨a, ha⟩ := seq h; obtain ⟨ls, rfl, h4⟩ := ecuLines_four ha; exact h4
  case parSplitTimestamp => obtain ⟨a, ha⟩ := par h; obtain ⟨ls, rfl, h4⟩ := ecuLines_four ha; exact h4
  case histogramMessageType => obtain ⟨a, ha⟩ := seq h; cases ha; trivial
  case histogramPayloadSize => obtain ⟨a, ha⟩ := seq h; obtain ⟨ls, t, rfl⟩ := hs ha; trivial
  case histogramMessageSize => obtain ⟨a, ha⟩ := seq h; obtain ⟨ls, t, rfl⟩ := hs ha; trivial
  case histogramHelloWorld => obtain ⟨a, ha⟩ := seq h; obtain ⟨ls, rfl⟩ := hof ha; trivial
  case parIter => obtain ⟨a, ha⟩ := par h; cases ha; trivial
  case count => obtain ⟨a, ha⟩ := seq h; obtain ⟨n, rfl⟩ := hn ha; trivial
  case parCount => obtain ⟨a, ha⟩ := par h; obtain ⟨n, rfl⟩ := hn ha; trivial
  case countHelloWorld => obtain ⟨a, ha⟩ := seq h; obtain ⟨n, rfl⟩ := hn ha; trivial
  case countHelloWorldRaw => obtain ⟨a, ha⟩ := seq h; obtain ⟨n, rfl⟩ := hn ha; trivial
  case countHelloWorldGrepit => obtain ⟨a, ha⟩ := seq h; obtain ⟨n, rfl⟩ := hn ha; trivial
  case parCountHelloWorld => obtain ⟨a, ha⟩ := par h; obtain ⟨n, rfl⟩ := hn ha; trivial
  case parCountHelloWorldRaw => obtain ⟨a, ha⟩ := par h; obtain ⟨n, rfl⟩ := hn ha; trivial
  case parCountHelloWorldGrepit => obtain ⟨a, ha⟩ := par h; obtain ⟨n, rfl⟩ := hn ha; trivial
  case iter => obtain ⟨a, ha⟩ := seq h; obtain ⟨n, rfl⟩ := hn ha; trivial
  case itertools => obtain ⟨a, ha⟩ := seq h; obtain ⟨n, rfl⟩ := hn ha; trivial

/-- The number of the constructor. -/
def Report.kind : Report → Nat
  | .buckets _ => 0 | .ecus _ => 1 | .infos _ => 2 | .sizes _ _ => 3 | .offsets _ => 4 | .number _ => 5 | .nothing => 6

theorem shape_kind {c : Cmd} {r r' : Report} (h : reportShape c r) (h' : reportShape c r') : r.kind = r'.kind := by
  have key : ∀ c r, reportShape c r → r.kind = (match c with
      | .histogramLifecycles | .histogramTimestamp | .parHistogramTimestamp => 0
      | .splitLifecycles | .splitTimestamp | .parSplitTimestamp => 1
      | .histogramMessageType => 2
      | .histogramPayloadSize | .histogramMessageSize => 3
      | .histogramHelloWorld => 4
      | .parIter => 6
      | _ => 5) := by
    intro c r h
    cases c <;> cases r <;> first | rfl | exact False.elim h
  rw [key c r h, key c r' h']

theorem shape_ecus {c : Cmd} {ls : List (Bytes × (OrdMap UInt32 Nat × Nat))} (h : reportShape c (.ecus ls)) :
    ∀ e ∈ ls, e.1.length = 4 := by
  cases c <;> first | exact h | exact False.elim h

theorem number_read {n m : Nat} {c : Cmd} (h : (linesOf c (.number n)).flatten = (linesOf c (.number m)).flatten) : n = m := by
  simp only [linesOf, List.flatten_cons, List.flatten_nil, List.append_nil, utf8_append, toString_str, utf8_toString,
    List.append_assoc] at h
  exact (read_num " " (by decide) h).1

theorem sizes_read {a b : List (Nat × Nat × Nat)} {s t : Nat} {c : Cmd}
    (h : (linesOf c (.sizes a s)).flatten = (linesOf c (.sizes b t)).flatten) : a = b ∧ s = t := by
  have key : ∀ l d, noDigit l = true → utf8 s!"{l} in total: {d} kB\n" = utf8 l ++ (utf8 " in total: " ++ (digits d ++ utf8 " kB\n")) := by
    intro l d _
    simp only [utf8_append, toString_str, utf8_toString, List.append_assoc]
  have hl : noDigit (totalOf c) = true := by cases c <;> decide
  simp only [linesOf, List.flatten_append, List.flatten_cons, List.flatten_nil, List.append_nil, key _ _ hl] at h
  obtain ⟨x, r, h1, h2⟩ := noDigit_cons hl
  rw [h1, List.cons_append, List.cons_append] at h
  obtain ⟨h3, h4⟩ := size_readable.flatten_tail (fun l => by
    show ∃ b r, utf8 _ = b :: r ∧ isDigit b
    rw [size_text]
    obtain ⟨b, r, e1, e2⟩ := digits_cons l.1
    exact ⟨b, _, by rw [e1]; rfl, e2⟩) h2 h2 h
  refine ⟨h3, ?_⟩
  simp only [List.cons.injEq, true_and] at h4
  exact (read_num " kB\n" (by decide) (s := []) (t := []) (by
    rw [List.append_nil]
    exact List.append_cancel_left (List.append_cancel_left h4))).1

theorem lines_read {c : Cmd} {r r' : Report} (h1 : reportShape c r) (h2 : reportShape c r')
    (h : (linesOf c r).flatten = (linesOf c r').flatten) : r = r' := by
  have hk := shape_kind h1 h2
  cases r <;> cases r' <;> first | (cases hk; done) | skip
  case buckets => exact congrArg _ (bucket_readable.flatten h)
  case ecus => exact congrArg _ (ecus_flatten (shape_ecus h1) (shape_ecus h2) h)
  case infos => exact congrArg _ (info_readable.flatten h)
  case sizes => rw [(sizes_read h).1, (sizes_read h).2]
  case offsets => exact congrArg _ (offset_readable.flatten h)
  case number => rw [number_read h]
  case nothing => rfl

/-- Reading back the lines behind an opening. -/
theorem opening_lines_read (c : Cmd) (num num' : Nat) (bytes bytes' : Bytes) (slices slices' : Nat) (r r' : Report)
    (h : RunCmd num bytes c (.ok r)) (h' : RunCmd num' bytes' c (.ok r'))
    (he : openingOf num slices c ++ (linesOf c r).flatten = openingOf num' slices' c ++ (linesOf c r').flatten) : r = r' := by
  have h1 := run_shape h
  have h2 := run_shape h'
  have hlines : (linesOf c r).flatten = (linesOf c r').flatten := by
    by_cases hs : sequential c = true
    · rw [opening_seq hs, opening_seq hs] at he
      exact List.append_cancel_left he
    · have hs' : sequential c = false := by simpa using hs
      rw [opening_par hs', opening_par hs', List.append_assoc, List.append_assoc] at he
      replace he := List.append_cancel_left he
      unfold startLine at he
      simp only [utf8_append, toString_str, utf8_toString, List.append_assoc] at he
      replace he := List.append_cancel_left he
      obtain ⟨-, he⟩ := read_num ", slices = " (by decide) he
      exact (read_num "\n" (by decide) he).2
  exact lines_read h1 h2 hlines

/-- **C89** the printed text determines the report: two runs of one command that print the same text report the same,
whatever the files and the numbers of threads. -/
theorem C89_text_identifies_report (c : Cmd) (hc : c ≠ .parIter) (num num' : Nat) (hnum : num ≠ 0) (hnum' : num' ≠ 0)
    (bytes bytes' : Bytes) (hF : Fits bytes) (hF' : Fits bytes') (out : Bytes) (h : CmdText num bytes c (out, true))
    (h' : CmdText num' bytes' c (out, true)) :
    ∃ r, (∀ q, RunCmd num bytes c q ↔ q = .ok r) ∧ (∀ q, RunCmd num' bytes' c q ↔ q = .ok r) := by
  obtain ⟨-, -, slices, -, -, -, hp, -⟩ := C30_partition_contiguous bytes hF num hnum
  obtain ⟨-, -, slices', -, -, -, hp', -⟩ := C30_partition_contiguous bytes' hF' num' hnum'
  obtain ⟨r, h1, h2⟩ := (C88_text num bytes c hc slices hp out).1 h
  obtain ⟨r', h1', h2'⟩ := (C88_text num' bytes' c hc slices' hp' out).1 h'
  obtain ⟨q, hq⟩ := C66_one_result num hnum bytes hF c
  obtain ⟨q', hq'⟩ := C66_one_result num' hnum' bytes' hF' c
  have e := opening_lines_read c num num' bytes bytes' slices.length slices'.length r r' h1 h1' (by rw [← h2, ← h2'])
  subst e
  have e1 := (hq _).1 h1
  have e2 := (hq' _).1 h1'
  exact ⟨r, by rw [e1]; exact hq, by rw [e2]; exact hq'⟩

/-! ## `par_iter` -/

theorem each_iterLine {slices : List Bytes} {ns : List Nat} (h : Each (fun s n => lifecycleIter s = some (.ok n)) slices ns) :
    slices.map iterLine = (ns.map fun n => utf8 s!"{n} lifecycles >= 1800s\n").map some := by
  induction slices generalizing ns with
  | nil => cases ns with
    | nil => rfl
    | cons => exact False.elim h
  | cons s slices ih => cases ns with
    | nil => exact False.elim h
    | cons n ns =>
      have h0 : iterLine s = some (utf8 s!"{n} lifecycles >= 1800s\n") := by
        unfold iterLine; rw [show lifecycleIter s = some (.ok n) from h.1]; rfl
      rw [List.map_cons, List.map_cons, List.map_cons, h0, ih h.2]

theorem map_some_inj {α : Type} {a b : List α} (h : a.map some = b.map some) : a = b := by
  have := congrArg (fun l => l.filterMap id) h
  simpa using this

theorem iter_run (num : Nat) (s : Bytes) (n : Nat) : lifecycleIter s = some (.ok n) ↔ RunCmd num s .iter (.ok (.number n)) := by
  show _ ↔ printed (lifecycleIter s) numberReport = some (.ok (.number n))
  rw [printed_iff]
  constructor
  · intro h; exact ⟨_, h, rfl⟩
  · rintro ⟨q, h, he⟩
    obtain ⟨a, rfl, h2⟩ := bind_ok' he
    cases h2
    exact h

theorem iter_run_panic (num : Nat) (s : Bytes) : lifecycleIter s = some .panic ↔ RunCmd num s .iter .panic := by
  show _ ↔ printed (lifecycleIter s) numberReport = some .panic
  rw [printed_iff]
  constructor
  · intro h; exact ⟨_, h, rfl⟩
  · rintro ⟨q, h, he⟩
    cases q with
    | panic => exact h
    | ok a => cases he

theorem iter_lines (ns : List Nat) :
    (ns.flatMap fun n => linesOf .iter (.number n)) = ns.map fun n => utf8 s!"{n} lifecycles >= 1800s\n" := by
  induction ns with
  | nil => rfl
  | cons n ns ih =>
    rw [List.flatMap_cons, List.map_cons, ih]
    have h : linesOf .iter (.number n) = [utf8 s!"{n} lifecycles >= 1800s\n"] := by
      simp only [linesOf, unitOf, utf8_append, toString_str, utf8_toString, List.append_assoc]
      congr 2
    rw [h]
    rfl

theorem iter_sublist (num : Nat) : ∀ {slices ls : List Bytes}, ls.Sublist (slices.filterMap iterLine) →
    ∃ sub : List Bytes, sub.Sublist slices ∧ ∃ ns, Each (fun s n => RunCmd num s .iter (.ok (.number n))) sub ns ∧
      ls = ns.map fun n => utf8 s!"{n} lifecycles >= 1800s\n"
  | [], ls, e1 => by
    rw [List.filterMap_nil, List.sublist_nil] at e1
    exact ⟨[], List.nil_sublist _, [], trivial, e1⟩
  | s :: slices, ls, e1 => by
    rw [List.filterMap_cons] at e1
    cases hl : iterLine s with
    | none =>
      rw [hl] at e1
      obtain ⟨sub, a, ns, b, c⟩ := iter_sublist num e1
      exact ⟨sub, a.cons _, ns, b, c⟩
    | some l =>
      rw [hl] at e1
      rcases List.sublist_cons_iff.1 e1 with e2 | ⟨r, rfl, e2⟩
      · obtain ⟨sub, a, ns, b, c⟩ := iter_sublist num e2
        exact ⟨sub, a.cons _, ns, b, c⟩
      · obtain ⟨sub, a, ns, b, c⟩ := iter_sublist num e2
        unfold iterLine at hl
        split at hl
        · rename_i n hn
          cases hl
          exact ⟨s :: sub, a.cons_cons _, n :: ns, ⟨(iter_run num s n).1 hn, b⟩, by rw [c, List.map_cons]; rfl⟩
        · cases hl

/-- **C90** if `iter` panics on no slice, `par_iter` ends and prints the line `iter` prints on each slice, in any order: all
these texts are possible and no others. -/
theorem C90_par_iter_prints (num : Nat) (bytes : Bytes) (hF : Fits bytes) (slices : List Bytes)
    (hp : partitionFrom dltStorage bytes num = .ok slices) (hok : ¬ ∃ s ∈ slices, RunCmd num s .iter .panic) :
    ∃ ns, Each (fun s n => RunCmd num s .iter (.ok (.number n))) slices ns ∧ ∀ out ok, CmdText num bytes .parIter (out, ok) ↔
      ok = true ∧ ∃ lines : List Bytes, lines.Perm (ns.flatMap fun n => linesOf .iter (.number n)) ∧
        out = utf8 (startLine num slices.length) ++ lines.flatten := by
  rcases multithreaded_counter hF hp lifecycleIter_total lifecycleIter_le with ⟨⟨s, hs, h1⟩, -⟩ | ⟨-, ns, h2, h3⟩
  · exact absurd ⟨s, hs, (iter_run_panic num s).1 h1⟩ hok
  refine ⟨ns, each_iff (iter_run num) h2, fun out ok => ?_⟩
  have hfl := iter_lines ns
  have hlines := each_iterLine h2
  rw [hfl]
  constructor
  · rintro ⟨q, sl, lines, hq, hsl, h4, h5, h6⟩
    rw [hp] at hsl
    cases hsl
    rw [(h3 q).1 hq] at h4
    have h4' : ok = true := h4
    subst h4'
    refine ⟨rfl, lines, ?_, by rw [← slicesLine_eq hp]; exact h6⟩
    obtain ⟨ls, e1, e2⟩ := h5
    rw [hlines] at e1
    rw [map_some_inj e1]
    exact e2
  · rintro ⟨rfl, lines, h4, h5⟩
    exact ⟨_, slices, lines, (h3 _).2 rfl, hp, rfl, ⟨_, hlines, h4⟩, by rw [slicesLine_eq hp]; exact h5⟩

/-- **C90** if `iter` panics on a slice, `par_iter` panics; what it has printed are lines of other slices. -/
theorem C90_par_iter_panics (num : Nat) (bytes : Bytes) (hF : Fits bytes) (slices : List Bytes)
    (hp : partitionFrom dltStorage bytes num = .ok slices) (hbad : ∃ s ∈ slices, RunCmd num s .iter .panic) (out : Bytes) (ok : Bool)
    (h : CmdText num bytes .parIter (out, ok)) :
    ok = false ∧ ∃ some_ : List Bytes, some_.Sublist slices ∧ ∃ ns, Each (fun s n => RunCmd num s .iter (.ok (.number n))) some_ ns ∧
      ∃ lines : List Bytes, lines.Perm (ns.flatMap fun n => linesOf .iter (.number n)) ∧
        out = utf8 (startLine num slices.length) ++ lines.flatten := by
  obtain ⟨s0, hs0, h0⟩ := hbad
  rcases multithreaded_counter hF hp lifecycleIter_total lifecycleIter_le with ⟨-, h3⟩ | ⟨h1, -⟩
  · obtain ⟨q, sl, lines, hq, hsl, h4, h5, h6⟩ := h
    rw [hp] at hsl
    cases hsl
    rw [(h3 q).1 hq] at h4
    have h4' : ok = false := h4
    subst h4'
    refine ⟨rfl, ?_⟩
    obtain ⟨ls, e1, e2⟩ := h5
    obtain ⟨sub, e3, ns, e4, e5⟩ := iter_sublist num e1
    refine ⟨sub, e3, ns, e4, lines, ?_, by rw [← slicesLine_eq hp]; exact h6⟩
    rw [iter_lines ns, ← e5]
    exact e2
  · exact absurd ⟨s0, hs0, (iter_run_panic num s0).2 h0⟩ h1

/-- **C88, C90** a command prints some text and ends exactly if its run reports something, and prints some text and panics
exactly if its run panics. -/
theorem C88_ends (num : Nat) (hnum : num ≠ 0) (bytes : Bytes) (hF : Fits bytes) (c : Cmd) :
    ((∃ out, CmdText num bytes c (out, true)) ↔ ∃ r, RunCmd num bytes c (.ok r)) ∧
    ((∃ out, CmdText num bytes c (out, false)) ↔ RunCmd num bytes c .panic) := by
  obtain ⟨-, -, slices, -, -, -, hp, -⟩ := C30_partition_contiguous bytes hF num hnum
  by_cases hc : c = .parIter
  · subst hc
    have hrun : ∀ r, RunCmd num bytes .parIter r ↔ ∃ q, Multithreaded lifecycleIter bytes num q ∧ r = q.bind fun _ => .ok .nothing :=
      fun r => Iff.rfl
    rcases multithreaded_counter hF hp lifecycleIter_total lifecycleIter_le with ⟨⟨s, hs, h1⟩, h2⟩ | ⟨h1, ns, h2, h3⟩
    · have hp2 := C90_par_iter_panics num bytes hF slices hp ⟨s, hs, (iter_run_panic num s).1 h1⟩
      refine ⟨⟨fun ⟨out, h⟩ => ?_, fun ⟨r, h⟩ => ?_⟩, ⟨fun _ => (hrun _).2 ⟨.panic, (h2 _).2 rfl, rfl⟩, fun _ => ?_⟩⟩
      · cases (hp2 out true h).1
      · obtain ⟨q, h3, h4⟩ := (hrun _).1 h
        rw [(h2 q).1 h3] at h4
        cases h4
      · exact ⟨slicesLine num bytes, .panic, slices, [], (h2 _).2 rfl, hp, rfl, ⟨[], List.nil_sublist _, List.Perm.nil⟩,
          by simp⟩
    · obtain ⟨ns', -, hp2⟩ := C90_par_iter_prints num bytes hF slices hp fun ⟨s, hs, h⟩ => h1 ⟨s, hs, (iter_run_panic num s).2 h⟩
      refine ⟨⟨fun _ => ⟨.nothing, (hrun _).2 ⟨_, (h3 _).2 rfl, rfl⟩⟩, fun _ => ⟨_, (hp2 _ true).2 ⟨rfl, _, List.Perm.refl _, rfl⟩⟩⟩,
        ⟨fun ⟨out, h⟩ => ?_, fun h => ?_⟩⟩
      · cases ((hp2 out false).1 h).1
      · obtain ⟨q, h4, h5⟩ := (hrun _).1 h
        rw [(h3 q).1 h4] at h5
        cases h5
  · refine ⟨?_, C88_panics num bytes c hc slices hp⟩
    constructor
    · rintro ⟨out, h⟩
      obtain ⟨r, h1, -⟩ := (C88_text num bytes c hc slices hp out).1 h
      exact ⟨r, h1⟩
    · rintro ⟨r, h⟩
      exact ⟨_, (C88_text num bytes c hc slices hp _).2 ⟨r, h, rfl⟩⟩

/-! ## The program -/

/-- **C88** with fewer than three arguments the program prints how it is used and nothing else. -/
theorem C88_usage (num : Nat) (f : OsFile) (prog : String) (args : List String) (hlen : args.length < 3) (out : Bytes × Bool) :
    RipText num f prog args out ↔ out = (utf8 ("usage: " ++ prog ++ " <file_access_method> <test_name> <filename.dlt>\n" ++
      "  runs ripdlt tests with different implementations\n"), true) := by
  have key : RipText num f prog args out ↔ out = (text (s!"usage: {prog} <file_access_method> <test_name> <filename.dlt>\n" ++
      "  runs ripdlt tests with different implementations\n"), true) := by
    match args, hlen with
    | [], _ => exact Iff.rfl
    | [_], _ => exact Iff.rfl
    | [_, _], _ => exact Iff.rfl
  rw [key]
  exact Iff.rfl

/-- **C88** with wrong arguments it prints its arguments and panics. -/
theorem C88_rejects (num : Nat) (f : OsFile) (prog m c name : String) (rest : List String) (out : Bytes × Bool)
    (hbad : (m ≠ "mmap" ∧ m ≠ "read") ∨ (∀ k, c ≠ cmdName k) ∨ f.opens = false ∨ (m = "mmap" ∧ f.contents = []) ∨
      (m = "mmap" ∧ f.maps = false)) :
    RipText num f prog (m :: c :: name :: rest) out ↔ out = (echoLine prog (m :: c :: name :: rest), false) := by
  unfold RipText
  dsimp only
  split
  · exact Iff.rfl
  · rename_i b hb
    have hc : Cmd.ofString c = none := by
      rw [cmdName_ne_none]
      rcases hbad with ⟨h1, h2⟩ | h | h | ⟨h1, h⟩ | ⟨h1, h⟩
      · rw [if_neg h1, if_neg h2] at hb; cases hb
      · exact h
      · split at hb
        · rw [C60_mmap_file, h] at hb; cases hb.1
        · split at hb
          · unfold DltBuffer.readFile at hb; rw [h] at hb; cases hb
          · cases hb
      · rw [if_pos h1, C60_mmap_file] at hb; exact absurd h hb.2.2.1
      · rw [if_pos h1, C60_mmap_file, h] at hb; cases hb.2.1
    rw [hc]
    exact Iff.rfl

/-- **C88** otherwise it prints its arguments and what the command prints on the contents of the buffer. -/
theorem C88_runs (num : Nat) (f : OsFile) (prog m name : String) (rest : List String) (c : Cmd) (b : DltBuffer)
    (hb : m = "mmap" ∧ DltBuffer.mmapFile f = some b ∨ m = "read" ∧ DltBuffer.readFile f = some b) (out : Bytes) (ok : Bool) :
    RipText num f prog (m :: cmdName c :: name :: rest) (out, ok) ↔
      ∃ o, CmdText num b.asSlice c (o, ok) ∧ out = echoLine prog (m :: cmdName c :: name :: rest) ++ o := by
  have h1 : (if m = "mmap" then DltBuffer.mmapFile f else if m = "read" then DltBuffer.readFile f else none) = some b := by
    rcases hb with ⟨rfl, h⟩ | ⟨rfl, h⟩
    · rw [if_pos rfl]; exact h
    · rw [if_neg (by decide), if_pos rfl]; exact h
  unfold RipText
  dsimp only
  rw [h1, (C64_names _ c).2 rfl]
  dsimp only
  constructor
  · rintro ⟨o, h, he⟩
    rw [Prod.mk.injEq] at he
    exact ⟨o.1, by rw [he.2]; exact h, he.1⟩
  · rintro ⟨o, h, he⟩
    exact ⟨(o, ok), h, by rw [he]; rfl⟩

/-- **C65** `mmap` and `read` make no difference to what is printed, apart from the argument itself in the first line. -/
theorem C65_same_text (num : Nat) (f : OsFile) (hf : Faithful f) (hopen : f.opens = true) (hmap : f.maps = true)
    (hne : f.contents ≠ []) (hno : ReadEvent.error ∉ f.reads) (prog c name : String) (rest : List String) (o : Bytes) (ok : Bool) :
    RipText num f prog ("mmap" :: c :: name :: rest) (echoLine prog ("mmap" :: c :: name :: rest) ++ o, ok) ↔
      RipText num f prog ("read" :: c :: name :: rest) (echoLine prog ("read" :: c :: name :: rest) ++ o, ok) := by
  have h1 := (C60_mmap_file f (.mmap f.contents)).2 ⟨hopen, hmap, hne, rfl⟩
  obtain ⟨b, h2⟩ : ∃ b, DltBuffer.readFile f = some b := by
    unfold DltBuffer.readFile; rw [hopen]; exact ⟨_, rfl⟩
  have h3 := (C55_read_and_mmap_agree f hf hno _ b h1 h2).2.1
  by_cases hc : ∃ k, c = cmdName k
  · obtain ⟨k, rfl⟩ := hc
    rw [C88_runs num f prog _ name rest k _ (.inl ⟨rfl, h1⟩), C88_runs num f prog _ name rest k _ (.inr ⟨rfl, h2⟩), h3]
    constructor
    · rintro ⟨o', h, he⟩
      rw [List.append_cancel_left he]
      exact ⟨o', h, rfl⟩
    · rintro ⟨o', h, he⟩
      rw [List.append_cancel_left he]
      exact ⟨o', h, rfl⟩
  · have hc' : ∀ k, c ≠ cmdName k := fun k hk => hc ⟨k, hk⟩
    rw [C88_rejects num f prog _ c name rest _ (.inr (.inl hc')), C88_rejects num f prog _ c name rest _ (.inr (.inl hc'))]
    simp only [Prod.mk.injEq, List.append_right_eq_self]

/-! ## The hypotheses are met -/

/-- `ripdlt mmap count x.dlt` on a file with four messages: the whole output. -/
example (out : Bytes) (ok : Bool) : RipText 2 ⟨true, [], packed (four 1 2 3 4), true⟩ "ripdlt" ["mmap", "count", "x.dlt"] (out, ok) ↔
    ok = true ∧ out = utf8 "ripdlt mmap count x.dlt\n4 messages\n" := by
  have hF := four_fits 1 2 3 4
  have hm := messages_packed (four_wf 1 2 3 4)
  obtain ⟨rep, h1, h2⟩ := C68_sequential_prints 2 _ hF _ hm .count rfl id
  have h3 : rep = .number 4 := by
    cases rep with
    | number n => have : n = 4 := h1; rw [this]
    | _ => exact False.elim h1
  subst h3
  obtain ⟨-, -, slices, -, -, -, hp, -⟩ := C30_partition_contiguous _ hF 2 (by decide)
  have hrun := C88_runs 2 ⟨true, [], packed (four 1 2 3 4), true⟩ "ripdlt" "mmap" "x.dlt" [] .count (.mmap (packed (four 1 2 3 4)))
    (.inl ⟨rfl, (C60_mmap_file _ _).2 ⟨rfl, rfl, by decide, rfl⟩⟩) out ok
  have hlit : echoLine "ripdlt" ["mmap", "count", "x.dlt"] ++ utf8 "4 messages\n" = utf8 "ripdlt mmap count x.dlt\n4 messages\n" := by
    decide +kernel
  have hline : (linesOf .count (.number 4)).flatten = utf8 "4 messages\n" := by decide +kernel
  rw [show ["mmap", "count", "x.dlt"] = "mmap" :: cmdName .count :: "x.dlt" :: [] from rfl, hrun,
    show (DltBuffer.mmap (packed (four 1 2 3 4))).asSlice = packed (four 1 2 3 4) from rfl]
  have hend := C88_ends 2 (by decide) _ hF .count
  constructor
  · rintro ⟨o, h, rfl⟩
    cases ok with
    | false =>
      have := hend.2.1 ⟨o, h⟩
      rw [h2] at this
      cases this
    | true =>
      obtain ⟨r, h4, rfl⟩ := (C88_text 2 _ .count (by decide) slices hp o).1 h
      rw [h2] at h4
      cases h4
      rw [opening_seq rfl, hline, ← hlit]
      exact ⟨rfl, rfl⟩
  · rintro ⟨rfl, rfl⟩
    refine ⟨utf8 "4 messages\n", (C88_text 2 _ .count (by decide) slices hp _).2 ⟨.number 4, (h2 _).2 rfl, ?_⟩, hlit.symm⟩
    rw [opening_seq rfl, hline]
    rfl

/-- `split_timestamp` on a file with one message whose ECU id is not text: the title, then a panic. -/
example : ∃ bytes, Fits bytes ∧ Messages bytes [latinMsg] ∧ ∀ out,
    CmdText 1 bytes .splitTimestamp out ↔ out = (utf8 (titleOf .splitTimestamp), false) := by
  have hF : Fits (fileOf [([], latinMsg)] []) := by unfold Fits; decide
  have hm := messages_single latinMsg (by decide)
  have hpanic := (C67_sequential_panics 1 _ hF _ hm .splitTimestamp rfl).2 ⟨latinMsg, by simp, latin_not_utf8⟩
  obtain ⟨out, ho⟩ := (C88_ends 1 (by decide) _ hF .splitTimestamp).2.2 hpanic
  obtain ⟨ls, pre, bad, post, ⟨m, h1, -, h2⟩, h3, h4, -, h5⟩ := C88_split_timestamp_stops 1 _ hF _ hm out ho
  have hpre : pre = [] := by
    cases pre with
    | nil => rfl
    | cons e pre =>
      have he : e ∈ m.map fun e => (e.1.toBytes, e.2) := by rw [← h2, h3]; simp
      obtain ⟨x, hx, rfl⟩ := List.mem_map.1 he
      obtain ⟨k, hk, hu⟩ := (histogram_keys h1 (fun k => Utf8 k.toBytes)).1 ⟨x, hx, h4 _ List.mem_cons_self⟩
      have : k = latinMsg.storageHeader.ecu := by simpa using hk
      rw [this] at hu
      exact absurd hu latin_not_utf8
  subst hpre
  obtain ⟨o, hone⟩ := C88_one_output 1 (by decide) _ hF .splitTimestamp (by decide)
  refine ⟨_, hF, hm, fun out' => ?_⟩
  rw [hone, ← (hone _).1 ho, h5]
  simp [linesOf]

/-- The texts of a size report, a type histogram and an ECU line. -/
example : (linesOf .histogramPayloadSize (.sizes [(10, 3, 0), (2000, 2, 3)] 3)).flatten =
      utf8 "10b: 3, overall: 0 kB\n2000b: 2, overall: 3 kB\nPayload in total: 3 kB\n" ∧
    (linesOf .histogramMessageType (.infos [((true, some (.log .info)), 5), ((false, none), 1)])).flatten =
      utf8 "(true, Some(DltTypeLog(DltLogInfo))): 5\n(false, None): 1\n" ∧
    (linesOf .splitTimestamp (.ecus [([69, 67, 85, 49], [(3, 1), (7, 2)], 12)])).flatten =
      utf8 "ECU1 #lifecycles: ({3: 1, 7: 2}, 12)\n" ∧
    (linesOf .histogramHelloWorld (.offsets [(0, 100, 7)])).flatten = utf8 "Offset 0M-100M: 7\n" ∧
    (linesOf .histogramTimestamp (.buckets [(5, 6, 7)])).flatten = utf8 "5-6 secs: 7\n" := by
  decide +kernel

/-! ## `par_iter` and the schedule -/

/-- A message of 24 bytes with a time stamp. -/
def tickMsg (a b c d : UInt8) : StorageEntry :=
  ⟨⟨⟨68, 76, 84, 1⟩, 0, 0, ⟨69, 67, 85, 49⟩⟩, ⟨⟨⟨0x30⟩, 0, 8⟩, [a, b, c, d]⟩⟩

/-- The times 0, half an hour, 0, 0. -/
def fourTicks : List StorageEntry := [tickMsg 0 0 0 0, tickMsg 0x01 0x12 0xA8 0x80, tickMsg 0 0 0 0, tickMsg 0 0 0 0]

/-- The times 0, just below half an hour, half an hour, half an hour. -/
def cutTicks : List StorageEntry :=
  [tickMsg 0 0 0 0, tickMsg 0x01 0x12 0xA8 0x7F, tickMsg 0x01 0x12 0xA8 0x80, tickMsg 0x01 0x12 0xA8 0x80]

theorem pair_slices {w x y z : StorageEntry} (hw : ∀ e ∈ [w, x, y, z], WF e ∧ (encode e).length = 24) :
    Fits (packed [w, x, y, z]) ∧
    partitionFrom dltStorage (packed [w, x, y, z]) 2 = .ok [packed [w, x], packed [y, z]] := by
  have hwf : ∀ e ∈ [w, x, y, z], WF e := fun e he => (hw e he).1
  have lw := (hw w (by simp)).2
  have lx := (hw x (by simp)).2
  have ly := (hw y (by simp)).2
  have lz := (hw z (by simp)).2
  have hl : (packed [w, x, y, z]).length = 96 := by
    unfold packed
    simp [lw, lx, ly, lz]
  have hF : Fits (packed [w, x, y, z]) := by unfold Fits; omega
  have hat : packedAt 0 [w, x, y, z] = [(0, w), (24, x), (48, y), (72, z)] := by
    unfold packedAt packedAt packedAt packedAt packedAt
    simp only [lw, lx, ly]
  have hmax : AtMost 65536 (packedAt 0 [w, x, y, z]) := by
    intro q hq
    simp only [hat, List.mem_cons, List.not_mem_nil, or_false] at hq
    rcases hq with rfl | rfl | rfl | rfl <;> simp only [lw, lx, ly, lz] <;> omega
  have hc : containedBy dltStorage (packed [w, x, y, z]) 48 (48 + 1) = .ok none := by
    refine containedBy_packed_none hwf hF hmax (by omega) ?_
    intro q hq hin
    have h1 := hin.1
    have h2 := hin.2
    simp only [hat, List.mem_cons, List.not_mem_nil, or_false] at hq
    rcases hq with rfl | rfl | rfl | rfl <;> simp only [lw, lx, ly, lz] at h1 h2 <;> omega
  have hr : partitionRanges dltStorage (packed [w, x, y, z]) 2 = .ok [(0, 48), (48, 96)] := by
    rw [partitionRanges_pos (by decide), hl, show 96 / 2 = 48 from rfl]
    refine partitionLoop_cut _ (c := 48) hc rfl (by omega) (by omega) (by omega) (by omega) ?_
    have hc2 : containedBy dltStorage (packed [w, x, y, z]) 96 (96 + 1) = .ok none := by
      rw [containedBy_unfold, if_pos (Or.inl (by rw [hl]; decide))]
    have h := partitionLoop_last (size := 48) (c0 := 48) (packed [w, x, y, z]) (c := 96) hc2 rfl (by omega) (by omega) (by omega)
      (by omega)
    rw [hl] at h
    exact h
  refine ⟨hF, ?_⟩
  rw [partitionFrom_of_ranges hr]
  have hsplit : packed [w, x, y, z] = packed [w, x] ++ packed [y, z] := by unfold packed; simp
  have h1 : (packed [w, x]).length = 48 := by unfold packed; simp [lw, lx]
  have h2 : (packed [y, z]).length = 48 := by unfold packed; simp [ly, lz]
  rw [hsplit]
  simp only [List.map_cons, List.map_nil, List.drop_zero]
  rw [List.take_append_of_le_length (by omega), List.take_of_length_le (by omega), List.take_of_length_le (by simp [h1, h2]),
    ← h1, List.drop_left]

theorem iter_of_messages {bytes : Bytes} (hF : Fits bytes) {msgs : List StorageEntry} (h : Messages bytes msgs)
    (hc : ∀ e ∈ timed msgs, (timeOf e).isSome) : lifecycleIter bytes =
      some (.ok ((runsL (fun a b => decide (time a ≤ time b)) (timed msgs)).filter fun r => decide (halfHour ≤ timeSpanOf r)).length) := by
  obtain ⟨runs, h1, h2⟩ := (C48_lifecycle_iter_partial bytes hF msgs h).2 hc
  rw [h2, maximalRuns_eq (fun a b => decide (time a ≤ time b)) (xs := timed msgs) (runs := runs) (by simpa using h1)]

theorem ticks_wf {a b c d : UInt8} : WF (tickMsg a b c d) ∧ (encode (tickMsg a b c d)).length = 24 := ⟨⟨rfl, rfl⟩, rfl⟩

theorem four_of {P : StorageEntry → Prop} {w x y z : StorageEntry} (hw : P w) (hx : P x) (hy : P y) (hz : P z) :
    ∀ e ∈ [w, x, y, z], P e := by
  intro e he
  simp only [List.mem_cons, List.not_mem_nil, or_false] at he
  rcases he with rfl | rfl | rfl | rfl <;> assumption

theorem pair_messages {x y : StorageEntry} (hx : WF x) (hy : WF y) : Messages (packed [x, y]) [x, y] :=
  messages_packed fun e he => by
    simp only [List.mem_cons, List.not_mem_nil, or_false] at he
    rcases he with rfl | rfl <;> assumption

theorem pair_fits {x y : StorageEntry} (hx : (encode x).length = 24) (hy : (encode y).length = 24) : Fits (packed [x, y]) := by
  unfold Fits packed; simp [hx, hy]

theorem perm_pair {α : Type} {l : List α} {x y : α} (h : l.Perm [x, y]) : l = [x, y] ∨ l = [y, x] := by
  have hl := h.length_eq
  match l, hl with
  | [p, q], _ =>
    have hp : p ∈ [x, y] := h.mem_iff.1 List.mem_cons_self
    simp only [List.mem_cons, List.not_mem_nil, or_false] at hp
    rcases hp with rfl | rfl
    · have := List.perm_singleton.1 (List.Perm.cons_inv h)
      exact .inl (by rw [this])
    · have := List.perm_singleton.1 (List.Perm.cons_inv (h.trans (List.Perm.swap _ _ _)))
      exact .inr (by rw [this])

/-- What `par_iter` prints for two slices. -/
theorem two_slices {num : Nat} {bytes : Bytes} (hF : Fits bytes) {s t : Bytes} {a b : Nat}
    (hp : partitionFrom dltStorage bytes num = .ok [s, t]) (hs : lifecycleIter s = some (.ok a)) (ht : lifecycleIter t = some (.ok b))
    (out : Bytes) (ok : Bool) : CmdText num bytes .parIter (out, ok) ↔ ok = true ∧
      (out = utf8 (startLine num 2) ++ (linesOf .iter (.number a) ++ linesOf .iter (.number b)).flatten ∨
       out = utf8 (startLine num 2) ++ (linesOf .iter (.number b) ++ linesOf .iter (.number a)).flatten) := by
  obtain ⟨ns, h1, h2⟩ := C90_par_iter_prints num bytes hF [s, t] hp (by
    rintro ⟨x, hx, h⟩
    simp only [List.mem_cons, List.not_mem_nil, or_false] at hx
    rcases hx with rfl | rfl
    · rw [← iter_run_panic, hs] at h; cases h
    · rw [← iter_run_panic, ht] at h; cases h)
  have hns : ns = [a, b] := by
    match ns, h1 with
    | [], h => exact False.elim h
    | [_], h => exact False.elim h.2
    | [x, y], ⟨e1, e2, _⟩ =>
      have e1' := (iter_run num s x).2 e1
      have e2' := (iter_run num t y).2 e2
      rw [hs] at e1'
      rw [ht] at e2'
      cases e1'; cases e2'; rfl
    | _ :: _ :: _ :: _, h => exact False.elim h.2.2
  subst hns
  rw [h2]
  refine and_congr_right fun _ => ?_
  constructor
  · rintro ⟨lines, hl, rfl⟩
    have hl' : lines.Perm [utf8 s!"{a} {unitOf .iter}\n", utf8 s!"{b} {unitOf .iter}\n"] := hl
    rcases perm_pair hl' with rfl | rfl
    · exact .inl rfl
    · exact .inr rfl
  · rintro (rfl | rfl)
    · exact ⟨_, List.Perm.refl _, rfl⟩
    · exact ⟨_, List.Perm.swap _ _ _, rfl⟩

/-- **C90** the text of `par_iter` depends on the schedule: with two threads, four messages at the times 0, half an hour,
0, 0 are reported in two ways. -/
theorem C90_order_varies (out : Bytes) (ok : Bool) : Fits (packed fourTicks) ∧ (
    CmdText 2 (packed fourTicks) .parIter (out, ok) ↔ ok = true ∧
    (out = utf8 "available parallelism = 2, slices = 2\n1 lifecycles >= 1800s\n0 lifecycles >= 1800s\n" ∨
     out = utf8 "available parallelism = 2, slices = 2\n0 lifecycles >= 1800s\n1 lifecycles >= 1800s\n")) := by
  obtain ⟨hF, hp⟩ := pair_slices (four_of (P := fun e => WF e ∧ (encode e).length = 24)
    (w := tickMsg 0 0 0 0) (x := tickMsg 0x01 0x12 0xA8 0x80) (y := tickMsg 0 0 0 0) (z := tickMsg 0 0 0 0) ticks_wf ticks_wf ticks_wf ticks_wf)
  refine ⟨hF, ?_⟩
  have h1 : lifecycleIter (packed [tickMsg 0 0 0 0, tickMsg 0x01 0x12 0xA8 0x80]) = some (.ok 1) := by
    rw [iter_of_messages (pair_fits ticks_wf.2 ticks_wf.2) (pair_messages ticks_wf.1 ticks_wf.1) (by decide)]
    decide
  have h2 : lifecycleIter (packed [tickMsg 0 0 0 0, tickMsg 0 0 0 0]) = some (.ok 0) := by
    rw [iter_of_messages (pair_fits ticks_wf.2 ticks_wf.2) (pair_messages ticks_wf.1 ticks_wf.1) (by decide)]
    decide
  rw [show fourTicks = [tickMsg 0 0 0 0, tickMsg 0x01 0x12 0xA8 0x80, tickMsg 0 0 0 0, tickMsg 0 0 0 0] from rfl,
    two_slices hF hp h1 h2]
  rw [show utf8 (startLine 2 2) ++ (linesOf .iter (.number 1) ++ linesOf .iter (.number 0)).flatten =
      utf8 "available parallelism = 2, slices = 2\n1 lifecycles >= 1800s\n0 lifecycles >= 1800s\n" by decide +kernel,
    show utf8 (startLine 2 2) ++ (linesOf .iter (.number 0) ++ linesOf .iter (.number 1)).flatten =
      utf8 "available parallelism = 2, slices = 2\n0 lifecycles >= 1800s\n1 lifecycles >= 1800s\n" by decide +kernel]

/-- **C90** a lifecycle of half an hour that is cut is in no line of `par_iter`, although `iter` reports it. -/
theorem C90_cut_lifecycle : lifecycleIter (packed cutTicks) = some (.ok 1) ∧ ∀ out ok, CmdText 2 (packed cutTicks) .parIter (out, ok) ↔
    ok = true ∧ out = utf8 "available parallelism = 2, slices = 2\n0 lifecycles >= 1800s\n0 lifecycles >= 1800s\n" := by
  obtain ⟨hF, hp⟩ := pair_slices (four_of (P := fun e => WF e ∧ (encode e).length = 24)
    (w := tickMsg 0 0 0 0) (x := tickMsg 0x01 0x12 0xA8 0x7F) (y := tickMsg 0x01 0x12 0xA8 0x80) (z := tickMsg 0x01 0x12 0xA8 0x80)
    ticks_wf ticks_wf ticks_wf ticks_wf)
  have h1 : lifecycleIter (packed [tickMsg 0 0 0 0, tickMsg 0x01 0x12 0xA8 0x7F]) = some (.ok 0) := by
    rw [iter_of_messages (pair_fits ticks_wf.2 ticks_wf.2) (pair_messages ticks_wf.1 ticks_wf.1) (by decide)]
    decide
  have h2 : lifecycleIter (packed [tickMsg 0x01 0x12 0xA8 0x80, tickMsg 0x01 0x12 0xA8 0x80]) = some (.ok 0) := by
    rw [iter_of_messages (pair_fits ticks_wf.2 ticks_wf.2) (pair_messages ticks_wf.1 ticks_wf.1) (by decide)]
    decide
  constructor
  · unfold cutTicks
    rw [iter_of_messages hF (messages_packed (four_of (P := WF) ticks_wf.1 ticks_wf.1 ticks_wf.1 ticks_wf.1)) (by decide)]
    decide
  · intro out ok
    rw [show cutTicks = [tickMsg 0 0 0 0, tickMsg 0x01 0x12 0xA8 0x7F, tickMsg 0x01 0x12 0xA8 0x80, tickMsg 0x01 0x12 0xA8 0x80] from rfl,
      two_slices hF hp h1 h2, or_self]
    rw [show utf8 (startLine 2 2) ++ (linesOf .iter (.number 0) ++ linesOf .iter (.number 0)).flatten =
      utf8 "available parallelism = 2, slices = 2\n0 lifecycles >= 1800s\n0 lifecycles >= 1800s\n" by decide +kernel]

end Verif
