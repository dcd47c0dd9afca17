import Verif.Lemmas.Process
import Verif.Props.EndToEnd
import Verif.Props.Hello

set_option linter.unusedSimpArgs false

/-! # C122: the programs as processes -/

namespace Verif

open Spec

theorem envArgs_ok {argv : List Bytes} (h : ∀ a ∈ argv, Utf8 a) : envArgs argv = .ok argv := by
  unfold envArgs
  rw [if_pos (by rw [List.all_eq_true]; exact fun a ha => (utf8Valid_iff a).2 (h a ha))]

theorem envArgs_panic {argv : List Bytes} (h : ∃ a ∈ argv, ¬ Utf8 a) : envArgs argv = .panic := by
  unfold envArgs
  rw [if_neg (by
    rw [List.all_eq_true]
    obtain ⟨a, ha, hn⟩ := h
    exact fun h' => hn ((utf8Valid_iff a).1 (h' a ha)))]

/-- **C122** an argument that is not UTF-8, used or not: both programs end with exit code 101 and print nothing. -/
theorem C122_not_text (argv : List Bytes) (h : ∃ a ∈ argv, ¬ Utf8 a) :
    (∀ bd addr input p, DdProc bd addr argv input p ↔ p = ⟨[], none, 101⟩) ∧
    (∀ num f p, RipProc num f argv p ↔ p = ⟨[], none, 101⟩) := by
  refine ⟨fun bd addr input p => ?_, fun num f p => ?_⟩
  · unfold DdProc; rw [envArgs_panic h]; exact Iff.rfl
  · unfold RipProc; rw [envArgs_panic h]; exact Iff.rfl

/-- **C122** started without even a program name, both panic where they want to print how they are used. -/
theorem C122_no_name :
    (∀ bd addr input p, DdProc bd addr [] input p ↔ p = ⟨[], none, 101⟩) ∧
    (∀ num f p, RipProc num f [] p ↔ p = ⟨[], none, 101⟩) :=
  ⟨fun _ _ _ _ => Iff.rfl, fun _ _ _ => Iff.rfl⟩

theorem ddProc_iff {bd : Build} {addr : Ctor → UInt8} {prog : Bytes} {args : List Bytes} {input : Bytes} {p : ProcEnd}
    (h : ∀ a ∈ prog :: args, Utf8 a) : DdProc bd addr (prog :: args) input p ↔ ∃ out e, DdMain bd addr args input out e ∧
      p = ⟨out, ddErr prog (args.getD 2 []) e, if e = .panicked then 101 else 0⟩ := by
  unfold DdProc; rw [envArgs_ok h]

/-- **C122** fewer than three arguments: `dd_dlt` says on standard error how it is used, and ends with exit code 0. -/
theorem C122_dd_usage (bd : Build) (addr : Ctor → UInt8) (prog : Bytes) (args : List Bytes) (input : Bytes) (p : ProcEnd)
    (h : ∀ a ∈ prog :: args, Utf8 a) (hlen : args.length < 3) : DdProc bd addr (prog :: args) input p ↔
      p = ⟨[], some (utf8 "usage: " ++ prog ++ utf8 (" <ecu_id> <app_id> <payload_size>\n" ++
        "  reads input form stdin and write valid DLT output with the input as payload to stdout.\n")), 0⟩ := by
  rw [ddProc_iff h]
  have h1 := C52_usage bd addr args input hlen
  have h2 : ddErr prog (args.getD 2 []) .usage = some (utf8 "usage: " ++ prog ++ utf8 (" <ecu_id> <app_id> <payload_size>\n" ++
        "  reads input form stdin and write valid DLT output with the input as payload to stdout.\n")) := by
    rw [ddErr, utf8_append, ← List.append_assoc]
    rfl
  constructor
  · rintro ⟨out, e, h3, rfl⟩
    obtain ⟨rfl, rfl⟩ := (h1 out e).1 h3
    rw [h2, if_neg (by decide)]
  · rintro rfl
    exact ⟨[], .usage, (h1 _ _).2 ⟨rfl, rfl⟩, by rw [h2, if_neg (by decide)]⟩

/-- **C122** `dd_dlt` ends with exit code 0 or 101, and with 101 exactly if it panics. -/
theorem C122_dd_codes (bd : Build) (addr : Ctor → UInt8) (argv : List Bytes) (input : Bytes) (p : ProcEnd)
    (h : DdProc bd addr argv input p) : (p.code = 0 ∨ p.code = 101) ∧ (p.code = 101 ↔ p.err = none) := by
  unfold DdProc at h
  split at h
  · subst h; exact ⟨.inr rfl, by simp [ProcEnd.panicked]⟩
  · subst h; exact ⟨.inr rfl, by simp [ProcEnd.panicked]⟩
  · obtain ⟨out, e, -, rfl⟩ := h
    cases e <;> simp [ddErr]

/-- **C122** `ripdlt` ends with exit code 0 or 101, and with 101 exactly if it panics; otherwise it writes nothing to
standard error. -/
theorem C122_rip_codes (num : Nat) (f : OsFile) (argv : List Bytes) (p : ProcEnd) (h : RipProc num f argv p) :
    (p.code = 0 ∧ p.err = some []) ∨ (p.code = 101 ∧ p.err = none) := by
  unfold RipProc at h
  split at h
  · subst h; exact .inr ⟨rfl, rfl⟩
  · subst h; exact .inr ⟨rfl, rfl⟩
  · obtain ⟨_, _, out, ok, -, -, -, rfl⟩ := h
    cases ok
    · exact .inr ⟨rfl, rfl⟩
    · exact .inl ⟨rfl, rfl⟩

theorem map_utf8_inj : ∀ {a b : List String}, a.map utf8 = b.map utf8 → a = b
  | [], [], _ => rfl
  | [], _ :: _, h => by cases h
  | _ :: _, [], h => by cases h
  | x :: a, y :: b, h => by
    rw [List.map_cons, List.map_cons] at h
    injection h with h1 h2
    rw [utf8_inj h1, map_utf8_inj h2]

/-- **C122** given texts as arguments, `ripdlt` prints what C88 says and ends with exit code 0, or 101 if it panics. -/
theorem C122_rip_runs (num : Nat) (f : OsFile) (prog : String) (args : List String) (p : ProcEnd) :
    RipProc num f ((prog :: args).map utf8) p ↔
      ∃ out ok, RipText num f prog args (out, ok) ∧ p = ⟨out, if ok then some [] else none, if ok then 0 else 101⟩ := by
  have hu : ∀ a ∈ (prog :: args).map utf8, Utf8 a := fun a ha => by
    obtain ⟨s, -, rfl⟩ := List.mem_map.1 ha
    exact (utf8_iff_string _).2 ⟨s, rfl⟩
  unfold RipProc
  rw [envArgs_ok hu, List.map_cons]
  constructor
  · rintro ⟨prog', args', out, ok, h1, h2, h3, rfl⟩
    obtain rfl := utf8_inj (s := prog') (t := prog) h1
    obtain rfl := map_utf8_inj (a := args') (b := args) h2
    exact ⟨out, ok, h3, by cases ok <;> rfl⟩
  · rintro ⟨out, ok, h3, rfl⟩
    exact ⟨prog, args, out, ok, rfl, rfl, h3, by cases ok <;> rfl⟩

/-- **C122** fewer than three arguments: `ripdlt` says how it is used and ends with exit code 0. -/
theorem C122_rip_usage (num : Nat) (f : OsFile) (prog : String) (args : List String) (hlen : args.length < 3) (p : ProcEnd) :
    RipProc num f ((prog :: args).map utf8) p ↔ p = ⟨utf8 ("usage: " ++ prog ++
      " <file_access_method> <test_name> <filename.dlt>\n" ++ "  runs ripdlt tests with different implementations\n"), some [], 0⟩ := by
  rw [C122_rip_runs]
  have h := C88_usage num f prog args hlen
  constructor
  · rintro ⟨out, ok, h1, rfl⟩
    rw [h, Prod.mk.injEq] at h1
    obtain ⟨rfl, rfl⟩ := h1
    rfl
  · rintro rfl
    exact ⟨_, true, (h _).2 rfl, rfl⟩

/-- **C122** the exit code of a sequential command tells whether the file made it panic. -/
theorem C122_rip_fails (num : Nat) (hnum : num ≠ 0) (f : OsFile) (prog m name : String) (rest : List String) (c : Cmd)
    (hc : sequential c = true) (b : DltBuffer)
    (hb : m = "mmap" ∧ DltBuffer.mmapFile f = some b ∨ m = "read" ∧ DltBuffer.readFile f = some b) (hF : Fits b.asSlice)
    (msgs : List StorageEntry) (hm : Messages b.asSlice msgs) (p : ProcEnd)
    (h : RipProc num f ((prog :: m :: cmdName c :: name :: rest).map utf8) p) :
    p.code = 101 ↔ Panics msgs c := by
  obtain ⟨out, ok, h1, rfl⟩ := (C122_rip_runs ..).1 h
  obtain ⟨o, h2, -⟩ := (C88_runs num f prog m name rest c b hb out ok).1 h1
  obtain ⟨-, -, slices, -, -, -, hp, -⟩ := C30_partition_contiguous b.asSlice hF num hnum
  have hcp : c ≠ .parIter := by rintro rfl; cases hc
  rw [← C67_sequential_panics num b.asSlice hF msgs hm c hc]
  cases ok with
  | false => exact ⟨fun _ => (C88_panics num b.asSlice c hcp slices hp).1 ⟨o, h2⟩, fun _ => rfl⟩
  | true =>
    refine ⟨fun h' => absurd h' (by simp), fun h' => ?_⟩
    obtain ⟨r, h3, -⟩ := (C88_text num b.asSlice c hcp slices hp o).1 h2
    obtain ⟨r', h4⟩ := C66_one_result num hnum b.asSlice hF c
    have := ((h4 _).1 h3).trans ((h4 _).1 h').symm
    cases this

theorem decimal_utf8 {s : Bytes} {n : Nat} (h : Decimal s n) : Utf8 s := by
  obtain ⟨ds, -, hd, -, h⟩ := h
  apply ascii_utf8
  have key : ∀ b ∈ ds.map (fun d => UInt8.ofNat (48 + d)), b < 128 := fun b hb => by
    obtain ⟨d, hd', rfl⟩ := List.mem_map.1 hb
    have := hd d hd'
    rw [UInt8.lt_iff_toNat_lt, u8_ofNat_toNat' (by omega)]
    show 48 + d < 128
    omega
  rcases h with rfl | rfl
  · exact key
  · intro b hb
    rcases List.mem_cons.1 hb with rfl | hb
    · decide
    · exact key b hb

/-- **C122** what `dd_dlt` says at its end: the number of complete payloads, which is the number of messages in its output
(modulo 2^32, which can be seen in a release build only), and the payload size. -/
theorem C122_dd_reports (bd : Build) (addr : Ctor → UInt8) (prog ecuid appid size input : Bytes) (rest : List Bytes) (n : Nat)
    (hprog : Utf8 prog) (hrest : ∀ a ∈ rest, Utf8 a) (hue : Utf8 ecuid) (hua : Utf8 appid)
    (hecu : ecuid.length = 4) (happ : appid.length = 4) (hsize : Decimal size n) (h1 : 1 ≤ n) (h2 : n ≤ 65517)
    (hk : (bd.checks = false ∧ input.length / n ≤ 2 ^ 32) ∨ input.length / n ≤ 42949673)
    (hfit : ∀ i, i < input.length / n → LinesFit (roomBehind bd.late) (chunk n input i)) :
    ∃ output msgs, (∀ p, DdProc bd addr (prog :: ecuid :: appid :: size :: rest) input p ↔
        p = ⟨output, some (utf8 s!"wrote {input.length / n % 2 ^ 32} DLT messages with payload size={n}b\n"), 0⟩) ∧
      Messages output msgs ∧ msgs.length = input.length / n := by
  obtain ⟨output, msgs, h3, -, h5, h6, -, hwf, -⟩ := C51_round_trip_partial bd addr ecuid appid size input rest n hecu
    happ hsize h1 h2 hk hfit
  refine ⟨output, msgs, fun p => ?_, by rw [h6]; exact messages_packed hwf, h5⟩
  rw [ddProc_iff (by
    intro a ha
    simp only [List.mem_cons] at ha
    rcases ha with rfl | rfl | rfl | rfl | ha
    · exact hprog
    · exact hue
    · exact hua
    · exact decimal_utf8 hsize
    · exact hrest a ha)]
  have h7 : ddErr prog ((ecuid :: appid :: size :: rest).getD 2 []) (.finished (UInt32.ofNat (input.length / n))) =
      some (utf8 s!"wrote {input.length / n % 2 ^ 32} DLT messages with payload size={n}b\n") := by
    show ddErr prog size _ = _
    rw [ddErr, (C52_size_argument size n).2 ⟨hsize, by omega⟩, UInt32.toNat_ofNat']
    rfl
  constructor
  · rintro ⟨out, e, h8, rfl⟩
    obtain ⟨rfl, rfl⟩ := (h3 _ _).1 h8
    rw [h7, if_neg (by simp)]
  · rintro rfl
    exact ⟨_, _, (h3 _ _).2 ⟨rfl, rfl⟩, by rw [h7, if_neg (by simp)]⟩

/-- **C122** the number `dd_dlt` says is the number `ripdlt` counts in its output; both end with exit code 0. -/
theorem C122_same_number (bd : Build) (addr : Ctor → UInt8) (prog ecuid appid size input : Bytes) (rest : List Bytes) (n : Nat)
    (hprog : Utf8 prog) (hrest : ∀ a ∈ rest, Utf8 a) (hue : Utf8 ecuid) (hua : Utf8 appid)
    (hecu : ecuid.length = 4) (happ : appid.length = 4) (hsize : Decimal size n) (h1 : 1 ≤ n) (h2 : n ≤ 65517)
    (hk : input.length / n ≤ 42949673) (hfit : ∀ p ∈ chunks n input, LinesFit (roomBehind bd.late) p)
    (p : ProcEnd) (hp : DdProc bd addr (prog :: ecuid :: appid :: size :: rest) input p)
    (f : OsFile) (hf : Faithful f) (hopen : f.opens = true) (hcont : f.contents = p.out) (hno : ReadEvent.error ∉ f.reads)
    (method : String) (hm : method = "read" ∨ (method = "mmap" ∧ f.maps = true ∧ p.out ≠ []))
    (num : Nat) (hnum : num ≠ 0) (prog' name : String) (more : List String) (q : ProcEnd)
    (hq : RipProc num f ((prog' :: method :: "count" :: name :: more).map utf8) q) :
    p.err = some (utf8 s!"wrote {input.length / n} DLT messages with payload size={n}b\n") ∧ p.code = 0 ∧
      q = ⟨echoLine prog' (method :: "count" :: name :: more) ++ utf8 s!"{input.length / n} messages\n", some [], 0⟩ := by
  obtain ⟨output, msgs, h3, -, -⟩ := C122_dd_reports bd addr prog ecuid appid size input rest n hprog hrest hue hua hecu happ
    hsize h1 h2 (.inr hk) fun i hi => hfit _ (List.mem_map.2 ⟨i, List.mem_range.2 hi, rfl⟩)
  obtain ⟨out, e, h4, h4'⟩ := (ddProc_iff (by
    intro a ha
    simp only [List.mem_cons] at ha
    rcases ha with rfl | rfl | rfl | rfl | ha
    · exact hprog
    · exact hue
    · exact hua
    · exact decimal_utf8 hsize
    · exact hrest a ha)).1 hp
  have hout : p.out = out := by rw [h4']
  rw [h3] at hp
  refine ⟨?_, by rw [hp], ?_⟩
  · rw [hp, Nat.mod_eq_of_lt (by omega)]
  · obtain ⟨o, ok, h5, rfl⟩ := (C122_rip_runs ..).1 hq
    have h6 := (C95_texts bd addr ecuid appid size input rest n hecu hue happ hsize h1 h2 hk hfit out e h4 f hf hopen
      (hcont.trans hout) hno method (by rw [← hout]; exact hm) .count _ rfl num hnum prog' name more (o, ok)).1 h5
    rw [Prod.mk.injEq] at h6
    obtain ⟨rfl, rfl⟩ := h6
    have h7 : (chunks n input).length = input.length / n := by rw [chunks, List.length_map, List.length_range]
    rw [h7]
    simp only [if_true, ProcEnd.mk.injEq, and_true]
    have h8 : linesOf .count (.number (input.length / n)) = [utf8 s!"{input.length / n} messages\n"] := by
      show [utf8 (toString (input.length / n) ++ " " ++ "messages" ++ "\n")] = [utf8 (toString (input.length / n) ++ " messages\n")]
      rw [String.append_assoc, String.append_assoc]
      rfl
    rw [h8, List.flatten_singleton]
    rfl

/-! ## The hypotheses are met -/

/-- An argument in Latin-1; five arguments in all. -/
example : ∃ a ∈ [utf8 "ripdlt", utf8 "mmap", utf8 "count", [0xE9], utf8 "x"], ¬ Utf8 a :=
  ⟨[0xE9], by simp, fun h => by
    have := (utf8Valid_iff _).2 h
    revert this; decide⟩

/-- `dd_dlt ECU1 APP1 +4` on 11 bytes says that it wrote two messages; `ripdlt read count x.dlt` then counts two. -/
example (addr : Ctor → UInt8) (prog ecuid appid size input : Bytes) (hprog : prog = utf8 "dd_dlt") (hecu : ecuid = [69, 67, 85, 49])
    (happ : appid = [65, 80, 80, 49]) (hsize : size = [43, 52]) (hinput : input = helloWorld) (me name : String) : ∃ output,
    (∀ p, DdProc ⟨true, false⟩ addr [prog, ecuid, appid, size] input p ↔
      p = ⟨output, some (utf8 "wrote 2 DLT messages with payload size=4b\n"), 0⟩) ∧
    ∀ (f : OsFile) (q : ProcEnd), Faithful f → f.opens = true → f.contents = output → ReadEvent.error ∉ f.reads →
      RipProc 2 f ((me :: "read" :: "count" :: name :: []).map utf8) q →
        ∃ first, q = ⟨first ++ utf8 "2 messages\n", some [], 0⟩ := by
  have hd : Decimal size 4 := ⟨[4], by simp, by simp, rfl, .inr (by rw [hsize]; rfl)⟩
  have hu : Utf8 prog := (utf8_iff_string _).2 ⟨_, hprog.symm⟩
  have hu1 : Utf8 ecuid := ascii_utf8 _ (by rw [hecu]; decide)
  have hu2 : Utf8 appid := ascii_utf8 _ (by rw [happ]; decide)
  have hl1 : ecuid.length = 4 := by rw [hecu]; rfl
  have hl2 : appid.length = 4 := by rw [happ]; rfl
  have hlen : input.length / 4 = 2 := by rw [hinput]; rfl
  have hfit : ∀ i, i < input.length / 4 → LinesFit (roomBehind false) (chunk 4 input i) := fun i _ =>
    linesFit_short (by decide) _ _
  clear hprog hecu happ hsize hinput
  obtain ⟨output, msgs, h1, -, -⟩ := C122_dd_reports ⟨true, false⟩ addr prog ecuid appid size input [] 4 hu (by simp) hu1 hu2
    hl1 hl2 hd (by decide) (by decide) (.inr (by rw [hlen]; decide)) hfit
  have h1' := (h1 _).2 rfl
  have hs : utf8 s!"wrote {input.length / 4 % 2 ^ 32} DLT messages with payload size={4}b\n" =
      utf8 "wrote 2 DLT messages with payload size=4b\n" := by rw [hlen]; decide +kernel
  rw [hs] at h1 h1'
  have hcount : ∀ (f : OsFile) (q : ProcEnd), Faithful f → f.opens = true → f.contents = output → ReadEvent.error ∉ f.reads →
      RipProc 2 f ((me :: "read" :: "count" :: name :: []).map utf8) q →
      q = ⟨echoLine me ["read", "count", name] ++ utf8 s!"{input.length / 4} messages\n", some [], 0⟩ := by
    intro f q hf ho hc hno hq
    exact (C122_same_number ⟨true, false⟩ addr prog ecuid appid size input [] 4 hu (by simp) hu1 hu2
      hl1 hl2 hd (by decide) (by decide) (by rw [hlen]; decide) (fun p hp => by
        obtain ⟨i, hi, rfl⟩ := List.mem_map.1 hp
        exact hfit i (List.mem_range.1 hi)) _ h1' f hf ho hc hno "read" (.inl rfl) 2 (by decide) me name [] q hq).2.2
  have e2 : utf8 s!"{input.length / 4} messages\n" = utf8 "2 messages\n" := by rw [hlen]; decide +kernel
  rw [e2] at hcount
  exact ⟨output, h1, fun f q hf ho hc hno hq => ⟨_, hcount f q hf ho hc hno hq⟩⟩

end Verif
