import Verif.Lemmas.Hello
import Verif.Props.GrepCapture
import Verif.Props.Payload
import Verif.Props.Parallel

/-! # C61–C63: the grep-based text commands -/

set_option linter.unusedSimpArgs false
set_option maxRecDepth 4000

namespace Verif

open Spec

theorem grepPull_next (re : Regex) (bytes : Bytes) (off : Nat) : (grepPull re bytes).next off =
    match dltGrepNext re bytes off with
    | none => none
    | some .panic => some .panic
    | some (.ok (o, off')) => some (.ok (off', o)) := rfl

/-- Draining the grep iterator, as a stream. -/
theorem streams_grep {re : Regex} {bytes : Bytes} (hF : Fits bytes) :
    ∀ {fuel off : Nat} {items : List (Nat × StorageEntry)}, collectDN (dltGrepNext re bytes) fuel off = some (.ok items) →
      Streams (grepPull re bytes) off (.ok items) := by
  intro fuel
  induction fuel with
  | zero => intro off items h; cases h
  | succ fuel ih =>
    intro off items h
    rw [collectDN] at h
    rcases grepNext_cases dlt_lawful (re := re) hF off with ⟨_, h1⟩ | ⟨_, h1⟩ | ⟨i, v, hs, h1⟩
    · unfold dltGrepNext at h; rw [h1] at h; cases h
    · unfold dltGrepNext at h; rw [h1] at h; simp only [Option.some.injEq, Res.ok.injEq] at h
      subst h
      refine .done (exhausted_of_inv (it := grepPull re bytes) (fun s => s = off) ?_ rfl)
      rintro s rfl
      exact ⟨s, by rw [grepPull_next]; unfold dltGrepNext; rw [h1], rfl⟩
    · unfold dltGrepNext at h
      rw [h1] at h
      simp only at h
      cases hc : collectDN (grepNext dltStorage re bytes) fuel (i + dltStorage.len v) with
      | none => rw [hc] at h; cases h
      | some q =>
        rw [hc] at h
        cases q with
        | panic => cases h
        | ok as =>
          simp only [Option.some.injEq, Res.ok.injEq] at h
          subst h
          exact Streams.item (it := grepPull re bytes) (s' := i + dltStorage.len v) (x := (i, v))
            (by rw [grepPull_next]; unfold dltGrepNext; rw [h1]) (ih hc)

/-- Every item of a drained grep iterator lies in the file and contains a match. -/
theorem grep_items {re : Regex} {bytes : Bytes} (hF : Fits bytes) :
    ∀ {fuel off : Nat} {items : List (Nat × StorageEntry)}, collectDN (dltGrepNext re bytes) fuel off = some (.ok items) →
      ∀ x ∈ items, MsgAt bytes x.1 x.2 ∧ ContainsMatch re bytes x := by
  intro fuel
  induction fuel with
  | zero => intro off items h; cases h
  | succ fuel ih =>
    intro off items h x hx
    have hs := C23_grep_sound re bytes hF off
    rw [collectDN] at h
    rcases hn : dltGrepNext re bytes off with _ | _ | _
    · rw [hn] at h; cases h
    · next p =>
      obtain ⟨o, off'⟩ := p
      rw [hn] at h
      cases o with
      | none =>
        simp only [Option.some.injEq, Res.ok.injEq] at h
        subst h
        cases hx
      | some a =>
        obtain ⟨i, e⟩ := a
        simp only at h
        cases hc : collectDN (dltGrepNext re bytes) fuel off' with
        | none => rw [hc] at h; cases h
        | some q =>
          rw [hc] at h
          cases q with
          | panic => cases h
          | ok as =>
            simp only [Option.some.injEq, Res.ok.injEq] at h
            subst h
            rw [List.mem_cons] at hx
            rcases hx with rfl | hx
            · obtain ⟨h1, -, s, t, -, h2⟩ := hs.2 i e off' hn
              exact ⟨h1, s, t, h2⟩
            · exact ih hc x hx
    · rw [hn] at h; cases h

/-- A match of the pattern in a message is a match in the message's own bytes. -/
theorem helloAt_inside {bytes : Bytes} {i : Nat} {e : StorageEntry} (hm : MsgAt bytes i e) {s t : Nat} (h1 : i + 4 ≤ s)
    (h2 : t ≤ i + (encode e).length) : HelloAt bytes s t ↔ HelloAt ((encode e).drop 4) (s - (i + 4)) (t - (i + 4)) ∧ s + 7 ≤ t := by
  obtain ⟨-, pre, post, hb, hp⟩ := hm
  have hd : bytes.drop i = encode e ++ post := by rw [hb, ← hp, List.append_assoc, List.drop_left]
  have hs : bytes.drop s = (encode e ++ post).drop (s - i) := by rw [← hd, List.drop_drop]; congr 1; omega
  have hel : 20 ≤ (encode e).length := by rw [encode_length]; omega
  unfold HelloAt
  rw [hs, List.drop_drop]
  have h4 : 4 + (s - (i + 4)) = s - i := by omega
  rw [h4]
  constructor
  · rintro ⟨mid, g1, g2, g3, g4⟩
    refine ⟨⟨mid, g1, g2, ?_, by omega⟩, by omega⟩
    rw [List.drop_append_of_le_length (by omega)] at g3
    exact List.prefix_of_prefix_length_le g3 (List.prefix_append _ _) (by simp; omega)
  · rintro ⟨⟨mid, g1, g2, g3, g4⟩, g5⟩
    refine ⟨mid, g1, g2, ?_, by omega⟩
    rw [List.drop_append_of_le_length (by omega)]
    exact g3.trans (List.prefix_append _ _)

/-- **C61** `count_hello_world_grepit` always ends, never panics, and reports the number of the messages it found:
each is stored in the file at its offset, contains a match of `H.* World`, and is counted once. -/
theorem C61_count_grepit (bytes : Bytes) (hF : Fits bytes) :
    ∃ hits : List (Nat × StorageEntry), countHelloWorldGrepit helloRegex bytes = some (.ok hits.length) ∧
      (hits.Pairwise fun a b => a.1 < b.1) ∧ ∀ x ∈ hits, MsgAt bytes x.1 x.2 ∧ SaysHello x.2 := by
  obtain ⟨items, fuel, hc⟩ := C25_grep_terminates_partial helloRegex bytes hF (hello_nonEmpty bytes) 0
  have hinc := (grep_increasing helloRegex bytes hF (hello_nonEmpty bytes) fuel 0 items hc).2
  have hit := grep_items hF hc
  refine ⟨items, ?_, hinc, fun x hx => ⟨(hit x hx).1, ?_⟩⟩
  · refine pullCount_eq (streams_grep hF hc) ?_
    have : (items.map (·.1)).length ≤ bytes.length := by
      refine pairwise_lt_length (by rw [List.pairwise_map]; exact hinc) fun i hi => ?_
      rw [List.mem_map] at hi
      obtain ⟨x, hx, rfl⟩ := hi
      have := (readableAt_iff_msgAt.2 (hit x hx).1).bounds dlt_lawful
      omega
    rw [List.length_map] at this
    have hl := fits_le hF
    unfold usizeMax
    omega
  · obtain ⟨hm, s, t, h1, h2, h3⟩ := hit x hx
    exact ⟨_, _, ((helloAt_inside hm h2 h3).1 ((hello_matches_iff bytes s t).1 h1).1).1⟩

theorem Res.ok_bind' {α β : Type} (a : α) (f : α → Res β) : (Res.ok a).bind f = f a := rfl

theorem umul_ok {a b : Nat} (h : a * b ≤ usizeMax) : umul a b = .ok (a * b) := by unfold umul; rw [if_pos h]

theorem offsetLines_ok (m : List (Nat × Nat)) (h : ∀ e ∈ m, e.1 * 100000000 < 2 ^ 63) :
    offsetLines m = .ok (m.map fun e => (e.1 * 100, (e.1 + 1) * 100, e.2)) := by
  induction m with
  | nil => rfl
  | cons e m ih =>
    obtain ⟨k, v⟩ := e
    have hk := h (k, v) List.mem_cons_self
    simp only at hk
    have h1 : umul k 100000000 = .ok (k * 100000000) := umul_ok (by unfold usizeMax; omega)
    have h2 : uadd k 1 = .ok (k + 1) := uadd_ok (by unfold usizeMax; omega)
    have h3 : umul (k + 1) 100000000 = .ok ((k + 1) * 100000000) := umul_ok (by unfold usizeMax; omega)
    have h5 : ∀ j, j * 100000000 / 1000000 = j * 100 := fun j => by omega
    rw [offsetLines, h1, Res.ok_bind', h2, Res.ok_bind', h3, Res.ok_bind', ih fun e he => h e (List.mem_cons_of_mem _ he),
      Res.ok_bind', h5, h5, List.map_cons]

/-- **C63** `histogram_hello_world` always ends and never panics; it is the histogram of the offsets of the messages
found, in steps of 100 MB, and prints one line per bucket with its limits in MB. -/
theorem C63_histogram_hello_world (bytes : Bytes) (hF : Fits bytes) :
    ∃ (hits : List (Nat × StorageEntry)) (m : OrdMap Nat Nat), countHelloWorldGrepit helloRegex bytes = some (.ok hits.length) ∧
      (hits.Pairwise fun a b => a.1 < b.1) ∧ (∀ x ∈ hits, MsgAt bytes x.1 x.2 ∧ SaysHello x.2) ∧
      histogramHelloWorld helloRegex bytes = some (.ok m) ∧
      IsHistogram (hits.map fun x => x.1 / 100000000) m ∧ (m.map (·.2)).sum = hits.length ∧
      offsetLines m = .ok (m.map fun e => (e.1 * 100, (e.1 + 1) * 100, e.2)) := by
  obtain ⟨items, fuel, hc⟩ := C25_grep_terminates_partial helloRegex bytes hF (hello_nonEmpty bytes) 0
  have hinc := (grep_increasing helloRegex bytes hF (hello_nonEmpty bytes) fuel 0 items hc).2
  have hit := grep_items hF hc
  have hlt : ∀ x ∈ items, x.1 < bytes.length := by
    intro x hx
    have := (readableAt_iff_msgAt.2 (hit x hx).1).bounds dlt_lawful
    omega
  have hF' : bytes.length < 2 ^ 63 := hF
  have hlen : items.length ≤ usizeMax := by
    have : (items.map (·.1)).length ≤ bytes.length := by
      refine pairwise_lt_length (by rw [List.pairwise_map]; exact hinc) fun i hi => ?_
      rw [List.mem_map] at hi
      obtain ⟨x, hx, rfl⟩ := hi
      exact hlt x hx
    rw [List.length_map] at this
    unfold usizeMax
    omega
  have hst := streams_grep hF hc
  have hs := streams_map_on hst (F := fun x : Nat × StorageEntry => .ok x.1) (f := fun x => x.1) (fun _ _ => rfl)
  obtain ⟨m, h1, h2⟩ := pullSplit_hist (keyfn := fun off : Nat => .ok (off / 100000000)) (key := fun off => off / 100000000) hs
    (fun _ _ => rfl) (by rw [List.length_map]; exact hlen)
  rw [List.map_map] at h2
  refine ⟨items, m, pullCount_eq hst hlen, hinc, ?_, h1, h2, ?_, ?_⟩
  · intro x hx
    obtain ⟨hm, s, t, g1, g2, g3⟩ := hit x hx
    exact ⟨hm, _, _, ((helloAt_inside hm g2 g3).1 ((hello_matches_iff bytes s t).1 g1).1).1⟩
  · rw [isHistogram_total h2, List.length_map]
  · refine offsetLines_ok m ?_
    rintro ⟨k, v⟩ he
    have := (h2.mem k v).1 he
    have hk : k ∈ items.map ((fun off => off / 100000000) ∘ fun x => x.1) := by
      rw [← List.count_pos_iff]
      omega
    rw [List.mem_map] at hk
    obtain ⟨x, hx, rfl⟩ := hk
    have := hlt x hx
    simp only [Function.comp]
    omega

/-! ## C62: which messages are found -/

theorem packedAt_split : ∀ {es : List StorageEntry} {o : Nat} {x : Nat × StorageEntry}, x ∈ packedAt o es →
    ∃ es1 es2, es = es1 ++ x.2 :: es2 ∧ x.1 = o + (packed es1).length
  | [], _, _, h => by cases h
  | e :: es, o, x, h => by
    rw [packedAt, List.mem_cons] at h
    rcases h with rfl | h
    · exact ⟨[], es, rfl, by simp [packed]⟩
    · obtain ⟨es1, es2, rfl, h2⟩ := packedAt_split h
      refine ⟨e :: es1, es2, rfl, ?_⟩
      rw [h2]
      simp [packed]
      omega

theorem packedAt_sorted : ∀ (es : List StorageEntry) (o : Nat),
    ((packedAt o es).Pairwise fun a b => a.1 < b.1) ∧ ∀ x ∈ packedAt o es, o ≤ x.1
  | [], _ => ⟨.nil, fun _ h => by cases h⟩
  | e :: es, o => by
    obtain ⟨h1, h2⟩ := packedAt_sorted es (o + (encode e).length)
    have hl : 20 ≤ (encode e).length := by rw [encode_length]; omega
    refine ⟨List.pairwise_cons.2 ⟨fun x hx => ?_, h1⟩, fun x hx => ?_⟩
    · have := h2 x hx
      show o < x.1
      omega
    · rw [packedAt, List.mem_cons] at hx
      rcases hx with rfl | hx
      · exact Nat.le_refl _
      · have := h2 x hx
        omega

theorem sorted_ext {α : Type} {f : α → Nat} : ∀ {l m : List α}, l.Pairwise (fun a b => f a < f b) →
    m.Pairwise (fun a b => f a < f b) → (∀ x, x ∈ l ↔ x ∈ m) → l = m
  | [], [], _, _, _ => rfl
  | [], b :: m, _, _, h => by have := (h b).2 List.mem_cons_self; cases this
  | a :: l, [], _, _, h => by have := (h a).1 List.mem_cons_self; cases this
  | a :: l, b :: m, hl, hm, h => by
    obtain ⟨hl1, hl2⟩ := List.pairwise_cons.1 hl
    obtain ⟨hm1, hm2⟩ := List.pairwise_cons.1 hm
    have hab : a = b := by
      rcases List.mem_cons.1 ((h a).1 List.mem_cons_self) with h1 | h1
      · exact h1
      · rcases List.mem_cons.1 ((h b).2 List.mem_cons_self) with h2 | h2
        · exact h2.symm
        · have := hm1 a h1
          have := hl1 b h2
          omega
    subst hab
    congr 1
    refine sorted_ext hl2 hm2 fun x => ?_
    constructor
    · intro hx
      rcases List.mem_cons.1 ((h x).1 (List.mem_cons_of_mem _ hx)) with h1 | h1
      · subst h1; have := hl1 x hx; omega
      · exact h1
    · intro hx
      rcases List.mem_cons.1 ((h x).2 (List.mem_cons_of_mem _ hx)) with h1 | h1
      · subst h1; have := hm1 x hx; omega
      · exact h1

theorem packedAt_filter_length (P : StorageEntry → Bool) : ∀ (es : List StorageEntry) (o : Nat),
    ((packedAt o es).filter fun x => P x.2).length = (es.filter P).length
  | [], _ => rfl
  | e :: es, o => by
    rw [packedAt, List.filter_cons, List.filter_cons]
    cases P e
    · exact packedAt_filter_length P es _
    · simp only [if_true, List.length_cons, packedAt_filter_length P es _]

/-- A match contains no line break. -/
theorem helloAt_no_newline {bytes : Bytes} {s t : Nat} (h : HelloAt bytes s t) (p : Nat) (h1 : s ≤ p) (h2 : p < t) :
    bytes[p]? ≠ some 10 := by
  obtain ⟨mid, -, hn, ⟨r, hr⟩, rfl⟩ := h
  intro hp
  have h3 : bytes[p]? = (bytes.drop s)[p - s]? := by rw [List.getElem?_drop]; congr 1; omega
  rw [h3, ← hr, List.getElem?_append_left (by simp; omega)] at hp
  have := List.mem_of_getElem? hp
  rw [List.mem_cons, List.mem_append] at this
  rcases this with h | h | h
  · cases h
  · exact hn h
  · revert h; decide

theorem helloAt_first {bytes : Bytes} {s t : Nat} (h : HelloAt bytes s t) : bytes[s]? = some 72 := by
  obtain ⟨mid, -, -, ⟨r, hr⟩, -⟩ := h
  have h3 : bytes[s]? = (bytes.drop s)[0]? := by rw [List.getElem?_drop]; rfl
  rw [h3, ← hr]
  rfl

/-- **C62 (partial)** in a file of messages each of which ends in a line break and which has start markers only where
messages start, `count_hello_world_grepit` reports exactly the number of messages containing a match of `H.* World`. -/
theorem C62_grepit_lines_partial (es : List StorageEntry) (hw : ∀ e ∈ es, WF e) (hF : Fits (packed es))
    (hM : MarkersAreMessages (packed es) (packedAt 0 es)) (hnl : ∀ e ∈ es, (encode e).getLast? = some 10)
    [DecidablePred SaysHello] :
    countHelloWorldGrepit helloRegex (packed es) = some (.ok (es.filter fun e => decide (SaysHello e)).length) := by
  have hcut : ∀ x ∈ packedAt 0 es, (packed es)[x.1 + (encode x.2).length - 1]? = some 10 ∧
      (x.1 = 0 ∨ (packed es)[x.1 - 1]? = some 10) ∧ MsgAt (packed es) x.1 x.2 := by
    intro x hx
    obtain ⟨es1, es2, rfl, h2⟩ := packedAt_split hx
    rw [Nat.zero_add] at h2
    have hpk : packed (es1 ++ x.2 :: es2) = packed es1 ++ (encode x.2 ++ packed es2) := by simp [packed]
    have hel : 20 ≤ (encode x.2).length := by rw [encode_length]; omega
    refine ⟨?_, ?_, ?_⟩
    · rw [hpk, List.getElem?_append_right (by omega), List.getElem?_append_left (by omega)]
      have h3 := hnl x.2 (by simp)
      rw [List.getLast?_eq_getElem?] at h3
      rw [← h3]
      congr 1
      omega
    · rcases List.eq_nil_or_concat es1 with rfl | ⟨es0, e0, rfl⟩
      · left; rw [h2]; rfl
      · right
        have h3 := hnl e0 (by simp)
        rw [hpk]
        have h4 : packed (es0.concat e0) = packed es0 ++ encode e0 := by simp [packed]
        have hel0 : 20 ≤ (encode e0).length := by rw [encode_length]; omega
        rw [h4] at h2 ⊢
        rw [List.length_append] at h2
        rw [List.getElem?_append_left (by rw [List.length_append]; omega), List.getElem?_append_right (by omega)]
        rw [List.getLast?_eq_getElem?] at h3
        rw [← h3]
        congr 1
        omega
    · exact ⟨hw x.2 (by simp), packed es1, packed es2, by rw [hpk, List.append_assoc], h2.symm⟩
  have hnh : NoHiding helloRegex (packed es) (packedAt 0 es) := by
    intro x hx s e s' e' hin hm h1 h2
    obtain ⟨c1, c2, hmsg⟩ := hcut x hx
    obtain ⟨hm', h3, h4⟩ := hin
    have hh := ((hello_matches_iff _ _ _).1 hm).1
    have hlen' : s' < e' := hello_nonEmpty _ _ _ hm'
    refine ⟨hm, ?_, ?_⟩
    · apply Classical.byContradiction
      intro hlt
      by_cases hs : s < x.1
      · rcases c2 with h0 | c2
        · omega
        · exact helloAt_no_newline hh (x.1 - 1) (by omega) (by omega) c2
      · have hf := helloAt_first hh
        obtain ⟨hwf, pre, post, hb, hp⟩ := hmsg
        rw [hb, List.append_assoc, List.getElem?_append_right (by omega), hp] at hf
        have hmark : encode x.2 = dltMarker ++ (encode x.2).drop 4 := by
          obtain ⟨r, hr⟩ := wf_marker_prefix hwf []
          rw [List.append_nil] at hr
          rw [← hr]; rfl
        rw [hmark, List.append_assoc, List.getElem?_append_left (by show _ < 4; omega)] at hf
        have := List.mem_of_getElem? hf
        revert this; decide
    · apply Classical.byContradiction
      intro hgt
      exact helloAt_no_newline hh (x.1 + (encode x.2).length - 1) (by omega) (by omega) c1
  obtain ⟨items, ⟨fuel, hc⟩, hinc, hmem⟩ := C26_grep_complete_partial helloRegex (packed es) hF (hello_nonEmpty _) _
    (topLevel_packed hw) hM hnh
  have heq : items = (packedAt 0 es).filter fun x => decide (SaysHello x.2) := by
    refine sorted_ext hinc ((packedAt_sorted es 0).1.filter _) fun x => ?_
    rw [hmem, List.mem_filter, decide_eq_true_eq]
    refine and_congr_right fun hx => ?_
    obtain ⟨c1, -, hmsg⟩ := hcut x hx
    have hel : 20 ≤ (encode x.2).length := by rw [encode_length]; omega
    constructor
    · rintro ⟨s, t, h1, h2, h3⟩
      exact ⟨_, _, ((helloAt_inside hmsg h2 h3).1 ((hello_matches_iff _ s t).1 h1).1).1⟩
    · rintro ⟨s, t, h⟩
      have ht : t ≤ (encode x.2).length - 4 ∧ s + 7 ≤ t := by
        obtain ⟨mid, -, -, hp, rfl⟩ := h
        have := hp.length_le
        simp at this
        omega
      have hb : HelloAt (packed es) (x.1 + 4 + s) (x.1 + 4 + t) := by
        rw [helloAt_inside hmsg (by omega) (by omega)]
        refine ⟨?_, by omega⟩
        rw [Nat.add_sub_cancel_left, Nat.add_sub_cancel_left]
        exact h
      cases hmt : helloRegex.matchAt (packed es) (x.1 + 4 + s) with
      | none =>
        exfalso
        have hd : ∃ rest, (packed es).drop (x.1 + 4 + s) = 72 :: rest := by
          obtain ⟨mid, -, -, ⟨r, hr⟩, -⟩ := hb
          exact ⟨_, hr.symm⟩
        obtain ⟨rest, hd⟩ := hd
        obtain ⟨k, hk, hkw, -⟩ := (helloAt_iff hd _).1 hb
        have h1 : helloMatchLen ((packed es).drop (x.1 + 4 + s)) = none := by
          have : Option.map _ (helloMatchLen ((packed es).drop (x.1 + 4 + s))) = none := hmt
          rwa [Option.map_eq_none_iff] at this
        rw [hd] at h1
        have h2 : Option.map _ ((dotStar rest.length rest).find? fun k => decide (worldText <+: rest.drop k)) = none := h1
        rw [Option.map_eq_none_iff, List.find?_eq_none] at h2
        have := h2 k hk
        simp [hkw] at this
      | some p =>
        obtain ⟨t', g⟩ := p
        have h1 : Matches helloRegex (packed es) (x.1 + 4 + s) t' := ⟨g, hmt⟩
        refine ⟨_, t', h1, by omega, ?_⟩
        apply Classical.byContradiction
        intro hgt
        exact helloAt_no_newline ((hello_matches_iff _ _ _).1 h1).1 (x.1 + (encode x.2).length - 1) (by omega) (by omega) c1
  have hlen : items.length ≤ usizeMax := by
    have hit := grep_items hF hc
    have : (items.map (·.1)).length ≤ (packed es).length := by
      refine pairwise_lt_length (by rw [List.pairwise_map]; exact hinc) fun i hi => ?_
      rw [List.mem_map] at hi
      obtain ⟨x, hx, rfl⟩ := hi
      have := (readableAt_iff_msgAt.2 (hit x hx).1).bounds dlt_lawful
      omega
    rw [List.length_map] at this
    have hl := fits_le hF
    unfold usizeMax
    omega
  rw [countHelloWorldGrepit, pullCount_eq (streams_grep hF hc) hlen, heq, packedAt_filter_length (fun e => decide (SaysHello e))]

/-- Three messages, each ending in a line break; the first says hello, the last has a line break in between. -/
def helloLines : List StorageEntry :=
  [textMsg (helloWorldPattern ++ [10]), textMsg [1, 2, 10], textMsg ([72, 10] ++ worldText ++ [10])]

/-- The hypotheses of `C62_grepit_lines_partial` hold of that file; one of its messages says hello, one does not. -/
example : (∀ e ∈ helloLines, WF e) ∧ Fits (packed helloLines) ∧
    MarkersAreMessages (packed helloLines) (packedAt 0 helloLines) ∧ (∀ e ∈ helloLines, (encode e).getLast? = some 10) ∧
    SaysHello (textMsg (helloWorldPattern ++ [10])) ∧ ¬ SaysHello (textMsg [1, 2, 10]) := by
  refine ⟨by decide, by decide, ?_, by decide, ?_, ?_⟩
  · intro j hm
    have hlt := Spec.MarkerAt.lt (S := dltStorage) hm
    have key : ∀ j, j < 84 → dltMarker <+: (packed helloLines).drop j → j = 0 ∨ j = 32 ∨ j = 55 := by decide
    have h4 : dltStorage.marker.length = 4 := rfl
    have hl : (packed helloLines).length = 84 := rfl
    rcases key j (by omega) hm with rfl | rfl | rfl
    · exact ⟨textMsg (helloWorldPattern ++ [10]), by decide⟩
    · exact ⟨textMsg [1, 2, 10], by decide⟩
    · exact ⟨textMsg ([72, 10] ++ worldText ++ [10]), by decide⟩
  · refine ⟨16, 27, [101, 108, 108, 111], ?_, by decide, by decide, by decide⟩
    exact .one 101 (by decide) rfl (.one 108 (by decide) rfl (.one 108 (by decide) rfl (.one 111 (by decide) rfl .nil)))
  · rintro ⟨s, t, h⟩
    have h1 := helloAt_first h
    have := List.mem_of_getElem? h1
    revert this
    decide

/-- Two messages that say `Hello World`. -/
def twoHellos : List StorageEntry := [textMsg helloWorldPattern, textMsg helloWorldPattern]

theorem ascii_utf8 (bs : Bytes) (h : ∀ b ∈ bs, b < 128) : Utf8 bs := by
  induction bs with
  | nil => exact .nil
  | cons b bs ih =>
    refine .one b.toNat ?_ rfl (ih fun c hc => h c (List.mem_cons_of_mem _ hc))
    have := h b List.mem_cons_self
    rw [UInt8.lt_iff_toNat_lt] at this
    exact this

/-- **C62 (violated)** a file with two messages whose text is `Hello World`: `count_hello_world` reports 2,
`count_hello_world_grepit` reports 0, because `.*` runs from the first message into the last one. -/
theorem C62_grepit_misses_messages : Messages (packed twoHellos) twoHellos ∧ (∀ e ∈ twoHellos, SaysHello e) ∧
    countHelloWorld (packed twoHellos) = some (.ok 2) ∧
    countHelloWorldGrepit helloRegex (packed twoHellos) = some (.ok 0) := by
  have hw : ∀ e ∈ twoHellos, WF e := by decide
  have hF : Fits (packed twoHellos) := by decide
  have hms := messages_packed hw
  refine ⟨hms, ?_, ?_, ?_⟩
  · intro e he
    have : e = textMsg helloWorldPattern := by simpa [twoHellos] using he
    subst this
    exact ⟨16, 27, [101, 108, 108, 111], ascii_utf8 _ (by decide), by decide, by decide, by decide⟩
  · have := (C49_count_hello_world_partial _ hF _ hms).2 (by decide)
    rw [this]
    have h2 : ∀ e ∈ twoHellos, hasText helloWorld e := by
      intro e he
      have : e = textMsg helloWorldPattern := by simpa [twoHellos] using he
      subst this
      exact ⟨helloWorldPattern, by decide, [], [], by decide⟩
    rw [List.filter_eq_self.2]
    · rfl
    · intro e he
      simp only [decide_eq_true_eq]
      exact h2 e he
  · have hm : helloRegex.matchAt (packed twoHellos) 20 = some (62, none) := by
      rw [helloRegex_iff]
      refine ⟨rfl, ⟨((packed twoHellos).drop 21).take 35, ascii_utf8 _ (by decide), by decide, by decide, by decide⟩, ?_⟩
      rintro e' ⟨mid, -, -, hp, rfl⟩
      have := hp.length_le
      have hl : ((packed twoHellos).drop 20).length = 42 := by decide
      rw [hl] at this
      simp at this
      omega
    have hno : ∀ j, j < 20 → helloRegex.matchAt (packed twoHellos) j = none := by
      intro j hj
      cases hx : helloRegex.matchAt (packed twoHellos) j with
      | none => rfl
      | some p =>
        obtain ⟨e, g⟩ := p
        have h1 := helloAt_first ((helloRegex_iff _ _ _ _).1 hx).2.1
        have key : ∀ j, j < 20 → (packed twoHellos)[j]? ≠ some 72 := by decide
        exact absurd h1 (key j hj)
    have h1 : grepSearch dltStorage helloRegex (packed twoHellos) 0 = some (.ok none) := by
      rw [grepSearch_skip dlt_lawful hF (s := 20) (e := 62) (i := 0) (g := none) (v := textMsg helloWorldPattern) (by decide)
        hm (by omega) (fun j _ h => hno j h) (lastMarker_of (by omega) (by decide) (by decide))
        (readableAt_iff_msgAt.2 ⟨by decide, [], encode (textMsg helloWorldPattern), by decide, rfl⟩) (by decide)]
      exact grepSearch_end (by decide)
    have h2 : collectDN (dltGrepNext helloRegex (packed twoHellos)) 1 0 = some (.ok []) := by
      rw [collectDN]
      unfold dltGrepNext grepNext
      rw [h1]
    exact pullCount_eq (streams_grep hF h2) (by decide)

end Verif
