import Verif.Props.Hello
import Verif.Props.GrepExact

/-! # C62, C63: what the pattern commands report, exactly, on every file -/

set_option linter.unusedSimpArgs false

namespace Verif

open Spec

theorem grepYields_unique {re : Regex} {bytes : Bytes} {off : Nat} {a b : List (Nat × StorageEntry)}
    (ha : GrepYields re bytes off a) (hb : GrepYields re bytes off b) : a = b := by
  induction ha generalizing b with
  | done hs =>
    cases hb with
    | done => rfl
    | hit hs' => have := search_unique hs hs'; simp at this
  | hit hs _ ih =>
    cases hb with
    | done hs' => have := search_unique hs hs'; simp at this
    | hit hs' h' =>
      have := search_unique hs hs'
      simp only [Option.some.injEq, Prod.mk.injEq] at this
      obtain ⟨rfl, -⟩ := this
      rw [ih h']

/-- **C62 (exact)** on every file `count_hello_world_grepit` reports the number of messages that the search for the
pattern comes upon from the start of the file (going on behind each message found), and nothing else. -/
theorem C62_grepit_exact (bytes : Bytes) (hF : Fits bytes) (r : Option (Res Nat)) :
    countHelloWorldGrepit helloRegex bytes = r ↔ ∃ hits, GrepYields helloRegex bytes 0 hits ∧ r = some (.ok hits.length) := by
  obtain ⟨items, fuel, hc⟩ := C25_grep_terminates_partial helloRegex bytes hF (hello_nonEmpty bytes) 0
  have hinc := (grep_increasing helloRegex bytes hF (hello_nonEmpty bytes) fuel 0 items hc).2
  have hit := grep_items hF hc
  have hcount : countHelloWorldGrepit helloRegex bytes = some (.ok items.length) := by
    refine pullCount_eq (streams_grep hF hc) ?_
    have : (items.map (·.1)).length ≤ bytes.length := by
      refine pairwise_lt_length (by rw [List.pairwise_map]; exact hinc) fun i hi => ?_
      rw [List.mem_map] at hi
      obtain ⟨x, hx, rfl⟩ := hi
      have := (readableAt_iff_msgAt.2 (hit x hx).1).bounds dlt_lawful
      omega
    rw [List.length_map] at this
    have := fits_le hF
    unfold usizeMax
    omega
  have hy := (C81_grep_exact helloRegex bytes hF 0 items).1 ⟨fuel, hc⟩
  rw [hcount]
  constructor
  · rintro rfl
    exact ⟨items, hy, rfl⟩
  · rintro ⟨hits, h1, rfl⟩
    rw [grepYields_unique hy h1]

/-- **C63 (exact)** and `histogram_hello_world` reports the histogram of the offsets of the same messages. -/
theorem C63_histogram_exact (bytes : Bytes) (hF : Fits bytes) :
    ∃ (hits : List (Nat × StorageEntry)) (m : OrdMap Nat Nat), GrepYields helloRegex bytes 0 hits ∧
      histogramHelloWorld helloRegex bytes = some (.ok m) ∧ IsHistogram (hits.map fun x => x.1 / 100000000) m := by
  obtain ⟨items, fuel, hc⟩ := C25_grep_terminates_partial helloRegex bytes hF (hello_nonEmpty bytes) 0
  have hy := (C81_grep_exact helloRegex bytes hF 0 items).1 ⟨fuel, hc⟩
  have hlen : items.length ≤ usizeMax := by
    have := (C62_grepit_exact bytes hF (some (.ok items.length))).2 ⟨items, hy, rfl⟩
    obtain ⟨hits, h1, h2, h3⟩ := C61_count_grepit bytes hF
    rw [h1] at this
    simp only [Option.some.injEq, Res.ok.injEq] at this
    have : (hits.map (·.1)).length ≤ bytes.length := by
      refine pairwise_lt_length (by rw [List.pairwise_map]; exact h2) fun i hi => ?_
      rw [List.mem_map] at hi
      obtain ⟨x, hx, rfl⟩ := hi
      have := (readableAt_iff_msgAt.2 (h3 x hx).1).bounds dlt_lawful
      omega
    rw [List.length_map] at this
    have := fits_le hF
    unfold usizeMax
    omega
  have hs := streams_map_on (streams_grep hF hc) (F := fun x : Nat × StorageEntry => .ok x.1) (f := fun x => x.1) (fun _ _ => rfl)
  obtain ⟨m, h1, h2⟩ := pullSplit_hist (keyfn := fun off : Nat => .ok (off / 100000000)) (key := fun off => off / 100000000) hs
    (fun _ _ => rfl) (by rw [List.length_map]; exact hlen)
  rw [List.map_map] at h2
  exact ⟨items, m, hy, h1, h2⟩

/-- The messages the search comes upon are stored in the file, contain a match, and are found in order. -/
theorem hits_sound {bytes : Bytes} (hF : Fits bytes) {hits : List (Nat × StorageEntry)} (h : GrepYields helloRegex bytes 0 hits) :
    (hits.Pairwise fun a b => a.1 < b.1) ∧ ∀ x ∈ hits, MsgAt bytes x.1 x.2 ∧ SaysHello x.2 := by
  obtain ⟨fuel, hc⟩ := (C81_grep_exact helloRegex bytes hF 0 hits).2 h
  refine ⟨(grep_increasing helloRegex bytes hF (hello_nonEmpty bytes) fuel 0 hits hc).2, fun x hx => ?_⟩
  obtain ⟨hm, s, t, h1, h2, h3⟩ := grep_items hF hc x hx
  exact ⟨hm, _, _, ((helloAt_inside hm h2 h3).1 ((hello_matches_iff bytes s t).1 h1).1).1⟩

/-- What `histogram_hello_world` prints. -/
theorem hello_histogram_report (bytes : Bytes) (hF : Fits bytes) :
    ∃ (hits : List (Nat × StorageEntry)) (m : OrdMap Nat Nat), GrepYields helloRegex bytes 0 hits ∧
      histogramHelloWorld helloRegex bytes = some (.ok m) ∧ IsHistogram (hits.map fun x => x.1 / 100000000) m ∧
      offsetLines m = .ok (m.map fun e => (e.1 * 100, (e.1 + 1) * 100, e.2)) := by
  obtain ⟨hits, m, h1, h2, h3⟩ := C63_histogram_exact bytes hF
  obtain ⟨-, m', -, -, -, h4, -, -, h5⟩ := C63_histogram_hello_world bytes hF
  rw [h2] at h4
  cases h4
  exact ⟨hits, m, h1, h2, h3, h5⟩

/-- **C62, C63** the search in two hellos (the file of `C62_grepit_misses_messages`) comes upon nothing. -/
example : GrepYields helloRegex (packed twoHellos) 0 [] := by
  have h := C62_grepit_misses_messages
  obtain ⟨hits, h1, h2⟩ := (C62_grepit_exact (packed twoHellos) (by unfold Fits; decide) _).1 rfl
  rw [h.2.2.2] at h2
  simp only [Option.some.injEq, Res.ok.injEq] at h2
  have : hits = [] := List.eq_nil_of_length_eq_zero h2.symm
  rw [← this]; exact h1

end Verif
