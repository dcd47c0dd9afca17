import Verif.Spec.Stats
import Verif.Lemmas.Histogram
import Verif.Lemmas.RunsOn
import Verif.Lemmas.DltLaws
import Verif.Lemmas.Scan
import Verif.Props.Generator
import Verif.Props.Access

/-! # Lemmas about the statistics functions -/

set_option linter.unusedSimpArgs false

namespace Verif

open Spec

theorem dltPull_next (bytes : Bytes) (off : Nat) : (dltPull bytes).next off =
    match dltitNext bytes off with
    | .panic => some .panic
    | .ok (o, off') => some (.ok (off', o)) := by
  simp only [dltPull, pullOf]
  cases dltitNext bytes off <;> rfl

theorem dltitNext_of (bytes : Bytes) {off off' : Nat} {o : Option (Nat × StorageEntry)}
    (h : readFallbackNext dltStorage bytes off = .ok (o, off')) : dltitNext bytes off = .ok (o.map (·.2), off') := by
  unfold dltitNext noOffsetNext dltitOffsetNext
  rw [h]
  cases o with
  | none => rfl
  | some p => rfl

theorem streams_dlt_from {bytes : Bytes} (hF : Fits bytes) (off : Nat) (hoff : off ≤ bytes.length) :
    ∃ items, Streams (dltPull bytes) off (.ok (items.map (·.2))) ∧ Scan dltStorage bytes off items := by
  have hF' := fits_le hF
  generalize hk : bytes.length - off = k
  induction k using Nat.strongRecOn generalizing off with
  | ind k ih =>
    rcases readFallbackNext_spec dlt_lawful.toReads hF off (by
      have : dltStorage.marker.length = 4 := rfl
      unfold usizeMax; omega) with ⟨off', h1, h2, h3⟩ | ⟨i, v, h1, h2, h3⟩
    · refine ⟨[], .done ?_, ?_⟩
      · refine exhausted_of_inv (it := dltPull bytes) (fun s => s = off ∨ s = off') ?_ (Or.inl rfl)
        rintro s (rfl | rfl)
        · exact ⟨off', by rw [dltPull_next, dltitNext_of bytes h1]; rfl, Or.inr rfl⟩
        · exact ⟨s, by rw [dltPull_next, dltitNext_of bytes h2]; rfl, Or.inr rfl⟩
      · rcases h3 with h3 | ⟨i, h3, h4⟩
        · exact Scan.done _ h3
        · exact Scan.bad _ i h3 h4
    · have hb := h3.bounds dlt_lawful
      have := h2.1
      obtain ⟨items, hc, hs⟩ := ih (bytes.length - (i + dltStorage.len v)) (by omega) (i + dltStorage.len v) (by omega) rfl
      refine ⟨(i, v) :: items, ?_, Scan.msg _ i v items h2 h3 hs⟩
      have := Streams.item (it := dltPull bytes) (s := off) (s' := i + dltStorage.len v) (x := v)
        (by rw [dltPull_next, dltitNext_of bytes h1]; rfl) hc
      exact this

theorem messages_exists {bytes : Bytes} (hF : Fits bytes) : ∃ msgs, Messages bytes msgs := by
  obtain ⟨items, -, h⟩ := streams_dlt_from hF 0 (Nat.zero_le _)
  exact ⟨_, items, h, rfl⟩

theorem messages_unique {bytes : Bytes} {a b : List StorageEntry} (ha : Messages bytes a) (hb : Messages bytes b) :
    a = b := by
  obtain ⟨i, hi, rfl⟩ := ha
  obtain ⟨j, hj, rfl⟩ := hb
  rw [hi.unique dlt_lawful hj]

theorem streams_dlt {bytes : Bytes} (hF : Fits bytes) {msgs : List StorageEntry} (h : Messages bytes msgs) :
    Streams (dltPull bytes) 0 (.ok msgs) := by
  obtain ⟨items, h1, h2⟩ := streams_dlt_from hF 0 (Nat.zero_le _)
  rw [messages_unique h ⟨items, h2, rfl⟩]
  exact h1

theorem messages_wf {bytes : Bytes} {msgs : List StorageEntry} (h : Messages bytes msgs) : ∀ e ∈ msgs, WF e := by
  obtain ⟨items, hs, rfl⟩ := h
  intro e he
  obtain ⟨x, hx, rfl⟩ := List.mem_map.1 he
  exact (readableAt_iff_msgAt.1 (hs.readable x hx)).1

/-- The messages fit into the file. -/
theorem messages_sum {bytes : Bytes} {msgs : List StorageEntry} (h : Messages bytes msgs) :
    (msgs.map fun e => (encode e).length).sum ≤ bytes.length ∧ 20 * msgs.length ≤ (msgs.map fun e => (encode e).length).sum := by
  obtain ⟨items, hs, rfl⟩ := h
  have hd := hs.disjoint
  have hb : ∀ x ∈ items, 20 ≤ x.2.len ∧ x.1 + x.2.len ≤ bytes.length := fun x hx =>
    (readableAt_iff_msgAt.1 (hs.readable x hx)).bounds
  have he : ∀ x ∈ items, (encode x.2).length = x.2.len := fun x hx =>
    encode_len x.2 (readableAt_iff_msgAt.1 (hs.readable x hx)).1
  have h1 := disjoint_sum (len := StorageEntry.len) (n := bytes.length) (s := 0)
    (fun x hx => ⟨Nat.zero_le _, (hb x hx).2⟩) hd.1 (Nat.zero_le _)
  have h2 := length_mul_le_sum (len := StorageEntry.len) (k := 20) (items := items) (fun x hx => (hb x hx).1)
  have h3 : ((items.map (·.2)).map fun e => (encode e).length) = items.map fun x => x.2.len := by
    rw [List.map_map]
    exact List.map_congr_left fun x hx => he x hx
  rw [h3, List.length_map]
  omega

theorem messages_length {bytes : Bytes} (hF : Fits bytes) {msgs : List StorageEntry} (h : Messages bytes msgs) :
    msgs.length ≤ bytes.length ∧ msgs.length ≤ usizeMax := by
  have := messages_sum h
  have := fits_le hF
  unfold usizeMax
  omega

/-! ## Pure closures on streams -/

theorem streams_map_on {α β : Type} {it : Pull α} {s : it.σ} {xs : List α} (h : Streams it s (.ok xs)) {F : α → Res β}
    {f : α → β} (hF : ∀ x ∈ xs, F x = .ok (f x)) : Streams (pullMap F it) s (.ok (xs.map f)) := by
  have := streams_map F h
  rw [← mapR_pure f xs, ← mapR_congr hF]
  exact this

theorem streams_filter_on {α : Type} {it : Pull α} {s : it.σ} {xs : List α} (h : Streams it s (.ok xs)) {F : α → Res Bool}
    {f : α → Bool} (hF : ∀ x ∈ xs, F x = .ok (f x)) : Streams (pullFilter F it) s (.ok (xs.filter f)) := by
  have := streams_filter F h
  rw [← filterR_pure f xs, ← filterR_congr hF]
  exact this

theorem streams_groupBy_on {α : Type} {it : Pull α} {s : it.σ} {xs : List α} (h : Streams it s (.ok xs))
    {F : α → α → Res Bool} {f : α → α → Bool} (hF : ∀ a ∈ xs, ∀ b ∈ xs, F a b = .ok (f a b))
    (hr : ∀ x ∈ xs, f x x = true) :
    Streams (pullGroupBy F it) (.empty, s) (.ok ((runsL f xs).filterMap ends)) :=
  streams_fromAdapt (good_groupby F) h
    (outs_groupBy_on (P := fun x => x ∈ xs) (fun a b ha hb => hF a ha b hb) xs (fun _ hx => hx) hr)

theorem pullCount_eq {α : Type} {it : Pull α} {s : it.σ} {xs : List α} (h : Streams it s (.ok xs))
    (hl : xs.length ≤ usizeMax) : pullCount it s = some (.ok xs.length) := by
  rw [pullCount, pullReduce_eq _ h]
  show runRed (countRed α) xs = _
  rw [runRed_count, if_pos hl]

theorem pullReduce_panic {α ρ : Type} {it : Pull α} {s : it.σ} (h : Streams it s .panic) (r : Red α ρ) :
    pullReduce r it s = some .panic := by
  rw [pullReduce_eq _ h]; rfl

/-! ## Runs -/

theorem runs_length_le {α : Type} {R : α → α → Prop} {xs : List α} {runs : List (List α)} (h : MaximalRuns R xs runs) :
    runs.length ≤ xs.length := by
  have h1 := h.flatten
  have h2 := h.nonempty
  rw [← h1]
  clear h h1
  induction runs with
  | nil => simp
  | cons r rs ih =>
    have := ih fun x hx => h2 x (List.mem_cons_of_mem _ hx)
    have := List.length_pos_iff.2 (h2 r List.mem_cons_self)
    simp only [List.length_cons, List.flatten_cons, List.length_append]
    omega

theorem runs_mem {α : Type} {R : α → α → Prop} {xs : List α} {runs : List (List α)} (h : MaximalRuns R xs runs)
    {r : List α} (hr : r ∈ runs) {x : α} (hx : x ∈ r) : x ∈ xs := by
  rw [← h.flatten]
  exact List.mem_flatten.2 ⟨r, hr, hx⟩

/-- In a run under a transitive reflexive relation, the first element is related to the last. -/
theorem run_first_last {α : Type} {R : α → α → Prop} (hr : ∀ a, R a a) (ht : ∀ a b c, R a b → R b c → R a c)
    {r : List α} (h : ∀ i a b, r[i]? = some a → r[i + 1]? = some b → R a b) {a b : α} (ha : r.head? = some a)
    (hb : r.getLast? = some b) : R a b := by
  induction r generalizing a with
  | nil => simp at ha
  | cons x r ih =>
    simp only [List.head?_cons, Option.some.injEq] at ha
    subst ha
    cases r with
    | nil => simp only [List.getLast?_singleton, Option.some.injEq] at hb; subst hb; exact hr _
    | cons y r =>
      refine ht x y b (h 0 x y rfl rfl) (ih (fun i a b h1 h2 => h (i + 1) a b h1 h2) rfl ?_)
      rw [List.getLast?_cons_cons] at hb
      exact hb

/-- Mapping over the ends of runs. -/
theorem map_ends {α β : Type} (g : α × α → β) (G : List α → β) {runs : List (List α)} (hne : ∀ r ∈ runs, r ≠ [])
    (hg : ∀ r ∈ runs, ∀ a b, r.head? = some a → r.getLast? = some b → g (a, b) = G r) :
    (runs.filterMap ends).map g = runs.map G := by
  induction runs with
  | nil => rfl
  | cons r rs ih =>
    have hr := hne r List.mem_cons_self
    obtain ⟨a, ha⟩ : ∃ a, r.head? = some a := by cases r with | nil => exact absurd rfl hr | cons a r => exact ⟨a, rfl⟩
    obtain ⟨b, hb⟩ : ∃ b, r.getLast? = some b := by
      cases h : r.getLast? with
      | none => rw [List.getLast?_eq_none_iff] at h; exact absurd h hr
      | some b => exact ⟨b, rfl⟩
    have he : ends r = some (a, b) := by unfold ends; rw [ha, hb]
    rw [List.filterMap_cons, he]
    simp only [List.map_cons, List.cons.injEq]
    exact ⟨hg r List.mem_cons_self a b ha hb, ih (fun r hr => hne r (List.mem_cons_of_mem _ hr))
      (fun r hr => hg r (List.mem_cons_of_mem _ hr))⟩

theorem mem_ends {α : Type} {runs : List (List α)} {p : α × α} (h : p ∈ runs.filterMap ends) :
    ∃ r ∈ runs, r.head? = some p.1 ∧ r.getLast? = some p.2 := by
  obtain ⟨r, hr, he⟩ := List.mem_filterMap.1 h
  refine ⟨r, hr, ?_⟩
  unfold ends at he
  split at he
  · next a b h1 h2 => simp only [Option.some.injEq] at he; subst he; exact ⟨h1, h2⟩
  · simp at he

theorem ends_mem {α : Type} {runs : List (List α)} {r : List α} (hr : r ∈ runs) {a b : α} (ha : r.head? = some a)
    (hb : r.getLast? = some b) : (a, b) ∈ runs.filterMap ends := by
  refine List.mem_filterMap.2 ⟨r, hr, ?_⟩
  unfold ends; rw [ha, hb]

theorem head_mem {α : Type} {r : List α} {a : α} (h : r.head? = some a) : a ∈ r := List.mem_of_mem_head? h
theorem last_mem {α : Type} {r : List α} {a : α} (h : r.getLast? = some a) : a ∈ r := List.mem_of_getLast? h

end Verif
