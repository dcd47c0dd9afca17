import Verif.Props.Parallel
import Verif.Props.Utf8

/-! # C34, C56, C58: further parallel commands -/

set_option linter.unusedSimpArgs false

namespace Verif

open Spec

theorem sum_each {slices : List Bytes} {mss : List (List StorageEntry)} (F : Bytes → Nat) (G : List StorageEntry → Nat)
    (h : Each (fun s ms => F s = G ms) slices mss) : (slices.map F).sum = (mss.map G).sum := by
  induction slices generalizing mss with
  | nil =>
    cases mss with
    | nil => rfl
    | cons => exact h.elim
  | cons s slices ih =>
    cases mss with
    | nil => exact h.elim
    | cons ms mss => rw [List.map_cons, List.map_cons, List.sum_cons, List.sum_cons, ih h.2, h.1]

theorem each_imp {α β : Type} {P Q : α → β → Prop} : ∀ {l : List α} {l' : List β}, Each P l l' →
    (∀ a ∈ l, ∀ b ∈ l', P a b → Q a b) → Each Q l l'
  | [], [], _, _ => trivial
  | [], _ :: _, h, _ => h.elim
  | _ :: _, [], h, _ => h.elim
  | a :: _, b :: _, h, hi => ⟨hi a (List.mem_cons_self ..) b (List.mem_cons_self ..) h.1,
      each_imp h.2 fun x hx y hy => hi x (List.mem_cons_of_mem _ hx) y (List.mem_cons_of_mem _ hy)⟩

theorem each_left {α β : Type} {P : α → β → Prop} : ∀ {l : List α} {l' : List β}, Each P l l' → ∀ a ∈ l, ∃ b ∈ l', P a b
  | [], [], _, a, ha => by simp at ha
  | [], _ :: _, h, _, _ => h.elim
  | _ :: _, [], h, _, _ => h.elim
  | x :: _, y :: _, h, a, ha => by
    rcases List.mem_cons.1 ha with rfl | ha
    · exact ⟨y, List.mem_cons_self .., h.1⟩
    · obtain ⟨b, hb, hp⟩ := each_left h.2 a ha
      exact ⟨b, List.mem_cons_of_mem _ hb, hp⟩

theorem each_right {α β : Type} {P : α → β → Prop} : ∀ {l : List α} {l' : List β}, Each P l l' → ∀ b ∈ l', ∃ a ∈ l, P a b
  | [], [], _, b, hb => by simp at hb
  | [], _ :: _, h, _, _ => h.elim
  | _ :: _, [], h, _, _ => h.elim
  | x :: _, y :: _, h, b, hb => by
    rcases List.mem_cons.1 hb with rfl | hb
    · exact ⟨x, List.mem_cons_self .., h.1⟩
    · obtain ⟨a, ha, hp⟩ := each_right h.2 b hb
      exact ⟨a, List.mem_cons_of_mem _ ha, hp⟩

theorem messages_flatten_length {slices : List Bytes} (hfit : ∀ s ∈ slices, Fits s) {mss : List (List StorageEntry)}
    (h : Each Messages slices mss) : mss.flatten.length ≤ slices.flatten.length := by
  induction slices generalizing mss with
  | nil =>
    cases mss with
    | nil => exact Nat.le_refl _
    | cons => exact h.elim
  | cons s slices ih =>
    cases mss with
    | nil => exact h.elim
    | cons ms mss =>
      have h1 := ih (fun s hs => hfit s (List.mem_cons_of_mem _ hs)) h.2
      have h2 := (messages_length (hfit s (List.mem_cons_self ..)) h.1).1
      simp only [List.flatten_cons, List.length_append]
      omega

/-- **C34** on every file and for every number of threads, `par_count` never panics: it returns the number of messages
`dltit` reads from the slices. -/
theorem C34_par_count_never_panics (bytes : Bytes) (num : Nat) (hnum : num ≠ 0) (hF : Fits bytes) :
    ∃ slices mss, partitionFrom dltStorage bytes num = .ok slices ∧ Each Messages slices mss ∧
      ∀ r, Multithreaded ripCount bytes num r ↔ r = .ok mss.flatten.length := by
  obtain ⟨rs, b, slices, -, -, -, hp, -⟩ := C30_partition_contiguous bytes hF num hnum
  obtain ⟨hlen, hfit⟩ := partition_fits hF hp
  obtain ⟨mss, hm⟩ := each_messages hfit
  refine ⟨slices, mss, hp, hm, ?_⟩
  let F : Bytes → Nat := fun s => match ripCount s with
    | some (Res.ok n) => n
    | _ => 0
  have hF1 : ∀ s ∈ slices, ∀ ms ∈ mss, Messages s ms → ripCount s = some (.ok (F s)) ∧ F s = ms.length := by
    intro s hs ms _ h
    have h1 := C45_count s (hfit s hs) ms h
    have h2 : F s = ms.length := by
      show (match ripCount s with
        | some (Res.ok n) => n
        | _ => 0) = _
      rw [h1]
    exact ⟨by rw [h1, h2], h2⟩
  have hsum : (slices.map F).sum = mss.flatten.length := by
    rw [sum_each F List.length (each_imp hm fun s hs ms hms h => (hF1 s hs ms hms h).2), sum_map_length]
  have := (C35_counters_sum ripCount bytes num hF slices hp ripCount_total).2 F (by
    intro s hs
    obtain ⟨ms, hms, h⟩ := each_left hm s hs
    exact (hF1 s hs ms hms h).1) (by
    have := messages_flatten_length hfit hm
    have := fits_le hF
    rw [hsum]
    unfold usizeMax
    omega)
  rw [hsum] at this
  exact this

open Classical in
/-- **C58 (partial)** on a clean file whose messages have at most 65536 bytes and do not straddle, and whose slices lose
nothing, `par_count_hello_world` does what `count_hello_world` does, whatever the number of threads and the schedule. -/
theorem C58_par_count_hello_world_partial (segs : List (Bytes × StorageEntry)) (t : Bytes) (hc : Clean segs t)
    (hF : Fits (fileOf segs t)) (hmax : AtMost 65536 (messagesAt 0 segs))
    (hns : NoStraddle (fileOf segs t) (messagesAt 0 segs)) (num : Nat) (hnum : num ≠ 0) (slices : List Bytes)
    (hp : partitionFrom dltStorage (fileOf segs t) num = .ok slices) (hcover : slices.flatten = fileOf segs t) (r : Res Nat) :
    Multithreaded countHelloWorld (fileOf segs t) num r ↔ some r = countHelloWorld (fileOf segs t) := by
  have hfit := (partition_fits hF hp).2
  obtain ⟨mss, hm⟩ := each_messages hfit
  have hflat := slices_messages segs t hc hF hmax hns num hnum slices hp hcover mss hm
  have hseq := C49_count_hello_world_partial (fileOf segs t) hF _ (messages_fileOf hc)
  have hpar := C35_counters_sum countHelloWorld (fileOf segs t) num hF slices hp countHelloWorld_total
  rw [← hflat] at hseq
  by_cases hpan : ∃ e ∈ mss.flatten, payloadOf e = none
  · rw [hseq.1.2 hpan, Option.some.injEq]
    obtain ⟨e, he, hn⟩ := hpan
    obtain ⟨ms, hms, he⟩ := List.mem_flatten.1 he
    obtain ⟨s, hs, h1⟩ := each_right hm ms hms
    exact hpar.1 ⟨s, hs, (C49_count_hello_world_partial s (hfit s hs) ms h1).1.2 ⟨e, he, hn⟩⟩ r
  · have hall : ∀ e ∈ mss.flatten, (payloadOf e).isSome := fun e he => by
      cases hq : payloadOf e with
      | some p => rfl
      | none => exact absurd ⟨e, he, hq⟩ hpan
    rw [hseq.2 hall, Option.some.injEq]
    let F : Bytes → Nat := fun s => match countHelloWorld s with
      | some (Res.ok n) => n
      | _ => 0
    have hF1 : ∀ s ∈ slices, ∀ ms ∈ mss, Messages s ms →
        countHelloWorld s = some (.ok (F s)) ∧ F s = (ms.filter fun e => decide (hasText helloWorld e)).length := by
      intro s hs ms hms h
      have h1 := (C49_count_hello_world_partial s (hfit s hs) ms h).2 fun e he => hall e (List.mem_flatten.2 ⟨ms, hms, he⟩)
      have h2 : F s = (ms.filter fun e => decide (hasText helloWorld e)).length := by
        show (match countHelloWorld s with
          | some (Res.ok n) => n
          | _ => 0) = _
        rw [h1]
      exact ⟨by rw [h1, h2], h2⟩
    have hsum : (slices.map F).sum = (mss.flatten.filter fun e => decide (hasText helloWorld e)).length := by
      rw [sum_each F (fun ms => (ms.filter fun e => decide (hasText helloWorld e)).length)
        (each_imp hm fun s hs ms hms h => (hF1 s hs ms hms h).2)]
      clear hm hflat hseq hpar hpan hall hF1
      induction mss with
      | nil => rfl
      | cons ms mss ih =>
        simp only [List.map_cons, List.sum_cons, List.flatten_cons, List.filter_append, List.length_append, ih]
    have h1 := hpar.2 F (by
      intro s hs
      obtain ⟨ms, hms, h⟩ := each_left hm s hs
      exact (hF1 s hs ms hms h).1) (by
      have h2 := messages_flatten_length hfit hm
      have h3 := fits_le hF
      have h4 := (partition_fits hF hp).1
      have h5 := List.length_filter_le (fun e => decide (hasText helloWorld e)) mss.flatten
      rw [hsum]
      unfold usizeMax
      omega) r
    rw [hsum] at h1
    exact h1

/-- **C56 (partial)** `par_split_timestamp` panics while printing exactly if some ECU id in some slice is not UTF-8. -/
theorem C56_par_split_timestamp_partial (bytes : Bytes) (num : Nat) (hnum : num ≠ 0) (hF : Fits bytes) :
    ∃ slices mss m, partitionFrom dltStorage bytes num = .ok slices ∧ Each Messages slices mss ∧
      (∀ r, ParTimestampSplit bytes num r ↔ r = .ok m) ∧
      (ecuLines m = .panic ↔ ∃ e ∈ mss.flatten, ¬ Utf8 e.storageHeader.ecu.toBytes) ∧
      ((∀ e ∈ mss.flatten, Utf8 e.storageHeader.ecu.toBytes) → ecuLines m = .ok (m.map fun e => (e.1.toBytes, e.2))) := by
  obtain ⟨slices, tables, m, h1, h2, h3, h4, h5, h6⟩ := C35_par_split bytes num hnum hF
  have hfit := (partition_fits hF h1).2
  obtain ⟨mss, hm⟩ := each_messages hfit
  have hkeys : ∀ ecu, (∃ v, (ecu, v) ∈ m) ↔ ∃ e ∈ mss.flatten, e.storageHeader.ecu = ecu := fun ecu => by
    rw [h5, (tables_messages ecu hfit hm h3).2]
  have hl := ecuLines_eq m
  refine ⟨slices, mss, m, h1, hm, h2, ?_, ?_⟩
  · rw [hl.1]
    constructor
    · rintro ⟨x, hx, hn⟩
      obtain ⟨e, he, heq⟩ := (hkeys x.1).1 ⟨x.2, hx⟩
      exact ⟨e, he, by rw [heq]; exact hn⟩
    · rintro ⟨e, he, hn⟩
      obtain ⟨v, hv⟩ := (hkeys e.storageHeader.ecu).2 ⟨e, he, rfl⟩
      exact ⟨_, hv, hn⟩
  · intro hu
    rw [hl.2]
    intro x hx
    obtain ⟨e, he, heq⟩ := (hkeys x.1).1 ⟨x.2, hx⟩
    rw [← heq]
    exact hu e he

/-- **C58, C34** the hypotheses are met by four messages in two slices. -/
example : ∀ r, Multithreaded countHelloWorld (packed (four 1 2 3 4)) 2 r ↔ some r = countHelloWorld (packed (four 1 2 3 4)) := by
  have hw := four_wf 1 2 3 4
  have hF := four_fits 1 2 3 4
  have hmx := four_max 1 2 3 4
  have hns := noStraddle_packed hw
  have hsl := four_slices 1 2 3 4
  rw [← fileOf_packed] at hF hns hsl
  rw [← messagesAt_packed] at hmx hns
  intro r
  rw [← fileOf_packed]
  exact C58_par_count_hello_world_partial _ [] (clean_packed hw) hF hmx hns 2 (by decide) _ hsl.1 hsl.2 r

end Verif
