import Verif.Props.OversizedPar
import Verif.Props.Sums

/-! # C135: the reports of all multithreaded commands on a log with messages of any length -/

set_option linter.unusedSimpArgs false

namespace Verif

open Spec

theorem each_map_map {α β γ δ : Type} {P : α → β → Prop} (f : γ → α) (g : δ → β) : ∀ (l : List γ) (l' : List δ),
    Each P (l.map f) (l'.map g) ↔ Each (fun a b => P (f a) (g b)) l l'
  | [], [] => Iff.rfl
  | [], _ :: _ => Iff.rfl
  | _ :: _, [] => Iff.rfl
  | _ :: l, _ :: l' => and_congr Iff.rfl (each_map_map f g l l')

theorem each_self {α β : Type} {P : α → β → Prop} (f : α → β) : ∀ {l : List α}, Each P l (l.map f) → ∀ a ∈ l, P a (f a)
  | [], _, _, h => nomatch h
  | a :: l, h, b, hb => by
    rcases List.mem_cons.1 hb with rfl | hb
    · exact h.1
    · exact each_self f h.2 b hb

variable {segs : List (Bytes × StorageEntry)} {t : Bytes}

/-- **C135** all multithreaded commands on a log with messages of any length: a command panics exactly if the sequential command
panics on the messages that lie completely in one of the slices; otherwise what it reports is the sum of the right reports on
these. -/
theorem C135_reports (hc : Clean segs t) (hF : Fits (fileOf segs t)) (hns : NoStraddle (fileOf segs t) (messagesAt 0 segs))
    (hlate : NoLateMarker (fileOf segs t) (messagesAt 0 segs)) (num : Nat) (hnum : num ≠ 0) :
    ∃ rs b, partitionRanges dltStorage (fileOf segs t) num = .ok rs ∧ Tiles 0 rs b ∧ ∀ c, sequential c = false →
      (RunCmd num (fileOf segs t) c .panic ↔ ∃ r ∈ rs, Panics (messagesIn (messagesAt 0 segs) r) (onSlices c)) ∧
      ∀ rep, RunCmd num (fileOf segs t) c (.ok rep) ↔
        (∀ r ∈ rs, ¬ Panics (messagesIn (messagesAt 0 segs) r) (onSlices c)) ∧
        ∃ parts, AddsUp c parts rep ∧
          Each (fun r p => Spec.Prints (((fileOf segs t).take r.2).drop r.1) (messagesIn (messagesAt 0 segs) r) (onSlices c) p)
            rs parts := by
  obtain ⟨rs, b, slices, h1, h2, h3, h4, h5, -⟩ := C135_slices hc hF hns hlate num hnum
  refine ⟨rs, b, h1, h2, fun c hc => ⟨?_, fun rep => ?_⟩⟩
  · obtain ⟨slices', mss', g3, g5, g6⟩ := C69_parallel_panics num hnum (fileOf segs t) hF
    rw [h3] at g3
    cases g3
    obtain rfl := each_messages_unique h5 g5
    rw [g6 c hc]
    constructor
    · rintro ⟨ms, hms, hp⟩
      obtain ⟨r, hr, rfl⟩ := List.mem_map.1 hms
      exact ⟨r, hr, hp⟩
    · rintro ⟨r, hr, hp⟩
      exact ⟨_, List.mem_map.2 ⟨r, hr, rfl⟩, hp⟩
  · rw [C143_by_messages num hnum _ hF slices h3 c hc rep]
    subst h4
    have hmsg : ∀ r ∈ rs, Messages (((fileOf segs t).take r.2).drop r.1) (messagesIn (messagesAt 0 segs) r) := by
      rw [each_map_map] at h5
      exact each_self id (by rw [List.map_id]; exact h5)
    have key : ∀ parts, Each (fun s p => ∃ msgs, Messages s msgs ∧ ¬ Panics msgs (onSlices c) ∧ Spec.Prints s msgs (onSlices c) p)
        (rs.map fun r => ((fileOf segs t).take r.2).drop r.1) parts ↔
        (∀ r ∈ rs, ¬ Panics (messagesIn (messagesAt 0 segs) r) (onSlices c)) ∧
          Each (fun r p => Spec.Prints (((fileOf segs t).take r.2).drop r.1) (messagesIn (messagesAt 0 segs) r) (onSlices c) p)
            rs parts := by
      clear h1 h2 h3 h5
      induction rs with
      | nil => intro parts; cases parts <;> simp [Each]
      | cons r rs ih =>
        intro parts
        cases parts with
        | nil => simp [Each]
        | cons p parts =>
          rw [List.map_cons]
          show _ ∧ _ ↔ _ ∧ _ ∧ _
          rw [ih fun r hr => hmsg r (List.mem_cons_of_mem _ hr), List.forall_mem_cons]
          have hm := hmsg r List.mem_cons_self
          constructor
          · rintro ⟨⟨ms, a1, a2, a3⟩, a4, a5⟩
            obtain rfl := messages_unique a1 hm
            exact ⟨⟨a2, a4⟩, a3, a5⟩
          · rintro ⟨⟨a2, a4⟩, a3, a5⟩
            exact ⟨⟨_, hm, a2, a3⟩, a4, a5⟩
    constructor
    · rintro ⟨parts, g1, g2⟩
      obtain ⟨k1, k2⟩ := (key parts).1 g2
      exact ⟨k1, parts, g1, k2⟩
    · rintro ⟨k1, parts, g1, k2⟩
      exact ⟨parts, g1, (key parts).2 ⟨k1, k2⟩⟩

/-- **C135** at work: the log of `C135_one_lost`. On two threads `par_histogram_timestamp` shows the period of the second message
only, whose time is 0 to 0. -/
example : ∀ rep, RunCmd 2 (packed [msgMax, msgLong]) .parHistogramTimestamp (.ok rep) ↔ rep = .buckets [(0, 1, 1)] := by
  obtain ⟨hw, hm, hlen⟩ := two_long
  have hF : Fits (packed [msgMax, msgLong]) := by unfold Fits; rw [hlen]; decide
  have h := C135_reports (clean_packed hw)
  rw [fileOf_packed, messagesAt_packed] at h
  obtain ⟨rs, b, h1, -, h2⟩ := h hF (noStraddle_packed hw) (noLate_packed hw hm) 2 (by decide)
  rw [C135_one_lost.1] at h1
  cases h1
  have hat : packedAt 0 [msgMax, msgLong] = [(0, msgMax), (65551, msgLong)] := by
    simp [packedAt, msgMax_length]
  have e1 : messagesIn (packedAt 0 [msgMax, msgLong]) (0, 65546) = [] := by
    unfold messagesIn
    rw [hat, List.filter_cons_of_neg, List.filter_cons_of_neg]
    · rfl
    · simp only [Within, decide_eq_true_eq, msgLong_length]; omega
    · simp only [Within, decide_eq_true_eq, msgMax_length]; omega
  have e2 : messagesIn (packedAt 0 [msgMax, msgLong]) (65546, 131092) = [msgLong] := by
    unfold messagesIn
    rw [hat, List.filter_cons_of_neg, List.filter_cons_of_pos]
    · rfl
    · simp only [Within, decide_eq_true_eq, msgLong_length]; omega
    · simp only [Within, decide_eq_true_eq, msgMax_length]; omega
  have hok : RunCmd 2 (packed [msgMax, msgLong]) .parHistogramTimestamp (.ok (.buckets [(0, 1, 1)])) := by
    refine ((h2 .parHistogramTimestamp rfl).2 _).2 ⟨fun r _ h => h.elim, [.buckets [], .buckets [(0, 1, 1)]], ?_, ?_, ?_, trivial⟩
    · refine ⟨[[], [(0, 1, 1)]], _, rfl, rfl, ?_, ?_, ?_, ?_⟩
      · show List.Pairwise _ _
        simp
      · decide
      · intro k; simp
      · intro k
        simp only [listed, List.map_cons, List.map_nil, List.sum_cons, List.sum_nil]
        split <;> rfl
    · show ∃ runs m, MaximalRuns _ (messagesIn _ _) runs ∧ _ ∧ _
      rw [e1]
      exact ⟨[], [], ⟨rfl, by simp, by simp, by simp⟩, ⟨by simp, fun k v => by simp; omega⟩, rfl⟩
    · show ∃ runs m, MaximalRuns _ (messagesIn _ _) runs ∧ _ ∧ _
      rw [e2]
      exact ⟨[[msgLong]], [(0, 1)], ⟨rfl, by simp, by simp, by simp⟩, hist_zeros 1 (by decide), rfl⟩
  intro rep
  obtain ⟨r, hr⟩ := C66_one_result 2 (by decide) _ hF .parHistogramTimestamp
  rw [hr] at hok ⊢
  rw [← hok]
  constructor
  · intro h; cases h; rfl
  · intro h; rw [h]

end Verif
