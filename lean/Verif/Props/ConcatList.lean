import Verif.Props.Concat

/-! # C134: any number of logs, one after the other -/

set_option linter.unusedSimpArgs false

namespace Verif

open Spec

/-- Every log but the last is read to its end. -/
def Spec.Joinable (parts : List Bytes) : Prop := ∀ a ∈ parts.dropLast, ReadToEnd a

variable {num : Nat}

/-- Induction over the logs. -/
theorem parts_induction {P : List Bytes → Bytes → Prop} (one : ∀ a, Fits a → P [a] a)
    (more : ∀ a rest, rest ≠ [] → ReadToEnd a → Fits (a ++ rest.flatten) → P rest rest.flatten → P (a :: rest) (a ++ rest.flatten)) :
    ∀ parts : List Bytes, parts ≠ [] → Joinable parts → Fits parts.flatten → P parts parts.flatten
  | [], h, _, _ => absurd rfl h
  | [a], _, _, hF => by
    rw [List.flatten_cons, List.flatten_nil, List.append_nil] at hF ⊢
    exact one a hF
  | a :: b :: rest, _, hj, hF => by
    rw [List.flatten_cons] at hF ⊢
    have hd : (a :: b :: rest).dropLast = a :: (b :: rest).dropLast := rfl
    refine more a (b :: rest) (by simp) (hj a (by rw [hd]; exact List.mem_cons_self ..)) hF ?_
    exact parts_induction one more (b :: rest) (by simp) (fun x hx => hj x (by rw [hd]; exact List.mem_cons_of_mem _ hx))
      (fits_parts hF).2

theorem each_one {α β : Type} {P : α → β → Prop} {a : α} {bs : List β} (h : Each P [a] bs) : ∃ b, bs = [b] ∧ P a b := by
  match bs, h with
  | [b], h => exact ⟨b, rfl, h.1⟩

theorem each_step {α β : Type} {P : α → β → Prop} {a : α} {as : List α} {bs : List β} (h : Each P (a :: as) bs) :
    ∃ b bs', bs = b :: bs' ∧ P a b ∧ Each P as bs' := by
  match bs, h with
  | b :: bs, h => exact ⟨b, bs, rfl, h.1, h.2⟩

/-- **C134** panics: on the joined log a command panics exactly if it panics on one of the logs (`itertools`: C114). -/
theorem C134_panics (parts : List Bytes) (hne : parts ≠ []) (hj : Joinable parts) (hF : Fits parts.flatten) (c : Cmd)
    (hc : sequential c = true) (hi : c ≠ .itertools) :
    RunCmd num parts.flatten c .panic ↔ ∃ a ∈ parts, RunCmd num a c .panic := by
  refine parts_induction (P := fun parts bytes => RunCmd num bytes c .panic ↔ ∃ a ∈ parts, RunCmd num a c .panic) ?_ ?_
    parts hne hj hF
  · intro a _
    simp
  · intro a rest _ he hF ih
    obtain ⟨h1, h2⟩ := C114_panics (num := num) hF he c hc
    constructor
    · intro h
      rcases h2 hi h with h | h
      · exact ⟨a, List.mem_cons_self .., h⟩
      · obtain ⟨x, hx, h⟩ := ih.1 h
        exact ⟨x, List.mem_cons_of_mem _ hx, h⟩
    · rintro ⟨x, hx, h⟩
      rcases List.mem_cons.1 hx with rfl | hx
      · exact h1 (.inl h)
      · exact h1 (.inr (ih.2 ⟨x, hx, h⟩))

/-- **C134** numbers: `count` and `count_hello_world` report the sum. -/
theorem C134_numbers (parts : List Bytes) (hne : parts ≠ []) (hj : Joinable parts) (hF : Fits parts.flatten) (c : Cmd)
    (hc : c = .count ∨ c = .countHelloWorld) (ns : List Nat)
    (h : Each (fun a n => RunCmd num a c (.ok (.number n))) parts ns) :
    RunCmd num parts.flatten c (.ok (.number ns.sum)) := by
  refine parts_induction (P := fun parts bytes => ∀ ns, Each (fun a n => RunCmd num a c (.ok (.number n))) parts ns →
    RunCmd num bytes c (.ok (.number ns.sum))) ?_ ?_ parts hne hj hF ns h
  · intro a _ ns h
    obtain ⟨n, rfl, h1⟩ := each_one h
    simpa using h1
  · intro a rest _ he hF ih ns h
    obtain ⟨n, ns, rfl, h1, h2⟩ := each_step h
    rw [List.sum_cons]
    exact (C114_counts hF he).1 c _ _ hc h1 (ih _ h2)

/-- **C134** size histograms: every line is the sum of the lines of the logs, and the total is that of the logs, up to the
rounding to kB of each. -/
theorem C134_sizes (parts : List Bytes) (hne : parts ≠ []) (hj : Joinable parts) (hF : Fits parts.flatten) (c : Cmd)
    (hc : c = .histogramMessageSize ∨ c = .histogramPayloadSize) (hs : List (List (Nat × Nat × Nat) × Nat))
    (h : Each (fun a p => RunCmd num a c (.ok (.sizes p.1 p.2))) parts hs) :
    ∃ m u, RunCmd num parts.flatten c (.ok (.sizes m u)) ∧
      (∀ k, shown (m.map fun l => (l.1, l.2.1)) k = (hs.map fun p => shown (p.1.map fun l => (l.1, l.2.1)) k).sum) ∧
      (hs.map (·.2)).sum ≤ u ∧ u < (hs.map (·.2)).sum + parts.length := by
  refine parts_induction (P := fun parts bytes => ∀ hs, Each (fun a p => RunCmd num a c (.ok (.sizes p.1 p.2))) parts hs →
    ∃ m u, RunCmd num bytes c (.ok (.sizes m u)) ∧
      (∀ k, shown (m.map fun l => (l.1, l.2.1)) k = (hs.map fun p => shown (p.1.map fun l => (l.1, l.2.1)) k).sum) ∧
      (hs.map (·.2)).sum ≤ u ∧ u < (hs.map (·.2)).sum + parts.length) ?_ ?_ parts hne hj hF hs h
  · intro a _ hs h
    obtain ⟨n, rfl, h1⟩ := each_one h
    exact ⟨_, _, h1, by simp, by simp, by simp⟩
  · intro a rest _ he hF ih hs h
    obtain ⟨n, ns, rfl, h1, h2⟩ := each_step h
    obtain ⟨m, u, h3, h4, h5, h6⟩ := ih _ h2
    obtain ⟨m', u', h7, h8, h9, h10⟩ := (C114_counts hF he).2.1 c _ _ _ _ hc h1 h3
    refine ⟨m', u', h7, fun k => ?_, ?_, ?_⟩
    · rw [h8 k, h4 k, List.map_cons, List.sum_cons]
    · rw [List.map_cons, List.sum_cons]; omega
    · rw [List.map_cons, List.sum_cons, List.length_cons]; omega

/-- **C134** message types: every line is the sum of the lines of the logs. -/
theorem C134_types (parts : List Bytes) (hne : parts ≠ []) (hj : Joinable parts) (hF : Fits parts.flatten)
    (hs : List (List ((Bool × Option MsgType) × Nat)))
    (h : Each (fun a p => RunCmd num a .histogramMessageType (.ok (.infos p))) parts hs) :
    ∃ m, RunCmd num parts.flatten .histogramMessageType (.ok (.infos m)) ∧ ∀ k, shown m k = (hs.map fun p => shown p k).sum := by
  refine parts_induction (P := fun parts bytes => ∀ hs, Each (fun a p => RunCmd num a .histogramMessageType (.ok (.infos p))) parts hs →
    ∃ m, RunCmd num bytes .histogramMessageType (.ok (.infos m)) ∧ ∀ k, shown m k = (hs.map fun p => shown p k).sum) ?_ ?_ parts hne hj hF hs h
  · intro a _ hs h
    obtain ⟨n, rfl, h1⟩ := each_one h
    exact ⟨_, h1, by simp⟩
  · intro a rest _ he hF ih hs h
    obtain ⟨n, ns, rfl, h1, h2⟩ := each_step h
    obtain ⟨m, h3, h4⟩ := ih _ h2
    obtain ⟨m', h7, h8⟩ := (C114_counts hF he).2.2.1 _ _ h1 h3
    exact ⟨m', h7, fun k => by rw [h8 k, h4 k, List.map_cons, List.sum_cons]⟩

/-- **C134** the number of messages of each ECU is the sum. -/
theorem C134_ecus (parts : List Bytes) (hne : parts ≠ []) (hj : Joinable parts) (hF : Fits parts.flatten) (c : Cmd)
    (hc : c = .splitTimestamp ∨ c = .splitLifecycles) (hs : List _)
    (h : Each (fun a p => RunCmd num a c (.ok (.ecus p))) parts hs) :
    ∃ m, RunCmd num parts.flatten c (.ok (.ecus m)) ∧
      ∀ k, shown (m.map fun l => (l.1, l.2.2)) k = (hs.map fun p => shown (p.map fun l => (l.1, l.2.2)) k).sum := by
  refine parts_induction (P := fun parts bytes => ∀ hs, Each (fun a p => RunCmd num a c (.ok (.ecus p))) parts hs →
    ∃ m, RunCmd num bytes c (.ok (.ecus m)) ∧
      ∀ k, shown (m.map fun l => (l.1, l.2.2)) k = (hs.map fun p => shown (p.map fun l => (l.1, l.2.2)) k).sum) ?_ ?_ parts hne hj hF hs h
  · intro a _ hs h
    obtain ⟨n, rfl, h1⟩ := each_one h
    exact ⟨_, h1, by simp⟩
  · intro a rest _ he hF ih hs h
    obtain ⟨n, ns, rfl, h1, h2⟩ := each_step h
    obtain ⟨m, h3, h4⟩ := ih _ h2
    obtain ⟨m', h7, h8⟩ := (C114_counts hF he).2.2.2 c _ _ hc h1 h3
    exact ⟨m', h7, fun k => by rw [h8 k, h4 k, List.map_cons, List.sum_cons]⟩

/-- **C134** the same log several times: the numbers are multiplied. -/
theorem C134_copies (a : Bytes) (he : ReadToEnd a) (k : Nat) (hk : k ≠ 0) (hF : Fits (List.replicate k a).flatten) (c : Cmd)
    (hc : c = .count ∨ c = .countHelloWorld) (n : Nat) (h : RunCmd num a c (.ok (.number n))) :
    RunCmd num (List.replicate k a).flatten c (.ok (.number (k * n))) := by
  have hr : ∀ k, Each (fun a n => RunCmd num a c (.ok (.number n))) (List.replicate k a) (List.replicate k n) := by
    intro k
    induction k with
    | zero => trivial
    | succ k ih => exact ⟨h, ih⟩
  have := C134_numbers (num := num) (List.replicate k a) (by simpa using hk) (fun x hx => by
    rw [List.eq_of_mem_replicate (List.dropLast_subset _ hx)]; exact he) hF c hc _ (hr k)
  rwa [show (List.replicate k n).sum = k * n by simp] at this

/-- **C134** periods: joining logs with messages joins at most one period at each seam. -/
theorem C134_periods (parts : List Bytes) (hne : parts ≠ []) (hj : Joinable parts) (hF : Fits parts.flatten)
    (hm : ∀ a ∈ parts, ¬ Messages a []) (hs : List (List (Nat × Nat × Nat)))
    (h : Each (fun a p => RunCmd num a .histogramTimestamp (.ok (.buckets p))) parts hs) :
    ∃ m, RunCmd num parts.flatten .histogramTimestamp (.ok (.buckets m)) ∧
      (m.map (·.2.2)).sum ≤ (hs.map fun p => (p.map (·.2.2)).sum).sum ∧
      (hs.map fun p => (p.map (·.2.2)).sum).sum < (m.map (·.2.2)).sum + parts.length := by
  have key := parts_induction (P := fun parts bytes => (∀ a ∈ parts, ¬ Messages a []) → ¬ Messages bytes [] ∧
    ∀ hs, Each (fun a p => RunCmd num a .histogramTimestamp (.ok (.buckets p))) parts hs →
    ∃ m, RunCmd num bytes .histogramTimestamp (.ok (.buckets m)) ∧
      (m.map (·.2.2)).sum ≤ (hs.map fun p => (p.map (·.2.2)).sum).sum ∧
      (hs.map fun p => (p.map (·.2.2)).sum).sum < (m.map (·.2.2)).sum + parts.length) ?_ ?_ parts hne hj hF hm
  · exact key.2 hs h
  · intro a _ hm
    refine ⟨hm a (List.mem_singleton.2 rfl), fun hs h => ?_⟩
    obtain ⟨n, rfl, h1⟩ := each_one h
    exact ⟨_, h1, by simp, by simp⟩
  · intro a rest _ he hF ih hm
    obtain ⟨hFa, hFb⟩ := fits_parts hF
    obtain ⟨ih1, ih2⟩ := ih fun x hx => hm x (List.mem_cons_of_mem _ hx)
    obtain ⟨xs, hx⟩ := messages_exists hFa
    obtain ⟨ys, hy⟩ := messages_exists hFb
    have hxn : xs ≠ [] := fun h0 => hm a (List.mem_cons_self ..) (h0 ▸ hx)
    have hyn : ys ≠ [] := fun h0 => ih1 (h0 ▸ hy)
    have hxy := messages_concat hF he hx hy
    refine ⟨fun h0 => ?_, fun hs h => ?_⟩
    · have := messages_unique h0 hxy
      have := List.append_eq_nil_iff.1 this.symm
      exact hxn this.1
    · obtain ⟨p, ps, rfl, h1, h2⟩ := each_step h
      obtain ⟨m, h3, h4, h5⟩ := ih2 _ h2
      obtain ⟨m', h6, h7, -⟩ := C114_periods (num := num) hF he xs ys hx hy (xs.getLast hxn) (ys.head hyn)
        (List.getLast?_eq_some_getLast hxn) (List.head?_eq_some_head hyn) _ _ h1 h3
      refine ⟨m', h6, ?_, ?_⟩
      · rw [List.map_cons, List.sum_cons]
        split at h7 <;> omega
      · rw [List.map_cons, List.sum_cons, List.length_cons]
        split at h7 <;> omega

/-- **C134** at work: two copies of a message and another one. -/
example : RunCmd num [encode msg0, encode msg0, encode msg1].flatten .count (.ok (.number 3)) := by
  have he : ReadToEnd (encode msg0) := ⟨[(0, msg0)], ⟨5, by decide +kernel⟩, by decide⟩
  have hx : Messages (encode msg0) [msg0] := ⟨_, dltit_scan (by decide) (items := [(0, msg0)]) ⟨5, by decide +kernel⟩, rfl⟩
  have hy : Messages (encode msg1) [msg1] := ⟨_, dltit_scan (by decide) (items := [(0, msg1)]) ⟨5, by decide +kernel⟩, rfl⟩
  exact C134_numbers [encode msg0, encode msg0, encode msg1] (by simp) (by
      intro a ha
      simp only [List.dropLast_cons_cons, List.dropLast_singleton, List.mem_cons, List.not_mem_nil, or_false, or_self] at ha
      rw [ha]; exact he) (by decide) .count (.inl rfl) [1, 1, 1]
    ⟨printed_ok (C45_count _ (by decide) _ hx), printed_ok (C45_count _ (by decide) _ hx),
      printed_ok (C45_count _ (by decide) _ hy), trivial⟩

end Verif
