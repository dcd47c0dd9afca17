import Verif.Props.Extract
import Verif.Props.Order
import Verif.Props.ConcatList
import Verif.Props.Restart
import Verif.Props.Periods

set_option linter.unusedSimpArgs false

/-! # C150: a log split into one log per ECU -/

namespace Verif

namespace Spec

/-- The log of one ECU: the messages with its id in the storage header, copied into a new file. -/
def ecuFile (bytes : Bytes) (items : List (Nat × StorageEntry)) (id : B4) : Bytes :=
  extract bytes (items.filter fun x => decide (x.2.storageHeader.ecu = id))

/-- `ids` lists the ids of the messages, each once. -/
def ListsIds (ids : List B4) (msgs : List StorageEntry) : Prop := ids.Nodup ∧ ∀ e ∈ msgs, e.storageHeader.ecu ∈ ids

end Spec

open Spec

theorem messages_of_collects {d : Bytes} (hd : Fits d) {ms : List StorageEntry} (hm : Collects (dltitNext d) 0 ms) :
    Messages d ms := by
  obtain ⟨its, h3, h4, _⟩ := C11_dltit_terminates d hd
  rw [hm.unique h4]
  exact ⟨its, dltit_scan hd h3, rfl⟩

theorem messages_of_items {bytes : Bytes} (hF : Fits bytes) {items : List (Nat × StorageEntry)}
    (h : Collects (dltitOffsetNext bytes) 0 items) : Messages bytes (items.map (·.2)) := ⟨items, dltit_scan hF h, rfl⟩

/-- What copying a selection gives. -/
theorem selected {bytes : Bytes} (hF : Fits bytes) {items : List (Nat × StorageEntry)}
    (h : Collects (dltitOffsetNext bytes) 0 items) (p : StorageEntry → Bool) :
    Fits (extract bytes (items.filter fun x => p x.2)) ∧
    Messages (extract bytes (items.filter fun x => p x.2)) ((items.map (·.2)).filter p) ∧
    ReadToEnd (extract bytes (items.filter fun x => p x.2)) ∧
    extract bytes (items.filter fun x => p x.2) = packed ((items.map (·.2)).filter p) := by
  obtain ⟨h1, h2, -⟩ := C117_select bytes hF items h p
  have hF' : Fits (extract bytes (items.filter fun x => p x.2)) := by
    show _ < 2 ^ 63
    exact Nat.lt_of_le_of_lt h1 hF
  have hall := C12_dltit_sound bytes hF items h
  have hsel : ∀ x ∈ items.filter (fun x => p x.2), MsgAt bytes x.1 x.2 := fun x hx => hall x (List.mem_filter.1 hx).1
  refine ⟨hF', messages_of_collects hF' h2, (C117_extract bytes _ hsel hF').2.2.2, ?_⟩
  rw [extract_eq hsel, ← fileOf_packed, List.filter_map, List.map_map]
  rfl

theorem timed_ofEcu (id : B4) (msgs : List StorageEntry) : timed (ofEcu id msgs) = ofEcu id (timed msgs) := by
  unfold timed ofEcu
  rw [List.filter_filter, List.filter_filter]
  exact List.filter_congr fun e _ => Bool.and_comm _ _

theorem mem_ofEcu {id : B4} {msgs : List StorageEntry} {e : StorageEntry} :
    e ∈ ofEcu id msgs ↔ e ∈ msgs ∧ e.storageHeader.ecu = id := by
  unfold ofEcu
  rw [List.mem_filter, decide_eq_true_eq]

theorem ofEcu_ofEcu (j id : B4) (msgs : List StorageEntry) :
    ofEcu j (ofEcu id msgs) = if j = id then ofEcu id msgs else [] := by
  split
  · rename_i h
    subst h
    exact List.filter_eq_self.2 fun e he => decide_eq_true (mem_ofEcu.1 he).2
  · rename_i h
    refine List.filter_eq_nil_iff.2 fun e he => ?_
    rw [decide_eq_true_eq]
    exact fun h' => h (h'.symm.trans (mem_ofEcu.1 he).2)

/-- A command panics on a log exactly if it does on the log of an ECU. -/
theorem panics_ofEcu (msgs : List StorageEntry) (c : Cmd) (hi : c ≠ .itertools) :
    Panics msgs c ↔ ∃ id, Panics (ofEcu id msgs) c := by
  have key : ∀ (f : List StorageEntry → List StorageEntry) (P : StorageEntry → Prop),
      (∀ id e, e ∈ f (ofEcu id msgs) ↔ e ∈ f msgs ∧ e.storageHeader.ecu = id) →
      ((∃ e ∈ f msgs, P e) ↔ ∃ id, ∃ e ∈ f (ofEcu id msgs), P e) := by
    intro f P hf
    constructor
    · rintro ⟨e, he, hp⟩
      exact ⟨e.storageHeader.ecu, e, (hf _ _).2 ⟨he, rfl⟩, hp⟩
    · rintro ⟨id, e, he, hp⟩
      exact ⟨e, ((hf _ _).1 he).1, hp⟩
  have ht : ∀ id e, e ∈ timed (ofEcu id msgs) ↔ e ∈ timed msgs ∧ e.storageHeader.ecu = id := fun id e => by
    rw [timed_ofEcu, mem_ofEcu]
  cases c <;> first
    | exact absurd rfl hi
    | exact key id _ fun i e => mem_ofEcu
    | exact key timed _ ht
    | exact ⟨fun h => h.elim, fun ⟨_, h⟩ => h.elim⟩

/-- The table of a log, restricted to an ECU. -/
theorem hist_filter {msgs : List StorageEntry} {m : List (B4 × (OrdMap UInt32 Nat × Nat))}
    (h : IsHistogram (msgs.map fun e => e.storageHeader.ecu) (m.map fun e => (e.1, e.2.2))) (id : B4) :
    IsHistogram ((ofEcu id msgs).map fun e => e.storageHeader.ecu)
      ((m.filter fun e => decide (e.1 = id)).map fun e => (e.1, e.2.2)) := by
  have hmap : ((m.filter fun e => decide (e.1 = id)).map fun e => (e.1, e.2.2)) =
      (m.map fun e => (e.1, e.2.2)).filter fun e => decide (e.1 = id) := by
    rw [List.filter_map]; rfl
  have hkeys : ((ofEcu id msgs).map fun e => e.storageHeader.ecu) =
      (msgs.map fun e => e.storageHeader.ecu).filter fun k => decide (k = id) := by
    rw [List.filter_map]; rfl
  rw [hmap, hkeys]
  refine ⟨h.sorted.filter _, fun k v => ?_⟩
  rw [List.mem_filter, h.mem k v, decide_eq_true_eq]
  dsimp only
  constructor
  · rintro ⟨⟨h1, h2⟩, rfl⟩
    refine ⟨h1, ?_⟩
    rw [h2, List.count_filter (p := fun j => decide (j = k)) (a := k) (decide_eq_true rfl)]
  · rintro ⟨h1, h2⟩
    have hk := List.mem_filter.1 (List.count_pos_iff.1 (h2 ▸ h1))
    refine ⟨⟨h1, ?_⟩, of_decide_eq_true hk.2⟩
    rw [h2, List.count_filter (p := fun j => decide (j = id)) (a := k) hk.2]

/-- **C150** the split commands print for the log of one ECU exactly the line they print for this ECU on the whole log. -/
theorem C150_line (num : Nat) (bytes : Bytes) (hF : Fits bytes) (items : List (Nat × StorageEntry))
    (h : Collects (dltitOffsetNext bytes) 0 items) (c : Cmd) (hc : c = .splitTimestamp ∨ c = .splitLifecycles)
    (ls : List (Bytes × (OrdMap UInt32 Nat × Nat))) (hr : RunCmd num bytes c (.ok (.ecus ls))) (id : B4) :
    ∀ r, RunCmd num (ecuFile bytes items id) c r ↔ r = .ok (.ecus (ls.filter fun l => decide (l.1 = id.toBytes))) := by
  have hm := messages_of_items hF h
  obtain ⟨hF', hm', -, -⟩ := selected hF h fun e => decide (e.storageHeader.ecu = id)
  have hs : sequential c = true := by rcases hc with rfl | rfl <;> rfl
  have hi : c ≠ .itertools := by rcases hc with rfl | rfl <;> exact fun h => by cases h
  obtain ⟨hnp, hp⟩ := (C141_exact num bytes hF _ hm c hs _).1 hr
  have hnp' : ¬ Panics (ofEcu id (items.map (·.2))) c := fun hp => hnp ((panics_ofEcu _ c hi).2 ⟨id, hp⟩)
  have hlines : ∀ m : List (B4 × (OrdMap UInt32 Nat × Nat)),
      ((m.map fun e => (e.1.toBytes, e.2)).filter fun l => decide (l.1 = id.toBytes)) =
      (m.filter fun e => decide (e.1 = id)).map fun e => (e.1.toBytes, e.2) := by
    intro m
    rw [List.filter_map]
    congr 1
    refine List.filter_congr fun e _ => ?_
    obtain ⟨⟨a0, a1, a2, a3⟩, v⟩ := e
    obtain ⟨b0, b1, b2, b3⟩ := id
    simp [B4.toBytes]
  have hp' : Prints (ecuFile bytes items id) (ofEcu id (items.map (·.2))) c
      (.ecus (ls.filter fun l => decide (l.1 = id.toBytes))) := by
    rcases hc with rfl | rfl
    · obtain ⟨m, h1, h2, rfl⟩ := hp
      refine ⟨m.filter fun e => decide (e.1 = id), hist_filter h1 id, fun ecu hist n hmem => ?_, hlines m⟩
      obtain ⟨h3, h4⟩ := List.mem_filter.1 hmem
      have h5 : ecu = id := of_decide_eq_true h4
      rw [ofEcu_ofEcu, if_pos h5, ← h5]
      exact h2 ecu hist n h3
    · obtain ⟨m, h1, h2, rfl⟩ := hp
      refine ⟨m.filter fun e => decide (e.1 = id), ?_, fun ecu hist n hmem => ?_, hlines m⟩
      · rw [timed_ofEcu]; exact hist_filter h1 id
      obtain ⟨h3, h4⟩ := List.mem_filter.1 hmem
      have h5 : ecu = id := of_decide_eq_true h4
      rw [timed_ofEcu, ofEcu_ofEcu, if_pos h5, ← h5]
      exact h2 ecu hist n h3
  rcases sequential_outcome num _ hF' _ hm' c hs with ⟨h1, -⟩ | ⟨-, rep, h1, h2⟩
  · exact absurd h1 hnp'
  · have := C141_determined _ _ c _ _ h1 hp'
    subst this
    exact h2

/-- **C150** a sequential command (`itertools`, which does not look at the time stamp of the last message, aside) panics on a log exactly if it panics on the log
of one of its ECUs. -/
theorem C150_panics (num : Nat) (bytes : Bytes) (hF : Fits bytes) (items : List (Nat × StorageEntry))
    (h : Collects (dltitOffsetNext bytes) 0 items) (c : Cmd) (hs : sequential c = true) (hi : c ≠ .itertools) :
    RunCmd num bytes c .panic ↔ ∃ id, RunCmd num (ecuFile bytes items id) c .panic := by
  rw [C67_sequential_panics num bytes hF _ (messages_of_items hF h) c hs, panics_ofEcu _ c hi]
  refine exists_congr fun id => ?_
  obtain ⟨hF', hm', -, -⟩ := selected hF h fun e => decide (e.storageHeader.ecu = id)
  exact (C67_sequential_panics num _ hF' _ hm' c hs).symm

theorem ofEcus_perm : ∀ (ids : List B4) (msgs : List StorageEntry), ListsIds ids msgs → (ids.flatMap fun id => ofEcu id msgs).Perm msgs
  | [], msgs, h => by
    cases msgs with
    | nil => exact List.Perm.nil
    | cons e msgs => exact absurd (h.2 e List.mem_cons_self) List.not_mem_nil
  | id :: ids, msgs, h => by
    have hn := List.nodup_cons.1 h.1
    have ih := ofEcus_perm ids (msgs.filter fun e => !decide (e.storageHeader.ecu = id)) ⟨hn.2, fun e he => by
      obtain ⟨h1, h2⟩ := List.mem_filter.1 he
      rcases List.mem_cons.1 (h.2 e h1) with h3 | h3
      · simp [h3] at h2
      · exact h3⟩
    have he : (ids.flatMap fun j => ofEcu j msgs) =
        ids.flatMap fun j => ofEcu j (msgs.filter fun e => !decide (e.storageHeader.ecu = id)) := by
      rw [List.flatMap_def, List.flatMap_def]
      congr 1
      refine List.map_congr_left fun j hj => ?_
      unfold ofEcu
      rw [List.filter_filter]
      refine List.filter_congr fun e _ => ?_
      by_cases hj' : e.storageHeader.ecu = j
      · have : ¬ e.storageHeader.ecu = id := fun h4 => hn.1 (h4 ▸ hj' ▸ hj)
        simp [hj', this]
        rw [← hj']; exact this
      · simp [hj']
    rw [List.flatMap_cons, he]
    exact (List.Perm.append_left _ ih).trans (List.filter_append_perm _ _)

theorem ofEcu_flatMap (j : B4) (msgs : List StorageEntry) : ∀ (ids : List B4), ids.Nodup →
    ofEcu j (ids.flatMap fun id => ofEcu id msgs) = if j ∈ ids then ofEcu j msgs else []
  | [], _ => rfl
  | id :: ids, h => by
    have hn := List.nodup_cons.1 h
    have ih := ofEcu_flatMap j msgs ids hn.2
    have ha : ofEcu j (ofEcu id msgs ++ ids.flatMap fun id => ofEcu id msgs) =
        ofEcu j (ofEcu id msgs) ++ ofEcu j (ids.flatMap fun id => ofEcu id msgs) := List.filter_append _ _
    rw [List.flatMap_cons, ha, ih, ofEcu_ofEcu]
    by_cases hj : j = id
    · subst hj
      rw [if_pos rfl, if_neg hn.1, if_pos List.mem_cons_self, List.append_nil]
    · rw [if_neg hj, List.nil_append]
      by_cases hm : j ∈ ids
      · rw [if_pos hm, if_pos (List.mem_cons_of_mem _ hm)]
      · rw [if_neg hm, if_neg fun h => (List.mem_cons.1 h).elim hj hm]

theorem ecuFiles_joined {bytes : Bytes} (hF : Fits bytes) {items : List (Nat × StorageEntry)}
    (h : Collects (dltitOffsetNext bytes) 0 items) (ids : List B4) :
    (ids.map (ecuFile bytes items)).flatten = packed (ids.flatMap fun id => ofEcu id (items.map (·.2))) := by
  have h1 : ids.map (ecuFile bytes items) = ids.map fun id => packed (ofEcu id (items.map (·.2))) :=
    List.map_congr_left fun id _ => (selected hF h fun e => decide (e.storageHeader.ecu = id)).2.2.2
  rw [h1]
  induction ids with
  | nil => rfl
  | cons id ids ih =>
    rw [List.map_cons, List.flatten_cons, ih (List.map_congr_left fun id _ =>
      (selected hF h fun e => decide (e.storageHeader.ecu = id)).2.2.2), List.flatMap_cons]
    unfold packed
    rw [List.map_append, List.flatten_append]

theorem packed_sum (es : List StorageEntry) : (packed es).length = (es.map fun e => (encode e).length).sum := by
  unfold packed
  rw [List.length_flatten, List.map_map]; rfl

theorem joined_facts {bytes : Bytes} (hF : Fits bytes) {items : List (Nat × StorageEntry)}
    (h : Collects (dltitOffsetNext bytes) 0 items) {ids : List B4} (hids : ListsIds ids (items.map (·.2))) :
    (ids.map (ecuFile bytes items)).flatten.length ≤ bytes.length ∧ Fits (ids.map (ecuFile bytes items)).flatten ∧
    Messages (ids.map (ecuFile bytes items)).flatten (ids.flatMap fun id => ofEcu id (items.map (·.2))) := by
  have hm := messages_of_items hF h
  have hp := ofEcus_perm ids _ hids
  have hle : (ids.map (ecuFile bytes items)).flatten.length ≤ bytes.length := by
    rw [ecuFiles_joined hF h, packed_sum, (hp.map _).sum_nat]
    exact (messages_sum hm).1
  refine ⟨hle, Nat.lt_of_le_of_lt hle hF, ?_⟩
  rw [ecuFiles_joined hF h]
  exact messages_packed fun e he => messages_wf hm e (hp.mem_iff.1 he)

/-- **C150** the logs of all ECUs, one after the other in any order, are not longer than the log, and the commands that look at
each message on its own and the split commands print for them what they print for the log. -/
theorem C150_together (num : Nat) (bytes : Bytes) (hF : Fits bytes) (items : List (Nat × StorageEntry))
    (h : Collects (dltitOffsetNext bytes) 0 items) (ids : List B4) (hids : ListsIds ids (items.map (·.2))) :
    (ids.map (ecuFile bytes items)).flatten.length ≤ bytes.length ∧
    ∀ c, orderBlind c = true ∨ c = .splitTimestamp ∨ c = .splitLifecycles →
      (∀ r, RunCmd num (ids.map (ecuFile bytes items)).flatten c r ↔ RunCmd num bytes c r) ∧
      ∀ out, CmdText num (ids.map (ecuFile bytes items)).flatten c out ↔ CmdText num bytes c out := by
  obtain ⟨h1, h2, h3⟩ := joined_facts hF h hids
  have hm := messages_of_items hF h
  refine ⟨h1, fun c hc => ?_⟩
  rcases hc with hc | hc
  · exact C111_order_blind c hc _ _ h2 hF _ _ h3 hm (ofEcus_perm ids _ hids) num
  · refine C112_interleaving c hc _ _ h2 hF _ _ h3 hm (fun ecu => ?_) num
    rw [ofEcu_flatMap ecu _ ids hids.1]
    split
    · rfl
    · rename_i hn
      refine (List.filter_eq_nil_iff.2 fun e he => ?_).symm
      rw [decide_eq_true_eq]
      exact fun he' => hn (he' ▸ hids.2 e he)

theorem each_maps {α β γ : Type} {P : β → γ → Prop} {f : α → β} {g : α → γ} : ∀ {l : List α}, (∀ a ∈ l, P (f a) (g a)) →
    Each P (l.map f) (l.map g)
  | [], _ => trivial
  | a :: _, h => ⟨h a List.mem_cons_self, each_maps fun b hb => h b (List.mem_cons_of_mem _ hb)⟩

theorem ecuFiles_joinable {bytes : Bytes} (hF : Fits bytes) {items : List (Nat × StorageEntry)}
    (h : Collects (dltitOffsetNext bytes) 0 items) (ids : List B4) : Joinable (ids.map (ecuFile bytes items)) := by
  intro a ha
  obtain ⟨id, -, rfl⟩ := List.mem_map.1 (List.dropLast_subset _ ha)
  exact (selected hF h fun e => decide (e.storageHeader.ecu = id)).2.2.1

/-- **C150** the numbers of the logs of the ECUs add up to those of the log: messages, messages with the text, messages of each size,
payloads of each size, messages of each type. -/
theorem C150_sums (num : Nat) (bytes : Bytes) (hF : Fits bytes) (items : List (Nat × StorageEntry))
    (h : Collects (dltitOffsetNext bytes) 0 items) (ids : List B4) (hne : ids ≠ []) (hids : ListsIds ids (items.map (·.2))) :
    (∀ c, c = .count ∨ c = .countHelloWorld → ∀ n : B4 → Nat,
      (∀ id ∈ ids, RunCmd num (ecuFile bytes items id) c (.ok (.number (n id)))) →
      RunCmd num bytes c (.ok (.number (ids.map n).sum))) ∧
    (∀ c, c = .histogramMessageSize ∨ c = .histogramPayloadSize → ∀ (ls : B4 → List (Nat × Nat × Nat)) (t : B4 → Nat),
      (∀ id ∈ ids, RunCmd num (ecuFile bytes items id) c (.ok (.sizes (ls id) (t id)))) →
      ∃ m u, RunCmd num bytes c (.ok (.sizes m u)) ∧
        ∀ k, shown (m.map fun l => (l.1, l.2.1)) k = (ids.map fun id => shown ((ls id).map fun l => (l.1, l.2.1)) k).sum) ∧
    (∀ ls : B4 → List ((Bool × Option MsgType) × Nat),
      (∀ id ∈ ids, RunCmd num (ecuFile bytes items id) .histogramMessageType (.ok (.infos (ls id)))) →
      ∃ m, RunCmd num bytes .histogramMessageType (.ok (.infos m)) ∧
        ∀ k, shown m k = (ids.map fun id => shown (ls id) k).sum) := by
  obtain ⟨-, hF', -⟩ := joined_facts hF h hids
  have hj := ecuFiles_joinable hF h ids
  have hne' : ids.map (ecuFile bytes items) ≠ [] := fun h0 => hne (List.map_eq_nil_iff.1 h0)
  have hsame := (C150_together num bytes hF items h ids hids).2
  refine ⟨fun c hc n hr => ?_, fun c hc ls t hr => ?_, fun ls hr => ?_⟩
  · refine ((hsame c (.inl ?_)).1 _).1 (C134_numbers _ hne' hj hF' c hc _ (each_maps hr))
    rcases hc with rfl | rfl <;> rfl
  · obtain ⟨m, u, h1, h2, -⟩ := C134_sizes (num := num) _ hne' hj hF' c hc (ids.map fun id => (ls id, t id)) (each_maps hr)
    refine ⟨m, u, ((hsame c (.inl ?_)).1 _).1 h1, fun k => ?_⟩
    · rcases hc with rfl | rfl <;> rfl
    · rw [h2 k, List.map_map]; rfl
  · obtain ⟨m, h1, h2⟩ := C134_types (num := num) _ hne' hj hF' (ids.map ls) (each_maps hr)
    refine ⟨m, ((hsame _ (.inl rfl)).1 _).1 h1, fun k => ?_⟩
    rw [h2 k, List.map_map]; rfl

/-! ## Periods -/

theorem neighbours_cons2 {α : Type} (p : α → α → Bool) (a b : α) (l : List α) :
    neighbours p (a :: b :: l) = (if p a b then 1 else 0) + neighbours p (b :: l) := by
  unfold neighbours
  simp only [List.tail_cons, List.zip_cons_cons, List.filter_cons]
  split
  · rw [List.length_cons]; omega
  · omega

/-- Leaving out elements does not make it go down more often. -/
theorem descents_sublist (f : StorageEntry → Nat) {l l' : List StorageEntry} (h : l'.Sublist l) :
    ∀ a, neighbours (fun a b => decide (f b < f a)) (a :: l') ≤ neighbours (fun a b => decide (f b < f a)) (a :: l) := by
  have step : ∀ (l : List StorageEntry) (a x : StorageEntry), neighbours (fun a b => decide (f b < f a)) (a :: l) ≤
      neighbours (fun a b => decide (f b < f a)) (a :: x :: l) := by
    intro l a x
    rw [neighbours_cons2]
    cases l with
    | nil => exact Nat.zero_le _
    | cons y l =>
      rw [neighbours_cons2, neighbours_cons2]
      by_cases h1 : f y < f a
      · by_cases h2 : f x < f a
        · simp only [h1, h2, decide_true, if_true]; omega
        · have h3 : f y < f x := by omega
          simp only [h1, h3, decide_true, if_true]; omega
      · simp only [h1, decide_false]
        have : (if false = true then 1 else 0) = 0 := rfl
        rw [this]; omega
  induction h with
  | slnil => exact fun a => Nat.le_refl _
  | cons x _ ih => exact fun a => Nat.le_trans (ih a) (step _ a x)
  | cons_cons x _ ih =>
    intro a
    rw [neighbours_cons2, neighbours_cons2]
    have := ih x
    omega

theorem descents_sublist' (f : StorageEntry → Nat) {l l' : List StorageEntry} (h : l'.Sublist l) :
    neighbours (fun a b => decide (f b < f a)) l' ≤ neighbours (fun a b => decide (f b < f a)) l := by
  cases l' with
  | nil => exact Nat.zero_le _
  | cons x l' =>
    induction l with
    | nil => cases h
    | cons y l ih =>
      cases h with
      | cons _ h' =>
        refine Nat.le_trans (ih h') ?_
        cases l with
        | nil => cases h'
        | cons z l => rw [neighbours_cons2]; omega
      | cons_cons _ h' => exact descents_sublist f h' _

/-- **C150** the log of an ECU, or of any selection of the messages, shows no more periods than the log. -/
theorem C150_periods (num : Nat) (bytes : Bytes) (hF : Fits bytes) (items : List (Nat × StorageEntry))
    (h : Collects (dltitOffsetNext bytes) 0 items) (p : StorageEntry → Bool) (ls ls' : List (Nat × Nat × Nat))
    (hr : RunCmd num bytes .histogramTimestamp (.ok (.buckets ls)))
    (hr' : RunCmd num (extract bytes (items.filter fun x => p x.2)) .histogramTimestamp (.ok (.buckets ls'))) :
    periods ls' ≤ periods ls := by
  obtain ⟨hF', hm', -, -⟩ := selected hF h p
  rw [C132_periods num bytes hF _ (messages_of_items hF h) ls hr, C132_periods num _ hF' _ hm' ls' hr']
  have h1 := descents_sublist' secsOf (List.filter_sublist (p := p) (l := items.map (·.2)))
  split
  · exact Nat.zero_le _
  · rename_i h2
    rw [if_neg fun h3 => h2 (by rw [h3]; rfl)]
    omega

/-- **C150** on the log of one ECU `histogram_lifecycles` shows exactly the lifecycles that `split_lifecycles` shows for this ECU on the
whole log, provided its messages with a time stamp agree in the ECU id of their standard header (or have none). -/
theorem C150_lifecycles (num : Nat) (bytes : Bytes) (hF : Fits bytes) (items : List (Nat × StorageEntry))
    (h : Collects (dltitOffsetNext bytes) 0 items) (ls : List (Bytes × (OrdMap UInt32 Nat × Nat)))
    (hr : RunCmd num bytes .splitLifecycles (.ok (.ecus ls))) (id : B4) (hist : OrdMap UInt32 Nat) (n : Nat)
    (hl : (id.toBytes, hist, n) ∈ ls)
    (hsame : ∀ a ∈ items.map (·.2), ∀ b ∈ items.map (·.2), flag a.dlt 4 = true → flag b.dlt 4 = true →
      a.storageHeader.ecu = id → b.storageHeader.ecu = id → ecuOf a = ecuOf b) :
    ∀ r, RunCmd num (ecuFile bytes items id) .histogramLifecycles r ↔
      r = .ok (.buckets (hist.map fun e => (e.1.toNat, e.1.toNat + 1, e.2))) := by
  have hm := messages_of_items hF h
  obtain ⟨hF', hm', -, -⟩ := selected hF h fun e => decide (e.storageHeader.ecu = id)
  obtain ⟨hnp, hp⟩ := (C141_exact num bytes hF _ hm .splitLifecycles rfl _).1 hr
  have hnp' : ¬ Panics (ofEcu id (items.map (·.2))) .histogramLifecycles := by
    rintro ⟨e, he, ht⟩
    rw [timed_ofEcu] at he
    exact hnp ⟨e, (mem_ofEcu.1 he).1, .inl ht⟩
  obtain ⟨m, h1, h2, rfl⟩ := hp
  obtain ⟨⟨ecu, v⟩, h3, h4⟩ := List.mem_map.1 hl
  simp only [Prod.mk.injEq] at h4
  obtain ⟨h5, rfl⟩ := h4
  have h6 : ecu = id := by
    obtain ⟨a0, a1, a2, a3⟩ := ecu
    obtain ⟨b0, b1, b2, b3⟩ := id
    simpa [B4.toBytes] using h5
  subst h6
  obtain ⟨runs, h7, h8⟩ := h2 ecu hist n h3
  have hp' : Prints (ecuFile bytes items ecu) (ofEcu ecu (items.map (·.2))) .histogramLifecycles
      (.buckets (hist.map fun e => (e.1.toNat, e.1.toNat + 1, e.2))) := by
    refine ⟨runs, hist.map fun e => (e.1.toNat, e.2), ?_, h8, by rw [List.map_map]; rfl⟩
    rw [timed_ofEcu]
    refine maximalRuns_congr h7 fun a ha b hb => ?_
    obtain ⟨ha1, ha2⟩ := mem_ofEcu.1 ha
    obtain ⟨hb1, hb2⟩ := mem_ofEcu.1 hb
    have ha3 := List.mem_filter.1 ha1
    have hb3 := List.mem_filter.1 hb1
    have := hsame a ha3.1 b hb3.1 ha3.2 hb3.2 ha2 hb2
    simp [this]
  rcases sequential_outcome num _ hF' _ hm' .histogramLifecycles rfl with ⟨h9, -⟩ | ⟨-, rep, h9, h10⟩
  · exact absurd h9 hnp'
  · have := C141_determined _ _ _ _ _ h9 hp'
    subst this
    exact h10

/-! ## What does not add up -/

/-- A message of the ECU `ECU1` or `ECU2`, received in the second `s`. -/
def stamped (first : Bool) (s : UInt32) : StorageEntry :=
  ⟨⟨⟨68, 76, 84, 1⟩, s, 0, ⟨69, 67, 85, if first then 49 else 50⟩⟩, ⟨⟨⟨0x20⟩, 0, 4⟩, []⟩⟩

/-- Two ECUs with clocks five seconds apart. -/
def apart : List StorageEntry := [stamped true 0, stamped false 5, stamped true 1, stamped false 6]

def apartItems : List (Nat × StorageEntry) := backToBack StorageEntry.len 0 apart

def id1 : B4 := ⟨69, 67, 85, 49⟩
def id2 : B4 := ⟨69, 67, 85, 50⟩

theorem apart_fits : Fits (packed apart) := by decide

theorem apart_items : Collects (dltitOffsetNext (packed apart)) 0 apartItems := ⟨9, by decide +kernel⟩

theorem apart_ids : ListsIds [id1, id2] (apartItems.map (·.2)) := by
  refine ⟨by decide, ?_⟩
  have : ∀ e ∈ apartItems.map (·.2), e.storageHeader.ecu ∈ [id1, id2] := by decide
  exact this

theorem hist_all {k n : Nat} (hn : 0 < n) : IsHistogram (List.replicate n k) [(k, n)] := by
  refine ⟨List.pairwise_singleton .., fun a v => ?_⟩
  rw [List.mem_singleton, List.count_replicate]
  by_cases h : a = k
  · subst h
    simp only [Prod.mk.injEq, true_and, beq_self_eq_true, if_true]
    exact ⟨fun h => ⟨h ▸ hn, h⟩, fun h => h.2⟩
  · have h' : ¬ k = a := fun e => h e.symm
    simp only [Prod.mk.injEq, h, false_and, beq_iff_eq, h', if_false, false_iff]
    omega

theorem period_report {num : Nat} {bytes : Bytes} (hF : Fits bytes) {msgs : List StorageEntry} (hm : Messages bytes msgs)
    {runs : List (List StorageEntry)} (hr : runsL (fun a b => decide (secsOf a ≤ secsOf b)) msgs = runs)
    {n k : Nat} (hn : 0 < n) (hk : runs.map secSpanOf = List.replicate n k) :
    RunCmd num bytes .histogramTimestamp (.ok (.buckets [(k, k + 1, n)])) := by
  refine (C141_exact num bytes hF msgs hm _ rfl _).2 ⟨id, runs, [(k, n)], ?_, ?_, rfl⟩
  · have := maximalRuns_runsL (fun a b : StorageEntry => decide (secsOf a ≤ secsOf b)) msgs
    rw [hr] at this
    simpa only [decide_eq_true_eq] using this
  · rw [hk]; exact hist_all hn

/-- **C150 (not the commands about time)** the log of two ECUs whose clocks are five seconds apart shows two periods of five seconds,
the log of each ECU one of a second. -/
theorem C150_periods_not_sum (num : Nat) :
    RunCmd num (packed apart) .histogramTimestamp (.ok (.buckets [(5, 6, 2)])) ∧
    RunCmd num (ecuFile (packed apart) apartItems id1) .histogramTimestamp (.ok (.buckets [(1, 2, 1)])) ∧
    RunCmd num (ecuFile (packed apart) apartItems id2) .histogramTimestamp (.ok (.buckets [(1, 2, 1)])) := by
  have h1 := selected apart_fits apart_items fun e => decide (e.storageHeader.ecu = id1)
  have h2 := selected apart_fits apart_items fun e => decide (e.storageHeader.ecu = id2)
  refine ⟨?_, ?_, ?_⟩
  · exact period_report apart_fits (messages_of_items apart_fits apart_items)
      (runs := [[stamped true 0, stamped false 5], [stamped true 1, stamped false 6]]) (by decide) (by decide) (by decide)
  · exact period_report h1.1 h1.2.1 (runs := [[stamped true 0, stamped true 1]]) (by decide) (by decide) (by decide)
  · exact period_report h2.1 h2.2.1 (runs := [[stamped false 5, stamped false 6]]) (by decide) (by decide) (by decide)

/-- The hypotheses of the theorems are met by this log; its ECUs have two messages each. -/
example (num : Nat) : RunCmd num (packed apart) .count (.ok (.number 4)) := by
  have h := (C150_sums num _ apart_fits _ apart_items [id1, id2] (by simp) apart_ids).1 .count (.inl rfl) fun _ => 2
  refine h fun id hid => ?_
  obtain ⟨hF, hm, -, -⟩ := selected apart_fits apart_items fun e => decide (e.storageHeader.ecu = id)
  refine (C141_exact num _ hF _ hm .count rfl _).2 ⟨fun h => h, ?_⟩
  rcases List.mem_cons.1 hid with rfl | hid
  · show 2 = _; decide
  · rw [List.mem_singleton.1 hid]
    show 2 = _; decide

/-- `split_timestamp` prints a line for each of the two. -/
example (num : Nat) : ∃ ls, RunCmd num (packed apart) .splitTimestamp (.ok (.ecus ls)) ∧
    RunCmd num (ecuFile (packed apart) apartItems id1) .splitTimestamp
      (.ok (.ecus (ls.filter fun l => decide (l.1 = id1.toBytes)))) ∧
    (ls.filter fun l => decide (l.1 = id1.toBytes)) ≠ [] := by
  have hm := messages_of_items apart_fits apart_items
  have hn : ¬ Panics (apartItems.map (·.2)) .splitTimestamp := by
    rintro ⟨e, he, hu⟩
    have : ∀ e ∈ apartItems.map (·.2), utf8Valid e.storageHeader.ecu.toBytes = true := by decide
    exact hu ((utf8Valid_iff _).1 (this e he))
  rcases sequential_outcome num _ apart_fits _ hm .splitTimestamp rfl with ⟨h1, -⟩ | ⟨-, rep, h1, h2⟩
  · exact absurd h1 hn
  · cases rep <;> first | exact absurd h1 id | skip
    rename_i ls
    refine ⟨ls, (h2 _).2 rfl, (C150_line num _ apart_fits _ apart_items _ (.inl rfl) ls ((h2 _).2 rfl) id1 _).2 rfl, ?_⟩
    obtain ⟨m, h3, -, rfl⟩ := h1
    obtain ⟨e, he, h4⟩ := List.mem_map.1 ((h3.mem id1 2).2 (by decide))
    simp only [Prod.mk.injEq] at h4
    refine List.ne_nil_of_mem (List.mem_filter.2 ⟨List.mem_map.2 ⟨e, he, rfl⟩, ?_⟩)
    rw [h4.1]; exact decide_eq_true rfl

/-- A message of the ECU `ECU1` with the time stamp `t` in units of 0.1 ms. -/
def ticked (t : UInt8) : StorageEntry :=
  ⟨⟨⟨68, 76, 84, 1⟩, 0, 0, id1⟩, ⟨⟨⟨0x30⟩, 0, 8⟩, [0, t, 0, 0]⟩⟩

/-- Two lifecycles of 6 and 13 seconds (65536 and 131072 units). -/
def shortBoots : List StorageEntry := [ticked 0, ticked 1, ticked 0, ticked 2]

/-- The hypotheses of `C150_lifecycles` are met: two lifecycles are shown, of 6 and 13 seconds. -/
example (num : Nat) : ∃ ls hist n, RunCmd num (packed shortBoots) .splitLifecycles (.ok (.ecus ls)) ∧
    (id1.toBytes, hist, n) ∈ ls ∧ n = 4 ∧
    RunCmd num (ecuFile (packed shortBoots) (backToBack StorageEntry.len 0 shortBoots) id1) .histogramLifecycles
      (.ok (.buckets (hist.map fun e => (e.1.toNat, e.1.toNat + 1, e.2)))) ∧
    RunCmd num (ecuFile (packed shortBoots) (backToBack StorageEntry.len 0 shortBoots) id1) .histogramLifecycles
      (.ok (.buckets [(6, 7, 1), (13, 14, 1)])) := by
  have hF : Fits (packed shortBoots) := by decide
  have hi : Collects (dltitOffsetNext (packed shortBoots)) 0 (backToBack StorageEntry.len 0 shortBoots) := ⟨9, by decide +kernel⟩
  have hm := messages_of_items hF hi
  have hn : ¬ Panics ((backToBack StorageEntry.len 0 shortBoots).map (·.2)) .splitLifecycles := by
    rintro ⟨e, he, hu⟩
    have h1 : ∀ e ∈ timed ((backToBack StorageEntry.len 0 shortBoots).map (·.2)),
        timeOf e ≠ none ∧ utf8Valid e.storageHeader.ecu.toBytes = true := by decide
    rcases hu with hu | hu
    · exact (h1 e he).1 hu
    · exact hu ((utf8Valid_iff _).1 (h1 e he).2)
  rcases sequential_outcome num _ hF _ hm .splitLifecycles rfl with ⟨h1, -⟩ | ⟨-, rep, h1, h2⟩
  · exact absurd h1 hn
  · cases rep <;> first | exact absurd h1 id | skip
    rename_i ls
    have hr := (h2 (.ok (.ecus ls))).2 rfl
    obtain ⟨m, h3, -, rfl⟩ := h1
    obtain ⟨⟨ecu, hist, n⟩, he, h4⟩ := List.mem_map.1 ((h3.mem id1 4).2 (by decide))
    simp only [Prod.mk.injEq] at h4
    obtain ⟨rfl, rfl⟩ := h4
    have hl : (id1.toBytes, hist, 4) ∈ m.map fun e : B4 × (OrdMap UInt32 Nat × Nat) => (e.1.toBytes, e.2) :=
      List.mem_map.2 ⟨_, he, rfl⟩
    have h5 := C150_lifecycles num _ hF _ hi _ hr id1 hist 4 hl (by decide)
    refine ⟨_, hist, 4, hr, hl, rfl, (h5 _).2 rfl, ?_⟩
    obtain ⟨hF', hm', -, -⟩ := selected hF hi fun e => decide (e.storageHeader.ecu = id1)
    refine (C141_exact num _ hF' _ hm' .histogramLifecycles rfl _).2 ⟨?_, [[ticked 0, ticked 1], [ticked 0, ticked 2]],
      [(6, 1), (13, 1)], ?_, ?_, rfl⟩
    · rintro ⟨e, he, hu⟩
      have h6 : ∀ e ∈ timed (((backToBack StorageEntry.len 0 shortBoots).map (·.2)).filter fun e => decide (e.storageHeader.ecu = id1)),
        timeOf e ≠ none := by decide
      exact h6 e he hu
    · have := maximalRuns_runsL (fun a b : StorageEntry => decide (ecuOf a = ecuOf b ∧ time a ≤ time b)) shortBoots
      rw [show runsL (fun a b : StorageEntry => decide (ecuOf a = ecuOf b ∧ time a ≤ time b)) shortBoots =
        [[ticked 0, ticked 1], [ticked 0, ticked 2]] by decide] at this
      rw [show timed (((backToBack StorageEntry.len 0 shortBoots).map (·.2)).filter
        fun e => decide (e.storageHeader.ecu = id1)) = shortBoots by decide]
      simpa only [decide_eq_true_eq] using this
    · refine ⟨by decide, fun k v => ?_⟩
      show (k, v) ∈ [(6, 1), (13, 1)] ↔ 0 < v ∧ v = List.count k [6, 13]
      by_cases h6 : k = 6
      · subst h6; simp; omega
      · by_cases h7 : k = 13
        · subst h7; simp; omega
        · have h8 : ¬ 6 = k := fun h => h6 h.symm
          have h9 : ¬ 13 = k := fun h => h7 h.symm
          simp [List.count_cons, h6, h7, h8, h9]
          omega

end Verif
