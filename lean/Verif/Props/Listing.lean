import Verif.Spec.Listing
import Verif.Props.Consistent
import Verif.Props.Parallel

set_option linter.unusedSimpArgs false

/-! # C121: reports are in order -/

namespace Verif

open Spec

theorem alphabetical_of_rank {a b : B4} (h : Key.lt a b) : Alphabetical a.toBytes b.toBytes := by
  have h : B4.rank a < B4.rank b := h
  obtain ⟨a0, a1, a2, a3⟩ := a
  obtain ⟨b0, b1, b2, b3⟩ := b
  have := a0.toNat_lt; have := a1.toNat_lt; have := a2.toNat_lt; have := a3.toNat_lt
  have := b0.toNat_lt; have := b1.toNat_lt; have := b2.toNat_lt; have := b3.toNat_lt
  simp only [B4.rank] at h
  show Alphabetical [a0, a1, a2, a3] [b0, b1, b2, b3]
  by_cases h0 : a0 = b0
  · subst h0
    by_cases h1 : a1 = b1
    · subst h1
      by_cases h2 : a2 = b2
      · subst h2
        exact ⟨[a0, a1, a2], a3, b3, [], [], rfl, rfl, UInt8.lt_iff_toNat_lt.2 (by omega)⟩
      · have h2 : a2.toNat ≠ b2.toNat := fun h => h2 (UInt8.toNat_inj.1 h)
        exact ⟨[a0, a1], a2, b2, [a3], [b3], rfl, rfl, UInt8.lt_iff_toNat_lt.2 (by omega)⟩
    · have h1 : a1.toNat ≠ b1.toNat := fun h => h1 (UInt8.toNat_inj.1 h)
      exact ⟨[a0], a1, b1, [a2, a3], [b2, b3], rfl, rfl, UInt8.lt_iff_toNat_lt.2 (by omega)⟩
  · have h0 : a0.toNat ≠ b0.toNat := fun h => h0 (UInt8.toNat_inj.1 h)
    exact ⟨[], a0, b0, [a1, a2, a3], [b1, b2, b3], rfl, rfl, UInt8.lt_iff_toNat_lt.2 (by omega)⟩

theorem kindBefore_of_rank {a b : Bool × Option MsgType} (h : Key.lt a b) : KindBefore a b := by
  have h : infoRank a < infoRank b := h
  obtain ⟨v, t⟩ := a
  obtain ⟨w, u⟩ := b
  unfold KindBefore
  revert h
  rcases v with _ | _ <;> rcases w with _ | _ <;>
    rcases t with _ | (i | i | i | i) <;> rcases u with _ | (j | j | j | j) <;>
    first
    | (cases i <;> cases j <;> decide)
    | (cases i <;> decide)
    | (cases j <;> decide)
    | decide

theorem ecus_inOrder {m : List (B4 × (OrdMap UInt32 Nat × Nat))} (h : m.Pairwise fun a b => Key.lt a.1 b.1)
    (hh : ∀ ecu (hist : OrdMap UInt32 Nat) n, (ecu, hist, n) ∈ m → hist.Pairwise fun a b => a.1.toNat < b.1.toNat) :
    InOrder (.ecus (m.map fun e => (e.1.toBytes, e.2))) := by
  refine ⟨?_, ?_⟩
  · rw [List.pairwise_map]
    exact h.imp fun h => alphabetical_of_rank h
  · intro l hl
    obtain ⟨e, he, rfl⟩ := List.mem_map.1 hl
    exact hh e.1 e.2.1 e.2.2 he

theorem nat_sorted {keys : List Nat} {m : List (Nat × Nat)} (h : IsHistogram keys m) : m.Pairwise fun a b => a.1 < b.1 :=
  h.sorted

theorem u32_sorted {keys : List Nat} {hist : OrdMap UInt32 Nat} (h : IsHistogram keys (hist.map fun e => (e.1.toNat, e.2))) :
    hist.Pairwise fun a b => a.1.toNat < b.1.toNat := by
  have := nat_sorted h
  rw [List.pairwise_map] at this
  exact this

theorem bucketLines_inOrder : ∀ (m : List (Nat × Nat)) {ls : List (Nat × Nat × Nat)}, (m.Pairwise fun a b => a.1 < b.1) →
    bucketLines m = .ok ls → ls.Pairwise fun a b => a.1 < b.1 := by
  intro m ls h hb
  have key : ls.map (·.1) = m.map (·.1) := by
    clear h
    induction m generalizing ls with
    | nil => cases hb; rfl
    | cons e m ih =>
      obtain ⟨k, v⟩ := e
      rw [bucketLines] at hb
      match hk : uadd k 1, hm : bucketLines m with
      | .panic, _ => rw [hk] at hb; cases hb
      | .ok k', .panic => rw [hk, hm] at hb; cases hb
      | .ok k', .ok ls' =>
        rw [hk, hm] at hb
        cases hb
        rw [List.map_cons, List.map_cons, ih hm]
  have h' : (m.map (·.1)).Pairwise (· < ·) := by rw [List.pairwise_map]; exact h
  rw [← key, List.pairwise_map] at h'
  exact h'

/-- **C121** whatever the file, the command, the number of threads and the schedule: the lines of the report are in strictly
ascending order. -/
theorem C121_in_order (num : Nat) (hnum : num ≠ 0) (bytes : Bytes) (hF : Fits bytes) (c : Cmd) (rep : Report)
    (hr : RunCmd num bytes c (.ok rep)) : InOrder rep := by
  obtain ⟨msgs, h⟩ := messages_exists hF
  by_cases hc : sequential c = true
  · have hp := runs_prints hF h hc hr
    cases c <;> cases rep <;> first | exact trivial | exact absurd hp id | skip
    case histogramLifecycles.buckets ls =>
      obtain ⟨_, m, -, h1, rfl⟩ := hp
      show List.Pairwise _ _
      rw [List.pairwise_map]; exact nat_sorted h1
    case histogramTimestamp.buckets ls =>
      obtain ⟨_, m, -, h1, rfl⟩ := hp
      show List.Pairwise _ _
      rw [List.pairwise_map]; exact nat_sorted h1
    case histogramMessageSize.sizes ls t =>
      obtain ⟨m, h1, rfl, -⟩ := hp
      show List.Pairwise _ _
      rw [List.pairwise_map]; exact nat_sorted h1
    case histogramPayloadSize.sizes ls t =>
      obtain ⟨m, h1, rfl, -⟩ := hp
      show List.Pairwise _ _
      rw [List.pairwise_map]; exact nat_sorted h1
    case histogramMessageType.infos ls =>
      exact (IsHistogram.sorted hp).imp fun h => kindBefore_of_rank h
    case histogramHelloWorld.offsets ls =>
      obtain ⟨_, m, -, -, -, h1, rfl⟩ := hp
      show List.Pairwise _ _
      rw [List.pairwise_map]
      exact (nat_sorted h1).imp fun h => by simp only; omega
    case splitTimestamp.ecus ls =>
      obtain ⟨m, h1, h2, rfl⟩ := hp
      have h3 := h1.sorted
      rw [List.pairwise_map] at h3
      exact ecus_inOrder h3 fun ecu hist n he => by
        obtain ⟨_, _, -, h4⟩ := h2 ecu hist n he
        exact u32_sorted h4
    case splitLifecycles.ecus ls =>
      obtain ⟨m, h1, h2, rfl⟩ := hp
      have h3 := h1.sorted
      rw [List.pairwise_map] at h3
      exact ecus_inOrder h3 fun ecu hist n he => by
        obtain ⟨_, -, h4⟩ := h2 ecu hist n he
        exact u32_sorted h4
  · cases c <;> first | exact absurd rfl hc | skip
    case parSplitTimestamp =>
      obtain ⟨-, -, m, -, h2, -, ⟨h3, h4⟩, -⟩ := C35_par_split bytes num hnum hF
      obtain ⟨q, hq, hr⟩ := hr
      rw [h2] at hq
      subst hq
      by_cases hu : ∀ e ∈ m, Utf8 e.1.toBytes
      · have h5 : Res.ok rep = ecuReport m := hr
        rw [ecuReport, (ecuLines_eq m).2 hu] at h5
        cases h5
        exact ecus_inOrder h3 fun ecu hist n he => (h4 ecu hist n he).1
      · have h5 : Res.ok rep = ecuReport m := hr
        rw [ecuReport, (ecuLines_eq m).1.2 (by simpa using hu)] at h5
        cases h5
    case parHistogramTimestamp =>
      obtain ⟨_, _, m, -, h2, -, h3⟩ := C35_par_histogram bytes num hnum hF
      obtain ⟨q, hq, hr⟩ := hr
      rw [h2] at hq
      subst hq
      have h5 : Res.ok rep = bucketReport m := hr
      rw [bucketReport] at h5
      match hb : bucketLines m with
      | .panic => rw [hb] at h5; cases h5
      | .ok ls =>
        rw [hb] at h5
        cases h5
        exact bucketLines_inOrder m (nat_sorted h3) hb
    all_goals
      obtain ⟨q, hq, hr⟩ := hr
      cases q
      · cases hr; exact trivial
      · cases hr

/-- The message of `ECU2` comes first in the file, but its line comes second in the report. -/
example (num : Nat) : ∃ a b, RunCmd num (packed [msg1, msg0]) .splitTimestamp
    (.ok (.ecus [([69, 67, 85, 49], a), ([69, 67, 85, 50], b)])) := by
  have hF : Fits (packed [msg1, msg0]) := by decide
  have hm := messages_packed (es := [msg1, msg0]) (by decide)
  obtain ⟨rep, h1, h2⟩ := C68_sequential_prints num _ hF _ hm .splitTimestamp rfl (by
    rintro ⟨e, he, hn⟩
    refine hn ((utf8Valid_iff _).1 ?_)
    clear hn
    revert e; decide)
  cases rep <;> first | (exact absurd h1 id) | skip
  obtain ⟨m, h3, -, rfl⟩ := h1
  have h4 : m.map (fun e => (e.1, e.2.2)) = [(⟨69, 67, 85, 49⟩, 1), (⟨69, 67, 85, 50⟩, 1)] := by
    refine isHistogram_unique h3 ⟨by decide, fun k v => ?_⟩
    show _ ↔ 0 < v ∧ v = List.count k [⟨69, 67, 85, 50⟩, ⟨69, 67, 85, 49⟩]
    simp only [List.mem_cons, Prod.mk.injEq, List.not_mem_nil, or_false, List.count_cons, List.count_nil, beq_iff_eq]
    constructor
    · rintro (⟨rfl, rfl⟩ | ⟨rfl, rfl⟩) <;> decide
    · rintro ⟨h, rfl⟩
      by_cases ha : (⟨69, 67, 85, 50⟩ : B4) = k
      · subst ha; simp
      · by_cases hb : (⟨69, 67, 85, 49⟩ : B4) = k
        · subst hb; simp
        · simp [ha, hb] at h
  obtain _ | ⟨x, _ | ⟨y, _ | ⟨z, m⟩⟩⟩ := m
  · exact absurd (congrArg List.length h4) (by simp)
  · exact absurd (congrArg List.length h4) (by simp)
  · simp only [List.map_cons, List.map_nil, List.cons.injEq, Prod.mk.injEq, and_true] at h4
    refine ⟨x.2, y.2, ?_⟩
    have := (h2 _).2 rfl
    rw [List.map_cons, List.map_cons, h4.1.1, h4.2.1] at this
    exact this
  · exact absurd (congrArg List.length h4) (by simp)

end Verif
