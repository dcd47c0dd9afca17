import Verif.Lemmas.Find
import Verif.Model.Iter

/-! # Lemmas about the iterators -/

set_option linter.unusedSimpArgs false

namespace Verif
open Spec

/-! ## Draining an iterator -/

theorem collectN_mono {α : Type} {next : NextFn α} : ∀ {f off r}, collectN next f off = some r →
    collectN next (f + 1) off = some r := by
  intro f
  induction f with
  | zero => intro off r h; simp [collectN] at h
  | succ f ih =>
    intro off r h
    rw [collectN] at h ⊢
    cases hn : next off with
    | panic => simpa [hn] using h
    | ok p =>
      obtain ⟨o, off'⟩ := p
      cases o with
      | none => simpa [hn] using h
      | some a =>
        rw [hn] at h
        simp only at h ⊢
        cases hc : collectN next f off' with
        | none => rw [hc] at h; simp at h
        | some q =>
          rw [ih hc]
          rw [hc] at h
          exact h

theorem collectN_mono_le {α : Type} {next : NextFn α} {f g off r} (h : collectN next f off = some r)
    (hfg : f ≤ g) : collectN next g off = some r := by
  induction hfg with
  | refl => exact h
  | step _ ih => exact collectN_mono ih

theorem Collects.unique {α : Type} {next : NextFn α} {off : Nat} {as bs : List α}
    (h1 : Collects next off as) (h2 : Collects next off bs) : as = bs := by
  obtain ⟨f, hf⟩ := h1
  obtain ⟨g, hg⟩ := h2
  have a := collectN_mono_le hf (Nat.le_max_left f g)
  have b := collectN_mono_le hg (Nat.le_max_right f g)
  rw [a] at b
  simpa using b

theorem Collects.nil {α : Type} {next : NextFn α} {off off' : Nat}
    (h : next off = .ok (none, off')) : Collects next off [] :=
  ⟨1, by simp [collectN, h]⟩

theorem Collects.cons {α : Type} {next : NextFn α} {off off' : Nat} {a : α} {as : List α}
    (h : next off = .ok (some a, off')) (h' : Collects next off' as) : Collects next off (a :: as) := by
  obtain ⟨f, hf⟩ := h'
  exact ⟨f + 1, by simp [collectN, h, hf]⟩

theorem Collects.cons_inv {α : Type} {next : NextFn α} {off off' : Nat} {a : α} {as : List α}
    (h : next off = .ok (some a, off')) (h' : Collects next off as) :
    ∃ as', as = a :: as' ∧ Collects next off' as' := by
  obtain ⟨f, hf⟩ := h'
  cases f with
  | zero => simp [collectN] at hf
  | succ f =>
    simp only [collectN, h] at hf
    cases hc : collectN next f off' with
    | none => simp [hc] at hf
    | some q =>
      cases q with
      | panic => simp [hc] at hf
      | ok as' =>
        rw [hc] at hf
        simp only [Option.some.injEq, Res.ok.injEq] at hf
        exact ⟨as', hf.symm, f, hc⟩

section
variable {T : Type} {S : SearchableMarker T}

theorem fits_le {bytes : Bytes} (h : Fits bytes) : bytes.length < 2 ^ 63 := h

theorem uadd_ok {a b : Nat} (h : a + b ≤ usizeMax) : uadd a b = .ok (a + b) := by
  unfold uadd; rw [if_pos h]

theorem sliceFrom_ok {bs : Bytes} {a : Nat} (h : a ≤ bs.length) : sliceFrom bs a = .ok (bs.drop a) := by
  unfold sliceFrom; rw [if_pos h]

theorem sliceTo_ok {bs : Bytes} {a : Nat} (h : a ≤ bs.length) : sliceTo bs a = .ok (bs.take a) := by
  unfold sliceTo; rw [if_pos h]

theorem slice_ok {bs : Bytes} {a b : Nat} (h : a ≤ b) (h' : b ≤ bs.length) :
    slice bs a b = .ok ((bs.drop a).take (b - a)) := by
  unfold slice; rw [if_pos ⟨h, h'⟩, List.drop_take]

theorem slice_eq_marker {bs : Bytes} {a : Nat} {m : Bytes} (h : a + m.length ≤ bs.length) :
    slice bs a (a + m.length) = .ok ((bs.drop a).take m.length) := by
  rw [slice_ok (by omega) h]; congr 2; omega

theorem take_eq_iff_prefix {bs m : Bytes} : bs.take m.length = m ↔ m <+: bs := by
  rw [List.prefix_iff_eq_take]; exact eq_comm

/-! ## `ReadFallbackIterator` -/

/-- The iterator has nothing more to yield from `off`. -/
def ScanEnd (S : SearchableMarker T) (bytes : Bytes) (off : Nat) : Prop :=
  (∀ j, off ≤ j → ¬ MarkerAt S bytes j) ∨
  (∃ i, FirstMarker S bytes off i ∧ ∀ v, ¬ ReadableAt S bytes i v)

/-- Unfolding `next` once, below the `usize` limit. -/
theorem readFallbackNext_unfold {bytes : Bytes} {off : Nat} (hoff : off + S.marker.length ≤ usizeMax) :
    readFallbackNext S bytes off =
      if off + S.marker.length ≥ bytes.length then .ok (none, off)
      else if (bytes.drop off).take S.marker.length = S.marker then
        match S.tryReadValidMarker (bytes.drop off) with
        | .panic => .panic
        | .ok (some (bytesRead, val)) =>
          match uadd off bytesRead with
          | .panic => .panic
          | .ok offset' => .ok (some (off, val), offset')
        | .ok none => .ok (none, off)
      else
        match find S.marker (bytes.drop off) with
        | some position =>
          if position = 0 then .ok (none, off)
          else
            match uadd off position with
            | .panic => .panic
            | .ok offset' => readFallbackNext S bytes offset'
        | none => .ok (none, off) := by
  rw [readFallbackNext]
  split
  · next h => rw [uadd_ok hoff] at h; cases h
  · next e h =>
    rw [uadd_ok hoff] at h
    cases h
    by_cases hge : off + S.marker.length ≥ bytes.length
    · rw [dif_pos hge, if_pos hge]
    · rw [dif_neg hge, if_neg hge]
      simp only [slice_eq_marker (bs := bytes) (a := off) (m := S.marker) (by omega),
        sliceFrom_ok (show off ≤ bytes.length by omega), searchMarker]
      split
      · rfl
      · cases find S.marker (bytes.drop off) with
        | none => rfl
        | some p =>
          by_cases hp : p = 0
          · simp only [hp, dif_pos, if_true]
          · simp only [hp, dif_neg, not_false_iff, if_false]
            split
            · next h => rw [h]
            · next h => rw [h]

/-- What `next` does, from any offset. -/
theorem readFallbackNext_spec (L : Reads S) {bytes : Bytes} (hF : Fits bytes) (off : Nat)
    (hoff : off + S.marker.length ≤ usizeMax) :
    (∃ off', readFallbackNext S bytes off = .ok (none, off') ∧
        readFallbackNext S bytes off' = .ok (none, off') ∧ ScanEnd S bytes off) ∨
    (∃ i v, readFallbackNext S bytes off = .ok (some (i, v), i + S.len v) ∧
        FirstMarker S bytes off i ∧ ReadableAt S bytes i v) := by
  have hmp := S.marker_pos
  have hF' := fits_le hF
  -- the case of a marker exactly at `off`
  have at_marker : ∀ off, off + S.marker.length ≤ usizeMax → MarkerAt S bytes off →
      (∃ off', readFallbackNext S bytes off = .ok (none, off') ∧
        readFallbackNext S bytes off' = .ok (none, off') ∧ ScanEnd S bytes off) ∨
      (∃ i v, readFallbackNext S bytes off = .ok (some (i, v), i + S.len v) ∧
        FirstMarker S bytes off i ∧ ReadableAt S bytes i v) := by
    intro off hoff hm
    have hml := hm.lt
    have hfm : FirstMarker S bytes off off := ⟨Nat.le_refl _, hm, fun j h1 h2 => by omega⟩
    by_cases hge : off + S.marker.length ≥ bytes.length
    · left
      have hn : readFallbackNext S bytes off = .ok (none, off) := by
        rw [readFallbackNext_unfold hoff, if_pos hge]
      refine ⟨off, hn, hn, Or.inr ⟨off, hfm, fun v hv => ?_⟩⟩
      have := hv.bounds L; omega
    · have hsl := slice_eq_marker (bs := bytes) (a := off) (m := S.marker) hml
      have hsm : (bytes.drop off).take S.marker.length = S.marker := take_eq_iff_prefix.2 hm
      rcases L.cases hm with ⟨hr, hno⟩ | ⟨v, hr, hv⟩
      · left
        have hn : readFallbackNext S bytes off = .ok (none, off) := by
          rw [readFallbackNext_unfold hoff, if_neg hge]
          simp only [hsm, sliceFrom_ok (show off ≤ bytes.length by omega), hr, if_true]
        exact ⟨off, hn, hn, Or.inr ⟨off, hfm, hno⟩⟩
      · right
        have hb := hv.bounds L
        have hu : uadd off (S.len v) = .ok (off + S.len v) := uadd_ok (by unfold usizeMax; omega)
        refine ⟨off, v, ?_, hfm, hv⟩
        rw [readFallbackNext_unfold hoff, if_neg hge]
        simp only [hsm, sliceFrom_ok (show off ≤ bytes.length by omega), hr, if_true, hu]
  by_cases hm : MarkerAt S bytes off
  · exact at_marker off hoff hm
  · by_cases hge : off + S.marker.length ≥ bytes.length
    · left
      have hn : readFallbackNext S bytes off = .ok (none, off) := by
        rw [readFallbackNext_unfold hoff, if_pos hge]
      refine ⟨off, hn, hn, Or.inl fun j hj hmj => ?_⟩
      have := hmj.lt
      have : j = off := by omega
      subst this; exact hm hmj
    · have hsl := slice_eq_marker (bs := bytes) (a := off) (m := S.marker) (by omega)
      have hsm : ¬ (bytes.drop off).take S.marker.length = S.marker := fun h => hm (take_eq_iff_prefix.1 h)
      cases hf : find S.marker (bytes.drop off) with
      | none =>
        left
        have hn : readFallbackNext S bytes off = .ok (none, off) := by
          rw [readFallbackNext_unfold hoff, if_neg hge]
          simp only [hsm, sliceFrom_ok (show off ≤ bytes.length by omega), if_false, searchMarker, hf]
        refine ⟨off, hn, hn, Or.inl fun j hj hmj => ?_⟩
        refine find_none hf (j - off) ?_
        rw [List.drop_drop, show off + (j - off) = j by omega]; exact hmj
      | some p =>
        obtain ⟨hp1, hp2, hp3⟩ := find_some hf
        rw [List.length_drop] at hp1
        rw [List.drop_drop] at hp2
        have hm' : MarkerAt S bytes (off + p) := hp2
        have hml := hm'.lt
        have hp0 : p ≠ 0 := fun h => hm (by rw [h] at hm'; exact hm')
        have hu : uadd off p = .ok (off + p) := uadd_ok (by unfold usizeMax; omega)
        have hstep : readFallbackNext S bytes off = readFallbackNext S bytes (off + p) := by
          rw [readFallbackNext_unfold hoff, if_neg hge]
          simp only [hsm, sliceFrom_ok (show off ≤ bytes.length by omega), if_false, searchMarker,
            hf, hp0, if_false, hu]
        have hno : ∀ j, off ≤ j → j < off + p → ¬ MarkerAt S bytes j := by
          intro j h1 h2 hmj
          refine hp3 (j - off) (by omega) ?_
          rw [List.drop_drop, show off + (j - off) = j by omega]; exact hmj
        have lift : ∀ i, FirstMarker S bytes (off + p) i → FirstMarker S bytes off i := by
          rintro i ⟨h1, h2, h3⟩
          refine ⟨by omega, h2, fun j hj1 hj2 => ?_⟩
          by_cases h : j < off + p
          · exact hno j hj1 h
          · exact h3 j (by omega) hj2
        rw [hstep]
        rcases at_marker (off + p) (by unfold usizeMax; omega) hm' with ⟨off', h1, h2, h3⟩ | ⟨i, v, h1, h2, h3⟩
        · left
          refine ⟨off', h1, h2, ?_⟩
          rcases h3 with h3 | ⟨i, h3, h4⟩
          · exact absurd hm' (h3 _ (Nat.le_refl _))
          · exact Or.inr ⟨i, lift i h3, h4⟩
        · right
          exact ⟨i, v, h1, lift i h2, h3⟩

theorem Spec.FirstMarker.unique {bytes : Bytes} {s i j : Nat} (hi : FirstMarker S bytes s i)
    (hj : FirstMarker S bytes s j) : i = j := by
  apply Nat.le_antisymm
  · apply Nat.le_of_not_lt; intro h; exact hi.2.2 j hj.1 h hj.2.1
  · apply Nat.le_of_not_lt; intro h; exact hj.2.2 i hi.1 h hi.2.1

theorem Spec.Scan.unique (L : Reads S) {bytes : Bytes} {s : Nat} {as bs : List (Nat × T)}
    (h1 : Scan S bytes s as) (h2 : Scan S bytes s bs) : as = bs := by
  induction h1 generalizing bs with
  | done s hno =>
    cases h2 with
    | done => rfl
    | bad _ i hf => rfl
    | msg _ i v rest hf => exact absurd hf.2.1 (hno i hf.1)
  | bad s i hf hno =>
    cases h2 with
    | done => rfl
    | bad => rfl
    | msg _ j v rest hf' hr =>
      have := hf.unique hf'; subst this; exact absurd hr (hno v)
  | msg s i v rest hf hr _ ih =>
    cases h2 with
    | done _ hno => exact absurd hf.2.1 (hno i hf.1)
    | bad _ j hf' hno =>
      have := hf.unique hf'; subst this; exact absurd hr (hno v)
    | msg _ j w rest' hf' hr' h =>
      have := hf.unique hf'; subst this
      have := hr.unique L hr'; subst this
      rw [ih h]

/-- Draining `ReadFallbackIterator` from `off`: terminates, does not panic, yields the scan. -/
theorem readFallback_collects (L : Reads S) {bytes : Bytes} (hF : Fits bytes) (off : Nat)
    (hoff : off ≤ bytes.length) (hm : S.marker.length < 2 ^ 62) :
    ∃ items, Collects (readFallbackNext S bytes) off items ∧ Scan S bytes off items := by
  have hF' := fits_le hF
  generalize hk : bytes.length - off = k
  induction k using Nat.strongRecOn generalizing off with
  | ind k ih =>
    rcases readFallbackNext_spec L hF off (by unfold usizeMax; omega) with
      ⟨off', h1, _, h3⟩ | ⟨i, v, h1, h2, h3⟩
    · refine ⟨[], Collects.nil h1, ?_⟩
      rcases h3 with h3 | ⟨i, h3, h4⟩
      · exact Scan.done _ h3
      · exact Scan.bad _ i h3 h4
    · have hb := h3.bounds L
      have := h2.1
      obtain ⟨items, hc, hs⟩ := ih (bytes.length - (i + S.len v)) (by omega) (i + S.len v) (by omega) rfl
      exact ⟨(i, v) :: items, Collects.cons h1 hc, Scan.msg _ i v items h2 h3 hs⟩

/-! ## `SearchIterator` -/

theorem searchSearch_spec (L : Reads S) {bytes : Bytes} (hF : Fits bytes) (off : Nat) :
    (∃ i v, searchSearch S bytes off = .ok (some (i, v)) ∧ FirstMarker S bytes off i ∧ ReadableAt S bytes i v) ∨
    (searchSearch S bytes off = .ok none ∧ ScanEnd S bytes off) := by
  have hF' := fits_le hF
  have hmp := S.marker_pos
  unfold searchSearch
  by_cases hge : off ≥ bytes.length
  · right
    rw [if_pos hge]
    exact ⟨rfl, Or.inl fun j hj hm => by have := hm.lt; omega⟩
  · rw [if_neg hge]
    simp only [sliceFrom_ok (show off ≤ bytes.length by omega)]
    cases hf : find S.marker (bytes.drop off) with
    | none =>
      right
      refine ⟨rfl, Or.inl fun j hj hmj => ?_⟩
      refine find_none hf (j - off) ?_
      rw [List.drop_drop, show off + (j - off) = j by omega]; exact hmj
    | some p =>
      obtain ⟨hp1, hp2, hp3⟩ := find_some hf
      rw [List.length_drop] at hp1
      rw [List.drop_drop] at hp2
      have hm' : MarkerAt S bytes (off + p) := hp2
      have hml := hm'.lt
      have hu : uadd p off = .ok (off + p) := by
        rw [uadd_ok (by unfold usizeMax; omega)]; congr 1; omega
      have hfm : FirstMarker S bytes off (off + p) := by
        refine ⟨by omega, hm', fun j h1 h2 hmj => hp3 (j - off) (by omega) ?_⟩
        rw [List.drop_drop, show off + (j - off) = j by omega]; exact hmj
      simp only [hu, sliceFrom_ok (show off + p ≤ bytes.length by omega)]
      rcases L.cases hm' with ⟨hr, hno⟩ | ⟨v, hr, hv⟩
      · right
        simp only [hr]
        exact ⟨by trivial, Or.inr ⟨_, hfm, hno⟩⟩
      · left
        simp only [hr]
        exact ⟨off + p, v, rfl, hfm, hv⟩

theorem searchNext_unfold {bytes : Bytes} {off off' : Nat} (h : searchSearch S bytes off = .ok none)
    (hu : uadd off S.marker.length = .ok off') :
    searchNext S bytes off = if off' ≥ bytes.length then .ok (none, off') else searchNext S bytes off' := by
  rw [searchNext]
  simp only [h]
  split
  · next h' => rw [hu] at h'; cases h'
  · next h' => rw [hu] at h'; cases h'; rfl

/-- What `SearchIterator::next` does. -/
theorem searchNext_spec (L : Searches S) {bytes : Bytes} (hF : Fits bytes) (hm : S.marker.length < 2 ^ 62)
    (off : Nat) (hoff : off + 2 * S.marker.length ≤ usizeMax) :
    (∃ off', searchNext S bytes off = .ok (none, off') ∧ bytes.length ≤ off' ∧
        (off' ≤ off + S.marker.length ∨ off' ≤ bytes.length + S.marker.length) ∧
        ∀ j v, off ≤ j → ¬ ReadableAt S bytes j v) ∨
    (∃ i v, searchNext S bytes off = .ok (some (i, v), i + S.len v) ∧ off ≤ i ∧
        ReadableAt S bytes i v ∧ ∀ j w, off ≤ j → j < i → ¬ ReadableAt S bytes j w) := by
  have hF' := fits_le hF
  have hmp := S.marker_pos
  generalize hk : bytes.length - off = k
  induction k using Nat.strongRecOn generalizing off with
  | ind k ih =>
    rcases searchSearch_spec L.toReads hF off with ⟨i, v, h1, h2, h3⟩ | ⟨h1, h2⟩
    · right
      have hb := h3.bounds L
      have hu : uadd i (S.len v) = .ok (i + S.len v) := uadd_ok (by unfold usizeMax; omega)
      refine ⟨i, v, ?_, h2.1, h3, fun j w hj1 hj2 hw => h2.2.2 j hj1 hj2 (hw.marker L)⟩
      rw [searchNext]; simp only [h1, hu]
    · -- nothing readable in `[off, off + marker.length)`
      have hskip : ∀ j v, off ≤ j → j < off + S.marker.length → ¬ ReadableAt S bytes j v := by
        intro j v hj1 hj2 hr
        rcases h2 with h2 | ⟨i, h2, h4⟩
        · exact h2 j hj1 (hr.marker L)
        · have hi := h2.1
          rcases Nat.lt_trichotomy j i with h | h | h
          · exact h2.2.2 j hj1 h (hr.marker L)
          · subst h; exact h4 v hr
          · have := L.apart h2.2.1 (hr.marker L) h; omega
      have hu : uadd off S.marker.length = .ok (off + S.marker.length) := uadd_ok (by omega)
      by_cases hge : off + S.marker.length ≥ bytes.length
      · left
        refine ⟨off + S.marker.length, ?_, hge, Or.inl (Nat.le_refl _), ?_⟩
        · rw [searchNext_unfold h1 hu, if_pos hge]
        · intro j v hj hr
          by_cases hlt : j < off + S.marker.length
          · exact hskip j v hj hlt hr
          · have := hr.bounds L; omega
      · have hstep : searchNext S bytes off = searchNext S bytes (off + S.marker.length) := by
          rw [searchNext_unfold h1 hu, if_neg hge]
        rw [hstep]
        rcases ih (bytes.length - (off + S.marker.length)) (by omega) (off + S.marker.length)
          (by unfold usizeMax; omega) rfl with ⟨off', g1, g2, g3, g4⟩ | ⟨i, v, g1, g2, g3, g4⟩
        · left
          refine ⟨off', g1, g2, Or.inr (by omega), fun j v hj hr => ?_⟩
          by_cases hlt : j < off + S.marker.length
          · exact hskip j v hj hlt hr
          · exact g4 j v (by omega) hr
        · right
          refine ⟨i, v, g1, by omega, g3, fun j w hj1 hj2 hr => ?_⟩
          by_cases hlt : j < off + S.marker.length
          · exact hskip j w hj1 hlt hr
          · exact g4 j w (by omega) hj2 hr

theorem Spec.Greedy.unique (L : Reads S) {bytes : Bytes} {s : Nat} {as bs : List (Nat × T)}
    (h1 : Greedy S bytes s as) (h2 : Greedy S bytes s bs) : as = bs := by
  induction h1 generalizing bs with
  | done s hno =>
    cases h2 with
    | done => rfl
    | msg _ i v rest hle hr => exact absurd hr (hno i v hle)
  | msg s i v rest hle hr hbef _ ih =>
    cases h2 with
    | done _ hno => exact absurd hr (hno i v hle)
    | msg _ j w rest' hle' hr' hbef' h =>
      have : i = j := by
        apply Nat.le_antisymm
        · apply Nat.le_of_not_lt; intro hlt; exact hbef j w hle' hlt hr'
        · apply Nat.le_of_not_lt; intro hlt; exact hbef' i v hle hlt hr
      subst this
      have := hr.unique L hr'; subst this
      rw [ih h]

/-- Draining `SearchIterator` from `off`: terminates, does not panic, yields the greedy sequence. -/
theorem search_collects (L : Searches S) {bytes : Bytes} (hF : Fits bytes) (hm : S.marker.length < 2 ^ 62)
    (off : Nat) (hoff : off ≤ bytes.length) :
    ∃ items, Collects (searchNext S bytes) off items ∧ Greedy S bytes off items := by
  have hF' := fits_le hF
  generalize hk : bytes.length - off = k
  induction k using Nat.strongRecOn generalizing off with
  | ind k ih =>
    rcases searchNext_spec L hF hm off (by unfold usizeMax; omega) with
      ⟨off', h1, _, _, h3⟩ | ⟨i, v, h1, h2, h3, h4⟩
    · exact ⟨[], Collects.nil h1, Greedy.done _ h3⟩
    · have hb := h3.bounds L
      obtain ⟨items, hc, hs⟩ := ih (bytes.length - (i + S.len v)) (by omega) (i + S.len v) (by omega) rfl
      exact ⟨(i, v) :: items, Collects.cons h1 hc, Greedy.msg _ i v items h2 h3 h4 hs⟩

/-! ## `RevSearchIterator` -/

theorem revSearch_spec (L : Reads S) {bytes : Bytes} (off : Nat) (hF : Fits bytes) (hoff : off ≤ bytes.length) :
    (∃ i v, revSearch S bytes off = .ok (some (i, v)) ∧ i + S.marker.length ≤ off ∧ ReadableAt S bytes i v ∧
      ∀ j, i < j → j + S.marker.length ≤ off → ¬ MarkerAt S bytes j) ∨
    (revSearch S bytes off = .ok none ∧
      ((∀ j, j + S.marker.length ≤ off → ¬ MarkerAt S bytes j) ∨
       (∃ i, i + S.marker.length ≤ off ∧ MarkerAt S bytes i ∧ (∀ v, ¬ ReadableAt S bytes i v) ∧
        ∀ j, i < j → j + S.marker.length ≤ off → ¬ MarkerAt S bytes j))) := by
  have hF' := fits_le hF
  have hmp := S.marker_pos
  have key : ∀ j, S.marker <+: (bytes.take off).drop j ↔ MarkerAt S bytes j ∧ j + S.marker.length ≤ off := by
    intro j
    unfold MarkerAt
    rw [List.drop_take]
    constructor
    · intro h
      have := h.length_le
      rw [List.length_take, List.length_drop] at this
      exact ⟨h.trans (List.take_prefix _ _), by omega⟩
    · rintro ⟨h, hl⟩
      rw [List.prefix_take_iff]
      exact ⟨h, by omega⟩
  unfold revSearch
  rw [if_neg (by unfold usizeMax; omega)]
  simp only [sliceTo_ok hoff]
  cases hf : rfind S.marker (bytes.take off) with
  | none =>
    right
    exact ⟨rfl, Or.inl fun j hj hmj => rfind_none hf j ((key j).2 ⟨hmj, hj⟩)⟩
  | some i =>
    obtain ⟨h1, h2⟩ := rfind_some hmp hf
    obtain ⟨hm, hl⟩ := (key i).1 h1
    have hafter : ∀ j, i < j → j + S.marker.length ≤ off → ¬ MarkerAt S bytes j :=
      fun j hj hjl hmj => h2 j hj ((key j).2 ⟨hmj, hjl⟩)
    simp only [sliceFrom_ok (show i ≤ bytes.length by omega)]
    rcases L.cases hm with ⟨hr, hno⟩ | ⟨v, hr, hv⟩
    · right
      simp only [hr]
      exact ⟨by trivial, Or.inr ⟨i, hl, hm, hno, hafter⟩⟩
    · left
      simp only [hr]
      exact ⟨i, v, rfl, hl, hv, hafter⟩

theorem revNext_spec (L : Searches S) {bytes : Bytes} (hF : Fits bytes) (off : Nat) (hoff : off ≤ bytes.length) :
    (revNext S bytes off = .ok (none, usizeMax) ∧
      ∀ j v, j + S.marker.length ≤ off → ¬ ReadableAt S bytes j v) ∨
    (∃ i v, revNext S bytes off = .ok (some (i, v), i) ∧ i + S.marker.length ≤ off ∧
      ReadableAt S bytes i v ∧ ∀ j w, i < j → j + S.marker.length ≤ off → ¬ ReadableAt S bytes j w) := by
  have hF' := fits_le hF
  have hmp := S.marker_pos
  induction off using Nat.strongRecOn with
  | ind off ih =>
    rcases revSearch_spec L.toReads off hF hoff with ⟨i, v, h1, h2, h3, h4⟩ | ⟨h1, h2⟩
    · right
      refine ⟨i, v, ?_, h2, h3, fun j w hj hjl hr => h4 j hj hjl (hr.marker L)⟩
      rw [revNext]; simp only [h1]
    · have hskip : ∀ j v, j + S.marker.length ≤ off → off < j + 2 * S.marker.length →
          ¬ ReadableAt S bytes j v := by
        intro j v hj1 hj2 hr
        rcases h2 with h2 | ⟨i, hi1, hi2, hi3, hi4⟩
        · exact h2 j hj1 (hr.marker L)
        · rcases Nat.lt_trichotomy j i with h | h | h
          · have := L.apart (hr.marker L) hi2 h; omega
          · subst h; exact hi3 v hr
          · exact hi4 j h hj1 (hr.marker L)
      by_cases hle : S.marker.length ≤ off
      · have hne : off - S.marker.length ≠ usizeMax := by unfold usizeMax; omega
        have hstep : revNext S bytes off = revNext S bytes (off - S.marker.length) := by
          rw [revNext]; simp only [h1]; rw [dif_pos hle, if_neg hne]
        rw [hstep]
        rcases ih (off - S.marker.length) (by omega) (by omega) with ⟨g1, g2⟩ | ⟨i, v, g1, g2, g3, g4⟩
        · left
          refine ⟨g1, fun j v hj hr => ?_⟩
          by_cases h : off < j + 2 * S.marker.length
          · exact hskip j v hj h hr
          · exact g2 j v (by omega) hr
        · right
          refine ⟨i, v, g1, by omega, g3, fun j w hj1 hj2 hr => ?_⟩
          by_cases h : off < j + 2 * S.marker.length
          · exact hskip j w hj2 h hr
          · exact g4 j w hj1 (by omega) hr
      · left
        refine ⟨?_, fun j v hj => by omega⟩
        rw [revNext]; simp only [h1]; rw [dif_neg hle]

theorem rev_collects (L : Searches S) {bytes : Bytes} (hF : Fits bytes) (off : Nat) (hoff : off ≤ bytes.length) :
    ∃ items, Collects (revNext S bytes) off items ∧
      items.Pairwise (fun a b => b.1 < a.1) ∧
      ∀ p v, (p, v) ∈ items ↔ ReadableAt S bytes p v ∧ p + S.marker.length ≤ off := by
  have hmp := S.marker_pos
  induction off using Nat.strongRecOn with
  | ind off ih =>
    rcases revNext_spec L hF off hoff with ⟨h1, h2⟩ | ⟨i, v, h1, h2, h3, h4⟩
    · exact ⟨[], Collects.nil h1, List.Pairwise.nil, fun p v => by
        simp only [List.not_mem_nil, false_iff]; rintro ⟨a, b⟩; exact h2 p v b a⟩
    · obtain ⟨items, g1, g2, g3⟩ := ih i (by omega) (by omega)
      refine ⟨(i, v) :: items, Collects.cons h1 g1, ?_, ?_⟩
      · rw [List.pairwise_cons]
        refine ⟨?_, g2⟩
        rintro ⟨p, w⟩ hp
        have := ((g3 p w).1 hp).2
        simp only; omega
      · intro p w
        rw [List.mem_cons, g3]
        constructor
        · rintro (h | ⟨h, h'⟩)
          · simp only [Prod.mk.injEq] at h
            obtain ⟨rfl, rfl⟩ := h
            exact ⟨h3, h2⟩
          · exact ⟨h, by omega⟩
        · rintro ⟨h, h'⟩
          rcases Nat.lt_trichotomy p i with hlt | heq | hgt
          · right
            exact ⟨h, L.apart (h.marker L) (h3.marker L) hlt⟩
          · left
            subst heq
            rw [h.unique L h3]
          · exact absurd h (h4 p w hgt h')

end

end Verif
