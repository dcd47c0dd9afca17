import Verif.Lemmas.Scan
import Verif.Model.Grep

/-! # Lemmas about the grep iterators -/

set_option linter.unusedSimpArgs false

namespace Verif
open Spec

/-! ## Draining -/

section
variable {α : Type} {next : Nat → Option (Res (Option α × Nat))}

theorem collectDN_mono : ∀ {f off r}, collectDN next f off = some r → collectDN next (f + 1) off = some r := by
  intro f
  induction f with
  | zero => intro off r h; simp [collectDN] at h
  | succ f ih =>
    intro off r h
    unfold collectDN at h ⊢
    split at h
    · simp at h
    · exact h
    · exact h
    · next a off' heq =>
      cases hc : collectDN next f off' with
      | none => rw [hc] at h; simp at h
      | some q => rw [ih hc]; rw [hc] at h; exact h

theorem collectDN_mono_le {f g off r} (h : collectDN next f off = some r) (hfg : f ≤ g) :
    collectDN next g off = some r := by
  induction hfg with
  | refl => exact h
  | step _ ih => exact collectDN_mono ih

theorem CollectsD.unique {off : Nat} {as bs : List α} (h1 : CollectsD next off as) (h2 : CollectsD next off bs) :
    as = bs := by
  obtain ⟨f, hf⟩ := h1
  obtain ⟨g, hg⟩ := h2
  have a := collectDN_mono_le hf (Nat.le_max_left f g)
  have b := collectDN_mono_le hg (Nat.le_max_right f g)
  rw [a] at b
  simpa using b

theorem CollectsD.nil {off off' : Nat} (h : next off = some (.ok (none, off'))) : CollectsD next off [] :=
  ⟨1, by simp [collectDN, h]⟩

theorem CollectsD.cons {off off' : Nat} {a : α} {as : List α}
    (h : next off = some (.ok (some a, off'))) (h' : CollectsD next off' as) : CollectsD next off (a :: as) := by
  obtain ⟨f, hf⟩ := h'
  exact ⟨f + 1, by simp [collectDN, h, hf]⟩

end

/-! ## The regex -/

theorem Regex.capturesAt_none {re : Regex} {bs : Bytes} {off : Nat} (h : re.capturesAt bs off = none) :
    ∀ s, off ≤ s → re.matchAt bs s = none := by
  intro s hs
  by_cases hl : s ≤ bs.length
  · have := List.findSome?_eq_none_iff.1 h s (by rw [List.mem_range'_1]; omega)
    simpa using this
  · cases hm : re.matchAt bs s with
    | none => rfl
    | some m =>
      obtain ⟨e, g⟩ := m
      have := re.law bs s e g hm
      omega

theorem Regex.capturesAt_some {re : Regex} {bs : Bytes} {off s e : Nat} {g : Option (Nat × Nat)}
    (h : re.capturesAt bs off = some (s, e, g)) :
    off ≤ s ∧ s ≤ e ∧ e ≤ bs.length ∧ re.matchAt bs s = some (e, g) ∧
      ∀ j, off ≤ j → j < s → re.matchAt bs j = none := by
  obtain ⟨l₁, a, l₂, hl, ha, hb⟩ := List.findSome?_eq_some_iff.1 h
  have hma : re.matchAt bs a = some (e, g) ∧ a = s := by
    cases hm : re.matchAt bs a with
    | none => rw [hm] at ha; simp at ha
    | some m =>
      rw [hm] at ha
      simp only [Option.map_some, Option.some.injEq, Prod.mk.injEq] at ha
      obtain ⟨h1, h2, h3⟩ := ha
      refine ⟨?_, h1⟩
      rw [← h2, ← h3]
  obtain ⟨hm, rfl⟩ := hma
  have hlaw := re.law bs a e g hm
  have hal : a ∈ List.range' off (bs.length + 1 - off) := by rw [hl]; simp
  rw [List.mem_range'_1] at hal
  refine ⟨hal.1, hlaw.1, hlaw.2.1, hm, ?_⟩
  intro j h1 h2
  have hsorted : (List.range' off (bs.length + 1 - off)).Pairwise (· < ·) := List.pairwise_lt_range'
  have hj : j ∈ List.range' off (bs.length + 1 - off) := by rw [List.mem_range'_1]; omega
  rw [hl] at hj hsorted
  rw [List.mem_append] at hj
  have hj1 : j ∈ l₁ := by
    rcases hj with hj | hj
    · exact hj
    · rw [List.pairwise_append] at hsorted
      have := List.pairwise_cons.1 hsorted.2.1
      rcases List.mem_cons.1 hj with h' | h'
      · omega
      · have := this.1 j h'; omega
  have := hb j hj1
  simpa using this

/-! ## One step -/

section
variable {T : Type} {S : SearchableMarker T}

/-- Why and how `search` goes on, written for an arbitrary continuation `f`. -/
def grepBody (S : SearchableMarker T) (re : Regex) (bytes : Bytes)
    (f : Nat → Option (Res (Option (Nat × T)))) (offset : Nat) : Option (Res (Option (Nat × T))) :=
  if offset ≥ bytes.length then some (.ok none)
  else
    match re.findAt bytes offset with
    | none => some (.ok none)
    | some (start, stop) =>
      match revSearch S bytes start with
      | .panic => some .panic
      | .ok (some (off, val)) =>
        match uadd off (S.len val) with
        | .panic => some .panic
        | .ok e =>
          if off < start ∧ e < stop then f stop
          else some (.ok (some (off, val)))
      | .ok none =>
        if stop ≥ bytes.length then some (.ok none)
        else f stop

theorem grepSearch_unfold (re : Regex) (bytes : Bytes) (off : Nat) :
    grepSearch S re bytes off = grepBody S re bytes (grepSearch S re bytes) off := by
  rw [grepSearch]; rfl

/-- `i` is the last marker that ends at or before `s`. -/
def LastMarker (S : SearchableMarker T) (bytes : Bytes) (s i : Nat) : Prop :=
  i + S.marker.length ≤ s ∧ MarkerAt S bytes i ∧ ∀ j, i < j → j + S.marker.length ≤ s → ¬ MarkerAt S bytes j

theorem grepBody_cases (L : Lawful S) {re : Regex} {bytes : Bytes} (hF : Fits bytes)
    (f : Nat → Option (Res (Option (Nat × T)))) (off : Nat) :
    (bytes.length ≤ off ∨ ∀ s, off ≤ s → re.matchAt bytes s = none) ∧ grepBody S re bytes f off = some (.ok none) ∨
    (off < bytes.length ∧ ∃ s e g, re.matchAt bytes s = some (e, g) ∧ off ≤ s ∧ s ≤ e ∧ e ≤ bytes.length ∧
      (∀ j, off ≤ j → j < s → re.matchAt bytes j = none) ∧
      ((∃ i v, ReadableAt S bytes i v ∧ LastMarker S bytes s i ∧
          ((i + S.len v < e ∧ grepBody S re bytes f off = f e) ∨
           (e ≤ i + S.len v ∧ grepBody S re bytes f off = some (.ok (some (i, v)))))) ∨
       ((∀ i v, LastMarker S bytes s i → ¬ ReadableAt S bytes i v) ∧
          ((bytes.length ≤ e ∧ grepBody S re bytes f off = some (.ok none)) ∨
           (e < bytes.length ∧ grepBody S re bytes f off = f e))))) := by
  have hl := fits_le hF
  have hmp := S.marker_pos
  unfold grepBody
  by_cases h0 : off ≥ bytes.length
  · left; rw [if_pos h0]; exact ⟨Or.inl h0, rfl⟩
  · rw [if_neg h0]
    cases hc : re.capturesAt bytes off with
    | none =>
      left
      have hf : re.findAt bytes off = none := by unfold Regex.findAt; rw [hc]; rfl
      rw [hf]
      exact ⟨Or.inr (Regex.capturesAt_none hc), rfl⟩
    | some m =>
      right
      obtain ⟨s, e, g⟩ := m
      have hf : re.findAt bytes off = some (s, e) := by unfold Regex.findAt; rw [hc]; rfl
      rw [hf]
      obtain ⟨h1, h2, h3, h4, h5⟩ := Regex.capturesAt_some hc
      refine ⟨by omega, s, e, g, h4, h1, h2, h3, h5, ?_⟩
      rcases revSearch_spec L.toReads s hF (by omega) with ⟨i, v, hr, h6, h7, h8⟩ | ⟨hr, hno⟩
      · left
        have hb := h7.bounds L
        refine ⟨i, v, h7, ⟨h6, h7.marker L, h8⟩, ?_⟩
        simp only [hr, uadd_ok (show i + S.len v ≤ usizeMax by unfold usizeMax; omega)]
        by_cases he : i + S.len v < e
        · left; exact ⟨he, by rw [if_pos ⟨by omega, he⟩]⟩
        · right; exact ⟨by omega, by rw [if_neg (by omega)]⟩
      · right
        constructor
        · intro i v hlm hrd
          rcases hno with hno | ⟨i', h6, h7, h8, h9⟩
          · exact hno i hlm.1 hlm.2.1
          · have : i = i' := by
              rcases Nat.lt_trichotomy i i' with h | h | h
              · exact absurd h7 (hlm.2.2 i' h h6)
              · exact h
              · exact absurd hlm.2.1 (h9 i h hlm.1)
            subst this
            exact h8 v hrd
        · simp only [hr]
          by_cases he : e ≥ bytes.length
          · left; exact ⟨he, by rw [if_pos he]⟩
          · right; exact ⟨by omega, by rw [if_neg he]⟩

/-- What a returned hit is. -/
theorem grepSearch_sound (L : Lawful S) {re : Regex} {bytes : Bytes} (hF : Fits bytes) (off : Nat)
    (r : Res (Option (Nat × T))) (h : grepSearch S re bytes off = some r) :
    ∃ o, r = .ok o ∧ ∀ i v, o = some (i, v) → ReadableAt S bytes i v ∧
      ∃ s e g, re.matchAt bytes s = some (e, g) ∧ off ≤ s ∧ LastMarker S bytes s i ∧ e ≤ i + S.len v := by
  refine grepSearch.partial_correctness S re bytes (fun off r => ∃ o, r = .ok o ∧ ∀ i v, o = some (i, v) →
    ReadableAt S bytes i v ∧ ∃ s e g, re.matchAt bytes s = some (e, g) ∧ off ≤ s ∧ LastMarker S bytes s i ∧
      e ≤ i + S.len v) ?_ off r h
  intro f ih off r hr
  have hr' : grepBody S re bytes f off = some r := hr
  rcases grepBody_cases L (re := re) hF f off with ⟨_, h⟩ | ⟨_, s, e, g, hm, h1, h2, h3, _, hc⟩
  · rw [h] at hr'; cases hr'; exact ⟨none, rfl, by simp⟩
  · have back : ∀ r, f e = some r → ∃ o, r = .ok o ∧ ∀ i v, o = some (i, v) → ReadableAt S bytes i v ∧
        ∃ s e g, re.matchAt bytes s = some (e, g) ∧ off ≤ s ∧ LastMarker S bytes s i ∧ e ≤ i + S.len v := by
      intro r hf
      obtain ⟨o, ho, hi⟩ := ih e r hf
      refine ⟨o, ho, fun i v hiv => ?_⟩
      obtain ⟨h4, s', e', g', h5, h6, h7, h8⟩ := hi i v hiv
      exact ⟨h4, s', e', g', h5, by omega, h7, h8⟩
    rcases hc with ⟨i, v, hrd, hlm, ⟨_, h⟩ | ⟨he, h⟩⟩ | ⟨_, ⟨_, h⟩ | ⟨_, h⟩⟩
    · rw [h] at hr'; exact back r hr'
    · rw [h] at hr'; cases hr'
      refine ⟨_, rfl, fun i' v' hiv => ?_⟩
      cases hiv
      exact ⟨hrd, s, e, g, hm, h1, hlm, he⟩
    · rw [h] at hr'; cases hr'; exact ⟨none, rfl, by simp⟩
    · rw [h] at hr'; exact back r hr'

/-- No empty matches. -/
def NonEmptyMatches (re : Regex) (bytes : Bytes) : Prop := ∀ s e g, re.matchAt bytes s = some (e, g) → s < e

theorem grepSearch_terminates (L : Lawful S) {re : Regex} {bytes : Bytes} (hF : Fits bytes)
    (hne : NonEmptyMatches re bytes) (off : Nat) : ∃ r, grepSearch S re bytes off = some r := by
  generalize hk : bytes.length - off = k
  induction k using Nat.strongRecOn generalizing off with
  | ind k ih =>
    rw [grepSearch_unfold]
    rcases grepBody_cases L (re := re) hF (grepSearch S re bytes) off with ⟨_, h⟩ | ⟨h0, s, e, g, hm, h1, h2, h3, _, hc⟩
    · exact ⟨_, h⟩
    · have := hne s e g hm
      have hrec := ih (bytes.length - e) (by omega) e rfl
      rcases hc with ⟨i, v, hrd, hlm, ⟨_, h⟩ | ⟨he, h⟩⟩ | ⟨_, ⟨_, h⟩ | ⟨_, h⟩⟩
      · rw [h]; exact hrec
      · exact ⟨_, h⟩
      · exact ⟨_, h⟩
      · rw [h]; exact hrec

theorem grepNext_cases (L : Lawful S) {re : Regex} {bytes : Bytes} (hF : Fits bytes) (off : Nat) :
    (grepSearch S re bytes off = none ∧ grepNext S re bytes off = none) ∨
    (grepSearch S re bytes off = some (.ok none) ∧ grepNext S re bytes off = some (.ok (none, off))) ∨
    ∃ i v, grepSearch S re bytes off = some (.ok (some (i, v))) ∧
      grepNext S re bytes off = some (.ok (some (i, v), i + S.len v)) := by
  have hl := fits_le hF
  unfold grepNext
  cases hs : grepSearch S re bytes off with
  | none => left; exact ⟨rfl, rfl⟩
  | some r =>
    obtain ⟨o, rfl, ho⟩ := grepSearch_sound L hF off r hs
    cases o with
    | none => right; left; exact ⟨rfl, rfl⟩
    | some x =>
      obtain ⟨i, v⟩ := x
      have hb := (ho i v rfl).1.bounds L
      right; right
      refine ⟨i, v, rfl, ?_⟩
      simp only [uadd_ok (show i + S.len v ≤ usizeMax by unfold usizeMax; omega)]

end

end Verif
