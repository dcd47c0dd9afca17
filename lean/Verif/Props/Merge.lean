import Verif.Props.Generator
import Verif.Lemmas.Merge
import Verif.Model.Ripdlt

/-!
# C40, C41: `merge`

The generic statements hold for every merge function and key function with the stated laws; the ones about
`ripdlt` are for `merge_overlapping_timestamps` and the key `(first second, last second)`.
-/

set_option linter.unusedSimpArgs false

namespace Verif

open Spec

/-- The spans of time of a pair of messages: its first and last second. -/
def fstSec (r : StorageEntry × StorageEntry) : Nat := r.1.storageHeader.secs.toNat
@[inherit_doc fstSec] def sndSec (r : StorageEntry × StorageEntry) : Nat := r.2.storageHeader.secs.toNat

/-- What `merge_overlapping_timestamps` computes. -/
theorem mergeOverlapping_spec (a b : StorageEntry × StorageEntry) :
    (∀ c, mergeOverlapping a b = some c → sndSec c = max (sndSec a) (sndSec b) ∧
      ((fstSec c = fstSec a ∧ fstSec a ≤ fstSec b ∧ fstSec b ≤ sndSec a) ∨
       (fstSec c = fstSec b ∧ fstSec b ≤ fstSec a ∧ fstSec a ≤ sndSec b))) ∧
    (mergeOverlapping a b = none ↔
      ¬ (fstSec a ≤ fstSec b ∧ fstSec b ≤ sndSec a) ∧ ¬ (fstSec b ≤ fstSec a ∧ fstSec a ≤ sndSec b)) := by
  obtain ⟨a0, a1⟩ := a
  obtain ⟨b0, b1⟩ := b
  unfold mergeOverlapping
  simp only [StorageEntry.secs, ge_iff_le, UInt32.le_iff_toNat_le, fstSec, sndSec]
  by_cases h1 : a0.storageHeader.secs.toNat ≤ b0.storageHeader.secs.toNat ∧
      b0.storageHeader.secs.toNat ≤ a1.storageHeader.secs.toNat
  · simp only [if_pos h1, Option.some.injEq, reduceCtorEq, false_iff]
    constructor
    · rintro c rfl
      refine ⟨?_, Or.inl ⟨rfl, h1⟩⟩
      simp only
      split <;> omega
    · exact fun h => h.1 h1
  · by_cases h2 : b0.storageHeader.secs.toNat ≤ a0.storageHeader.secs.toNat ∧
        a0.storageHeader.secs.toNat ≤ b1.storageHeader.secs.toNat
    · simp only [if_neg h1, if_pos h2, Option.some.injEq, reduceCtorEq, false_iff]
      constructor
      · rintro c rfl
        refine ⟨?_, Or.inr ⟨rfl, h2⟩⟩
        simp only
        split <;> omega
      · exact fun h => h.2 h2
    · simp only [if_neg h1, if_neg h2, reduceCtorEq, false_implies, implies_true, true_and, true_iff]
      exact ⟨h1, h2⟩

/-! ## C40 -/

/-- **C40** (for every merge function and key function) if merging two values covers exactly what they cover and
equal keys cover the same, `merge` covers exactly what its inputs cover; it emits at most as many values as it
gets, with strictly increasing keys; what merging preserves holds of every output. -/
theorem C40_merge_generic {α β κ T : Type} [K : Key κ] (c : Chain α β) (f : β → β → Option β) (key : β → κ)
    (cover : β → T → Prop)
    (hf : ∀ a b d, f a b = some d → ∀ t, cover d t ↔ cover a t ∨ cover b t)
    (hk : ∀ a b, key a = key b → ∀ t, cover a t ↔ cover b t)
    (xs : List α) (ys : List β) (h : collected c xs = some (.ok ys)) :
    ∃ zs, collected (c.merge K (fun a b => .ok (f a b)) key) xs = some (.ok zs) ∧
      (∀ t, (∃ z ∈ zs, cover z t) ↔ ∃ y ∈ ys, cover y t) ∧
      zs.length ≤ ys.length ∧
      zs.Pairwise (fun a b => Key.lt (key a) (key b)) ∧
      (∀ P : β → Prop, (∀ a b d, P a → P b → f a b = some d → P d) → (∀ y ∈ ys, P y) → ∀ z ∈ zs, P z) := by
  have hc := collected_behind (d := c.merge K (fun a b => .ok (f a b)) key) (good_merge _ key) rfl h (outs_merge f key ys)
  have hi := mergeInv_foldl f key (mergeInv_nil key) ys
  refine ⟨_, hc, ?_, ?_, ?_, ?_⟩
  · intro t
    have := merge_cover_foldl f key cover hf hk (mergeInv_nil key) ys t
    simp only [List.not_mem_nil, false_and, exists_false, false_or] at this
    rw [← this]
    simp only [List.mem_map]
    constructor
    · rintro ⟨z, ⟨x, h1, rfl⟩, h2⟩; exact ⟨x, h1, h2⟩
    · rintro ⟨x, h1, h2⟩; exact ⟨x.2, ⟨x, h1, rfl⟩, h2⟩
  · have := length_merge_le f key [] ys
    simpa using this
  · rw [List.pairwise_map]
    have hs : List.Pairwise (fun a b : κ × β => Key.lt a.1 b.1) (ys.foldl (mergeStep f key) []) := hi.sorted
    refine hs.imp_of_mem ?_
    intro a b ha hb hab
    rw [← hi.keyed a ha, ← hi.keyed b hb]
    exact hab
  · intro P hP hy z hz
    obtain ⟨x, hx, rfl⟩ := List.mem_map.1 hz
    exact merge_forall f key P hP (mergeInv_nil key) (by simp) ys hy x hx

/-- **C40** overlap-merging as `ripdlt` does it: the seconds covered by the outputs are exactly those covered by the
inputs, there are at most as many outputs, in order of (first, last) second, and they are well-formed if the
inputs are. -/
theorem C40_merge_overlapping {α : Type} (c : Chain α (StorageEntry × StorageEntry)) (xs : List α)
    (ys : List (StorageEntry × StorageEntry)) (h : collected c xs = some (.ok ys)) :
    ∃ zs, collected (c.merge inferInstance (fun a b => .ok (mergeOverlapping a b)) spanKey) xs = some (.ok zs) ∧
      (∀ t, (∃ z ∈ zs, Covers (fstSec z) (sndSec z) t) ↔ ∃ y ∈ ys, Covers (fstSec y) (sndSec y) t) ∧
      zs.length ≤ ys.length ∧
      zs.Pairwise (fun a b => fstSec a < fstSec b ∨ (fstSec a = fstSec b ∧ sndSec a < sndSec b)) ∧
      ((∀ y ∈ ys, fstSec y ≤ sndSec y) → ∀ z ∈ zs, fstSec z ≤ sndSec z) ∧
      (∀ z ∈ zs, ∃ y ∈ ys, ∃ y' ∈ ys, z = (y.1, y'.2)) := by
  obtain ⟨zs, h1, h2, h3, h4, h5⟩ := C40_merge_generic c mergeOverlapping spanKey
    (fun r t => Covers (fstSec r) (sndSec r) t) (by
      intro a b d hd t
      have hs := (mergeOverlapping_spec a b).1 d hd
      simp only [Covers]
      omega) (by
      intro a b hk t
      simp only [spanKey, Prod.mk.injEq, StorageEntry.secs] at hk
      simp only [Covers, fstSec, sndSec, hk.1, hk.2]) xs ys h
  refine ⟨zs, h1, h2, h3, ?_, ?_, ?_⟩
  · refine h4.imp ?_
    rintro a b (hab | ⟨hab, hab'⟩)
    · exact Or.inl hab
    · exact Or.inr ⟨congrArg UInt32.toNat hab, hab'⟩
  · intro hy
    refine h5 (fun r => fstSec r ≤ sndSec r) ?_ hy
    intro a b d ha hb hd
    have hs := (mergeOverlapping_spec a b).1 d hd
    omega
  · refine h5 (fun z => ∃ y ∈ ys, ∃ y' ∈ ys, z = (y.1, y'.2)) ?_ (fun y hy => ⟨y, hy, y, hy, rfl⟩)
    rintro a b d ⟨y, hy, y', hy', rfl⟩ ⟨w, hw, w', hw', rfl⟩ hd
    have hmax : ∀ x z : StorageEntry, x ∈ [y'.2, w'.2] → z ∈ [y'.2, w'.2] → ∃ v ∈ ys,
        (if x.secs ≥ z.secs then x else z) = v.2 := by
      intro x z hx hz
      simp only [List.mem_cons, List.not_mem_nil, or_false] at hx hz
      split
      · rcases hx with rfl | rfl
        · exact ⟨y', hy', rfl⟩
        · exact ⟨w', hw', rfl⟩
      · rcases hz with rfl | rfl
        · exact ⟨y', hy', rfl⟩
        · exact ⟨w', hw', rfl⟩
    obtain ⟨v, hv, hve⟩ := hmax y'.2 w'.2 (by simp) (by simp)
    unfold mergeOverlapping at hd
    simp only at hd
    split at hd
    · simp only [Option.some.injEq] at hd
      exact ⟨y, hy, v, hv, by rw [← hd, hve]⟩
    · split at hd
      · simp only [Option.some.injEq] at hd
        exact ⟨w, hw, v, hv, by rw [← hd, hve]⟩
      · simp at hd

/-! ## C41 -/

/-- A message stored at second `s`. -/
def secMsg (s : UInt32) : StorageEntry := ⟨⟨⟨68, 76, 84, 1⟩, s, 0, ⟨69, 67, 85, 49⟩⟩, ⟨⟨⟨0x20⟩, 0, 4⟩, []⟩⟩

/-- A pair of messages spanning the seconds `a` to `b`. -/
def secSpan (a b : UInt32) : StorageEntry × StorageEntry := (secMsg a, secMsg b)

/-- Three spans, of which the last overlaps both others. -/
def bridge : List (StorageEntry × StorageEntry) := [secSpan 0 1, secSpan 4 5, secSpan 1 4]

theorem C41_bridge : collected (Chain.merge inferInstance Chain.nil (fun a b => .ok (mergeOverlapping a b)) spanKey) bridge =
    some (.ok [secSpan 0 4, secSpan 4 5]) := by
  have := collected_behind (d := Chain.merge inferInstance Chain.nil (fun a b => .ok (mergeOverlapping a b)) spanKey)
    (good_merge _ spanKey) rfl (C37_nil_chain bridge) (outs_merge mergeOverlapping spanKey bridge)
  rw [this]
  decide

/-- **C41 is violated**: a span that overlaps two others is merged with one of them only; the two outputs
still overlap and are mergeable. -/
theorem C41_mergeable_left : ∃ ys zs : List (StorageEntry × StorageEntry), ∃ a ∈ zs, ∃ b ∈ zs, a ≠ b ∧
    (∀ y ∈ ys, fstSec y ≤ sndSec y) ∧
    collected (Chain.merge inferInstance Chain.nil (fun a b => .ok (mergeOverlapping a b)) spanKey) ys = some (.ok zs) ∧
    mergeOverlapping a b ≠ none ∧ ∃ t, Covers (fstSec a) (sndSec a) t ∧ Covers (fstSec b) (sndSec b) t := by
  refine ⟨bridge, [secSpan 0 4, secSpan 4 5], secSpan 0 4, by simp, secSpan 4 5, by simp, by decide, by decide,
    C41_bridge, by decide, 4, ?_, ?_⟩ <;> (unfold Covers; decide)

/-- Not mergeable means disjoint, for well-formed spans. -/
theorem mergeOverlapping_none_iff {a b : StorageEntry × StorageEntry} (ha : fstSec a ≤ sndSec a) (hb : fstSec b ≤ sndSec b) :
    mergeOverlapping a b = none ↔ ∀ t, ¬ (Covers (fstSec a) (sndSec a) t ∧ Covers (fstSec b) (sndSec b) t) := by
  rw [(mergeOverlapping_spec a b).2]
  simp only [Covers]
  constructor
  · intro h t ht; omega
  · intro h
    constructor
    · intro h'; exact h (fstSec b) (by omega)
    · intro h'; exact h (fstSec a) (by omega)

/-- The invariant of `merge` on spans sorted by their first second. -/
structure Disj (m : OrdMap (UInt32 × UInt32) (StorageEntry × StorageEntry)) (lo : Nat) : Prop where
  wf : ∀ x ∈ m, fstSec x.2 ≤ sndSec x.2
  before : ∀ x ∈ m, fstSec x.2 ≤ lo
  disj : ∀ x ∈ m, ∀ y ∈ m, x ≠ y → mergeOverlapping x.2 y.2 = none

theorem disj_step {m : OrdMap (UInt32 × UInt32) (StorageEntry × StorageEntry)} {lo : Nat}
    (hi : MergeInv spanKey m) (h : Disj m lo) (b : StorageEntry × StorageEntry) (hb : fstSec b ≤ sndSec b)
    (hlo : lo ≤ fstSec b) : Disj (mergeStep mergeOverlapping spanKey m b) (fstSec b) := by
  have hi' := mergeInv_step mergeOverlapping spanKey hi b
  have hm := fun w => mem_mergeStep mergeOverlapping spanKey hi b w
  -- entries with the same value are the same entry
  have same : ∀ x ∈ mergeStep mergeOverlapping spanKey m b, ∀ y ∈ mergeStep mergeOverlapping spanKey m b,
      x ≠ y → x.2 ≠ y.2 := by
    rintro ⟨k, v⟩ hx ⟨k', v'⟩ hy hne rfl
    have h1 := hi'.keyed _ hx
    have h2 := hi'.keyed _ hy
    simp only at h1 h2
    exact hne (by rw [h1, h2])
  cases hp : mergePick mergeOverlapping b m with
  | none =>
    simp only [hp] at hm
    have hnone := mergePick_none mergeOverlapping hp
    have old : ∀ x ∈ mergeStep mergeOverlapping spanKey m b, x.2 = b ∨ ∃ k, (k, x.2) ∈ m := by
      rintro ⟨k, w⟩ hx
      rcases (hm w).1 ⟨k, hx⟩ with h1 | ⟨h1, -⟩
      · exact Or.inl h1
      · exact Or.inr h1
    refine ⟨?_, ?_, ?_⟩
    · intro x hx
      rcases old x hx with h1 | ⟨k, h1⟩
      · rw [h1]; exact hb
      · exact h.wf (k, x.2) h1
    · intro x hx
      rcases old x hx with h1 | ⟨k, h1⟩
      · rw [h1]; exact Nat.le_refl _
      · exact Nat.le_trans (h.before (k, x.2) h1) hlo
    · intro x hx y hy hne
      rcases old x hx with h1 | ⟨k, h1⟩ <;> rcases old y hy with h2 | ⟨k', h2⟩
      · exact absurd (h1.trans h2.symm) (same x hx y hy hne)
      · have := hnone (k', y.2) h2
        rw [h1]
        rw [(mergeOverlapping_spec _ _).2] at this ⊢
        exact ⟨this.2, this.1⟩
      · rw [h2]; exact hnone (k, x.2) h1
      · refine h.disj (k, x.2) h1 (k', y.2) h2 ?_
        intro he
        simp only [Prod.mk.injEq] at he
        exact same x hx y hy hne he.2
  | some pv =>
    obtain ⟨p, v⟩ := pv
    simp only [hp] at hm
    obtain ⟨hf, kp, hpm⟩ := mergePick_some mergeOverlapping hp
    have hv := (mergeOverlapping_spec p b).1 v hf
    have hpw := h.wf _ hpm
    have hpb := h.before _ hpm
    simp only at hpw hpb
    have old : ∀ x ∈ mergeStep mergeOverlapping spanKey m b, x.2 = v ∨ ((∃ k, (k, x.2) ∈ m) ∧ x.2 ≠ p) := by
      rintro ⟨k, w⟩ hx
      rcases (hm w).1 ⟨k, hx⟩ with h1 | ⟨h1, h2, -⟩
      · exact Or.inl h1
      · exact Or.inr ⟨h1, fun he => h2 (by simp only at he; rw [he])⟩
    have fresh : ∀ k w, (k, w) ∈ m → w ≠ p → mergeOverlapping w v = none ∧ mergeOverlapping v w = none := by
      intro k w hw hne
      have hd := h.disj _ hw _ hpm (by intro he; simp only [Prod.mk.injEq] at he; exact hne he.2)
      have hww := h.wf _ hw
      have hwb := h.before _ hw
      simp only at hd hww hwb
      rw [(mergeOverlapping_spec _ _).2] at hd
      constructor <;> rw [(mergeOverlapping_spec _ _).2] <;> omega
    refine ⟨?_, ?_, ?_⟩
    · intro x hx
      rcases old x hx with h1 | ⟨⟨k, h1⟩, -⟩
      · rw [h1]; omega
      · exact h.wf (k, x.2) h1
    · intro x hx
      rcases old x hx with h1 | ⟨⟨k, h1⟩, -⟩
      · rw [h1]; omega
      · exact Nat.le_trans (h.before (k, x.2) h1) hlo
    · intro x hx y hy hne
      rcases old x hx with h1 | ⟨⟨k, h1⟩, h1'⟩ <;> rcases old y hy with h2 | ⟨⟨k', h2⟩, h2'⟩
      · exact absurd (h1.trans h2.symm) (same x hx y hy hne)
      · rw [h1]; exact (fresh _ _ h2 h2').2
      · rw [h2]; exact (fresh _ _ h1 h1').1
      · refine h.disj (k, x.2) h1 (k', y.2) h2 ?_
        intro he
        simp only [Prod.mk.injEq] at he
        exact same x hx y hy hne he.2

theorem disj_foldl {m : OrdMap (UInt32 × UInt32) (StorageEntry × StorageEntry)} {lo : Nat}
    (hi : MergeInv spanKey m) (h : Disj m lo) (ys : List (StorageEntry × StorageEntry))
    (hw : ∀ y ∈ ys, fstSec y ≤ sndSec y) (hlo : ∀ y ∈ ys, lo ≤ fstSec y)
    (hs : ys.Pairwise fun a b => fstSec a ≤ fstSec b) :
    ∀ x ∈ ys.foldl (mergeStep mergeOverlapping spanKey) m, ∀ y ∈ ys.foldl (mergeStep mergeOverlapping spanKey) m,
      x ≠ y → mergeOverlapping x.2 y.2 = none := by
  induction ys generalizing m lo with
  | nil => exact h.disj
  | cons b ys ih =>
    rw [List.foldl_cons]
    rw [List.pairwise_cons] at hs
    exact ih (mergeInv_step _ _ hi b) (disj_step hi h b (hw b List.mem_cons_self) (hlo b List.mem_cons_self))
      (fun y hy => hw y (List.mem_cons_of_mem _ hy)) hs.1 hs.2

/-- **C41 (partial)** if the spans arrive sorted by their first second, no two outputs of `merge` overlap or are
mergeable. Missing: other arrival orders, for which the claim is false (`C41_mergeable_left`). -/
theorem C41_merge_disjoint_partial {α : Type} (c : Chain α (StorageEntry × StorageEntry)) (xs : List α)
    (ys : List (StorageEntry × StorageEntry)) (h : collected c xs = some (.ok ys))
    (hw : ∀ y ∈ ys, fstSec y ≤ sndSec y) (hs : ys.Pairwise fun a b => fstSec a ≤ fstSec b) :
    ∃ zs, collected (c.merge inferInstance (fun a b => .ok (mergeOverlapping a b)) spanKey) xs = some (.ok zs) ∧
      zs.Pairwise (fun a b => mergeOverlapping a b = none ∧ sndSec a < fstSec b) := by
  have hc := collected_behind (d := c.merge inferInstance (fun a b => .ok (mergeOverlapping a b)) spanKey)
    (good_merge _ spanKey) rfl h (outs_merge mergeOverlapping spanKey ys)
  refine ⟨_, hc, ?_⟩
  have hi := mergeInv_foldl mergeOverlapping spanKey (mergeInv_nil spanKey) ys
  have hd := disj_foldl (m := []) (lo := 0) (mergeInv_nil spanKey) ⟨by simp, by simp, by simp⟩ ys hw (fun _ _ => Nat.zero_le _) hs
  have hwf := merge_forall mergeOverlapping spanKey (fun r => fstSec r ≤ sndSec r) (by
    intro a b d ha hb hd
    have hs := (mergeOverlapping_spec a b).1 d hd
    omega) (mergeInv_nil spanKey) (by simp) ys hw
  rw [List.pairwise_map]
  have hsort : List.Pairwise (fun a b : (UInt32 × UInt32) × (StorageEntry × StorageEntry) => Key.lt a.1 b.1)
    (ys.foldl (mergeStep mergeOverlapping spanKey) []) := hi.sorted
  refine hsort.imp_of_mem ?_
  intro a b ha hb hab
  have hne : a ≠ b := by rintro rfl; exact Key.irrefl _ hab
  have hn := hd a ha b hb hne
  refine ⟨hn, ?_⟩
  rw [hi.keyed a ha, hi.keyed b hb] at hab
  have hwa := hwf a ha
  have hwb := hwf b hb
  rw [(mergeOverlapping_spec _ _).2] at hn
  have hle : fstSec a.2 ≤ fstSec b.2 := by
    rcases hab with hab | ⟨hab, -⟩
    · exact Nat.le_of_lt hab
    · exact Nat.le_of_eq (congrArg UInt32.toNat hab)
  omega

/-- Sorted, well-formed spans, two of which overlap. -/
example : (∀ y ∈ [secSpan 0 3, secSpan 2 7, secSpan 9 9], fstSec y ≤ sndSec y) ∧
    [secSpan 0 3, secSpan 2 7, secSpan 9 9].Pairwise (fun a b => fstSec a ≤ fstSec b) ∧
    (∃ zs, collected (Chain.merge inferInstance Chain.nil (fun a b => .ok (mergeOverlapping a b)) spanKey)
      [secSpan 0 3, secSpan 2 7, secSpan 9 9] = some (.ok zs) ∧ zs = [secSpan 0 7, secSpan 9 9]) := by
  refine ⟨by decide, by decide, _, collected_behind (good_merge _ spanKey) rfl (C37_nil_chain _)
    (outs_merge mergeOverlapping spanKey _), by decide⟩

end Verif
