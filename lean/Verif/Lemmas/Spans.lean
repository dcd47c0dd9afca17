import Verif.Props.Merge
import Verif.Spec.Spans

/-! # Lemmas about the spans in the map of merge -/

set_option linter.unusedSimpArgs false

namespace Verif

open Spec

/-- First and last second. -/
def secsPair (r : StorageEntry × StorageEntry) : Nat × Nat := (fstSec r, sndSec r)

theorem meet_iff {a b : Nat × Nat} (ha : a.1 ≤ a.2) (hb : b.1 ≤ b.2) : Meet a b ↔ a.1 ≤ b.2 ∧ b.1 ≤ a.2 := by
  constructor
  · rintro ⟨t, h1, h2⟩; unfold Covers at h1 h2; omega
  · rintro ⟨h1, h2⟩
    by_cases h : a.1 ≤ b.1
    · exact ⟨b.1, ⟨h, h2⟩, Nat.le_refl _, hb⟩
    · exact ⟨a.1, ⟨Nat.le_refl _, ha⟩, by omega, h1⟩

theorem Spec.Meet.symm {a b : Nat × Nat} (h : Meet a b) : Meet b a := by
  obtain ⟨t, h1, h2⟩ := h; exact ⟨t, h2, h1⟩

theorem Spec.Linked.mem_right {l : List (Nat × Nat)} {a b : Nat × Nat} (h : Linked l a b) : b ∈ l := by
  cases h <;> assumption

theorem Spec.Linked.trans {l : List (Nat × Nat)} {a b c : Nat × Nat} (h1 : Linked l a b) (h2 : Linked l b c) : Linked l a c := by
  induction h2 with
  | here _ => exact h1
  | next _ h3 h4 ih => exact .next ih h3 h4

theorem Spec.Linked.mem_left {l : List (Nat × Nat)} {a b : Nat × Nat} (h : Linked l a b) : a ∈ l := by
  induction h with
  | here h => exact h
  | next _ _ _ ih => exact ih

theorem Spec.Linked.symm {l : List (Nat × Nat)} {a b : Nat × Nat} (h : Linked l a b) : Linked l b a := by
  induction h with
  | here h => exact .here h
  | next h1 h2 h3 ih => exact (Linked.next (.here h2) h1.mem_right h3.symm).trans ih

theorem Spec.Linked.mono {l l' : List (Nat × Nat)} (hs : ∀ x ∈ l, x ∈ l') {a b : Nat × Nat} (h : Linked l a b) : Linked l' a b := by
  induction h with
  | here h => exact .here (hs _ h)
  | next _ h2 h3 ih => exact .next ih (hs _ h2) h3

/-- `a` lies inside `b`. -/
def SpanIn (a b : Nat × Nat) : Prop := b.1 ≤ a.1 ∧ a.2 ≤ b.2

/-- Both spans together, if they meet. -/
def hull (a b : Nat × Nat) : Nat × Nat := (min a.1 b.1, max a.2 b.2)

/-- What one step of merge does to the set of spans. -/
def SpanStep (S : Nat × Nat → Prop) (y : Nat × Nat) (S' : Nat × Nat → Prop) : Prop :=
  ((∀ z, S z → ¬ Meet z y) ∧ ∀ z, S' z ↔ z = y ∨ S z) ∨
  (∃ p, S p ∧ Meet p y ∧ (∀ q, S q → Meet q y → p.1 ≤ q.1) ∧
    ∀ z, S' z ↔ z = hull p y ∨ (S z ∧ z ≠ p ∧ z ≠ hull p y))

/-- Well-formed spans with different starts. -/
structure Starts (S : Nat × Nat → Prop) : Prop where
  wf : ∀ z, S z → z.1 ≤ z.2
  inj : ∀ z w, S z → S w → z.1 = w.1 → z = w

/-- No two different spans meet. -/
def Apart (S : Nat × Nat → Prop) : Prop := ∀ z w, S z → S w → z ≠ w → ¬ Meet z w

/-- A different span does not start where the new one does. -/
theorem hull_fresh {S : Nat × Nat → Prop} (hS : Starts S) {y p : Nat × Nat} (hy : y.1 ≤ y.2) (hp : S p) (_hm : Meet p y)
    (hfirst : ∀ q, S q → Meet q y → p.1 ≤ q.1) {z : Nat × Nat} (hz : S z) (hne : z ≠ p) : z.1 ≠ (hull p y).1 := by
  intro he
  have hzw := hS.wf z hz
  unfold hull at he
  simp only at he
  by_cases h : p.1 ≤ y.1
  · exact hne (hS.inj z p hz hp (by omega))
  · have : Meet z y := (meet_iff hzw hy).2 (by omega)
    have := hfirst z hz this
    omega

theorem hull_step {S S' : Nat × Nat → Prop} (hS : Starts S) {y p : Nat × Nat} (hy : y.1 ≤ y.2) (hp : S p) (hm : Meet p y)
    (hfirst : ∀ q, S q → Meet q y → p.1 ≤ q.1) (h : ∀ z, S' z ↔ z = hull p y ∨ (S z ∧ z ≠ p ∧ z ≠ hull p y)) (z : Nat × Nat) :
    S' z ↔ z = hull p y ∨ (S z ∧ z ≠ p) := by
  rw [h]
  constructor
  · rintro (h1 | ⟨h1, h2, _⟩)
    · exact .inl h1
    · exact .inr ⟨h1, h2⟩
  · rintro (h1 | ⟨h1, h2⟩)
    · exact .inl h1
    · exact .inr ⟨h1, h2, fun he => hull_fresh hS hy hp hm hfirst h1 h2 (by rw [he])⟩

theorem starts_step {S S' : Nat × Nat → Prop} {y : Nat × Nat} (hS : Starts S) (hy : y.1 ≤ y.2) (h : SpanStep S y S') : Starts S' := by
  rcases h with ⟨h1, h2⟩ | ⟨p, hp, hm, hfirst, h2⟩
  · refine ⟨fun z hz => ?_, fun z w hz hw he => ?_⟩
    · rcases (h2 z).1 hz with rfl | hz
      · exact hy
      · exact hS.wf z hz
    · have key : ∀ z, S z → z.1 ≠ y.1 := fun z hz he => h1 z hz ((meet_iff (hS.wf z hz) hy).2 (by have := hS.wf z hz; omega))
      rcases (h2 z).1 hz with rfl | hz <;> rcases (h2 w).1 hw with rfl | hw
      · rfl
      · exact absurd he.symm (key w hw)
      · exact absurd he (key z hz)
      · exact hS.inj z w hz hw he
  · have h3 := hull_step hS hy hp hm hfirst h2
    have hpw := hS.wf p hp
    refine ⟨fun z hz => ?_, fun z w hz hw he => ?_⟩
    · rcases (h3 z).1 hz with rfl | ⟨hz, -⟩
      · unfold hull; simp only; omega
      · exact hS.wf z hz
    · rcases (h3 z).1 hz with rfl | ⟨hz, hz'⟩ <;> rcases (h3 w).1 hw with rfl | ⟨hw, hw'⟩
      · rfl
      · exact absurd he.symm (hull_fresh hS hy hp hm hfirst hw hw')
      · exact absurd he (hull_fresh hS hy hp hm hfirst hz hz')
      · exact hS.inj z w hz hw he

theorem meet_hull_left {p y z : Nat × Nat} (h : Meet p z) : Meet (hull p y) z := by
  obtain ⟨t, h1, h2⟩ := h
  refine ⟨t, ?_, h2⟩
  unfold Covers hull at *
  simp only
  omega

theorem meet_hull_right {p y z : Nat × Nat} (h : Meet y z) : Meet (hull p y) z := by
  obtain ⟨t, h1, h2⟩ := h
  refine ⟨t, ?_, h2⟩
  unfold Covers hull at *
  simp only
  omega

/-- Spans that meet stay. -/
theorem apart_back {S S' : Nat × Nat → Prop} {y : Nat × Nat} (hS : Starts S) (hy : y.1 ≤ y.2) (h : SpanStep S y S')
    (ha : Apart S') : Apart S := by
  intro z w hz hw hne hmeet
  rcases h with ⟨h1, h2⟩ | ⟨p, hp, hm, hfirst, h2⟩
  · exact ha z w ((h2 z).2 (.inr hz)) ((h2 w).2 (.inr hw)) hne hmeet
  · have h3 := hull_step hS hy hp hm hfirst h2
    have h4 := fun {z : Nat × Nat} (hz : S z) (hne : z ≠ p) => hull_fresh hS hy hp hm hfirst hz hne
    by_cases hzp : z = p
    · subst hzp
      have hw' : w ≠ z := fun h => hne h.symm
      exact ha _ w ((h3 _).2 (.inl rfl)) ((h3 w).2 (.inr ⟨hw, hw'⟩)) (fun he => h4 hw hw' (by rw [← he])) (meet_hull_left hmeet)
    · by_cases hwp : w = p
      · subst hwp
        exact ha _ z ((h3 _).2 (.inl rfl)) ((h3 z).2 (.inr ⟨hz, hzp⟩)) (fun he => h4 hz hzp (by rw [← he]))
          (meet_hull_left hmeet.symm)
      · exact ha z w ((h3 z).2 (.inr ⟨hz, hzp⟩)) ((h3 w).2 (.inr ⟨hw, hwp⟩)) hne hmeet

/-- The spans are the groups of the list. -/
structure Groups (l : List (Nat × Nat)) (S : Nat × Nat → Prop) : Prop where
  starts : Starts S
  apart : Apart S
  inside : ∀ a ∈ l, ∃ z, S z ∧ SpanIn a z
  covered : ∀ z, S z → ∀ t, Covers z.1 z.2 t → ∃ a ∈ l, Covers a.1 a.2 t
  linked : ∀ z, S z → ∀ a ∈ l, ∀ b ∈ l, SpanIn a z → SpanIn b z → Linked l a b

theorem within_of_meet {l : List (Nat × Nat)} {S : Nat × Nat → Prop} (h : Groups l S)
    {a z : Nat × Nat} (ha : a ∈ l) (hz : S z) (hm : Meet a z) : SpanIn a z := by
  obtain ⟨w, hw, hin⟩ := h.inside a ha
  by_cases he : w = z
  · exact he ▸ hin
  · refine (h.apart w z hw hz he ?_).elim
    obtain ⟨t, h1, h2⟩ := hm
    refine ⟨t, ?_, h2⟩
    unfold SpanIn at hin
    unfold Covers at *
    omega

/-- A group that meets a span has a member that does. -/
theorem member_of_meet {l : List (Nat × Nat)} {S : Nat × Nat → Prop} (h : Groups l S) {y z : Nat × Nat}
    (hz : S z) (hm : Meet z y) : ∃ a ∈ l, SpanIn a z ∧ Meet a y := by
  obtain ⟨t, h1, h2⟩ := hm
  obtain ⟨a, ha, h3⟩ := h.covered z hz t h1
  exact ⟨a, ha, within_of_meet h ha hz ⟨t, h3, h1⟩, t, h3, h2⟩

theorem linked_same {l : List (Nat × Nat)} {S : Nat × Nat → Prop} (h : Groups l S) {a b z : Nat × Nat}
    (hz : S z) (ha : SpanIn a z) (hab : Linked l a b) : SpanIn b z := by
  induction hab with
  | here _ => exact ha
  | next h1 h2 h3 ih =>
    refine within_of_meet h h2 hz ?_
    obtain ⟨t, h4, h5⟩ := h3
    refine ⟨t, h5, ?_⟩
    unfold SpanIn at ih
    unfold Covers at *
    omega

theorem noBridge_snoc {l : List (Nat × Nat)} {y : Nat × Nat} : NoBridge (l ++ [y]) ↔
    NoBridge l ∧ ∀ a ∈ l, ∀ b ∈ l, Meet a y → Meet b y → Linked l a b := by
  constructor
  · intro h
    refine ⟨fun before x after he => h before x (after ++ [y]) (by rw [he]; simp), h l y [] rfl⟩
  · rintro ⟨h1, h2⟩ before x after he
    rcases List.eq_nil_or_concat after with rfl | ⟨r, u, rfl⟩
    · have := List.append_inj' he rfl
      obtain ⟨rfl, h3⟩ := this
      injection h3 with h3
      subst h3
      exact h2
    · have h3 : l ++ [y] = (before ++ x :: r) ++ [u] := by rw [he]; simp
      have := List.append_inj' h3 rfl
      exact h1 before x r this.1

theorem groups_step {l : List (Nat × Nat)} {y : Nat × Nat} (hl : ∀ a ∈ l, a.1 ≤ a.2) (hy : y.1 ≤ y.2) {S S' : Nat × Nat → Prop}
    (h : Groups l S) (hs : SpanStep S y S') (hb : ∀ a ∈ l, ∀ b ∈ l, Meet a y → Meet b y → Linked l a b) :
    Groups (l ++ [y]) S' := by
  have hst := starts_step h.starts hy hs
  have hmono : ∀ x ∈ l, x ∈ l ++ [y] := fun x hx => List.mem_append_left _ hx
  rcases hs with ⟨h1, h2⟩ | ⟨p, hp, hm, hfirst, h2⟩
  · refine ⟨hst, fun z w hz hw hne hmeet => ?_, fun a ha => ?_, fun z hz t ht => ?_, fun z hz a ha b hb' haz hbz => ?_⟩
    · rcases (h2 z).1 hz with rfl | hz <;> rcases (h2 w).1 hw with rfl | hw
      · exact hne rfl
      · exact h1 w hw hmeet.symm
      · exact h1 z hz hmeet
      · exact h.apart z w hz hw hne hmeet
    · rcases List.mem_append.1 ha with ha | ha
      · obtain ⟨z, hz, hin⟩ := h.inside a ha
        exact ⟨z, (h2 z).2 (.inr hz), hin⟩
      · rw [List.mem_singleton] at ha
        subst ha
        exact ⟨a, (h2 a).2 (.inl rfl), Nat.le_refl _, Nat.le_refl _⟩
    · rcases (h2 z).1 hz with rfl | hz
      · exact ⟨z, by simp, ht⟩
      · obtain ⟨a, ha, h3⟩ := h.covered z hz t ht
        exact ⟨a, hmono a ha, h3⟩
    · -- members of an old group, or of the new one
      have old : ∀ a ∈ l, ¬ SpanIn a y := by
        intro a ha hin
        obtain ⟨w, hw, hin'⟩ := h.inside a ha
        refine h1 w hw ⟨a.1, ?_, ?_⟩ <;> (have := hl a ha; unfold SpanIn at *; unfold Covers; omega)
      rcases (h2 z).1 hz with rfl | hz
      · have e : ∀ a ∈ l ++ [z], SpanIn a z → a = z := by
          intro a ha hin
          rcases List.mem_append.1 ha with ha | ha
          · exact absurd hin (old a ha)
          · simpa using ha
        rw [e a ha haz, e b hb' hbz]
        exact .here (by simp)
      · have e : ∀ a ∈ l ++ [y], SpanIn a z → a ∈ l := by
          intro a ha hin
          rcases List.mem_append.1 ha with ha | ha
          · exact ha
          · rw [List.mem_singleton] at ha
            subst ha
            refine (h1 z hz ⟨a.1, ?_, ?_⟩).elim <;> (unfold SpanIn at *; unfold Covers; omega)
        exact (h.linked z hz a (e a ha haz) b (e b hb' hbz) haz hbz).mono hmono
  · have h3 := hull_step h.starts hy hp hm hfirst h2
    have hpw := h.starts.wf p hp
    have hpy := (meet_iff hpw hy).1 hm
    -- the new span meets one group only
    have only : ∀ q, S q → Meet q y → q = p := by
      intro q hq hqm
      obtain ⟨a, ha, ha1, ha2⟩ := member_of_meet h hq hqm
      obtain ⟨b, hb', hb1, hb2⟩ := member_of_meet h hp hm
      have := linked_same h hq ha1 (hb a ha b hb' ha2 hb2)
      rcases Decidable.em (q = p) with he | he
      · exact he
      · refine (h.apart q p hq hp he ⟨b.1, ?_, ?_⟩).elim <;> (have := hl b hb'; unfold SpanIn at *; unfold Covers; omega)
    have apart' : ∀ z, S z → z ≠ p → ¬ Meet (hull p y) z := by
      intro z hz hne hmeet
      have h4 : ¬ Meet z p := h.apart z p hz hp hne
      have h5 : ¬ Meet z y := fun h' => hne (only z hz h')
      have hzw := h.starts.wf z hz
      rw [meet_iff hzw hpw] at h4
      rw [meet_iff hzw hy] at h5
      obtain ⟨t, h6, h7⟩ := hmeet
      unfold Covers hull at *
      simp only at h6
      omega
    refine ⟨hst, fun z w hz hw hne hmeet => ?_, fun a ha => ?_, fun z hz t ht => ?_, fun z hz a ha b hb' haz hbz => ?_⟩
    · rcases (h3 z).1 hz with rfl | ⟨hz, hz'⟩ <;> rcases (h3 w).1 hw with rfl | ⟨hw, hw'⟩
      · exact hne rfl
      · exact apart' w hw hw' hmeet
      · exact apart' z hz hz' hmeet.symm
      · exact h.apart z w hz hw hne hmeet
    · have key : ∀ x, SpanIn x p ∨ x = y → SpanIn x (hull p y) := by
        rintro x (hx | rfl) <;> (unfold SpanIn hull at *; simp only; omega)
      rcases List.mem_append.1 ha with ha | ha
      · obtain ⟨z, hz, hin⟩ := h.inside a ha
        by_cases he : z = p
        · exact ⟨_, (h3 _).2 (.inl rfl), key a (.inl (he ▸ hin))⟩
        · exact ⟨z, (h3 z).2 (.inr ⟨hz, he⟩), hin⟩
      · exact ⟨_, (h3 _).2 (.inl rfl), key a (.inr (by simpa using ha))⟩
    · rcases (h3 z).1 hz with rfl | ⟨hz, -⟩
      · have : Covers p.1 p.2 t ∨ Covers y.1 y.2 t := by
          unfold Covers hull at *; simp only at ht; omega
        rcases this with h4 | h4
        · obtain ⟨a, ha, h5⟩ := h.covered p hp t h4
          exact ⟨a, hmono a ha, h5⟩
        · exact ⟨y, by simp, h4⟩
      · obtain ⟨a, ha, h4⟩ := h.covered z hz t ht
        exact ⟨a, hmono a ha, h4⟩
    · rcases (h3 z).1 hz with rfl | ⟨hz, hz'⟩
      · -- everything in the hull is linked to a member of `p` that meets `y`
        obtain ⟨c, hc, hc1, hc2⟩ := member_of_meet h hp hm
        have key : ∀ a ∈ l ++ [y], SpanIn a (hull p y) → Linked (l ++ [y]) a c := by
          intro a ha hin
          rcases List.mem_append.1 ha with ha | ha
          · obtain ⟨w, hw, hin'⟩ := h.inside a ha
            have haw := hl a ha
            by_cases he : w = p
            · exact (h.linked p hp a ha c hc (he ▸ hin') hc1).mono hmono
            · refine (apart' w hw he ⟨a.1, ?_, ?_⟩).elim <;> (unfold SpanIn at *; unfold Covers; omega)
          · rw [List.mem_singleton] at ha
            subst ha
            exact .next (.here (by simp)) (hmono c hc) hc2.symm
        exact (key a ha haz).trans (key b hb' hbz).symm
      · have e : ∀ a ∈ l ++ [y], SpanIn a z → a ∈ l := by
          intro a ha hin
          rcases List.mem_append.1 ha with ha | ha
          · exact ha
          · rw [List.mem_singleton] at ha
            subst ha
            refine (hz' (only z hz ⟨a.1, ?_, ?_⟩)).elim <;> (unfold SpanIn at *; unfold Covers; omega)
        exact (h.linked z hz a (e a ha haz) b (e b hb' hbz) haz hbz).mono hmono

/-- A bridge leaves two spans that meet. -/
theorem bridge_step {l : List (Nat × Nat)} {y : Nat × Nat} (hy : y.1 ≤ y.2) {S S' : Nat × Nat → Prop}
    (h : Groups l S) (hs : SpanStep S y S') (ha : Apart S') : ∀ a ∈ l, ∀ b ∈ l, Meet a y → Meet b y → Linked l a b := by
  intro a hal b hbl hay hby
  obtain ⟨z, hz, haz⟩ := h.inside a hal
  obtain ⟨w, hw, hbw⟩ := h.inside b hbl
  by_cases he : z = w
  · exact h.linked z hz a hal b hbl haz (he ▸ hbw)
  · exfalso
    have up : ∀ {a z : Nat × Nat}, SpanIn a z → Meet a y → Meet z y := by
      rintro a z hin ⟨t, h1, h2⟩
      exact ⟨t, by unfold SpanIn at hin; unfold Covers at *; omega, h2⟩
    have hzy := up haz hay
    have hwy := up hbw hby
    rcases hs with ⟨h1, h2⟩ | ⟨p, hp, hm, hfirst, h2⟩
    · exact h1 z hz hzy
    · have h3 := hull_step h.starts hy hp hm hfirst h2
      have h4 := fun {z : Nat × Nat} (hz : S z) (hne : z ≠ p) => hull_fresh h.starts hy hp hm hfirst hz hne
      have key : ∀ z, S z → z ≠ p → ¬ Meet z y := by
        intro z hz hne hzy
        exact ha _ z ((h3 _).2 (.inl rfl)) ((h3 z).2 (.inr ⟨hz, hne⟩)) (fun he => h4 hz hne (by rw [← he]))
          (meet_hull_right hzy.symm)
      by_cases hzp : z = p
      · exact key w hw (fun h => he (hzp.trans h.symm)) hwy
      · exact key z hz hzp hzy

/-- The entry picked is the first in key order that can be merged. -/
theorem mergePick_first {m : OrdMap (UInt32 × UInt32) (StorageEntry × StorageEntry)} (hs : m.Sorted)
    {y p v : StorageEntry × StorageEntry} (h : mergePick mergeOverlapping y m = some (p, v)) :
    ∃ k, (k, p) ∈ m ∧ ∀ x ∈ m, mergeOverlapping x.2 y ≠ none → x.1 = k ∨ Key.lt k x.1 := by
  induction m with
  | nil => simp [mergePick] at h
  | cons x m ih =>
    obtain ⟨k, q⟩ := x
    have hs' : List.Pairwise (fun a b : (UInt32 × UInt32) × (StorageEntry × StorageEntry) => Key.lt a.1 b.1) ((k, q) :: m) := hs
    rw [List.pairwise_cons] at hs'
    simp only [mergePick] at h
    cases hf : mergeOverlapping q y with
    | none =>
      rw [hf] at h
      obtain ⟨k', h1, h2⟩ := ih hs'.2 h
      refine ⟨k', List.mem_cons_of_mem _ h1, fun x hx hne => ?_⟩
      rcases List.mem_cons.1 hx with rfl | hx
      · exact absurd hf hne
      · exact h2 x hx hne
    | some w =>
      rw [hf] at h
      simp only [Option.some.injEq, Prod.mk.injEq] at h
      obtain ⟨rfl, rfl⟩ := h
      refine ⟨k, List.mem_cons_self, fun x hx _ => ?_⟩
      rcases List.mem_cons.1 hx with rfl | hx
      · exact .inl rfl
      · exact .inr (hs'.1 x hx)

/-- The spans in the map. -/
def spansOfMap (m : OrdMap (UInt32 × UInt32) (StorageEntry × StorageEntry)) (z : Nat × Nat) : Prop := ∃ x ∈ m, secsPair x.2 = z

theorem meet_secs {a b : StorageEntry × StorageEntry} (ha : fstSec a ≤ sndSec a) (hb : fstSec b ≤ sndSec b) :
    Meet (secsPair a) (secsPair b) ↔ mergeOverlapping a b ≠ none := by
  rw [Ne, (mergeOverlapping_spec a b).2, meet_iff ha hb]
  unfold secsPair
  simp only
  omega

theorem key_secs (a b : StorageEntry × StorageEntry) : spanKey a = spanKey b ↔ secsPair a = secsPair b := by
  unfold spanKey secsPair fstSec sndSec StorageEntry.secs
  rw [Prod.mk.injEq, Prod.mk.injEq, UInt32.toNat_inj, UInt32.toNat_inj]

theorem spanStep_model {m : OrdMap (UInt32 × UInt32) (StorageEntry × StorageEntry)} (hi : MergeInv spanKey m)
    (hw : ∀ x ∈ m, fstSec x.2 ≤ sndSec x.2) {y : StorageEntry × StorageEntry} (hy : fstSec y ≤ sndSec y) :
    SpanStep (spansOfMap m) (secsPair y) (spansOfMap (mergeStep mergeOverlapping spanKey m y)) := by
  have hm := fun w => mem_mergeStep mergeOverlapping spanKey hi y w
  have e : ∀ (m : OrdMap (UInt32 × UInt32) (StorageEntry × StorageEntry)) z, spansOfMap m z ↔ ∃ w, (∃ k, (k, w) ∈ m) ∧ secsPair w = z := by
    intro m z
    constructor
    · rintro ⟨x, h1, h2⟩; exact ⟨x.2, ⟨x.1, h1⟩, h2⟩
    · rintro ⟨w, ⟨k, h1⟩, h2⟩; exact ⟨(k, w), h1, h2⟩
  cases hp : mergePick mergeOverlapping y m with
  | none =>
    simp only [hp] at hm
    have hnone := mergePick_none mergeOverlapping hp
    have hno : ∀ z, spansOfMap m z → ¬ Meet z (secsPair y) := by
      rintro z ⟨x, hx, rfl⟩ h
      exact (meet_secs (hw x hx) hy).1 h (hnone x hx)
    refine .inl ⟨hno, fun z => ?_⟩
    rw [e, e]
    simp only [hm]
    constructor
    · rintro ⟨w, rfl | ⟨h1, -⟩, h2⟩
      · exact .inl h2.symm
      · exact .inr ⟨w, h1, h2⟩
    · rintro (rfl | ⟨w, h1, h2⟩)
      · exact ⟨y, .inl rfl, rfl⟩
      · refine ⟨w, .inr ⟨h1, fun hk => ?_⟩, h2⟩
        rw [key_secs] at hk
        obtain ⟨k, h1⟩ := h1
        refine hno (secsPair w) ⟨_, h1, rfl⟩ ?_
        rw [hk]
        exact ⟨fstSec y, ⟨Nat.le_refl _, hy⟩, Nat.le_refl _, hy⟩
  | some pv =>
    obtain ⟨p, v⟩ := pv
    simp only [hp] at hm
    obtain ⟨hf, _⟩ := mergePick_some mergeOverlapping hp
    obtain ⟨k, hpm, hfirst⟩ := mergePick_first hi.sorted hp
    have hpw : fstSec p ≤ sndSec p := hw _ hpm
    have hv : secsPair v = hull (secsPair p) (secsPair y) := by
      have := (mergeOverlapping_spec p y).1 v hf
      unfold secsPair hull
      simp only [Prod.mk.injEq]
      omega
    refine .inr ⟨secsPair p, ⟨_, hpm, rfl⟩, (meet_secs hpw hy).2 (by rw [hf]; simp), ?_, fun z => ?_⟩
    · rintro q ⟨x, hx, rfl⟩ hq
      have hkx := hi.keyed x hx
      have hkp := hi.keyed _ hpm
      simp only at hkp
      rcases hfirst x hx ((meet_secs (hw x hx) hy).1 hq) with h1 | h1
      · have : spanKey x.2 = spanKey p := by rw [← hkx, h1, hkp]
        rw [key_secs] at this
        rw [this]
        exact Nat.le_refl _
      · rw [hkx, hkp] at h1
        rcases h1 with h1 | ⟨h1, -⟩
        · exact Nat.le_of_lt h1
        · exact Nat.le_of_eq (congrArg UInt32.toNat h1)
    · rw [e, e, ← hv]
      simp only [hm]
      constructor
      · rintro ⟨w, rfl | ⟨h1, h2, h3⟩, h4⟩
        · exact .inl h4.symm
        · rw [Ne, key_secs] at h2 h3
          exact .inr ⟨⟨w, h1, h4⟩, h4 ▸ h2, h4 ▸ h3⟩
      · rintro (rfl | ⟨⟨w, h1, rfl⟩, h2, h3⟩)
        · exact ⟨v, .inl rfl, rfl⟩
        · exact ⟨w, .inr ⟨h1, fun hk => h2 ((key_secs _ _).1 hk), fun hk => h3 ((key_secs _ _).1 hk)⟩, rfl⟩

theorem groups_nil : Groups [] (spansOfMap []) := by
  refine ⟨⟨?_, ?_⟩, ?_, ?_, ?_, ?_⟩
  · rintro z ⟨x, hx, -⟩; cases hx
  · rintro z w ⟨x, hx, -⟩; cases hx
  · rintro z w ⟨x, hx, -⟩; cases hx
  · intro a ha; cases ha
  · rintro z ⟨x, hx, -⟩; cases hx
  · rintro z ⟨x, hx, -⟩; cases hx

theorem noBridge_nil : NoBridge [] := by
  intro before y after h
  cases before <;> cases h

/-- The map after any list of well-formed spans. -/
theorem groups_foldl (ys : List (StorageEntry × StorageEntry)) (hw : ∀ y ∈ ys, fstSec y ≤ sndSec y) :
    Starts (spansOfMap (ys.foldl (mergeStep mergeOverlapping spanKey) [])) ∧
    (Apart (spansOfMap (ys.foldl (mergeStep mergeOverlapping spanKey) [])) ↔ NoBridge (ys.map secsPair)) ∧
    (NoBridge (ys.map secsPair) → Groups (ys.map secsPair) (spansOfMap (ys.foldl (mergeStep mergeOverlapping spanKey) []))) := by
  generalize hn : ys.length = n
  induction n generalizing ys with
  | zero =>
    obtain rfl := List.length_eq_zero_iff.1 hn
    exact ⟨groups_nil.starts, ⟨fun _ => noBridge_nil, fun _ => groups_nil.apart⟩, fun _ => groups_nil⟩
  | succ n ih =>
    rcases List.eq_nil_or_concat ys with rfl | ⟨l, y, rfl⟩
    · simp at hn
    · have hwl : ∀ y ∈ l, fstSec y ≤ sndSec y := fun x hx => hw x (by simp [hx])
      have hy : fstSec y ≤ sndSec y := hw y (by simp)
      obtain ⟨i1, i2, i3⟩ := ih l hwl (by simpa using hn)
      rw [List.concat_eq_append] at *
      rw [List.foldl_append, List.map_append]
      simp only [List.foldl_cons, List.foldl_nil, List.map_cons, List.map_nil]
      have hi := mergeInv_foldl mergeOverlapping spanKey (mergeInv_nil spanKey) l
      have hwm : ∀ x ∈ l.foldl (mergeStep mergeOverlapping spanKey) [], fstSec x.2 ≤ sndSec x.2 := fun x hx =>
        i1.wf (secsPair x.2) ⟨x, hx, rfl⟩
      have hs := spanStep_model hi hwm hy
      have hl : ∀ a ∈ l.map secsPair, a.1 ≤ a.2 := by
        intro a ha
        obtain ⟨x, hx, rfl⟩ := List.mem_map.1 ha
        exact hwl x hx
      rw [noBridge_snoc]
      refine ⟨starts_step i1 hy hs, ⟨fun ha => ?_, ?_⟩, ?_⟩
      · have hb := i2.1 (apart_back i1 hy hs ha)
        exact ⟨hb, bridge_step hy (i3 hb) hs ha⟩
      · rintro ⟨h1, h2⟩; exact (groups_step hl hy (i3 h1) hs h2).apart
      · rintro ⟨h1, h2⟩; exact groups_step hl hy (i3 h1) hs h2

/-- The list of the spans in the map. -/
theorem absorbed_foldl (ys : List (StorageEntry × StorageEntry)) (hw : ∀ y ∈ ys, fstSec y ≤ sndSec y) :
    Absorbed (ys.map secsPair) ((ys.foldl (mergeStep mergeOverlapping spanKey) []).map fun x => secsPair x.2) := by
  generalize hn : ys.length = n
  induction n generalizing ys with
  | zero =>
    obtain rfl := List.length_eq_zero_iff.1 hn
    exact .nil
  | succ n ih =>
    rcases List.eq_nil_or_concat ys with rfl | ⟨l, y, rfl⟩
    · simp at hn
    · have hwl : ∀ y ∈ l, fstSec y ≤ sndSec y := fun x hx => hw x (by simp [hx])
      have hy : fstSec y ≤ sndSec y := hw y (by simp)
      have h1 := ih l hwl (by simpa using hn)
      have hst := (groups_foldl (l.concat y) hw).1
      have hi' := mergeInv_foldl mergeOverlapping spanKey (mergeInv_nil spanKey) (l.concat y)
      rw [List.concat_eq_append] at *
      rw [List.foldl_append, List.map_append]
      rw [List.foldl_append] at hst hi'
      simp only [List.foldl_cons, List.foldl_nil, List.map_cons, List.map_nil] at hst hi' ⊢
      have i1 := (groups_foldl l hwl).1
      have hi := mergeInv_foldl mergeOverlapping spanKey (mergeInv_nil spanKey) l
      have hwm : ∀ x ∈ l.foldl (mergeStep mergeOverlapping spanKey) [], fstSec x.2 ≤ sndSec x.2 := fun x hx =>
        i1.wf (secsPair x.2) ⟨x, hx, rfl⟩
      have hs := spanStep_model hi hwm hy
      have e : ∀ (m : OrdMap (UInt32 × UInt32) (StorageEntry × StorageEntry)) z,
          z ∈ m.map (fun x => secsPair x.2) ↔ spansOfMap m z := fun m z => by
        rw [List.mem_map]; rfl
      refine .snoc h1 ?_ ?_
      · rcases hs with ⟨h2, h3⟩ | ⟨p, hp, hm, hfirst, h3⟩
        · refine .inl ⟨fun z hz => h2 z ((e _ _).1 hz), fun z => ?_⟩
          rw [e, e, h3]
        · refine .inr ⟨p, (e _ _).2 hp, hm, fun q hq => hfirst q ((e _ _).1 hq), fun z => ?_⟩
          rw [e, e, hull_step i1 hy hp hm hfirst h3]
          rfl
      · rw [List.pairwise_map]
        have hsort : List.Pairwise (fun a b : (UInt32 × UInt32) × (StorageEntry × StorageEntry) => Key.lt a.1 b.1)
          (mergeStep mergeOverlapping spanKey (l.foldl (mergeStep mergeOverlapping spanKey) []) y) := hi'.sorted
        refine hsort.imp_of_mem ?_
        intro a b ha hb hab
        have hne : (secsPair a.2).1 ≠ (secsPair b.2).1 := fun he => by
          have := hst.inj (secsPair a.2) (secsPair b.2) ⟨a, ha, rfl⟩ ⟨b, hb, rfl⟩ he
          rw [← key_secs, ← hi'.keyed a ha, ← hi'.keyed b hb] at this
          rw [this] at hab
          exact Key.irrefl _ hab
        rw [hi'.keyed a ha, hi'.keyed b hb] at hab
        have hle : (secsPair a.2).1 ≤ (secsPair b.2).1 := by
          rcases hab with h | ⟨h, -⟩
          · exact Nat.le_of_lt (UInt32.lt_iff_toNat_lt.1 h)
          · exact Nat.le_of_eq (congrArg UInt32.toNat h)
        omega

end Verif
