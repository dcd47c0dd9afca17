import Verif.Lemmas.Iter
import Verif.Spec.File

/-! # Consequences of the scan and greedy relations -/

set_option linter.unusedSimpArgs false

namespace Verif
open Spec

section
variable {T : Type} {S : SearchableMarker T}

theorem endOf_append {len : T → Nat} {s : Nat} {xs ys : List (Nat × T)} :
    endOf len s (xs ++ ys) = endOf len (endOf len s xs) ys := by
  induction xs generalizing s with
  | nil => rfl
  | cons x xs ih => exact ih

theorem Spec.Scan.readable {bytes : Bytes} {s : Nat} {items : List (Nat × T)}
    (h : Scan S bytes s items) : ∀ x ∈ items, ReadableAt S bytes x.1 x.2 := by
  induction h with
  | done => simp
  | bad => simp
  | msg s i v rest hf hr _ ih =>
    intro x hx
    rcases List.mem_cons.1 hx with rfl | hx
    · exact hr
    · exact ih x hx

theorem Spec.Scan.gaps {bytes : Bytes} {s : Nat} {items : List (Nat × T)} (h : Scan S bytes s items) :
    ∀ pre i v post, items = pre ++ (i, v) :: post → FirstMarker S bytes (endOf S.len s pre) i := by
  induction h with
  | done => intro pre i v post h; simp at h
  | bad => intro pre i v post h; simp at h
  | msg s i v rest hf hr _ ih =>
    intro pre j w post hx
    cases pre with
    | nil =>
      simp only [List.nil_append, List.cons.injEq, Prod.mk.injEq] at hx
      obtain ⟨⟨rfl, rfl⟩, rfl⟩ := hx
      exact hf
    | cons p pre =>
      simp only [List.cons_append, List.cons.injEq] at hx
      obtain ⟨rfl, rfl⟩ := hx
      exact ih pre j w post rfl

theorem Spec.Greedy.readable {bytes : Bytes} {s : Nat} {items : List (Nat × T)}
    (h : Greedy S bytes s items) : ∀ x ∈ items, ReadableAt S bytes x.1 x.2 ∧ s ≤ x.1 := by
  induction h with
  | done => simp
  | msg s i v rest hle hr _ _ ih =>
    intro x hx
    rcases List.mem_cons.1 hx with rfl | hx
    · exact ⟨hr, hle⟩
    · have := ih x hx
      exact ⟨this.1, by omega⟩

theorem Spec.Greedy.disjoint {bytes : Bytes} {s : Nat} {items : List (Nat × T)}
    (h : Greedy S bytes s items) : items.Pairwise fun a b => a.1 + S.len a.2 ≤ b.1 := by
  induction h with
  | done => exact List.Pairwise.nil
  | msg s i v rest _ _ _ hg ih =>
    rw [List.pairwise_cons]
    exact ⟨fun x hx => (hg.readable x hx).2, ih⟩

/-- Every readable message from the start on is yielded or starts inside a yielded one. -/
theorem Spec.Greedy.covers (L : Lawful S) {bytes : Bytes} {s : Nat} {items : List (Nat × T)}
    (h : Greedy S bytes s items) : ∀ j w, s ≤ j → ReadableAt S bytes j w →
      (j, w) ∈ items ∨ ∃ x ∈ items, x.1 < j ∧ j < x.1 + S.len x.2 := by
  induction h with
  | done s hno => intro j w hj hr; exact absurd hr (hno j w hj)
  | msg s i v rest hle hr hbef _ ih =>
    intro j w hj hw
    rcases Nat.lt_trichotomy j i with h | h | h
    · exact absurd hw (hbef j w hj h)
    · subst h
      left; rw [hw.unique L hr]; exact List.mem_cons_self
    · by_cases hin : j < i + S.len v
      · right; exact ⟨(i, v), List.mem_cons_self, h, hin⟩
      · rcases ih j w (by omega) hw with h | ⟨x, hx, h⟩
        · left; exact List.mem_cons_of_mem _ h
        · right; exact ⟨x, List.mem_cons_of_mem _ hx, h⟩

theorem Spec.Scan.disjoint {bytes : Bytes} {s : Nat} {items : List (Nat × T)}
    (h : Scan S bytes s items) : (items.Pairwise fun a b => a.1 + S.len a.2 ≤ b.1) ∧ ∀ x ∈ items, s ≤ x.1 := by
  induction h with
  | done => exact ⟨List.Pairwise.nil, by simp⟩
  | bad => exact ⟨List.Pairwise.nil, by simp⟩
  | msg s i v rest hf hr _ ih =>
    have := hf.1
    refine ⟨List.pairwise_cons.2 ⟨ih.2, ih.1⟩, ?_⟩
    intro x hx
    rcases List.mem_cons.1 hx with rfl | hx
    · exact hf.1
    · have := ih.2 x hx; omega

/-- The scan is a prefix of the greedy sequence. -/
theorem Spec.Scan.prefix_greedy (L : Lawful S) {bytes : Bytes} {s : Nat} {xs ys : List (Nat × T)}
    (h : Scan S bytes s xs) (hg : Greedy S bytes s ys) : xs <+: ys := by
  induction h generalizing ys with
  | done => exact List.nil_prefix
  | bad => exact List.nil_prefix
  | msg s i v rest hf hr _ ih =>
    cases hg with
    | done _ hno => exact absurd hr (hno i v hf.1)
    | msg _ j w rest' hle' hr' hbef' h =>
      have : i = j := by
        apply Nat.le_antisymm
        · apply Nat.le_of_not_lt; intro hlt; exact hf.2.2 j hle' hlt (hr'.marker L)
        · apply Nat.le_of_not_lt; intro hlt; exact hbef' i v hf.1 hlt hr
      subst this
      have := hr.unique L hr'; subst this
      obtain ⟨t, rfl⟩ := ih h
      exact ⟨t, rfl⟩

/-- The total size of the yielded messages fits into the rest of the file. -/
theorem disjoint_sum {len : T → Nat} {n : Nat} : ∀ {items : List (Nat × T)} {s : Nat},
    (∀ x ∈ items, s ≤ x.1 ∧ x.1 + len x.2 ≤ n) →
    (items.Pairwise fun a b => a.1 + len a.2 ≤ b.1) → s ≤ n → s + (items.map fun x => len x.2).sum ≤ n := by
  intro items
  induction items with
  | nil => intro s _ _ h; simpa
  | cons x xs ih =>
    intro s h1 h2 h3
    rw [List.pairwise_cons] at h2
    have hx := h1 x List.mem_cons_self
    have := ih (s := x.1 + len x.2)
      (fun y hy => ⟨h2.1 y hy, (h1 y (List.mem_cons_of_mem _ hy)).2⟩) h2.2 hx.2
    simp only [List.map_cons, List.sum_cons]; omega

theorem length_mul_le_sum {len : T → Nat} {k : Nat} : ∀ {items : List (Nat × T)},
    (∀ x ∈ items, k ≤ len x.2) → k * items.length ≤ (items.map fun x => len x.2).sum := by
  intro items
  induction items with
  | nil => intro _; simp
  | cons x xs ih =>
    intro h
    have h1 := h x List.mem_cons_self
    have h2 := ih fun y hy => h y (List.mem_cons_of_mem _ hy)
    simp only [List.length_cons, List.map_cons, List.sum_cons, Nat.mul_add, Nat.mul_one]; omega

/-! ## Moving and extending files -/

theorem drop_append_shift (a b : Bytes) (j : Nat) : (a ++ b).drop (a.length + j) = b.drop j := by
  rw [List.drop_append]; simp

theorem markerAt_shift {a b : Bytes} {j : Nat} : MarkerAt S (a ++ b) (a.length + j) ↔ MarkerAt S b j := by
  unfold MarkerAt; rw [drop_append_shift]

theorem readableAt_shift {a b : Bytes} {j : Nat} {v : T} :
    ReadableAt S (a ++ b) (a.length + j) v ↔ ReadableAt S b j v := by
  unfold ReadableAt; rw [drop_append_shift]

theorem firstMarker_shift {a b : Bytes} {s i : Nat} :
    FirstMarker S (a ++ b) (a.length + s) (a.length + i) ↔ FirstMarker S b s i := by
  unfold FirstMarker
  rw [markerAt_shift]
  constructor
  · rintro ⟨h1, h2, h3⟩
    exact ⟨by omega, h2, fun j hj1 hj2 hm => h3 (a.length + j) (by omega) (by omega) (markerAt_shift.2 hm)⟩
  · rintro ⟨h1, h2, h3⟩
    refine ⟨by omega, h2, fun j hj1 hj2 hm => ?_⟩
    obtain ⟨k, rfl⟩ : ∃ k, j = a.length + k := ⟨j - a.length, by omega⟩
    exact h3 k (by omega) (by omega) (markerAt_shift.1 hm)

theorem Spec.Scan.shift {a b : Bytes} {s : Nat} {ys : List (Nat × T)} (h : Scan S b s ys) :
    Scan S (a ++ b) (a.length + s) (Spec.shift a.length ys) := by
  induction h with
  | done s hno =>
    refine Scan.done _ fun j hj hm => ?_
    obtain ⟨k, rfl⟩ : ∃ k, j = a.length + k := ⟨j - a.length, by omega⟩
    exact hno k (by omega) (markerAt_shift.1 hm)
  | bad s i hf hno =>
    exact Scan.bad _ (a.length + i) (firstMarker_shift.2 hf) fun v hv => hno v (readableAt_shift.1 hv)
  | msg s i v rest hf hr _ ih =>
    rw [← Nat.add_assoc] at ih
    exact Scan.msg _ (a.length + i) v _ (firstMarker_shift.2 hf) (readableAt_shift.2 hr) ih

theorem Spec.Greedy.shift {a b : Bytes} {s : Nat} {ys : List (Nat × T)} (h : Greedy S b s ys) :
    Greedy S (a ++ b) (a.length + s) (Spec.shift a.length ys) := by
  induction h with
  | done s hno =>
    refine Greedy.done _ fun j v hj hm => ?_
    obtain ⟨k, rfl⟩ : ∃ k, j = a.length + k := ⟨j - a.length, by omega⟩
    exact hno k v (by omega) (readableAt_shift.1 hm)
  | msg s i v rest hle hr hbef _ ih =>
    rw [← Nat.add_assoc] at ih
    refine Greedy.msg _ (a.length + i) v _ (by omega) (readableAt_shift.2 hr) ?_ ih
    intro j w hj1 hj2 hm
    obtain ⟨k, rfl⟩ : ∃ k, j = a.length + k := ⟨j - a.length, by omega⟩
    exact hbef k w (by omega) (by omega) (readableAt_shift.1 hm)

theorem MarkerAt_append_left {a b : Bytes} {j : Nat} (h : MarkerAt S a j) : MarkerAt S (a ++ b) j := by
  have := h.lt
  have hp := S.marker_pos
  unfold MarkerAt
  rw [List.drop_append_of_le_length (by omega)]
  exact h.trans (List.prefix_append _ _)

theorem MarkerAt_of_append {a b : Bytes} {j : Nat} (h : MarkerAt S (a ++ b) j)
    (hj : j + S.marker.length ≤ a.length) : MarkerAt S a j := by
  unfold MarkerAt at h ⊢
  rw [List.drop_append_of_le_length (by omega)] at h
  exact List.prefix_of_prefix_length_le h (List.prefix_append _ _) (by rw [List.length_drop]; omega)

theorem ReadableAt_append_left (L : Lawful S) {a b : Bytes} {j : Nat} {v : T} (h : ReadableAt S a j v) :
    ReadableAt S (a ++ b) j v := by
  have hb := h.bounds L
  obtain ⟨hm, hr⟩ := (readableAt_iff L).1 h
  refine (readableAt_iff L).2 ⟨MarkerAt_append_left hm, ?_⟩
  refine L.prefix_only _ _ _ _ hr ?_
  rw [List.drop_append_of_le_length (by omega), List.take_append_of_le_length (by rw [List.length_drop]; omega)]

/-- A message that ends inside the first part is readable there. -/
theorem ReadableAt_of_append (L : Lawful S) {a b : Bytes} {j : Nat} {v : T} (h : ReadableAt S (a ++ b) j v)
    (hl : j + S.len v ≤ a.length) : ReadableAt S a j v := by
  have hb := h.bounds L
  obtain ⟨hm, hr⟩ := (readableAt_iff L).1 h
  refine (readableAt_iff L).2 ⟨MarkerAt_of_append hm (by omega), ?_⟩
  refine L.prefix_only _ _ _ _ hr ?_
  rw [List.drop_append_of_le_length (by omega), List.take_append_of_le_length (by rw [List.length_drop]; omega)]

theorem Spec.Scan.append (L : Lawful S) {a b : Bytes} {s : Nat} {xs ys : List (Nat × T)}
    (h : Scan S a s xs) (hend : endOf S.len s xs = a.length) (hb : Scan S b 0 ys) :
    Scan S (a ++ b) s (xs ++ Spec.shift a.length ys) := by
  have hb' := hb.shift (a := a)
  rw [Nat.add_zero] at hb'
  induction h with
  | done s hno => simp only [endOf] at hend; subst hend; exact hb'
  | bad s i hf hno => simp only [endOf] at hend; subst hend; exact hb'
  | msg s i v rest hf hr _ ih =>
    refine Scan.msg _ i v _ ⟨hf.1, MarkerAt_append_left hf.2.1, fun j h1 h2 hm => ?_⟩
      (ReadableAt_append_left L hr) (ih hend)
    have := L.apart hm (MarkerAt_append_left hf.2.1) h2
    have := hf.2.1.lt
    exact hf.2.2 j h1 h2 (MarkerAt_of_append hm (by omega))

end

end Verif
