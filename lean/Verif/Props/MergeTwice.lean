import Verif.Props.MergeExact

/-!
# C129: merging twice

One `merge` can leave spans that still overlap, depending on the order in which they arrive (C41). A second `merge` behind
it settles the matter: its result has no two overlapping spans, does not depend on the order, and a third one changes nothing.
-/

set_option linter.unusedSimpArgs false

namespace Verif

open Spec

/-- Disjoint spans in order are determined by the seconds they cover and the steps from a second to the next they cover. -/
theorem spans_unique : ∀ {l l' : List (Nat × Nat)}, (∀ z ∈ l, z.1 ≤ z.2) → (∀ z ∈ l', z.1 ≤ z.2) →
    l.Pairwise (fun a b => a.2 < b.1) → l'.Pairwise (fun a b => a.2 < b.1) →
    (∀ t, (∃ z ∈ l, z.1 ≤ t ∧ t ≤ z.2) ↔ ∃ z ∈ l', z.1 ≤ t ∧ t ≤ z.2) →
    (∀ t, (∃ z ∈ l, z.1 ≤ t ∧ t + 1 ≤ z.2) ↔ ∃ z ∈ l', z.1 ≤ t ∧ t + 1 ≤ z.2) → l = l'
  | [], [], _, _, _, _, _, _ => rfl
  | [], z :: l', _, hw', _, _, hc, _ => by
    obtain ⟨w, hw, -⟩ := (hc z.1).2 ⟨z, by simp, Nat.le_refl _, hw' z (by simp)⟩
    cases hw
  | z :: l, [], hw, _, _, _, hc, _ => by
    obtain ⟨w, hw, -⟩ := (hc z.1).1 ⟨z, by simp, Nat.le_refl _, hw z (by simp)⟩
    cases hw
  | z :: l, z' :: l', hw, hw', hp, hp', hc, hs => by
    have hz := hw z (by simp)
    have hz' := hw' z' (by simp)
    have hl : ∀ w ∈ l, z.2 < w.1 := (List.pairwise_cons.1 hp).1
    have hl' : ∀ w ∈ l', z'.2 < w.1 := (List.pairwise_cons.1 hp').1
    have first : ∀ {x y : Nat × Nat} {k : List (Nat × Nat)}, (∀ w ∈ k, y.2 < w.1) → y.1 ≤ y.2 →
        (∃ w ∈ y :: k, w.1 ≤ x.1 ∧ x.1 ≤ w.2) → y.1 ≤ x.1 := fun hk hy h => by
      obtain ⟨w, hw, h1, -⟩ := h
      rcases List.mem_cons.1 hw with rfl | hw
      · exact h1
      · have := hk w hw; omega
    have h1 : z.1 = z'.1 := Nat.le_antisymm (first hl hz ((hc z'.1).2 ⟨z', by simp, Nat.le_refl _, hz'⟩))
      (first hl' hz' ((hc z.1).1 ⟨z, by simp, Nat.le_refl _, hz⟩))
    have last : ∀ {x y : Nat × Nat} {k : List (Nat × Nat)}, (∀ w ∈ k, y.2 < w.1) → x.2 > y.2 →
        ¬ (∃ w ∈ y :: k, w.1 ≤ y.2 ∧ y.2 + 1 ≤ w.2) := fun hk hy h => by
      obtain ⟨w, hw, h1, h2⟩ := h
      rcases List.mem_cons.1 hw with rfl | hw
      · omega
      · have := hk w hw; omega
    have h2 : z.2 = z'.2 := by
      rcases Nat.lt_trichotomy z.2 z'.2 with h | h | h
      · exact absurd ((hs z.2).2 ⟨z', by simp, by omega, by omega⟩) (last (x := z') hl h)
      · exact h
      · exact absurd ((hs z'.2).1 ⟨z, by simp, by omega, by omega⟩) (last (x := z) hl' h)
    have hzz : z = z' := Prod.ext h1 h2
    subst hzz
    have rest : ∀ {k k' : List (Nat × Nat)} {t u : Nat}, t ≤ u → (∀ w ∈ k, z.2 < w.1) → (∀ w ∈ k', z.2 < w.1) →
        ((∃ w ∈ z :: k, w.1 ≤ t ∧ u ≤ w.2) → ∃ w ∈ z :: k', w.1 ≤ t ∧ u ≤ w.2) →
        (∃ w ∈ k, w.1 ≤ t ∧ u ≤ w.2) → ∃ w ∈ k', w.1 ≤ t ∧ u ≤ w.2 := fun htu hk hk' hi h => by
      obtain ⟨w, hw, h1, h2⟩ := h
      have h3 := hk w hw
      obtain ⟨w', hw', h4, h5⟩ := hi ⟨w, List.mem_cons_of_mem _ hw, h1, h2⟩
      rcases List.mem_cons.1 hw' with rfl | hw'
      · omega
      · exact ⟨w', hw', h4, h5⟩
    rw [spans_unique (fun w h => hw w (List.mem_cons_of_mem _ h)) (fun w h => hw' w (List.mem_cons_of_mem _ h))
      (List.pairwise_cons.1 hp).2 (List.pairwise_cons.1 hp').2
      (fun t => ⟨rest (Nat.le_refl _) hl hl' (hc t).1, rest (Nat.le_refl _) hl' hl (hc t).2⟩)
      (fun t => ⟨rest (Nat.le_succ _) hl hl' (hs t).1, rest (Nat.le_succ _) hl' hl (hs t).2⟩)]

/-- `merge` keeps the steps from a second to the next. -/
theorem merge_steps {α : Type} (c : Chain α (StorageEntry × StorageEntry)) (xs : List α)
    (ys : List (StorageEntry × StorageEntry)) (h : collected c xs = some (.ok ys)) :
    ∃ zs, collected (c.merge inferInstance (fun a b => .ok (mergeOverlapping a b)) spanKey) xs = some (.ok zs) ∧
      ∀ t, (∃ z ∈ zs, fstSec z ≤ t ∧ t + 1 ≤ sndSec z) ↔ ∃ y ∈ ys, fstSec y ≤ t ∧ t + 1 ≤ sndSec y := by
  obtain ⟨zs, h1, h2, -⟩ := C40_merge_generic c mergeOverlapping spanKey
    (fun r t => fstSec r ≤ t ∧ t + 1 ≤ sndSec r) (by
      intro a b d hd t
      have hs := (mergeOverlapping_spec a b).1 d hd
      omega) (by
      intro a b hk t
      simp only [spanKey, Prod.mk.injEq, StorageEntry.secs] at hk
      simp only [fstSec, sndSec, hk.1, hk.2]) xs ys h
  exact ⟨zs, h1, h2⟩

/-- `merge` twice, as the user of the generator API writes it. -/
abbrev mergeTwice {α : Type} (c : Chain α (StorageEntry × StorageEntry)) : Chain α (StorageEntry × StorageEntry) :=
  (c.merge inferInstance (fun a b => .ok (mergeOverlapping a b)) spanKey).merge inferInstance
    (fun a b => .ok (mergeOverlapping a b)) spanKey

/-- **C129** after merging twice no two spans overlap or can be merged, they are in order, cover exactly the seconds the
inputs cover, and two neighbouring seconds are in the same span exactly if they are in one input. -/
theorem C129_merge_twice {α : Type} (c : Chain α (StorageEntry × StorageEntry)) (xs : List α)
    (ys : List (StorageEntry × StorageEntry)) (h : collected c xs = some (.ok ys)) (hw : ∀ y ∈ ys, fstSec y ≤ sndSec y) :
    ∃ zs, collected (mergeTwice c) xs = some (.ok zs) ∧
      zs.Pairwise (fun a b => mergeOverlapping a b = none ∧ sndSec a < fstSec b) ∧
      (∀ z ∈ zs, fstSec z ≤ sndSec z) ∧
      (∀ t, (∃ z ∈ zs, Covers (fstSec z) (sndSec z) t) ↔ ∃ y ∈ ys, Covers (fstSec y) (sndSec y) t) ∧
      (∀ t, (∃ z ∈ zs, Covers (fstSec z) (sndSec z) t ∧ Covers (fstSec z) (sndSec z) (t + 1)) ↔
        ∃ y ∈ ys, Covers (fstSec y) (sndSec y) t ∧ Covers (fstSec y) (sndSec y) (t + 1)) ∧
      (∀ z ∈ zs, ∃ y ∈ ys, ∃ y' ∈ ys, z = (y.1, y'.2)) := by
  obtain ⟨ms, h1, h2, -, h4, h5, h6⟩ := C40_merge_overlapping c xs ys h
  obtain ⟨zs, g1, g2⟩ := C41_merge_disjoint_partial _ xs ms h1 (h5 hw) (h4.imp fun hab => by omega)
  obtain ⟨zs1, k1, k2, -, -, k5, k6⟩ := C40_merge_overlapping _ xs ms h1
  obtain ⟨ms2, e1, e2⟩ := merge_steps c xs ys h
  obtain ⟨zs2, f1, f2⟩ := merge_steps _ xs ms h1
  rw [h1] at e1
  cases e1
  rw [g1] at k1 f1
  cases k1
  cases f1
  have hcov : ∀ (z : StorageEntry × StorageEntry) t, (Covers (fstSec z) (sndSec z) t ∧ Covers (fstSec z) (sndSec z) (t + 1)) ↔
      fstSec z ≤ t ∧ t + 1 ≤ sndSec z := fun z t => by unfold Covers; omega
  refine ⟨zs, g1, g2, k5 (h5 hw), fun t => (k2 t).trans (h2 t), fun t => ?_, fun z hz => ?_⟩
  · simp only [hcov]
    exact (f2 t).trans (e2 t)
  · obtain ⟨m, hm, m', hm', rfl⟩ := k6 z hz
    obtain ⟨y, hy, y', hy', rfl⟩ := h6 m hm
    obtain ⟨w, hw', w', hw'', rfl⟩ := h6 m' hm'
    exact ⟨y, hy, w', hw'', rfl⟩

/-- **C129** the spans after merging twice do not depend on the order, or on repetitions, in which the spans arrive. -/
theorem C129_order {α : Type} (c c' : Chain α (StorageEntry × StorageEntry)) (xs xs' : List α)
    (ys ys' zs zs' : List (StorageEntry × StorageEntry)) (h : collected c xs = some (.ok ys)) (h' : collected c' xs' = some (.ok ys'))
    (hw : ∀ y ∈ ys, fstSec y ≤ sndSec y)
    (hsame : ∀ a b, (∃ y ∈ ys, (fstSec y, sndSec y) = (a, b)) ↔ ∃ y ∈ ys', (fstSec y, sndSec y) = (a, b))
    (hz : collected (mergeTwice c) xs = some (.ok zs)) (hz' : collected (mergeTwice c') xs' = some (.ok zs')) :
    (zs.map fun z => (fstSec z, sndSec z)) = zs'.map fun z => (fstSec z, sndSec z) := by
  have hw' : ∀ y ∈ ys', fstSec y ≤ sndSec y := fun y hy => by
    obtain ⟨w, h1, h2⟩ := (hsame _ _).2 ⟨y, hy, rfl⟩
    have := hw w h1
    obtain ⟨e1, e2⟩ := Prod.mk.inj h2
    omega
  obtain ⟨zs1, a1, a2, a3, a4, a5, -⟩ := C129_merge_twice c xs ys h hw
  obtain ⟨zs2, b1, b2, b3, b4, b5, -⟩ := C129_merge_twice c' xs' ys' h' hw'
  rw [hz] at a1
  rw [hz'] at b1
  cases a1
  cases b1
  have move : ∀ (P : Nat → Nat → Prop), (∃ y ∈ ys, P (fstSec y) (sndSec y)) ↔ ∃ y ∈ ys', P (fstSec y) (sndSec y) := fun P => by
    constructor
    · rintro ⟨y, hy, hp⟩
      obtain ⟨w, h1, h2⟩ := (hsame _ _).1 ⟨y, hy, rfl⟩
      obtain ⟨e1, e2⟩ := Prod.mk.inj h2
      exact ⟨w, h1, by rw [e1, e2]; exact hp⟩
    · rintro ⟨y, hy, hp⟩
      obtain ⟨w, h1, h2⟩ := (hsame _ _).2 ⟨y, hy, rfl⟩
      obtain ⟨e1, e2⟩ := Prod.mk.inj h2
      exact ⟨w, h1, by rw [e1, e2]; exact hp⟩
  have ex : ∀ (l : List (StorageEntry × StorageEntry)) (P : Nat → Nat → Prop),
      (∃ w ∈ l.map fun z => (fstSec z, sndSec z), P w.1 w.2) ↔ ∃ z ∈ l, P (fstSec z) (sndSec z) := fun l P => by
    constructor
    · rintro ⟨w, hw, hp⟩
      obtain ⟨z, hz, rfl⟩ := List.mem_map.1 hw
      exact ⟨z, hz, hp⟩
    · rintro ⟨z, hz, hp⟩; exact ⟨_, List.mem_map.2 ⟨z, hz, rfl⟩, hp⟩
  refine spans_unique ?_ ?_ ?_ ?_ (fun t => ?_) (fun t => ?_)
  · intro w hw; obtain ⟨z, hz, rfl⟩ := List.mem_map.1 hw; exact a3 z hz
  · intro w hw; obtain ⟨z, hz, rfl⟩ := List.mem_map.1 hw; exact b3 z hz
  · rw [List.pairwise_map]; exact a2.imp fun h => h.2
  · rw [List.pairwise_map]; exact b2.imp fun h => h.2
  · rw [ex zs fun a b => a ≤ t ∧ t ≤ b, ex zs' fun a b => a ≤ t ∧ t ≤ b]
    exact (a4 t).trans ((move fun a b => Covers a b t).trans (b4 t).symm)
  · have hs : ∀ (l : List (StorageEntry × StorageEntry)), (∃ z ∈ l, fstSec z ≤ t ∧ t + 1 ≤ sndSec z) ↔
        ∃ z ∈ l, Covers (fstSec z) (sndSec z) t ∧ Covers (fstSec z) (sndSec z) (t + 1) := fun l => by
      constructor <;> rintro ⟨z, hz, hp⟩ <;> refine ⟨z, hz, ?_⟩ <;> unfold Covers at * <;> omega
    rw [ex zs fun a b => a ≤ t ∧ t + 1 ≤ b, ex zs' fun a b => a ≤ t ∧ t + 1 ≤ b, hs, hs]
    exact (a5 t).trans ((move fun a b => Covers a b t ∧ Covers a b (t + 1)).trans (b5 t).symm)

theorem mergePick_none_of {α κ : Type} (f : α → α → Option α) {next : α} : ∀ {m : List (κ × α)}, (∀ x ∈ m, f x.2 next = none) →
    mergePick f next m = none
  | [], _ => rfl
  | (k, p) :: m, h => by
    unfold mergePick
    rw [h (k, p) (by simp)]
    exact mergePick_none_of f fun x hx => h x (List.mem_cons_of_mem _ hx)

theorem insert_last {κ ν : Type} [Key κ] {m : OrdMap κ ν} {k : κ} {v : ν} (h : ∀ x ∈ m, Key.lt x.1 k) :
    m.insert k v = m ++ [(k, v)] := by
  induction m with
  | nil => rfl
  | cons x m ih =>
    obtain ⟨k', v'⟩ := x
    have h1 : Key.lt k' k := h (k', v') (by simp)
    have h2 : ¬ Key.lt k k' := fun h2 => Key.irrefl _ (Key.trans h1 h2)
    rw [OrdMap.insert, if_neg h2, if_pos h1, ih fun x hx => h x (List.mem_cons_of_mem _ hx)]
    rfl

theorem merge_apart {α κ : Type} [Key κ] (f : α → α → Option α) (key : α → κ) : ∀ (ys : List α) (m : OrdMap κ α),
    (∀ x ∈ m, ∀ y ∈ ys, f x.2 y = none ∧ Key.lt x.1 (key y)) → ys.Pairwise (fun a b => f a b = none ∧ Key.lt (key a) (key b)) →
    ys.foldl (mergeStep f key) m = m ++ ys.map fun y => (key y, y)
  | [], m, _, _ => by simp
  | y :: ys, m, hm, hp => by
    have hp' := List.pairwise_cons.1 hp
    have h1 : mergeStep f key m y = m ++ [(key y, y)] := by
      unfold mergeStep
      rw [mergePick_none_of f fun x hx => (hm x hx y (by simp)).1]
      exact insert_last fun x hx => (hm x hx y (by simp)).2
    rw [List.foldl_cons, h1, merge_apart f key ys _ ?_ hp'.2]
    · simp
    · intro x hx z hz
      rcases List.mem_append.1 hx with hx | hx
      · exact hm x hx z (List.mem_cons_of_mem _ hz)
      · obtain rfl := List.mem_singleton.1 hx
        exact hp'.1 z hz

/-- `merge` changes nothing on values in order that cannot be merged. -/
theorem C129_merge_apart {α β κ : Type} [K : Key κ] (c : Chain α β) (f : β → β → Option β) (key : β → κ) (xs : List α) (ys : List β)
    (h : collected c xs = some (.ok ys)) (hp : ys.Pairwise fun a b => f a b = none ∧ Key.lt (key a) (key b)) :
    collected (c.merge K (fun a b => .ok (f a b)) key) xs = some (.ok ys) := by
  have hc := collected_behind (d := c.merge K (fun a b => .ok (f a b)) key) (good_merge _ key) rfl h (outs_merge f key ys)
  rw [hc, merge_apart f key ys [] (by simp) hp, List.nil_append, List.map_map]
  congr 2
  exact List.map_id _

/-- **C129** merging a third time changes nothing. -/
theorem C129_third {α : Type} (c : Chain α (StorageEntry × StorageEntry)) (xs : List α)
    (ys zs : List (StorageEntry × StorageEntry)) (h : collected c xs = some (.ok ys)) (hw : ∀ y ∈ ys, fstSec y ≤ sndSec y)
    (hz : collected (mergeTwice c) xs = some (.ok zs)) :
    collected ((mergeTwice c).merge inferInstance (fun a b => .ok (mergeOverlapping a b)) spanKey) xs = some (.ok zs) := by
  obtain ⟨zs', a1, a2, a3, -⟩ := C129_merge_twice c xs ys h hw
  rw [hz] at a1
  cases a1
  refine C129_merge_apart (K := inferInstance) (mergeTwice c) mergeOverlapping spanKey xs zs hz ?_
  refine a2.imp_of_mem fun {a b} ha _ hab => ⟨hab.1, Or.inl ?_⟩
  have h1 := a3 a ha
  have h2 : fstSec a < fstSec b := by omega
  exact h2

/-- **C129** the second merge changes nothing exactly if no span bridges a gap when it arrives. -/
theorem C129_second_iff {α : Type} (c : Chain α (StorageEntry × StorageEntry)) (xs : List α)
    (ys ms : List (StorageEntry × StorageEntry)) (h : collected c xs = some (.ok ys)) (hw : ∀ y ∈ ys, fstSec y ≤ sndSec y)
    (hm : collected (c.merge inferInstance (fun a b => .ok (mergeOverlapping a b)) spanKey) xs = some (.ok ms)) :
    collected (mergeTwice c) xs = some (.ok ms) ↔ NoBridge (ys.map fun y => (fstSec y, sndSec y)) := by
  obtain ⟨ms', a1, a2⟩ := C41_exact c xs ys h hw
  rw [hm] at a1
  cases a1
  rw [← a2]
  constructor
  · intro h2
    obtain ⟨zs, b1, b2, -⟩ := C129_merge_twice c xs ys h hw
    rw [h2] at b1
    cases b1
    exact b2.imp fun hab => hab.1
  · intro hp
    obtain ⟨ms', b1, -, -, b4, -⟩ := C40_merge_overlapping c xs ys h
    rw [hm] at b1
    cases b1
    refine C129_merge_apart (K := inferInstance) _ mergeOverlapping spanKey xs ms hm ?_
    refine (hp.and b4).imp fun {a b} hab => ⟨hab.1, ?_⟩
    rcases hab.2 with h1 | ⟨h1, h2⟩
    · exact Or.inl h1
    · exact Or.inr ⟨UInt32.toNat_inj.1 h1, h2⟩

/-- The spans of C41's counterexample: merged once two of them still overlap, and in another order they do not; merged twice
they are one, in both orders. -/
example : collected (Chain.merge inferInstance Chain.nil (fun a b => .ok (mergeOverlapping a b)) spanKey) bridge =
      some (.ok [secSpan 0 4, secSpan 4 5]) ∧
    collected (Chain.merge inferInstance Chain.nil (fun a b => .ok (mergeOverlapping a b)) spanKey)
      [secSpan 0 1, secSpan 1 4, secSpan 4 5] = some (.ok [secSpan 0 5]) ∧
    collected (mergeTwice Chain.nil) bridge = some (.ok [secSpan 0 5]) ∧
    collected (mergeTwice Chain.nil) [secSpan 0 1, secSpan 1 4, secSpan 4 5] = some (.ok [secSpan 0 5]) := by
  have once : ∀ (ys zs : List (StorageEntry × StorageEntry)),
      (ys.foldl (mergeStep mergeOverlapping spanKey) []).map (·.2) = zs →
      collected (Chain.merge inferInstance Chain.nil (fun a b => .ok (mergeOverlapping a b)) spanKey) ys = some (.ok zs) :=
    fun ys zs hz => by
      have := collected_behind (d := Chain.merge inferInstance Chain.nil (fun a b => .ok (mergeOverlapping a b)) spanKey)
        (good_merge _ spanKey) rfl (C37_nil_chain ys) (outs_merge mergeOverlapping spanKey ys)
      rw [this, hz]
  have twice : ∀ (ys ms zs : List (StorageEntry × StorageEntry)),
      collected (Chain.merge inferInstance Chain.nil (fun a b => .ok (mergeOverlapping a b)) spanKey) ys = some (.ok ms) →
      (ms.foldl (mergeStep mergeOverlapping spanKey) []).map (·.2) = zs →
      collected (mergeTwice Chain.nil) ys = some (.ok zs) := fun ys ms zs hm hz => by
    have := collected_behind (d := mergeTwice Chain.nil) (good_merge _ spanKey) rfl hm (outs_merge mergeOverlapping spanKey ms)
    rw [this, hz]
  have h1 := C41_bridge
  have h2 := once [secSpan 0 1, secSpan 1 4, secSpan 4 5] [secSpan 0 5] (by decide)
  exact ⟨h1, h2, twice _ _ _ h1 (by decide), twice _ _ _ h2 (by decide)⟩

end Verif
