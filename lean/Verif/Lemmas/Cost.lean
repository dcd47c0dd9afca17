import Verif.Model.Cost
import Verif.Lemmas.Partition

/-! # Lemmas about the cost of `contained_by` -/

set_option linter.unusedSimpArgs false

namespace Verif
open Spec

section
variable {T : Type} {S : SearchableMarker T}

theorem containedByLoopC_fst {bytes : Bytes} {p0 p1 : Nat}
    (ih : ∀ c, c < p0 → ∀ q1, (containedByC S bytes c q1).1 = containedBy S bytes c q1) :
    ∀ cs, (containedByLoopC S bytes p0 p1 cs).1 = containedByLoop S bytes p0 p1 cs := by
  intro cs
  induction cs with
  | nil => rw [containedByLoopC, containedByLoop]
  | cons c cs ihc =>
    rw [containedByLoopC, containedByLoop]
    by_cases h : c ≥ p0
    · rw [dif_pos h, dif_pos h]
    · rw [dif_neg h, dif_neg h]
      rcases sliceFrom bytes c with t | _
      · rcases hr : S.tryRead t with o | _
        · cases o with
          | none => simp only [hr]; exact ihc
          | some x =>
            obtain ⟨n, v⟩ := x
            simp only [hr]
            rcases uadd c (S.len v) with e | _
            · simp only
              split
              · rw [← ih c (by omega)]
                rcases hq : (containedByC S bytes c (c + S.marker.length)).1 with o | _
                · cases o with
                  | none => rfl
                  | some y => exact ihc
                · rfl
              · exact ihc
            · rfl
        · simp only [hr]
      · rfl

/-- Without the counter, `containedByC` is `containedBy`. -/
theorem containedByC_fst (bytes : Bytes) : ∀ (p0 p1 : Nat),
    (containedByC S bytes p0 p1).1 = containedBy S bytes p0 p1 := by
  intro p0
  induction p0 using Nat.strongRecOn with
  | ind p0 ih =>
    intro p1
    rw [containedByC, containedBy]
    split
    · rfl
    · simp only
      rcases sliceFrom bytes (p0 - S.maxLen) with t | _
      · exact containedByLoopC_fst (fun c hc q1 => ih c hc q1) _
      · rfl

/-- Without the counter, `partitionLoopC` is `partitionLoop`. -/
theorem partitionLoopC_fst (bytes : Bytes) (size : Nat) : ∀ (k c0 c1 : Nat), bytes.length - c0 = k →
    (partitionLoopC S bytes size c0 c1).1 = partitionLoop S bytes size c0 c1 := by
  intro k
  induction k using Nat.strongRecOn with
  | ind k ih =>
    intro c0 c1 hk
    rw [partitionLoopC, partitionLoop]
    split
    · rfl
    · rw [← containedByC_fst]
      dsimp only
      rcases hq : (containedByC S bytes c1 (c1 + 1)).1 with r | _
      · have key : ∀ c : Nat, ((if h0 : c0 ≥ c then (Res.ok [], (containedByC S bytes c1 (c1 + 1)).2)
              else if h1 : c + size / 4 ≥ bytes.length then
                match sliceFrom bytes c0 with
                | .panic => (.panic, (containedByC S bytes c1 (c1 + 1)).2)
                | .ok _ => (.ok [(c0, bytes.length)], (containedByC S bytes c1 (c1 + 1)).2)
              else
                match slice bytes c0 c with
                | .panic => (.panic, (containedByC S bytes c1 (c1 + 1)).2)
                | .ok _ =>
                  match (partitionLoopC S bytes size c (c + size)).1 with
                  | .panic => (.panic, (containedByC S bytes c1 (c1 + 1)).2 + (partitionLoopC S bytes size c (c + size)).2)
                  | .ok rest => (.ok ((c0, c) :: rest),
                      (containedByC S bytes c1 (c1 + 1)).2 + (partitionLoopC S bytes size c (c + size)).2)) :
              Res (List (Nat × Nat)) × Nat).1 =
            if h0 : c0 ≥ c then .ok []
            else if h1 : c + size / 4 ≥ bytes.length then
              match sliceFrom bytes c0 with
              | .panic => .panic
              | .ok _ => .ok [(c0, bytes.length)]
            else
              match slice bytes c0 c with
              | .panic => .panic
              | .ok _ =>
                match partitionLoop S bytes size c (c + size) with
                | .panic => .panic
                | .ok rest => .ok ((c0, c) :: rest) := by
          intro c
          by_cases h0 : c0 ≥ c
          · rw [dif_pos h0, dif_pos h0]
          · rw [dif_neg h0, dif_neg h0]
            by_cases h1 : c + size / 4 ≥ bytes.length
            · rw [dif_pos h1, dif_pos h1]
              rcases sliceFrom bytes c0 with t | _ <;> rfl
            · rw [dif_neg h1, dif_neg h1]
              rw [← ih (bytes.length - c) (by omega) c (c + size) rfl]
              rcases slice bytes c0 c with t | _
              · rcases (partitionLoopC S bytes size c (c + size)).1 with x | _ <;> rfl
              · rfl
        exact key _
      · rfl

/-- Without the counter, `partitionRangesC` is `partitionRanges`. -/
theorem partitionRangesC_fst (bytes : Bytes) (num : Nat) :
    (partitionRangesC S bytes num).1 = partitionRanges S bytes num := by
  unfold partitionRangesC partitionRanges
  split
  · rfl
  · exact partitionLoopC_fst bytes _ _ _ _ rfl

theorem containedByC_unfold {bytes : Bytes} {p0 p1 : Nat} :
    containedByC S bytes p0 p1 =
      if p0 ≥ bytes.length ∨ p1 ≥ bytes.length ∨ p0 ≥ p1 ∨ p1 = 0 then (.ok none, 0)
      else containedByLoopC S bytes p0 p1
        ((findIter S.marker (bytes.drop (p0 - S.maxLen))).map (· + (p0 - S.maxLen))) := by
  rw [containedByC]
  by_cases h : p0 ≥ bytes.length ∨ p1 ≥ bytes.length ∨ p0 ≥ p1 ∨ p1 = 0
  · rw [if_pos h, if_pos h]
  · rw [if_neg h, if_neg h]
    simp only [sliceFrom_ok (show p0 - S.maxLen ≤ bytes.length by omega)]

/-- One step of the loop, costs only. -/
theorem containedByLoopC_cons (L : Lawful S) {bytes : Bytes} (hF : Fits bytes) {p0 p1 c : Nat} {cs : List Nat}
    (hp0 : p0 < bytes.length) (hc : c < p0) :
    ((∀ v, ¬ ReadableAt S bytes c v) ∧
      (containedByLoopC S bytes p0 p1 (c :: cs)).2 = 1 + (containedByLoopC S bytes p0 p1 cs).2) ∨
    ∃ v, ReadableAt S bytes c v ∧
      ((¬ c + S.len v ≥ p1 ∧
        (containedByLoopC S bytes p0 p1 (c :: cs)).2 = 1 + (containedByLoopC S bytes p0 p1 cs).2) ∨
      (c + S.len v ≥ p1 ∧ containedBy S bytes c (c + S.marker.length) = .ok none ∧
        (containedByLoopC S bytes p0 p1 (c :: cs)).2 = 1 + (containedByC S bytes c (c + S.marker.length)).2) ∨
      (c + S.len v ≥ p1 ∧ (∃ x, containedBy S bytes c (c + S.marker.length) = .ok (some x)) ∧
        (containedByLoopC S bytes p0 p1 (c :: cs)).2 =
          1 + (containedByC S bytes c (c + S.marker.length)).2 + (containedByLoopC S bytes p0 p1 cs).2)) := by
  have hl := fits_le hF
  rcases Lawful_tryRead_cases L bytes c with ⟨h1, h2⟩ | ⟨v, h1, h2⟩
  · left
    refine ⟨h2, ?_⟩
    rw [containedByLoopC, dif_neg (by omega)]
    simp only [sliceFrom_ok (show c ≤ bytes.length by omega), h1]
  · right
    have hb := h2.bounds L
    refine ⟨v, h2, ?_⟩
    rw [containedByLoopC, dif_neg (by omega)]
    simp only [sliceFrom_ok (show c ≤ bytes.length by omega), h1,
      uadd_ok (show c + S.len v ≤ usizeMax by unfold usizeMax; omega)]
    by_cases hge : c + S.len v ≥ p1
    · right
      rw [if_pos hge]
      obtain ⟨r, hr, _⟩ := containedBy_sound L hF c (c + S.marker.length)
      have hr' := hr
      rw [← containedByC_fst] at hr'
      cases r with
      | none => left; refine ⟨hge, hr, ?_⟩; rw [hr']
      | some x => right; refine ⟨hge, ⟨x, hr⟩, ?_⟩; rw [hr']
    · left
      rw [if_neg hge]
      exact ⟨hge, rfl⟩

/-- A loop in which no candidate reaches `p1` makes one call per candidate. -/
theorem loop_cost_flat (L : Lawful S) {bytes : Bytes} (hF : Fits bytes) {p0 p1 : Nat} (hp0 : p0 < bytes.length) :
    ∀ (cs : List Nat) (lo : Nat), cs.Pairwise (· < ·) → (∀ c ∈ cs, lo ≤ c) →
      (∀ c ∈ cs, c < p0 → ∀ v, ReadableAt S bytes c v → c + S.len v < p1) →
      (containedByLoopC S bytes p0 p1 cs).2 ≤ p0 - lo := by
  intro cs
  induction cs with
  | nil => intro lo _ _ _; rw [containedByLoopC]; exact Nat.zero_le _
  | cons c cs ih =>
    intro lo hs hlo hno
    rw [List.pairwise_cons] at hs
    by_cases hlt : c < p0
    · have h1 := hlo c List.mem_cons_self
      have h2 := ih (c + 1) hs.2 (fun d hd => hs.1 d hd) fun d hd => hno d (List.mem_cons_of_mem _ hd)
      rcases containedByLoopC_cons L hF (p0 := p0) (p1 := p1) (cs := cs) hp0 hlt with
        ⟨_, h⟩ | ⟨v, hv, ⟨_, h⟩ | ⟨h3, _⟩ | ⟨h3, _⟩⟩
      · omega
      · omega
      · have := hno c List.mem_cons_self hlt v hv; omega
      · have := hno c List.mem_cons_self hlt v hv; omega
    · rw [containedByLoopC, dif_pos (by omega)]; exact Nat.zero_le _

/-- A loop in which the first candidate that reaches `p1` is `x`, which is not contained itself. -/
theorem loop_cost_hit (L : Lawful S) {bytes : Bytes} (hF : Fits bytes) {p0 p1 x K : Nat} {w : T} (hp0 : p0 < bytes.length)
    (hx : x < p0) (hw : ReadableAt S bytes x w) (hxp : p1 ≤ x + S.len w)
    (hnone : containedBy S bytes x (x + S.marker.length) = .ok none)
    (hK : (containedByC S bytes x (x + S.marker.length)).2 ≤ K) :
    ∀ (cs : List Nat) (lo : Nat), cs.Pairwise (· < ·) → (∀ c ∈ cs, lo ≤ c) → x ∈ cs →
      (∀ c ∈ cs, c < x → ∀ v, ReadableAt S bytes c v → c + S.len v < p1) →
      (containedByLoopC S bytes p0 p1 cs).2 ≤ x - lo + 1 + K := by
  intro cs
  induction cs with
  | nil => intro lo _ _ h _; simp at h
  | cons c cs ih =>
    intro lo hs hlo hmem hno
    rw [List.pairwise_cons] at hs
    have h1 := hlo c List.mem_cons_self
    rcases List.mem_cons.1 hmem with rfl | hmem'
    · rcases containedByLoopC_cons L hF (p0 := p0) (p1 := p1) (cs := cs) hp0 hx with
        ⟨h, _⟩ | ⟨v, hv, ⟨h3, _⟩ | ⟨_, _, h⟩ | ⟨_, ⟨y, h3⟩, _⟩⟩
      · exact absurd hw (h _)
      · have := hv.unique L hw; subst this; omega
      · omega
      · rw [hnone] at h3; cases h3
    · have hcx := hs.1 x hmem'
      have h2 := ih (c + 1) hs.2 (fun d hd => hs.1 d hd) hmem' fun d hd => hno d (List.mem_cons_of_mem _ hd)
      rcases containedByLoopC_cons L hF (p0 := p0) (p1 := p1) (cs := cs) hp0 (show c < p0 by omega) with
        ⟨_, h⟩ | ⟨v, hv, ⟨_, h⟩ | ⟨h3, _⟩ | ⟨h3, _⟩⟩
      · omega
      · omega
      · have := hno c List.mem_cons_self hcx v hv; omega
      · have := hno c List.mem_cons_self hcx v hv; omega

/-- If embedded messages end with the top-level message they start in, `contained_by` reads at most once per position
of two windows. -/
theorem containedBy_cost (L : Lawful S) {bytes : Bytes} (hF : Fits bytes) {G : List (Nat × T)}
    (hG : Greedy S bytes 0 G) (hlen : ∀ x ∈ G, S.len x.2 ≤ S.maxLen + 1)
    (hnest : ∀ x ∈ G, ∀ j w, ReadableAt S bytes j w → x.1 < j → j < x.1 + S.len x.2 → j + S.len w ≤ x.1 + S.len x.2)
    (p : Nat) : (containedByC S bytes p (p + 1)).2 ≤ 2 * S.maxLen + 1 := by
  have hd := hG.disjoint
  have hmp := S.marker_pos
  -- messages that start in front of a position outside of all top-level messages end in front of it
  have out : ∀ q, (∀ x, ¬ Inside S G q x) → ∀ c v, c < q → ReadableAt S bytes c v → c + S.len v ≤ q := by
    intro q hq c v hc hv
    rcases hG.covers L c v (Nat.zero_le _) hv with hmem | ⟨x, hx, hx1, hx2⟩
    · apply Classical.byContradiction
      intro hn
      exact hq (c, v) ⟨hmem, hc, by simp only; omega⟩
    · have h1 := hnest x hx c v hv hx1 hx2
      apply Classical.byContradiction
      intro hn
      exact hq x ⟨hx, by omega, by omega⟩
  have flat : ∀ q p1, q < p1 → (∀ x, ¬ Inside S G q x) → (containedByC S bytes q p1).2 ≤ S.maxLen := by
    intro q p1 hqp hq
    rw [containedByC_unfold]
    split
    · exact Nat.zero_le _
    · obtain ⟨hc, hs⟩ := candidates_spec L bytes (q - S.maxLen)
      have := loop_cost_flat L hF (p0 := q) (p1 := p1) (by omega) _ (q - S.maxLen) hs (fun c h => ((hc c).1 h).1)
        (fun c _ hlt v hv => by have := out q hq c v hlt hv; omega)
      omega
  by_cases hin : ∃ x, Inside S G p x
  · obtain ⟨x, hx⟩ := hin
    obtain ⟨hxG, hx1, hx2⟩ := hx
    have hno : ∀ y, ¬ Inside S G x.1 y := by
      intro y hy
      have hyx : y.1 < x.1 := hy.2.1
      have key : ∀ G : List (Nat × T), (G.Pairwise fun a b => a.1 + S.len a.2 ≤ b.1) → x ∈ G → y ∈ G →
          y.1 + S.len y.2 ≤ x.1 ∨ x.1 ≤ y.1 := by
        intro G hd hxG hyG
        induction G with
        | nil => simp at hxG
        | cons g G ih =>
          rw [List.pairwise_cons] at hd
          rcases List.mem_cons.1 hxG with h1 | h1
          · rcases List.mem_cons.1 hyG with h2 | h2
            · right; rw [h1, h2]; exact Nat.le_refl _
            · right; have := hd.1 y h2; rw [h1]; omega
          · rcases List.mem_cons.1 hyG with h2 | h2
            · left; rw [h2]; exact hd.1 x h1
            · exact ih hd.2 h1 h2
      have := key G hd hxG hy.1
      have := hy.2.2
      omega
    have hrx := (hG.readable x hxG).1
    have hbx := hrx.bounds L
    rw [containedByC_unfold]
    split
    · exact Nat.zero_le _
    · obtain ⟨hc, hs⟩ := candidates_spec L bytes (p - S.maxLen)
      have hnone : containedBy S bytes x.1 (x.1 + S.marker.length) = .ok none := by
        obtain ⟨r, h1, h2⟩ := containedBy_sound L hF x.1 (x.1 + S.marker.length)
        cases r with
        | none => exact h1
        | some y =>
          obtain ⟨s, v⟩ := y
          obtain ⟨h3, h4, h5, _⟩ := h2 s v rfl
          have := out x.1 hno s v h4 h3
          omega
      have hl := hlen x hxG
      have := loop_cost_hit L hF (p0 := p) (p1 := p + 1) (x := x.1) (K := S.maxLen) (w := x.2) (by omega) hx1 hrx (by omega) hnone
        (flat x.1 _ (by omega) hno) _ (p - S.maxLen) hs (fun c h => ((hc c).1 h).1)
        ((hc x.1).2 ⟨by omega, hrx.marker L⟩)
        (fun c _ hlt v hv => by have := out x.1 hno c v hlt hv; omega)
      omega
  · have := flat p (p + 1) (by omega) fun x hx => hin ⟨x, hx⟩
    omega

/-- One round of the loop of `partition_from` that cuts at `c`, after `n` calls. -/
def roundC (S : SearchableMarker T) (bytes : Bytes) (size c0 n c : Nat) : Res (List (Nat × Nat)) × Nat :=
  if c0 ≥ c then (.ok [], n)
  else if c + size / 4 ≥ bytes.length then
    match sliceFrom bytes c0 with
    | .panic => (.panic, n)
    | .ok _ => (.ok [(c0, bytes.length)], n)
  else
    match slice bytes c0 c with
    | .panic => (.panic, n)
    | .ok _ =>
      match (partitionLoopC S bytes size c (c + size)).1 with
      | .panic => (.panic, n + (partitionLoopC S bytes size c (c + size)).2)
      | .ok rest => (.ok ((c0, c) :: rest), n + (partitionLoopC S bytes size c (c + size)).2)

theorem partitionLoopC_round {bytes : Bytes} {size c0 c1 : Nat} (h : ¬ (c0 > bytes.length ∨ c1 > bytes.length)) :
    partitionLoopC S bytes size c0 c1 = (.panic, (containedByC S bytes c1 (c1 + 1)).2) ∨
    ∃ c, partitionLoopC S bytes size c0 c1 = roundC S bytes size c0 (containedByC S bytes c1 (c1 + 1)).2 c := by
  rw [partitionLoopC, if_neg h]
  dsimp only
  rcases (containedByC S bytes c1 (c1 + 1)).1 with r | _
  · right; exact ⟨_, rfl⟩
  · left; rfl

/-- The first call of `contained_by` is part of the cost. -/
theorem partitionLoopC_first {bytes : Bytes} {size c0 c1 : Nat} (h0 : c0 ≤ bytes.length) (h1 : c1 ≤ bytes.length) :
    (containedByC S bytes c1 (c1 + 1)).2 ≤ (partitionLoopC S bytes size c0 c1).2 := by
  rcases partitionLoopC_round (S := S) (bytes := bytes) (size := size) (c0 := c0) (c1 := c1) (by omega) with h | ⟨c, h⟩
  · rw [h]; exact Nat.le_refl _
  · rw [h]
    unfold roundC
    by_cases h2 : c0 ≥ c
    · rw [if_pos h2]; exact Nat.le_refl _
    · rw [if_neg h2]
      by_cases h3 : c + size / 4 ≥ bytes.length
      · rw [if_pos h3]
        rcases sliceFrom bytes c0 with t | _ <;> exact Nat.le_refl _
      · rw [if_neg h3]
        rcases slice bytes c0 c with t | _
        · simp only
          rcases (partitionLoopC S bytes size c (c + size)).1 with x | _ <;> exact Nat.le_add_right _ _
        · exact Nat.le_refl _

/-- Each round costs at most `K` if each call of `contained_by` does. -/
theorem partitionLoopC_bound {bytes : Bytes} {size K : Nat}
    (hK : ∀ p, (containedByC S bytes p (p + 1)).2 ≤ K) : ∀ (k c0 c1 : Nat), bytes.length - c0 = k →
    ∀ rs, (partitionLoopC S bytes size c0 c1).1 = .ok rs →
      (partitionLoopC S bytes size c0 c1).2 ≤ (rs.length + 1) * K := by
  intro k
  induction k using Nat.strongRecOn with
  | ind k ih =>
    intro c0 c1 hk rs
    have hone : ∀ rs : List (Nat × Nat), K ≤ (rs.length + 1) * K := fun rs => by
      rw [Nat.add_mul, Nat.one_mul]; exact Nat.le_add_left _ _
    have hq := hK c1
    by_cases hb : c0 > bytes.length ∨ c1 > bytes.length
    · rw [partitionLoopC, if_pos hb]; intro _; exact Nat.zero_le _
    · rcases partitionLoopC_round (S := S) (bytes := bytes) (size := size) (c0 := c0) (c1 := c1) hb with h | ⟨c, h⟩
      · rw [h]; intro h; cases h
      · rw [h]
        unfold roundC
        by_cases h2 : c0 ≥ c
        · rw [if_pos h2]; intro _; exact Nat.le_trans hq (hone rs)
        · rw [if_neg h2]
          by_cases h3 : c + size / 4 ≥ bytes.length
          · rw [if_pos h3]
            rcases sliceFrom bytes c0 with t | _ <;> intro _ <;> exact Nat.le_trans hq (hone rs)
          · rw [if_neg h3]
            rcases slice bytes c0 c with t | _
            · simp only
              have h4 := ih (bytes.length - c) (by omega) c (c + size) rfl
              rcases hx : (partitionLoopC S bytes size c (c + size)).1 with x | _
              · simp only
                intro h
                cases h
                have h5 := h4 x hx
                rw [List.length_cons, Nat.add_mul (x.length + 1) 1 K, Nat.one_mul]
                omega
              · intro h; cases h
            · intro h; cases h

end

end Verif
