import Verif.Model.Stack
import Verif.Lemmas.Cost

/-! # Lemmas about the stack of `contained_by` -/

set_option linter.unusedSimpArgs false

namespace Verif
open Spec

section
variable {T : Type} {S : SearchableMarker T}

/-- What the loop returns with a bounded stack, it returns. -/
theorem containedByLoopStack_sound {bytes : Bytes} {nested : Nat → Nat → Option (Res (Option (Nat × T)))} {p0 p1 : Nat}
    (hn : ∀ c q r, nested c q = some r → containedBy S bytes c q = r) :
    ∀ cs r, containedByLoopStack S bytes nested p0 p1 cs = some r → containedByLoop S bytes p0 p1 cs = r := by
  intro cs
  induction cs with
  | nil => intro r h; rw [containedByLoopStack] at h; rw [containedByLoop]; exact Option.some.inj h
  | cons c cs ih =>
    intro r
    rw [containedByLoopStack, containedByLoop]
    by_cases h : c ≥ p0
    · rw [if_pos h, dif_pos h]; exact Option.some.inj
    · rw [if_neg h, dif_neg h]
      rcases sliceFrom bytes c with t | _
      · dsimp only
        rcases hr : S.tryRead t with o | _
        · cases o with
          | none => simp only [hr]; exact ih r
          | some x =>
            obtain ⟨n, v⟩ := x
            simp only [hr]
            rcases uadd c (S.len v) with e | _
            · simp only
              split
              · rcases hq : nested c (c + S.marker.length) with _ | q
                · intro h; cases h
                · rw [hn _ _ _ hq]
                  rcases q with o | _
                  · cases o with
                    | none => exact Option.some.inj
                    | some y => exact ih r
                  · exact Option.some.inj
              · exact ih r
            · exact Option.some.inj
        · simp only [hr]; exact Option.some.inj
      · exact Option.some.inj

/-- What `contained_by` returns with a bounded stack, it returns. -/
theorem containedByStack_sound {bytes : Bytes} : ∀ (k p0 p1 : Nat) r,
    containedByStack S bytes k p0 p1 = some r → containedBy S bytes p0 p1 = r := by
  intro k
  induction k with
  | zero => intro p0 p1 r h; cases h
  | succ k ih =>
    intro p0 p1 r
    rw [containedByStack, containedBy]
    split
    · exact Option.some.inj
    · dsimp only
      rcases sliceFrom bytes (p0 - S.maxLen) with t | _
      · exact containedByLoopStack_sound ih _ _
      · exact Option.some.inj

/-- The loop does not overflow if its nested calls do not. -/
theorem containedByLoopStack_enough (L : Lawful S) {bytes : Bytes} (hF : Fits bytes)
    {nested : Nat → Nat → Option (Res (Option (Nat × T)))} {p0 p1 : Nat} (hp0 : p0 < bytes.length) :
    ∀ cs, (∀ c ∈ cs, c < p0 → ∀ v, ReadableAt S bytes c v → p1 ≤ c + S.len v →
        (nested c (c + S.marker.length)).isSome) →
      (containedByLoopStack S bytes nested p0 p1 cs).isSome := by
  intro cs
  induction cs with
  | nil => intro _; rfl
  | cons c cs ih =>
    intro hn
    have ih' := ih fun d hd => hn d (List.mem_cons_of_mem _ hd)
    rw [containedByLoopStack]
    by_cases h : c ≥ p0
    · rw [if_pos h]; rfl
    · rw [if_neg h, sliceFrom_ok (show c ≤ bytes.length by omega)]
      dsimp only
      rcases Lawful_tryRead_cases L bytes c with ⟨h1, h2⟩ | ⟨v, h1, h2⟩
      · rw [h1]; exact ih'
      · rw [h1]
        dsimp only
        have hb := h2.bounds L
        have hl := fits_le hF
        rw [uadd_ok (show c + S.len v ≤ usizeMax by unfold usizeMax; omega)]
        dsimp only
        split
        · next hge =>
          have h3 := hn c List.mem_cons_self (by omega) v h2 hge
          rcases hq : nested c (c + S.marker.length) with _ | q
          · rw [hq] at h3; cases h3
          · rcases q with o | _
            · cases o with
              | none => rfl
              | some y => exact ih'
            · rfl
        · exact ih'

theorem containedByStack_unfold {bytes : Bytes} {k p0 p1 : Nat} :
    containedByStack S bytes (k + 1) p0 p1 =
      if p0 ≥ bytes.length ∨ p1 ≥ bytes.length ∨ p0 ≥ p1 ∨ p1 = 0 then some (.ok none)
      else containedByLoopStack S bytes (containedByStack S bytes k) p0 p1
        ((findIter S.marker (bytes.drop (p0 - S.maxLen))).map (· + (p0 - S.maxLen))) := by
  rw [containedByStack]
  by_cases h : p0 ≥ bytes.length ∨ p1 ≥ bytes.length ∨ p0 ≥ p1 ∨ p1 = 0
  · rw [if_pos h, if_pos h]
  · rw [if_neg h, if_neg h]
    simp only [sliceFrom_ok (show p0 - S.maxLen ≤ bytes.length by omega)]

/-- `contained_by` does not overflow if the calls for the candidates that reach behind the range do not. -/
theorem containedByStack_enough (L : Lawful S) {bytes : Bytes} (hF : Fits bytes) {k p0 p1 : Nat}
    (hn : ∀ c v, c < p0 → ReadableAt S bytes c v → p1 ≤ c + S.len v →
        (containedByStack S bytes k c (c + S.marker.length)).isSome) :
    (containedByStack S bytes (k + 1) p0 p1).isSome := by
  rw [containedByStack_unfold]
  split
  · rfl
  · exact containedByLoopStack_enough L hF (by omega) _ fun c _ hc v hv h => hn c v hc hv h

/-- One frame for each marker length in front of a marker, and one more. -/
theorem containedByStack_marker (L : Lawful S) {bytes : Bytes} (hF : Fits bytes) : ∀ (k p0 p1 : Nat),
    MarkerAt S bytes p0 → p0 / S.marker.length < k → (containedByStack S bytes k p0 p1).isSome := by
  intro k
  induction k with
  | zero => intro p0 p1 _ h; exact absurd h (Nat.not_lt_zero _)
  | succ k ih =>
    intro p0 p1 hm hk
    refine containedByStack_enough L hF fun c v hc hv _ => ih c _ (hv.marker L) ?_
    have h1 := L.apart (hv.marker L) hm hc
    have h2 : (c + S.marker.length) / S.marker.length ≤ p0 / S.marker.length := Nat.div_le_div_right h1
    rw [Nat.add_div_right _ S.marker_pos] at h2
    omega

/-- The frames `contained_by` needs at most. -/
theorem containedByStack_bound (L : Lawful S) {bytes : Bytes} (hF : Fits bytes) (k p0 p1 : Nat)
    (hk : p0 / S.marker.length + 1 < k) : (containedByStack S bytes k p0 p1).isSome := by
  obtain ⟨k, rfl⟩ : ∃ k', k = k' + 1 := ⟨k - 1, (Nat.succ_pred_eq_of_pos (Nat.zero_lt_of_lt hk)).symm⟩
  refine containedByStack_enough L hF fun c v hc hv _ => containedByStack_marker L hF k c _ (hv.marker L) ?_
  have : c / S.marker.length ≤ p0 / S.marker.length := Nat.div_le_div_right (by omega)
  omega

/-- The loop ends at the first candidate that reaches behind the range if that is not contained itself. -/
theorem containedByLoopStack_hit (L : Lawful S) {bytes : Bytes} (hF : Fits bytes)
    {nested : Nat → Nat → Option (Res (Option (Nat × T)))} {p0 p1 x : Nat} {w : T} (hp0 : p0 < bytes.length)
    (hx : x < p0) (hw : ReadableAt S bytes x w) (hxp : p1 ≤ x + S.len w)
    (hnone : nested x (x + S.marker.length) = some (.ok none)) :
    ∀ cs : List Nat, cs.Pairwise (· < ·) → x ∈ cs →
      (∀ c ∈ cs, c < x → ∀ v, ReadableAt S bytes c v → c + S.len v < p1) →
      containedByLoopStack S bytes nested p0 p1 cs = some (.ok (some (x, w))) := by
  intro cs
  induction cs with
  | nil => intro _ h _; cases h
  | cons c cs ih =>
    intro hs hmem hno
    rw [List.pairwise_cons] at hs
    have hl := fits_le hF
    have hcx : c ≤ x := by
      rcases List.mem_cons.1 hmem with h | h
      · exact Nat.le_of_eq h.symm
      · exact Nat.le_of_lt (hs.1 x h)
    rw [containedByLoopStack, if_neg (by omega), sliceFrom_ok (show c ≤ bytes.length by omega)]
    dsimp only
    rcases Lawful_tryRead_cases L bytes c with ⟨h1, h2⟩ | ⟨v, h1, h2⟩
    · rw [h1]
      rcases List.mem_cons.1 hmem with h | h
      · rw [h] at hw; exact absurd hw (h2 _)
      · exact ih hs.2 h fun d hd => hno d (List.mem_cons_of_mem _ hd)
    · rw [h1]
      dsimp only
      have hb := h2.bounds L
      rw [uadd_ok (show c + S.len v ≤ usizeMax by unfold usizeMax; omega)]
      dsimp only
      rcases List.mem_cons.1 hmem with h | h
      · subst h
        have := h2.unique L hw
        subst this
        rw [if_pos hxp, hnone]
      · have := hno c List.mem_cons_self (hs.1 x h) v h2
        rw [if_neg (by omega)]
        exact ih hs.2 h fun d hd => hno d (List.mem_cons_of_mem _ hd)

/-- If embedded messages end with the top-level message they start in, two frames are enough. -/
theorem containedByStack_two (L : Lawful S) {bytes : Bytes} (hF : Fits bytes) {G : List (Nat × T)}
    (hG : Greedy S bytes 0 G) (hlen : ∀ x ∈ G, S.len x.2 ≤ S.maxLen + 1)
    (hnest : ∀ x ∈ G, ∀ j w, ReadableAt S bytes j w → x.1 < j → j < x.1 + S.len x.2 → j + S.len w ≤ x.1 + S.len x.2)
    (p : Nat) : (containedByStack S bytes 2 p (p + 1)).isSome := by
  have hd := hG.disjoint
  have hmp := S.marker_pos
  have out : ∀ q, (∀ x, ¬ Inside S G q x) → ∀ c v, c < q → ReadableAt S bytes c v → c + S.len v ≤ q := by
    intro q hq c v hc hv
    rcases hG.covers L c v (Nat.zero_le _) hv with hmem | ⟨x, hx, hx1, hx2⟩
    · apply Classical.byContradiction
      intro hn
      exact hq (c, v) ⟨hmem, hc, by simp only; omega⟩
    · have h1 := hnest x hx c v hv hx1 hx2
      apply Classical.byContradiction
      intro hn
      exact hq x ⟨hx, by omega, by omega⟩
  have flat : ∀ k q p1, q < p1 → (∀ x, ¬ Inside S G q x) → (containedByStack S bytes (k + 1) q p1).isSome := by
    intro k q p1 hqp hq
    refine containedByStack_enough L hF fun c v hc hv h => ?_
    have := out q hq c v hc hv
    omega
  by_cases hin : ∃ x, Inside S G p x
  · obtain ⟨x, hxG, hx1, hx2⟩ := hin
    have hno : ∀ y, ¬ Inside S G x.1 y := by
      intro y hy
      have hyx : y.1 < x.1 := hy.2.1
      have key : ∀ G : List (Nat × T), (G.Pairwise fun a b => a.1 + S.len a.2 ≤ b.1) → x ∈ G → y ∈ G →
          y.1 + S.len y.2 ≤ x.1 ∨ x.1 ≤ y.1 := by
        intro G hd hxG hyG
        induction G with
        | nil => simp at hxG
        | cons g G ih =>
          rw [List.pairwise_cons] at hd
          rcases List.mem_cons.1 hxG with h1 | h1
          · rcases List.mem_cons.1 hyG with h2 | h2
            · right; rw [h1, h2]; exact Nat.le_refl _
            · right; have := hd.1 y h2; rw [h1]; omega
          · rcases List.mem_cons.1 hyG with h2 | h2
            · left; rw [h2]; exact hd.1 x h1
            · exact ih hd.2 h1 h2
      have := key G hd hxG hy.1
      have := hy.2.2
      omega
    have hrx := (hG.readable x hxG).1
    have hbx := hrx.bounds L
    have hnone : containedByStack S bytes 1 x.1 (x.1 + S.marker.length) = some (.ok none) := by
      obtain ⟨r, hr⟩ := Option.isSome_iff_exists.1 (flat 0 x.1 (x.1 + S.marker.length) (by omega) hno)
      have h0 := containedByStack_sound _ _ _ _ hr
      rw [hr]
      obtain ⟨r', h1, h2⟩ := containedBy_sound L hF x.1 (x.1 + S.marker.length)
      rw [h1] at h0
      subst h0
      cases r' with
      | none => rfl
      | some y =>
        obtain ⟨s, v⟩ := y
        obtain ⟨h3, h4, h5, _⟩ := h2 s v rfl
        have := out x.1 hno s v h4 h3
        omega
    rw [containedByStack_unfold]
    split
    · rfl
    · obtain ⟨hc, hs⟩ := candidates_spec L bytes (p - S.maxLen)
      have hl := hlen x hxG
      rw [containedByLoopStack_hit L hF (p0 := p) (p1 := p + 1) (x := x.1) (w := x.2) (by omega) hx1 hrx (by omega) hnone _ hs
        ((hc x.1).2 ⟨by omega, hrx.marker L⟩) (fun c _ hlt v hv => by have := out x.1 hno c v hlt hv; omega)]
      rfl
  · exact flat 1 p (p + 1) (by omega) fun x hx => hin ⟨x, hx⟩

/-- What the loop of `partition_from` returns with a bounded stack, it returns. -/
theorem partitionLoopStack_sound {bytes : Bytes} {frames size : Nat} : ∀ (k c0 c1 : Nat), bytes.length - c0 = k → ∀ r,
    partitionLoopStack S bytes frames size c0 c1 = some r → partitionLoop S bytes size c0 c1 = r := by
  intro k
  induction k using Nat.strongRecOn with
  | ind k ih =>
    intro c0 c1 hk r
    rw [partitionLoopStack, partitionLoop]
    split
    · exact Option.some.inj
    · rcases hq : containedByStack S bytes frames c1 (c1 + 1) with _ | q
      · intro h; cases h
      · rw [containedByStack_sound _ _ _ _ hq]
        rcases q with o | _
        · rcases o with _ | ⟨c, v⟩
          · obtain ⟨c, hcc⟩ : ∃ c, c = c1 := ⟨_, rfl⟩
            dsimp only
            rw [← hcc]
            by_cases h0 : c0 ≥ c
            · rw [dif_pos h0, dif_pos h0]; exact Option.some.inj
            · rw [dif_neg h0, dif_neg h0]
              by_cases h1 : c + size / 4 ≥ bytes.length
              · rw [dif_pos h1, dif_pos h1]
                rcases sliceFrom bytes c0 with t | _ <;> exact Option.some.inj
              · rw [dif_neg h1, dif_neg h1]
                rcases slice bytes c0 c with t | _
                · dsimp only
                  have h2 := ih (bytes.length - c) (by omega) c (c + size) rfl
                  rcases hx : partitionLoopStack S bytes frames size c (c + size) with _ | x
                  · intro h; cases h
                  · rw [h2 x hx]
                    rcases x with x | _ <;> exact Option.some.inj
                · exact Option.some.inj
          · dsimp only
            by_cases h0 : c0 ≥ c
            · rw [dif_pos h0, dif_pos h0]; exact Option.some.inj
            · rw [dif_neg h0, dif_neg h0]
              by_cases h1 : c + size / 4 ≥ bytes.length
              · rw [dif_pos h1, dif_pos h1]
                rcases sliceFrom bytes c0 with t | _ <;> exact Option.some.inj
              · rw [dif_neg h1, dif_neg h1]
                rcases slice bytes c0 c with t | _
                · dsimp only
                  have h2 := ih (bytes.length - c) (by omega) c (c + size) rfl
                  rcases hx : partitionLoopStack S bytes frames size c (c + size) with _ | x
                  · intro h; cases h
                  · rw [h2 x hx]
                    rcases x with x | _ <;> exact Option.some.inj
                · exact Option.some.inj
        · exact Option.some.inj

/-- `partition_from` does not overflow if no call of `contained_by` does. -/
theorem partitionLoopStack_enough {bytes : Bytes} {frames size : Nat}
    (hn : ∀ p, (containedByStack S bytes frames p (p + 1)).isSome) : ∀ (k c0 c1 : Nat), bytes.length - c0 = k →
    (partitionLoopStack S bytes frames size c0 c1).isSome := by
  intro k
  induction k using Nat.strongRecOn with
  | ind k ih =>
    intro c0 c1 hk
    rw [partitionLoopStack]
    split
    · rfl
    · have h0 := hn c1
      rcases hq : containedByStack S bytes frames c1 (c1 + 1) with _ | q
      · rw [hq] at h0; cases h0
      · rcases q with o | _
        · rcases o with _ | ⟨c, v⟩
          · obtain ⟨c, hcc⟩ : ∃ c, c = c1 := ⟨_, rfl⟩
            dsimp only
            rw [← hcc]
            by_cases h0 : c0 ≥ c
            · rw [dif_pos h0]; rfl
            · rw [dif_neg h0]
              by_cases h1 : c + size / 4 ≥ bytes.length
              · rw [dif_pos h1]
                rcases sliceFrom bytes c0 with t | _ <;> rfl
              · rw [dif_neg h1]
                rcases slice bytes c0 c with t | _
                · dsimp only
                  have h2 := ih (bytes.length - c) (by omega) c (c + size) rfl
                  rcases hx : partitionLoopStack S bytes frames size c (c + size) with _ | x
                  · rw [hx] at h2; cases h2
                  · rcases x with x | _ <;> rfl
                · rfl
          · dsimp only
            by_cases h0 : c0 ≥ c
            · rw [dif_pos h0]; rfl
            · rw [dif_neg h0]
              by_cases h1 : c + size / 4 ≥ bytes.length
              · rw [dif_pos h1]
                rcases sliceFrom bytes c0 with t | _ <;> rfl
              · rw [dif_neg h1]
                rcases slice bytes c0 c with t | _
                · dsimp only
                  have h2 := ih (bytes.length - c) (by omega) c (c + size) rfl
                  rcases hx : partitionLoopStack S bytes frames size c (c + size) with _ | x
                  · rw [hx] at h2; cases h2
                  · rcases x with x | _ <;> rfl
                · rfl
        · rfl

end

end Verif
