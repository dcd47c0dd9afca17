import Verif.Lemmas.Scan
import Verif.Model.Partition

/-! # Lemmas about `contained_by` -/

set_option linter.unusedSimpArgs false

namespace Verif
open Spec

/-! ## `find_iter` -/

theorem findIterAux_spec {n : Bytes} (hn : 0 < n.length)
    (hb : ∀ k, 0 < k → k < n.length → ¬ n.drop k <+: n) :
    ∀ (bs : Bytes) (skip pos : Nat), (∀ k, k < skip → ¬ n <+: bs.drop k) →
      (∀ i, i ∈ findIterAux n skip pos bs ↔ ∃ k, i = pos + k ∧ n <+: bs.drop k) ∧
      (findIterAux n skip pos bs).Pairwise (· < ·) := by
  intro bs
  induction bs with
  | nil =>
    intro skip pos _
    have hno : ∀ k, ¬ n <+: ([] : Bytes).drop k := by
      intro k h
      have := h.length_le
      simp at this; subst this; simp at hn
    cases skip with
    | zero =>
      have h0 : n.isPrefixOf [] = false := by
        rw [Bool.eq_false_iff]; intro h; exact hno 0 (by simpa using h)
      simp [findIterAux, h0, hno]
      intro h; subst h; simp at hn
    | succ s =>
      simp [findIterAux, hno]
      intro h; subst h; simp at hn
  | cons b bs ih =>
    intro skip pos hskip
    cases skip with
    | succ s =>
      rw [findIterAux]
      obtain ⟨h1, h2⟩ := ih s (pos + 1) fun k hk => by simpa using hskip (k + 1) (by omega)
      refine ⟨fun i => ?_, h2⟩
      rw [h1]
      constructor
      · rintro ⟨k, rfl, hk⟩
        exact ⟨k + 1, by omega, by simpa using hk⟩
      · rintro ⟨k, rfl, hk⟩
        cases k with
        | zero => exact absurd hk (hskip 0 (by omega))
        | succ k => exact ⟨k, by omega, by simpa using hk⟩
    | zero =>
      rw [findIterAux]
      split
      · next hp =>
        have hp' : n <+: b :: bs := by simpa using hp
        have hnot : ∀ k, k < n.length - 1 → ¬ n <+: bs.drop k := by
          intro k hk hpk
          apply hb (k + 1) (by omega) (by omega)
          obtain ⟨r, hr⟩ := hp'
          have h1 : bs.drop k = n.drop (k + 1) ++ r := by
            have : bs.drop k = (b :: bs).drop (k + 1) := by simp
            rw [this, ← hr, List.drop_append_of_le_length (by omega)]
          rw [h1] at hpk
          exact List.prefix_of_prefix_length_le (List.prefix_append _ _) hpk (by rw [List.length_drop]; omega)
        obtain ⟨h1, h2⟩ := ih (n.length - 1) (pos + 1) hnot
        refine ⟨fun i => ?_, ?_⟩
        · rw [List.mem_cons, h1]
          constructor
          · rintro (rfl | ⟨k, rfl, hk⟩)
            · exact ⟨0, by omega, by simpa using hp'⟩
            · exact ⟨k + 1, by omega, by simpa using hk⟩
          · rintro ⟨k, rfl, hk⟩
            cases k with
            | zero => left; omega
            | succ k => right; exact ⟨k, by omega, by simpa using hk⟩
        · rw [List.pairwise_cons]
          refine ⟨fun a ha => ?_, h2⟩
          obtain ⟨k, rfl, _⟩ := (h1 a).1 ha
          omega
      · next hp =>
        have hp' : ¬ n <+: b :: bs := by simpa using hp
        obtain ⟨h1, h2⟩ := ih 0 (pos + 1) fun k hk => by omega
        refine ⟨fun i => ?_, h2⟩
        rw [h1]
        constructor
        · rintro ⟨k, rfl, hk⟩
          exact ⟨k + 1, by omega, by simpa using hk⟩
        · rintro ⟨k, rfl, hk⟩
          cases k with
          | zero => exact absurd (by simpa using hk) hp'
          | succ k => exact ⟨k, by omega, by simpa using hk⟩

section
variable {T : Type} {S : SearchableMarker T}

/-- The candidates of `contained_by`: all marker positions from `b` on, ascending. -/
theorem candidates_spec (L : Lawful S) (bytes : Bytes) (b : Nat) :
    (∀ i, i ∈ (findIter S.marker (bytes.drop b)).map (· + b) ↔ b ≤ i ∧ MarkerAt S bytes i) ∧
    ((findIter S.marker (bytes.drop b)).map (· + b)).Pairwise (· < ·) := by
  obtain ⟨h1, h2⟩ := findIterAux_spec S.marker_pos L.borderless (bytes.drop b) 0 0 fun k hk => by omega
  constructor
  · intro i
    rw [List.mem_map]
    constructor
    · rintro ⟨a, ha, rfl⟩
      obtain ⟨k, rfl, hk⟩ := (h1 a).1 ha
      rw [List.drop_drop] at hk
      refine ⟨by omega, ?_⟩
      unfold MarkerAt
      rw [show 0 + k + b = b + k by omega]; exact hk
    · rintro ⟨hi, hm⟩
      refine ⟨i - b, (h1 _).2 ⟨i - b, by omega, ?_⟩, by omega⟩
      rw [List.drop_drop, show b + (i - b) = i by omega]; exact hm
  · rw [List.pairwise_map]
    exact h2.imp fun h => by omega

theorem Lawful_tryRead_cases (L : Lawful S) (bytes : Bytes) (i : Nat) :
    (S.tryRead (bytes.drop i) = .ok none ∧ ∀ v, ¬ ReadableAt S bytes i v) ∨
    (∃ v, S.tryRead (bytes.drop i) = .ok (some (S.len v, v)) ∧ ReadableAt S bytes i v) := by
  by_cases hm : MarkerAt S bytes i
  · have ht := L.tryRead_eq (bytes.drop i)
    have hm' : S.marker <+: bytes.drop i := hm
    rw [if_pos hm'] at ht
    rcases L.cases hm with ⟨h1, h2⟩ | ⟨v, h1, h2⟩
    · left; exact ⟨by rw [ht, h1], h2⟩
    · right; exact ⟨v, by rw [ht, h1], h2⟩
  · left
    refine ⟨?_, fun v hv => hm (hv.marker L)⟩
    have hm' : ¬ S.marker <+: bytes.drop i := hm
    rw [L.tryRead_eq, if_neg hm']

theorem containedBy_unfold {bytes : Bytes} {p0 p1 : Nat} :
    containedBy S bytes p0 p1 =
      if p0 ≥ bytes.length ∨ p1 ≥ bytes.length ∨ p0 ≥ p1 ∨ p1 = 0 then .ok none
      else containedByLoop S bytes p0 p1
        ((findIter S.marker (bytes.drop (p0 - S.maxLen))).map (· + (p0 - S.maxLen))) := by
  rw [containedBy]
  by_cases h : p0 ≥ bytes.length ∨ p1 ≥ bytes.length ∨ p0 ≥ p1 ∨ p1 = 0
  · rw [if_pos h, if_pos h]
  · rw [if_neg h, if_neg h]
    simp only [sliceFrom_ok (show p0 - S.maxLen ≤ bytes.length by omega)]

/-- One step of the loop. -/
theorem containedByLoop_cons (L : Lawful S) {bytes : Bytes} (hF : Fits bytes) {p0 p1 c : Nat} {cs : List Nat}
    (hp0 : p0 < bytes.length) (hc : c < p0) :
    (∀ v, ¬ ReadableAt S bytes c v) ∧
      containedByLoop S bytes p0 p1 (c :: cs) = containedByLoop S bytes p0 p1 cs ∨
    ∃ v, ReadableAt S bytes c v ∧
      containedByLoop S bytes p0 p1 (c :: cs) =
        if c + S.len v ≥ p1 then
          match containedBy S bytes c (c + S.marker.length) with
          | .panic => .panic
          | .ok (some _) => containedByLoop S bytes p0 p1 cs
          | .ok none => .ok (some (c, v))
        else containedByLoop S bytes p0 p1 cs := by
  have hl := fits_le hF
  rcases Lawful_tryRead_cases L bytes c with ⟨h1, h2⟩ | ⟨v, h1, h2⟩
  · left
    refine ⟨h2, ?_⟩
    rw [containedByLoop, dif_neg (by omega)]
    simp only [sliceFrom_ok (show c ≤ bytes.length by omega), h1]
  · right
    have hb := h2.bounds L
    refine ⟨v, h2, ?_⟩
    rw [containedByLoop, dif_neg (by omega)]
    simp only [sliceFrom_ok (show c ≤ bytes.length by omega), h1,
      uadd_ok (show c + S.len v ≤ usizeMax by unfold usizeMax; omega)]
    rfl

/-- `contained_by` never panics, and a returned container really is one. -/
theorem containedBy_sound (L : Lawful S) {bytes : Bytes} (hF : Fits bytes) :
    ∀ (p0 p1 : Nat), ∃ r, containedBy S bytes p0 p1 = .ok r ∧
      ∀ s v, r = some (s, v) → ReadableAt S bytes s v ∧ s < p0 ∧ p1 ≤ s + S.len v ∧ p0 ≤ s + S.maxLen ∧
        p0 < p1 ∧ p1 < bytes.length := by
  intro p0
  induction p0 using Nat.strongRecOn with
  | ind p0 ih =>
    intro p1
    rw [containedBy_unfold]
    by_cases hg : p0 ≥ bytes.length ∨ p1 ≥ bytes.length ∨ p0 ≥ p1 ∨ p1 = 0
    · rw [if_pos hg]; exact ⟨none, rfl, by simp⟩
    · rw [if_neg hg]
      have hc := (candidates_spec L bytes (p0 - S.maxLen)).1
      generalize (findIter S.marker (bytes.drop (p0 - S.maxLen))).map (· + (p0 - S.maxLen)) = cs at hc
      have hcs : ∀ i ∈ cs, p0 - S.maxLen ≤ i := fun i hi => ((hc i).1 hi).1
      clear hc
      induction cs with
      | nil => exact ⟨none, by rw [containedByLoop], by simp⟩
      | cons c cs ihc =>
        have ihc' := ihc fun i hi => hcs i (List.mem_cons_of_mem _ hi)
        have hcc := hcs c List.mem_cons_self
        by_cases hlt : c ≥ p0
        · exact ⟨none, by rw [containedByLoop, dif_pos hlt], by simp⟩
        · rcases containedByLoop_cons L hF (p0 := p0) (p1 := p1) (cs := cs) (c := c) (by omega) (by omega) with
            ⟨_, h⟩ | ⟨v, hr, h⟩
          · rw [h]; exact ihc'
          · rw [h]
            split
            · obtain ⟨r, hr1, _⟩ := ih c (by omega) (c + S.marker.length)
              rw [hr1]
              cases r with
              | some x => exact ihc'
              | none =>
                refine ⟨_, rfl, ?_⟩
                intro s w hsw
                simp only [Option.some.injEq, Prod.mk.injEq] at hsw
                obtain ⟨rfl, rfl⟩ := hsw
                exact ⟨hr, by omega, by omega, by omega, by omega, by omega⟩
            · exact ihc'

/-! ## The outermost message -/

/-- `x` is the top-level message with `p` strictly inside. -/
def Inside (S : SearchableMarker T) (G : List (Nat × T)) (p : Nat) (x : Nat × T) : Prop :=
  x ∈ G ∧ x.1 < p ∧ p < x.1 + S.len x.2

theorem Inside.unique {G : List (Nat × T)} (hd : G.Pairwise fun a b => a.1 + S.len a.2 ≤ b.1)
    {p : Nat} {x y : Nat × T} (hx : Inside S G p x) (hy : Inside S G p y) : x = y := by
  induction G with
  | nil => exact absurd hx.1 (by simp)
  | cons g G ih =>
    rw [List.pairwise_cons] at hd
    obtain ⟨hx1, hx2, hx3⟩ := hx
    obtain ⟨hy1, hy2, hy3⟩ := hy
    rcases List.mem_cons.1 hx1 with hxe | hx1'
    · subst hxe
      rcases List.mem_cons.1 hy1 with hye | hy1'
      · exact hye.symm
      · have := hd.1 y hy1'; omega
    · rcases List.mem_cons.1 hy1 with hye | hy1'
      · subst hye; have := hd.1 x hx1'; omega
      · exact ih hd.2 ⟨hx1', hx2, hx3⟩ ⟨hy1', hy2, hy3⟩

/-- No readable message has its marker straddling the end of a top-level message it starts in. -/
def NoStraddleG (S : SearchableMarker T) (bytes : Bytes) (G : List (Nat × T)) : Prop :=
  ∀ x ∈ G, ∀ j w, ReadableAt S bytes j w → x.1 < j → j < x.1 + S.len x.2 →
    j + S.marker.length ≤ x.1 + S.len x.2

theorem containedBy_top (L : Lawful S) {bytes : Bytes} (hF : Fits bytes) {G : List (Nat × T)}
    (hG : Greedy S bytes 0 G) (hlen : ∀ x ∈ G, S.len x.2 ≤ S.maxLen + 1)
    (hns : NoStraddleG S bytes G) :
    ∀ (p0 p1 : Nat), p0 < p1 → p1 < bytes.length →
      (∀ x, Inside S G p0 x → p1 ≤ x.1 + S.len x.2) →
      ∃ r, containedBy S bytes p0 p1 = .ok r ∧ ∀ x, r = some x ↔ Inside S G p0 x := by
  have hd := hG.disjoint
  intro p0
  induction p0 using Nat.strongRecOn with
  | ind p0 ih =>
    intro p1 h01 h1l hcov
    rw [containedBy_unfold, if_neg (by omega)]
    obtain ⟨hc, hs⟩ := candidates_spec L bytes (p0 - S.maxLen)
    generalize (findIter S.marker (bytes.drop (p0 - S.maxLen))).map (· + (p0 - S.maxLen)) = cs at hc hs
    have hmk : ∀ i ∈ cs, MarkerAt S bytes i := fun i hi => ((hc i).1 hi).2
    -- the container, if any, is among the candidates
    have hin : ∀ x, Inside S G p0 x → x.1 ∈ cs := by
      intro x hx
      have := hlen x hx.1
      have h2 := hx.2
      exact (hc x.1).2 ⟨by omega, ((hG.readable x hx.1).1).marker L⟩
    clear hc
    induction cs with
    | nil =>
      refine ⟨none, by rw [containedByLoop], fun x => ?_⟩
      simp only [reduceCtorEq, false_iff]
      intro hx; exact absurd (hin x hx) (by simp)
    | cons c cs ihc =>
      rw [List.pairwise_cons] at hs
      have hmk' : ∀ i ∈ cs, MarkerAt S bytes i := fun i hi => hmk i (List.mem_cons_of_mem _ hi)
      -- if `c` is not the container we may skip it
      have skip : (∀ x, Inside S G p0 x → x.1 ≠ c) →
          ∃ r, containedByLoop S bytes p0 p1 cs = .ok r ∧ ∀ x, r = some x ↔ Inside S G p0 x := by
        intro hne
        refine ihc hs.2 hmk' fun x hx => ?_
        rcases List.mem_cons.1 (hin x hx) with h | h
        · exact absurd h (hne x hx)
        · exact h
      by_cases hlt : c ≥ p0
      · refine ⟨none, by rw [containedByLoop, dif_pos hlt], fun x => ?_⟩
        simp only [reduceCtorEq, false_iff]
        intro hx
        have := hx.2
        rcases List.mem_cons.1 (hin x hx) with h | h
        · omega
        · have := hs.1 _ h; omega
      · rcases containedByLoop_cons L hF (p0 := p0) (p1 := p1) (cs := cs) (c := c) (by omega) (by omega) with
          ⟨hno, h⟩ | ⟨v, hr, h⟩
        · rw [h]
          apply skip
          intro x hx he
          exact hno x.2 (he ▸ (hG.readable x hx.1).1)
        · rw [h]
          have hb := hr.bounds L
          by_cases hge : c + S.len v ≥ p1
          · rw [if_pos hge]
            obtain ⟨r, hr1, hr2⟩ := ih c (by omega) (c + S.marker.length) (by have := S.marker_pos; omega) (by omega)
              (fun x hx => hns x hx.1 c v hr hx.2.1 hx.2.2)
            rw [hr1]
            rcases hG.covers L c v (Nat.zero_le _) hr with hmem | ⟨x, hx, hx1, hx2⟩
            · -- `c` is a top-level message: it is the container
              have hic : Inside S G p0 (c, v) := ⟨hmem, by simp only; omega, by simp only; omega⟩
              cases r with
              | some y =>
                have hy := (hr2 y).1 rfl
                exfalso
                -- two top-level messages overlap
                have key : ∀ G : List (Nat × T), (G.Pairwise fun a b => a.1 + S.len a.2 ≤ b.1) →
                    (c, v) ∈ G → y ∈ G → y.1 < c → c < y.1 + S.len y.2 → 0 < S.len v → False := by
                  intro G hd h1 h2 h3 h4 h5
                  induction G with
                  | nil => simp at h1
                  | cons g G ihg =>
                    rw [List.pairwise_cons] at hd
                    rcases List.mem_cons.1 h1 with h1' | h1'
                    · subst h1'
                      rcases List.mem_cons.1 h2 with h2' | h2'
                      · subst h2'; simp at h3
                      · have := hd.1 y h2'; simp only at this; omega
                    · rcases List.mem_cons.1 h2 with h2' | h2'
                      · subst h2'; have := hd.1 _ h1'; simp only at this; omega
                      · exact ihg hd.2 h1' h2'
                exact key G hd hmem hy.1 hy.2.1 hy.2.2 (by omega)
              | none =>
                refine ⟨_, rfl, fun x => ?_⟩
                constructor
                · intro h
                  simp only [Option.some.injEq] at h
                  subst h; exact hic
                · intro hx
                  rw [Inside.unique hd hic hx]
            · -- `c` lies inside a top-level message: skipped
              cases r with
              | none =>
                have := (hr2 x).2 ⟨hx, hx1, hx2⟩
                simp at this
              | some y =>
                apply skip
                intro z hz he
                -- `z` starts at `c`, strictly inside `x`
                have hxz : x = z := by
                  apply Classical.byContradiction; intro hne
                  have key : ∀ G : List (Nat × T), (G.Pairwise fun a b => a.1 + S.len a.2 ≤ b.1) →
                      x ∈ G → z ∈ G → x ≠ z → x.1 + S.len x.2 ≤ z.1 ∨ z.1 + S.len z.2 ≤ x.1 := by
                    intro G hd h1 h2 h3
                    induction G with
                    | nil => simp at h1
                    | cons g G ihg =>
                      rw [List.pairwise_cons] at hd
                      rcases List.mem_cons.1 h1 with h1' | h1'
                      · subst h1'
                        rcases List.mem_cons.1 h2 with h2' | h2'
                        · exact absurd h2'.symm h3
                        · left; exact hd.1 z h2'
                      · rcases List.mem_cons.1 h2 with h2' | h2'
                        · subst h2'; right; exact hd.1 x h1'
                        · exact ihg hd.2 h1' h2'
                  have := key G hd hx hz.1 hne
                  omega
                subst hxz; omega
          · rw [if_neg hge]
            apply skip
            intro x hx he
            have := hcov x hx
            have hxv : x.2 = v := (hG.readable x hx.1).1.unique L (he ▸ hr)
            rw [hxv] at this; omega

end

end Verif
