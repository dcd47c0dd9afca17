import Verif.Spec.Equal
import Verif.Props.DdPartition

/-! # partition_from on a file of equally long messages -/

set_option linter.unusedSimpArgs false

namespace Verif

open Spec

theorem packedAt_multiple {L : Nat} : ∀ (es : List StorageEntry) (i : Nat), (∀ e ∈ es, (encode e).length = L) →
    ∀ x ∈ packedAt (i * L) es, (∃ j, x.1 = j * L) ∧ (encode x.2).length = L
  | [], _, _, x, hx => by cases hx
  | e :: es, i, hl, x, hx => by
    rw [packedAt, hl e (List.mem_cons_self ..)] at hx
    rcases List.mem_cons.1 hx with rfl | hx
    · exact ⟨⟨i, rfl⟩, hl e (List.mem_cons_self ..)⟩
    · rw [← Nat.succ_mul] at hx
      exact packedAt_multiple es (i + 1) (fun e he => hl e (List.mem_cons_of_mem _ he)) x hx

/-- A file of `k` messages of `L` bytes each. -/
structure Equals (es : List StorageEntry) (k L : Nat) : Prop where
  wf : ∀ e ∈ es, WF e
  count : es.length = k
  len : ∀ e ∈ es, (encode e).length = L
  fits : Fits (packed es)
  min : 4 ≤ L
  max : L ≤ 65536

variable {es : List StorageEntry} {k L : Nat}

theorem Equals.length (h : Equals es k L) : (packed es).length = k * L := by
  rw [packed_length es L h.len, h.count]

theorem Equals.atMost (h : Equals es k L) : AtMost 65536 (packedAt 0 es) := fun x hx => by
  rw [h.len _ (packedAt_mem hx)]; exact h.max

/-- Where a cut goes. -/
theorem cut_equal (h : Equals es k L) {p i : Nat} (hp : p + 1 < k * L) (h1 : i * L ≤ p) (h2 : p < (i + 1) * L) :
    ∃ r, containedBy dltStorage (packed es) p (p + 1) = .ok r ∧ cutAt p r = i * L := by
  have hL : 0 < L := by have := h.min; omega
  rw [Nat.succ_mul] at h2
  by_cases he : p = i * L
  · refine ⟨none, containedBy_packed_none h.wf h.fits h.atMost (by rw [h.length]; exact hp) ?_, he⟩
    intro x hx hin
    obtain ⟨⟨j, hj⟩, hlen⟩ := packedAt_multiple es 0 h.len x (by rw [Nat.zero_mul]; exact hx)
    unfold StrictlyInside at hin
    rw [hj, hlen, he] at hin
    obtain ⟨h3, h4⟩ := hin
    have h5 : j < i := Nat.lt_of_mul_lt_mul_right h3
    have h6 := Nat.mul_le_mul_right L (show j + 1 ≤ i by omega)
    rw [Nat.succ_mul] at h6
    omega
  · have hi : i < es.length := by
      rw [h.count]
      apply Nat.lt_of_mul_lt_mul_right (a := L)
      omega
    obtain ⟨e, hem, hmem⟩ := packedAt_get es 0 i h.len hi
    rw [Nat.zero_add] at hmem
    refine ⟨some (i * L, e), containedBy_packed h.wf h.fits h.atMost (by rw [h.length]; exact hp) hmem ⟨?_, ?_⟩, rfl⟩
    · show i * L < p
      omega
    · show p < i * L + (encode e).length
      rw [h.len e hem]
      omega

theorem cut_end (h : Equals es k L) {p : Nat} (hp : k * L ≤ p + 1) :
    containedBy dltStorage (packed es) p (p + 1) = .ok none := by
  rw [containedBy_unfold, if_pos (by rw [h.length]; omega)]

section
variable {s q : Nat}

/-- The rest is shorter than a slice. -/
theorem loop_over (h : Equals es k L) {a m : Nat} (hk : a + m = k) (hs : m * L < s) :
    partitionLoop dltStorage (packed es) s (a * L) (a * L + s) = .ok [] := by
  refine partitionLoop_over _ ?_
  rw [h.length, ← hk, Nat.add_mul]
  omega

/-- The slice ends at the end of the file or a byte in front of it. -/
theorem loop_end (h : Equals es k L) {a m : Nat} (hk : a + m = k) (hs4 : 4 ≤ s) (hs : m * L = s ∨ m * L = s + 1) :
    partitionLoop dltStorage (packed es) s (a * L) (a * L + s) = .ok [(a * L, k * L)] := by
  have hkl : k * L = a * L + m * L := by rw [← hk, Nat.add_mul]
  rw [partitionLoop_last (packed es) (r := none) (c := a * L + s) (cut_end h (by omega)) rfl (by rw [h.length]; omega)
    (by omega) (by rw [h.length]; omega) (by rw [h.length]; omega), h.length]

/-- What is behind the slice is put into it. -/
theorem loop_last (h : Equals es k L) {a m : Nat} (hk : a + m = k) (hq1 : 0 < q) (h1 : q * L ≤ s) (h2 : s < (q + 1) * L)
    (hs : s + 2 ≤ m * L) (hd : m * L ≤ q * L + s / 4) :
    partitionLoop dltStorage (packed es) s (a * L) (a * L + s) = .ok [(a * L, k * L)] := by
  have hkl : k * L = a * L + m * L := by rw [← hk, Nat.add_mul]
  have hqL := Nat.mul_le_mul_right L hq1
  have := h.min
  rw [Nat.succ_mul] at h2
  obtain ⟨r, h3, h4⟩ := cut_equal h (p := a * L + s) (i := a + q) (by omega) (by rw [Nat.add_mul]; omega)
    (by rw [Nat.succ_mul, Nat.add_mul]; omega)
  rw [Nat.add_mul] at h4
  rw [partitionLoop_last (packed es) h3 h4 (by rw [h.length]; omega)
    (by omega) (by rw [h.length]; omega) (by rw [h.length]; omega), h.length]

/-- One slice, and more. -/
theorem loop_more (h : Equals es k L) {a m : Nat} (hk : a + m = k) (hq1 : 0 < q) (h1 : q * L ≤ s) (h2 : s < (q + 1) * L)
    (hs : s + 2 ≤ m * L) (hd : q * L + s / 4 < m * L) {rest : List (Nat × Nat)}
    (hrest : partitionLoop dltStorage (packed es) s ((a + q) * L) ((a + q) * L + s) = .ok rest) :
    partitionLoop dltStorage (packed es) s (a * L) (a * L + s) = .ok ((a * L, (a + q) * L) :: rest) := by
  have hkl : k * L = a * L + m * L := by rw [← hk, Nat.add_mul]
  have hqL := Nat.mul_le_mul_right L hq1
  have := h.min
  rw [Nat.succ_mul] at h2
  obtain ⟨r, h3, h4⟩ := cut_equal h (p := a * L + s) (i := a + q) (by omega) (by rw [Nat.add_mul]; omega)
    (by rw [Nat.succ_mul, Nat.add_mul]; omega)
  have h5 : (a + q) * L = a * L + q * L := Nat.add_mul ..
  exact partitionLoop_cut (packed es) h3 h4 (by rw [h.length]; omega)
    (by omega) (by rw [h.length]; omega) (by rw [h.length]; omega) hrest

/-- The messages missed, seen from the loop. -/
def missedIn (r q s L : Nat) : Nat :=
  if r = 1 % q ∧ s + 1 = (q + 1) * L then 0
  else if r = 0 then (if s = q * L then 0 else q)
  else if r ≤ s / 4 / L then 0
  else r

/-- The slices made, seen from the loop. -/
def madeIn (m r q s L : Nat) : Nat :=
  if q = 1 ∧ s + 1 = (q + 1) * L then m - 1 else (m - missedIn r q s L) / q

theorem loop_equal (h : Equals es k L) (hq1 : 0 < q) (h1 : q * L ≤ s) (h2 : s < (q + 1) * L) (r : Nat) :
    ∀ m a, a + m = k → q ≤ m → m % q = r → (r = 1 % q → s + 1 = (q + 1) * L → q + 1 ≤ m) →
      ∃ rs, partitionLoop dltStorage (packed es) s (a * L) (a * L + s) = .ok rs ∧
        Tiles (a * L) rs ((k - missedIn r q s L) * L) ∧ rs.length = madeIn m r q s L ∧
        ∀ x ∈ rs.dropLast, x.2 = x.1 + q * L := by
  intro m
  induction m using Nat.strongRecOn with
  | ind m ih =>
    intro a hk hqm hmr hsp
    have hL := h.min
    have hL0 : 0 < L := by omega
    have hqL := Nat.mul_le_mul_right L hq1
    rw [Nat.one_mul] at hqL
    have h2' : s < q * L + L := by rw [← Nat.succ_mul]; exact h2
    have hqL1 : (q + 1) * L = q * L + L := Nat.succ_mul ..
    have hkl : k * L = a * L + m * L := by rw [← hk, Nat.add_mul]
    have one : ∀ l, l = 0 → 0 < m → Tiles (a * L) [(a * L, k * L)] ((k - l) * L) := by
      rintro l rfl hm
      have := Nat.mul_le_mul_right L hm
      exact ⟨rfl, by omega, by rw [Nat.sub_zero]; rfl⟩
    have hm0 : 0 < m := by omega
    have last : ∀ y : Nat × Nat, ∀ x ∈ [y].dropLast, x.2 = x.1 + q * L := fun y x hx => by cases hx
    by_cases hspec : m = q + 1 ∧ s + 1 = (q + 1) * L
    · -- a byte in front of the end
      obtain ⟨rfl, hs⟩ := hspec
      have hr : r = 1 % q := by rw [← hmr, Nat.add_mod_left]
      have hmi : missedIn r q s L = 0 := by unfold missedIn; rw [if_pos ⟨hr, hs⟩]
      refine ⟨_, loop_end h hk (by omega) (.inr hs.symm), one _ hmi hm0, ?_, last _⟩
      unfold madeIn
      rw [hmi]
      by_cases hq : q = 1
      · subst hq; rw [if_pos ⟨rfl, hs⟩]; rfl
      · rw [if_neg (fun h => hq h.1), Nat.sub_zero, Nat.add_div_left _ hq1, Nat.div_eq_of_lt (by omega)]
        rfl
    · by_cases hlt : m < 2 * q
      · -- the last slice, or the one in front of what is left out
        have hr : r = m - q := by
          rw [← hmr, Nat.mod_eq_sub_mod hqm, Nat.mod_eq_of_lt (by omega)]
        have hnospec : ¬ (r = 1 % q ∧ s + 1 = (q + 1) * L) := by
          rintro ⟨h3, h4⟩
          have h5 := hsp h3 h4
          apply hspec
          refine ⟨?_, h4⟩
          have : q ≠ 1 := by rintro rfl; omega
          rw [Nat.mod_eq_of_lt (by omega)] at h3
          omega
        have hnospec' : ¬ (q = 1 ∧ s + 1 = (q + 1) * L) := by
          rintro ⟨rfl, h4⟩
          exact hnospec ⟨by rw [hr, Nat.mod_one]; omega, h4⟩
        have hmi : missedIn r q s L = if r = 0 then (if s = q * L then 0 else q) else if r ≤ s / 4 / L then 0 else r := by
          unfold missedIn; rw [if_neg hnospec]
        have hmade : madeIn m r q s L = (m - missedIn r q s L) / q := by unfold madeIn; rw [if_neg hnospec']
        rw [hmade]
        by_cases hr0 : r = 0
        · have hmq : m = q := by omega
          rw [if_pos hr0] at hmi
          by_cases hsq : s = q * L
          · rw [if_pos hsq] at hmi
            refine ⟨_, loop_end h hk (by omega) (.inl (by rw [hmq, hsq])), one _ hmi hm0, ?_, last _⟩
            rw [hmi, hmq, Nat.sub_zero, Nat.div_self hq1]
            rfl
          · rw [if_neg hsq] at hmi
            refine ⟨[], loop_over h hk (by rw [hmq]; omega), ?_, ?_, fun x hx => by cases hx⟩
            · rw [hmi]
              show a * L = (k - q) * L
              congr 1
              omega
            · rw [hmi, hmq, Nat.sub_self, Nat.zero_div]
              rfl
        · rw [if_neg hr0] at hmi
          have hml : q * L + r * L = m * L := by rw [← Nat.add_mul]; congr 1; omega
          have hrL := Nat.mul_le_mul_right L (show 1 ≤ r by omega)
          rw [Nat.one_mul] at hrL
          have hs2 : s + 2 ≤ m * L := by
            have : m * L ≠ s + 1 := by
              intro h3
              by_cases hm1 : m = q + 1
              · exact hspec ⟨hm1, by rw [← hm1]; exact h3.symm⟩
              · have := Nat.mul_le_mul_right L (show 2 ≤ r by omega)
                omega
            omega
          by_cases hd : r ≤ s / 4 / L
          · rw [if_pos hd] at hmi
            have hd' := (Nat.le_div_iff_mul_le hL0).1 hd
            refine ⟨_, loop_last h hk hq1 h1 h2 hs2 (by omega), one _ hmi hm0, ?_, last _⟩
            rw [hmi, Nat.sub_zero, show m = q + r by omega, Nat.add_div_left _ hq1, Nat.div_eq_of_lt (by omega)]
            rfl
          · rw [if_neg hd] at hmi
            have hd' : s / 4 < r * L := (Nat.div_lt_iff_lt_mul hL0).1 (Nat.lt_of_not_le hd)
            have hrq := Nat.mul_le_mul_right L (show r + 1 ≤ q by omega)
            rw [Nat.succ_mul] at hrq
            refine ⟨_, loop_more h hk hq1 h1 h2 hs2 (by omega)
              (loop_over h (a := a + q) (m := r) (by omega) (by omega)), ?_, ?_, last _⟩
            · refine ⟨rfl, Nat.mul_lt_mul_of_pos_right (by omega) hL0, ?_⟩
              show (a + q) * L = _
              rw [hmi]
              congr 1
              omega
            · rw [hmi, show m - r = q by omega, Nat.div_self hq1]
              rfl
      · -- a slice in front of others
        have h2q := Nat.mul_le_mul_right L (show 2 * q ≤ m by omega)
        rw [Nat.mul_assoc, Nat.two_mul] at h2q
        have hs2 : s + 2 ≤ m * L := by
          by_cases hm1 : m = q + 1
          · have hn : s + 1 ≠ (q + 1) * L := fun h3 => hspec ⟨hm1, h3⟩
            have : m * L = (q + 1) * L := by rw [hm1]
            omega
          · have := Nat.mul_le_mul_right L (show q + 2 ≤ m by omega)
            rw [Nat.add_mul] at this
            omega
        have hmr' : (m - q) % q = r := by rw [← hmr, Nat.mod_eq_sub_mod hqm]
        obtain ⟨rs, h3, h4, h5, hd⟩ := ih (m - q) (by omega) (a + q) (by omega) (by omega) hmr' (by
          intro h6 h7
          have h8 := hsp h6 h7
          -- m and q + 1 have the same remainder
          have h9 : m ≠ q + 1 := fun h9 => hspec ⟨h9, h7⟩
          apply Classical.byContradiction
          intro h10
          have h11 : m - q = q := by omega
          rw [h11, Nat.mod_self] at hmr'
          by_cases hq : q = 1
          · omega
          · rw [Nat.mod_eq_of_lt (by omega)] at h6
            omega)
        refine ⟨_, loop_more h hk hq1 h1 h2 hs2 (by omega) h3, ⟨rfl, Nat.mul_lt_mul_of_pos_right (by omega) hL0, h4⟩, ?_, ?_⟩
        rotate_left
        · intro x hx
          cases rs with
          | nil => cases hx
          | cons y rs =>
            rw [List.dropLast_cons_cons] at hx
            rcases List.mem_cons.1 hx with hx | hx
            · rw [hx]
              exact Nat.add_mul ..
            · exact hd x hx
        rw [List.length_cons, h5]
        unfold madeIn
        by_cases hq : q = 1 ∧ s + 1 = (q + 1) * L
        · rw [if_pos hq, if_pos hq]
          have : m ≠ 2 := fun h6 => hspec ⟨by omega, hq.2⟩
          omega
        · rw [if_neg hq, if_neg hq]
          have hle : missedIn r q s L ≤ m - q := by
            have hrq : r < q := by rw [← hmr]; exact Nat.mod_lt _ hq1
            unfold missedIn
            repeat' split
            all_goals omega
          rw [show m - missedIn r q s L = (m - q - missedIn r q s L) + q by omega, Nat.add_div_right _ hq1]

end

end Verif
