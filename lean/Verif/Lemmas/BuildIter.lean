import Verif.Spec.Build
import Verif.Lemmas.Partition
import Verif.Lemmas.GrepCapture
import Verif.Lemmas.DltLaws

/-! # The iterators in any build -/

set_option linter.unusedSimpArgs false

namespace Verif

open Spec

theorem Spec.Exact.to {A : Arith} (h : Exact A) : ExactTo usizeMax A :=
  ⟨fun a b hab => h.add a b (by unfold usizeMax at hab; omega), fun a b hab => h.mul a b (by unfold usizeMax at hab; omega), h.sub⟩

/-- The file has room in an address space up to `M`, which is that of a machine with 16 to 64 bits. -/
structure Room (M : Nat) (bytes : Bytes) : Prop where
  len : 2 * bytes.length < M
  max : M ≤ usizeMax
  min : 2 ^ 16 ≤ M

theorem Room.fits {M : Nat} {bytes : Bytes} (h : Room M bytes) : Fits bytes := by
  have h1 := h.len
  have h2 := h.max
  unfold usizeMax at h2
  unfold Fits
  omega

theorem Room.of_fits {bytes : Bytes} (h : Fits bytes) : Room usizeMax bytes := by
  unfold Fits at h
  exact ⟨by unfold usizeMax; omega, Nat.le_refl _, by decide⟩

theorem Room.mono {M : Nat} {bytes bs : Bytes} (h : Room M bytes) (hl : bs.length ≤ bytes.length) : Room M bs :=
  ⟨by have := h.len; omega, h.max, h.min⟩

theorem Spec.ExactTo.add_le {M : Nat} {A : Arith} (hA : ExactTo M A) {a b : Nat} (h : a + b ≤ M) : A.add a b = .ok (a + b) :=
  hA.add a b h

theorem Spec.ExactTo.add_uadd {M : Nat} {A : Arith} (hA : ExactTo M A) (hM : M ≤ usizeMax) {a b : Nat} (h : a + b ≤ M) :
    A.add a b = uadd a b := by
  rw [hA.add_le h, uadd_ok (Nat.le_trans h hM)]

/-- Bounds on positions. -/
macro "fit" : tactic => `(tactic| first | omega | (simp only [usizeMax] at *; omega))

section
variable {M : Nat} {A : Arith} (hA : ExactTo M A) {T : Type} {S : SearchableMarker T} {bytes : Bytes}
include hA

theorem readFallbackNextA_eq (L : Reads S) (hR : Room M bytes) (off : Nat) (hoff : off + S.marker.length ≤ M) :
    readFallbackNextA A S bytes off = some (readFallbackNext S bytes off) := by
  have hF := hR.fits
  have hF' := fits_le hF
  have hR1 := hR.len
  have hR2 := hR.max
  have hmp := S.marker_pos
  generalize hk : bytes.length - off = k
  induction k using Nat.strongRecOn generalizing off with
  | ind k ih =>
    rw [readFallbackNextA, readFallbackNext_unfold (Nat.le_trans hoff hR2), hA.add_le hoff]
    dsimp only
    by_cases hge : off + S.marker.length ≥ bytes.length
    · rw [if_pos hge, if_pos hge]
    · rw [if_neg hge, if_neg hge]
      simp only [slice_eq_marker (bs := bytes) (a := off) (m := S.marker) (by omega),
        sliceFrom_ok (show off ≤ bytes.length by omega), searchMarker]
      by_cases hm : (bytes.drop off).take S.marker.length = S.marker
      · rw [if_pos hm, if_pos hm]
        cases ht : S.tryReadValidMarker (bytes.drop off) with
        | panic => rfl
        | ok o =>
          cases o with
          | none => rfl
          | some p =>
            obtain ⟨n, v⟩ := p
            have := (L.size _ _ _ ht).2.2
            rw [List.length_drop] at this
            dsimp only
            rw [hA.add_uadd hR2 (by fit)]
            cases uadd off n <;> rfl
      · rw [if_neg hm, if_neg hm]
        cases hf : find S.marker (bytes.drop off) with
        | none => rfl
        | some p =>
          dsimp only
          by_cases hp : p = 0
          · rw [if_pos hp, if_pos hp]
          · rw [if_neg hp, if_neg hp]
            obtain ⟨h1, h2, -⟩ := find_some hf
            have h3 := h2.length_le
            rw [List.length_drop, List.length_drop] at h3
            rw [hA.add_uadd hR2 (by fit), uadd_ok (by fit)]
            exact ih (bytes.length - (off + p)) (by omega) (off + p) (by fit) rfl

theorem searchSearchA_eq (hR : Room M bytes) (off : Nat) :
    searchSearchA A S bytes off = searchSearch S bytes off := by
  have hF := hR.fits
  have hF' := fits_le hF
  have hR1 := hR.len
  have hR2 := hR.max
  unfold searchSearchA searchSearch
  by_cases hge : off ≥ bytes.length
  · rw [if_pos hge, if_pos hge]
  · rw [if_neg hge, if_neg hge]
    simp only [sliceFrom_ok (show off ≤ bytes.length by omega)]
    cases hf : find S.marker (bytes.drop off) with
    | none => rfl
    | some p =>
      have h1 := (find_some hf).1
      rw [List.length_drop] at h1
      dsimp only
      rw [hA.add_uadd hR2 (by fit)]
      cases uadd p off with
      | panic => rfl
      | ok c =>
        dsimp only
        cases sliceFrom bytes c with
        | panic => rfl
        | ok t =>
          dsimp only
          cases S.tryReadValidMarker t with
          | panic => rfl
          | ok o => cases o <;> rfl

theorem searchNextA_eq (L : Reads S) (hR : Room M bytes) (hm : 4 * S.marker.length ≤ M) (off : Nat)
    (hoff : off + S.marker.length ≤ M) :
    searchNextA A S bytes off = some (searchNext S bytes off) := by
  have hF := hR.fits
  have hF' := fits_le hF
  have hR1 := hR.len
  have hR2 := hR.max
  have hmp := S.marker_pos
  generalize hk : bytes.length - off = k
  induction k using Nat.strongRecOn generalizing off with
  | ind k ih =>
    rw [searchNextA, searchSearchA_eq hA hR]
    rcases searchSearch_spec L hF off with ⟨i, v, h1, h2, h3⟩ | ⟨h1, h2⟩
    · have hb := h3.bounds L
      rw [searchNext, h1]
      dsimp only
      rw [hA.add_uadd hR2 (by fit), uadd_ok (by fit)]
    · rw [searchNext_unfold h1 (uadd_ok (Nat.le_trans hoff hR2)), h1]
      dsimp only
      rw [hA.add_le hoff]
      dsimp only
      by_cases hge : off + S.marker.length ≥ bytes.length
      · rw [if_pos hge, if_pos hge]
      · rw [if_neg hge, if_neg hge]
        exact ih (bytes.length - (off + S.marker.length)) (by omega) _ (by fit) rfl

theorem readNextA_eq {R : FromBytesReadable T} (hRd : ∀ bs n v, R.tryRead bs = .ok (some (n, v)) → n ≤ bs.length)
    (hR : Room M bytes) (off : Nat) : readNextA A R bytes off = readNext R bytes off := by
  have hF := hR.fits
  have hF' := fits_le hF
  have hR1 := hR.len
  have hR2 := hR.max
  unfold readNextA readNext
  by_cases hge : off ≥ bytes.length
  · rw [if_pos hge, if_pos hge]
  · rw [if_neg hge, if_neg hge]
    simp only [sliceFrom_ok (show off ≤ bytes.length by omega)]
    cases ht : R.tryRead (bytes.drop off) with
    | panic => rfl
    | ok o =>
      cases o with
      | none => rfl
      | some p =>
        obtain ⟨n, v⟩ := p
        have := hRd _ _ _ ht
        rw [List.length_drop] at this
        dsimp only
        rw [hA.add_uadd hR2 (by fit)]
        rfl

omit hA in
theorem revSearch_bound (L : Reads S) (hF : Fits bytes) {off i : Nat} {v : T} (h : revSearch S bytes off = .ok (some (i, v))) :
    i + S.len v ≤ bytes.length := by
  have hF' := fits_le hF
  by_cases hoff : off ≤ bytes.length
  · rcases revSearch_spec L off hF hoff with ⟨j, w, h1, h2, h3, _⟩ | ⟨h1, _⟩
    · rw [h] at h1
      cases h1
      have := h3.bounds L
      omega
    · rw [h] at h1; cases h1
  · unfold revSearch at h
    rw [if_pos (Or.inl (by omega))] at h
    cases h

/-- The body of `search` in the build `A`. -/
def grepBodyA (A : Arith) (S : SearchableMarker T) (re : Regex) (bytes : Bytes)
    (f : Nat → Option (Res (Option (Nat × T)))) (offset : Nat) : Option (Res (Option (Nat × T))) :=
  if offset ≥ bytes.length then some (.ok none)
  else
    match re.findAt bytes offset with
    | none => some (.ok none)
    | some (start, stop) =>
      match revSearch S bytes start with
      | .panic => some .panic
      | .ok (some (off, val)) =>
        if off < start then
          match A.add off (S.len val) with
          | .panic => some .panic
          | .ok e => if e < stop then f stop else some (.ok (some (off, val)))
        else some (.ok (some (off, val)))
      | .ok none => if stop ≥ bytes.length then some (.ok none) else f stop

theorem grepBodyA_eq (L : Reads S) (hR : Room M bytes) (re : Regex) (f : Nat → Option (Res (Option (Nat × T)))) (off : Nat) :
    grepBodyA A S re bytes f off = grepBody S re bytes f off := by
  unfold grepBodyA grepBody
  by_cases hge : off ≥ bytes.length
  · rw [if_pos hge, if_pos hge]
  · rw [if_neg hge, if_neg hge]
    cases re.findAt bytes off with
    | none => rfl
    | some p =>
      obtain ⟨s, e⟩ := p
      dsimp only
      cases hr : revSearch S bytes s with
      | panic => rfl
      | ok o =>
        cases o with
        | none => rfl
        | some q =>
          obtain ⟨i, v⟩ := q
          have hb := revSearch_bound L hR.fits hr
          have hR1 := hR.len
          have hR2 := hR.max
          dsimp only
          rw [hA.add_le (by fit), uadd_ok (by fit)]
          dsimp only
          by_cases h1 : i < s
          · by_cases h2 : i + S.len v < e
            · rw [if_pos h1, if_pos h2, if_pos ⟨h1, h2⟩]
            · rw [if_pos h1, if_neg h2, if_neg (fun h => h2 h.2)]
          · rw [if_neg h1, if_neg (fun h => h1 h.1)]

omit hA in
theorem grepBody_mono {re : Regex} {f g : Nat → Option (Res (Option (Nat × T)))}
    (hfg : ∀ o r, f o = some r → g o = some r) {off : Nat} {r : Res (Option (Nat × T))}
    (h : grepBody S re bytes f off = some r) : grepBody S re bytes g off = some r := by
  unfold grepBody at h ⊢
  by_cases hge : off ≥ bytes.length
  · rw [if_pos hge] at h ⊢; exact h
  · rw [if_neg hge] at h ⊢
    cases hf : re.findAt bytes off with
    | none => rw [hf] at h; exact h
    | some p =>
      obtain ⟨s, e⟩ := p
      rw [hf] at h
      dsimp only at h ⊢
      cases hr : revSearch S bytes s with
      | panic => rw [hr] at h; exact h
      | ok o =>
        rw [hr] at h
        cases o with
        | none =>
          dsimp only at h ⊢
          by_cases h1 : e ≥ bytes.length
          · rw [if_pos h1] at h ⊢; exact h
          · rw [if_neg h1] at h ⊢; exact hfg _ _ h
        | some q =>
          obtain ⟨i, v⟩ := q
          dsimp only at h ⊢
          cases hu : uadd i (S.len v) with
          | panic => rw [hu] at h; exact h
          | ok n =>
            rw [hu] at h
            dsimp only at h ⊢
            by_cases h1 : i < s ∧ n < e
            · rw [if_pos h1] at h ⊢; exact hfg _ _ h
            · rw [if_neg h1] at h ⊢; exact h

theorem grepSearchA_eq (L : Reads S) (hR : Room M bytes) (re : Regex) (off : Nat) :
    grepSearchA A S re bytes off = grepSearch S re bytes off := by
  have hu : ∀ o, grepSearchA A S re bytes o = grepBody S re bytes (grepSearchA A S re bytes) o := by
    intro o
    rw [← grepBodyA_eq hA L hR]
    rw [grepSearchA]; rfl
  have h1 : ∀ r, grepSearch S re bytes off = some r → grepSearchA A S re bytes off = some r := by
    refine fun r => grepSearch.partial_correctness S re bytes (fun o r => grepSearchA A S re bytes o = some r) ?_ off r
    intro f ih o r hr
    have hr' : grepBody S re bytes f o = some r := hr
    rw [hu]
    exact grepBody_mono ih hr'
  have h2 : ∀ r, grepSearchA A S re bytes off = some r → grepSearch S re bytes off = some r := by
    refine fun r => grepSearchA.partial_correctness A S re bytes (fun o r => grepSearch S re bytes o = some r) ?_ off r
    intro f ih o r hr
    have hr' : grepBodyA A S re bytes f o = some r := hr
    rw [grepBodyA_eq hA L hR] at hr'
    rw [grepSearch_unfold]
    exact grepBody_mono ih hr'
  cases h : grepSearch S re bytes off with
  | some r => exact h1 r h
  | none =>
    cases h' : grepSearchA A S re bytes off with
    | none => rfl
    | some r => rw [h2 r h'] at h; cases h

theorem grepNextA_eq (L : Lawful S) (hR : Room M bytes) (re : Regex) (off : Nat) :
    grepNextA A S re bytes off = grepNext S re bytes off := by
  unfold grepNextA grepNext
  rw [grepSearchA_eq hA L.toReads hR]
  cases hs : grepSearch S re bytes off with
  | none => rfl
  | some r =>
    obtain ⟨o, rfl, ho⟩ := grepSearch_sound L hR.fits off r hs
    cases o with
    | none => rfl
    | some x =>
      obtain ⟨i, v⟩ := x
      have hb := (ho i v rfl).1.bounds L
      have hF' := fits_le hR.fits
      have hR1 := hR.len
      have hR2 := hR.max
      dsimp only
      rw [hA.add_uadd hR2 (by fit)]
      rfl

/-- The body of `capture` in the build `A`. -/
def regexBodyA (A : Arith) (S : SearchableMarker T) (re : Regex) (bytes : Bytes)
    (f : Nat → Option (Res (Option (Nat × (Nat × Nat))))) (offset : Nat) : Option (Res (Option (Nat × (Nat × Nat)))) :=
  if offset ≥ bytes.length then some (.ok none)
  else
    match re.capturesAt bytes offset with
    | none => some (.ok none)
    | some (start, stop, group) =>
      match revSearch S bytes start with
      | .panic => some .panic
      | .ok (some (off, val)) =>
        let found := match group with
          | some g => some (.ok (some (off, g)))
          | none => some (.ok none)
        if off < start then
          match A.add off (S.len val) with
          | .panic => some .panic
          | .ok e => if e < stop then f stop else found
        else found
      | .ok none => if stop ≥ bytes.length then some (.ok none) else f stop

theorem regexBodyA_eq (L : Reads S) (hR : Room M bytes) (re : Regex) (f : Nat → Option (Res (Option (Nat × (Nat × Nat)))))
    (off : Nat) : regexBodyA A S re bytes f off = regexBody S re bytes f off := by
  unfold regexBodyA regexBody
  by_cases hge : off ≥ bytes.length
  · rw [if_pos hge, if_pos hge]
  · rw [if_neg hge, if_neg hge]
    cases re.capturesAt bytes off with
    | none => rfl
    | some p =>
      obtain ⟨s, e, g⟩ := p
      dsimp only
      cases hr : revSearch S bytes s with
      | panic => rfl
      | ok o =>
        cases o with
        | none => rfl
        | some q =>
          obtain ⟨i, v⟩ := q
          have hb := revSearch_bound L hR.fits hr
          have hR1 := hR.len
          have hR2 := hR.max
          dsimp only
          rw [hA.add_le (by fit), uadd_ok (by fit)]
          dsimp only
          by_cases h1 : i < s
          · by_cases h2 : i + S.len v < e
            · rw [if_pos h1, if_pos h2, if_pos ⟨h1, h2⟩]
            · rw [if_pos h1, if_neg h2, if_neg (fun h => h2 h.2)]; rfl
          · rw [if_neg h1, if_neg (fun h => h1 h.1)]; rfl

omit hA in
theorem regexBody_mono {re : Regex} {f g : Nat → Option (Res (Option (Nat × (Nat × Nat))))}
    (hfg : ∀ o r, f o = some r → g o = some r) {off : Nat} {r : Res (Option (Nat × (Nat × Nat)))}
    (h : regexBody S re bytes f off = some r) : regexBody S re bytes g off = some r := by
  unfold regexBody at h ⊢
  by_cases hge : off ≥ bytes.length
  · rw [if_pos hge] at h ⊢; exact h
  · rw [if_neg hge] at h ⊢
    cases hf : re.capturesAt bytes off with
    | none => rw [hf] at h; exact h
    | some p =>
      obtain ⟨s, e, gr⟩ := p
      rw [hf] at h
      dsimp only at h ⊢
      cases hr : revSearch S bytes s with
      | panic => rw [hr] at h; exact h
      | ok o =>
        rw [hr] at h
        cases o with
        | none =>
          dsimp only at h ⊢
          by_cases h1 : e ≥ bytes.length
          · rw [if_pos h1] at h ⊢; exact h
          · rw [if_neg h1] at h ⊢; exact hfg _ _ h
        | some q =>
          obtain ⟨i, v⟩ := q
          dsimp only at h ⊢
          cases hu : uadd i (S.len v) with
          | panic => rw [hu] at h; exact h
          | ok n =>
            rw [hu] at h
            dsimp only at h ⊢
            by_cases h1 : i < s ∧ n < e
            · rw [if_pos h1] at h ⊢; exact hfg _ _ h
            · rw [if_neg h1] at h ⊢; exact h

theorem regexCaptureA_eq (L : Reads S) (hR : Room M bytes) (re : Regex) (off : Nat) :
    regexCaptureA A S re bytes off = regexCapture S re bytes off := by
  have hu : ∀ o, regexCaptureA A S re bytes o = regexBody S re bytes (regexCaptureA A S re bytes) o := by
    intro o
    rw [← regexBodyA_eq hA L hR]
    rw [regexCaptureA]; rfl
  have h1 : ∀ r, regexCapture S re bytes off = some r → regexCaptureA A S re bytes off = some r := by
    refine fun r => regexCapture.partial_correctness S re bytes (fun o r => regexCaptureA A S re bytes o = some r) ?_ off r
    intro f ih o r hr
    have hr' : regexBody S re bytes f o = some r := hr
    rw [hu]
    exact regexBody_mono ih hr'
  have h2 : ∀ r, regexCaptureA A S re bytes off = some r → regexCapture S re bytes off = some r := by
    refine fun r => regexCaptureA.partial_correctness A S re bytes (fun o r => regexCapture S re bytes o = some r) ?_ off r
    intro f ih o r hr
    have hr' : regexBodyA A S re bytes f o = some r := hr
    rw [regexBodyA_eq hA L hR] at hr'
    rw [regexCapture_unfold]
    exact regexBody_mono ih hr'
  cases h : regexCapture S re bytes off with
  | some r => exact h1 r h
  | none =>
    cases h' : regexCaptureA A S re bytes off with
    | none => rfl
    | some r => rw [h2 r h'] at h; cases h

theorem regexNextA_eq (L : Lawful S) (hR : Room M bytes) (re : Regex) (off : Nat) :
    regexNextA A S re bytes off = regexNext S re bytes off := by
  unfold regexNextA regexNext
  rw [regexCaptureA_eq hA L.toReads hR]
  cases hs : regexCapture S re bytes off with
  | none => rfl
  | some r =>
    obtain ⟨o, rfl, ho⟩ := regexCapture_sound L hR.fits off r hs
    cases o with
    | none => rfl
    | some x =>
      obtain ⟨i, a, b⟩ := x
      obtain ⟨v, h1, s, e, h2, -, -, h3⟩ := ho i (a, b) rfl
      have hb := h1.bounds L
      have h4 := re.law _ _ _ _ h2
      have h5 := h4.2.2 a b rfl
      have hF' := fits_le hR.fits
      have hR1 := hR.len
      have hR2 := hR.max
      dsimp only
      rw [hA.add_uadd hR2 (by fit)]
      rfl

/-! ## Cutting a file into slices -/

theorem containedByLoopA_eq_of (L : Lawful S) (hR : Room M bytes) {p0 p1 base : Nat} (hp0 : p0 < bytes.length)
    (ih : ∀ c, c < p0 → ∀ q, containedByA A S bytes c q = containedBy S bytes c q) (xs : List Nat)
    (hxs : ∀ x ∈ xs, x + base ≤ bytes.length) :
    containedByLoopA A S bytes p0 p1 base xs = containedByLoop S bytes p0 p1 (xs.map (· + base)) := by
  have hF := hR.fits
  have hF' := fits_le hF
  have hR1 := hR.len
  have hR2 := hR.max
  induction xs with
  | nil => rw [containedByLoopA, List.map_nil, containedByLoop]
  | cons x xs ihx =>
    have hx := hxs x List.mem_cons_self
    have hrest := ihx fun y hy => hxs y (List.mem_cons_of_mem _ hy)
    rw [List.map_cons]
    by_cases hc : x + base ≥ p0
    · rw [containedByLoopA, containedByLoop, dif_pos hc, hA.add_le (by fit)]
      dsimp only
      rw [dif_pos hc]
    · rw [containedByLoopA, containedByLoop, dif_neg hc, hA.add_le (by fit)]
      dsimp only
      rw [dif_neg hc]
      simp only [sliceFrom_ok hx]
      rcases Lawful_tryRead_cases L bytes (x + base) with ⟨h1, h2⟩ | ⟨v, h1, h2⟩
      · rw [h1]; exact hrest
      · have hb := h2.bounds L
        rw [h1]
        dsimp only
        rw [hA.add_le (by fit), uadd_ok (by fit)]
        dsimp only
        by_cases h3 : x + base + S.len v ≥ p1
        · rw [if_pos h3, if_pos h3, hA.add_le (by fit)]
          dsimp only
          rw [ih _ (by omega), hrest]
          rfl
        · rw [if_neg h3, if_neg h3]; exact hrest

theorem containedByA_eq (L : Lawful S) (hR : Room M bytes) (p0 p1 : Nat) :
    containedByA A S bytes p0 p1 = containedBy S bytes p0 p1 := by
  induction p0 using Nat.strongRecOn generalizing p1 with
  | ind p0 ih =>
    rw [containedByA, containedBy_unfold]
    by_cases h : p0 ≥ bytes.length ∨ p1 ≥ bytes.length ∨ p0 ≥ p1 ∨ p1 = 0
    · rw [if_pos h, if_pos h]
    · rw [if_neg h, if_neg h]
      simp only [sliceFrom_ok (show p0 - S.maxLen ≤ bytes.length by omega)]
      refine containedByLoopA_eq_of hA L hR (by omega) (fun c hc q => ih c hc q) _ fun x hx => ?_
      have := ((candidates_spec L bytes (p0 - S.maxLen)).1 (x + (p0 - S.maxLen))).1 (List.mem_map.2 ⟨x, hx, rfl⟩)
      have := this.2.lt
      omega

theorem partitionLoopA_eq (L : Lawful S) (hR : Room M bytes) (size c0 c1 : Nat) (hs : size ≤ bytes.length) :
    partitionLoopA A S bytes size c0 c1 = partitionLoop S bytes size c0 c1 := by
  have hF := hR.fits
  have hF' := fits_le hF
  have hR1 := hR.len
  have hR2 := hR.max
  generalize hk : bytes.length - c0 = k
  induction k using Nat.strongRecOn generalizing c0 c1 with
  | ind k ih =>
    by_cases h : c0 > bytes.length ∨ c1 > bytes.length
    · rw [partitionLoopA, partitionLoop, if_pos h, if_pos h]
    · rw [partitionLoopA, partitionLoop, if_neg h, if_neg h, hA.add_le (by fit)]
      dsimp only
      rw [containedByA_eq hA L hR]
      obtain ⟨r, hr, hsound⟩ := containedBy_sound L hF c1 (c1 + 1)
      rw [hr]
      dsimp only
      have key : ∀ c, c ≤ bytes.length →
          (if h0 : c0 ≥ c then Res.ok ([] : List (Nat × Nat))
           else
            match A.add c (size / 4) with
            | .panic => .panic
            | .ok q =>
              if q ≥ bytes.length then
                match sliceFrom bytes c0 with
                | .panic => .panic
                | .ok _ => .ok [(c0, bytes.length)]
              else
                match hs : slice bytes c0 c with
                | .panic => .panic
                | .ok _ =>
                  match A.add c size with
                  | .panic => .panic
                  | .ok c2 =>
                    match partitionLoopA A S bytes size c c2 with
                    | .panic => .panic
                    | .ok rest => .ok ((c0, c) :: rest)) =
          (if h0 : c0 ≥ c then .ok []
           else if h1 : c + size / 4 ≥ bytes.length then
            match sliceFrom bytes c0 with
            | .panic => .panic
            | .ok _ => .ok [(c0, bytes.length)]
           else match slice bytes c0 c with
            | .panic => .panic
            | .ok _ => match partitionLoop S bytes size c (c + size) with
              | .panic => .panic
              | .ok rest => .ok ((c0, c) :: rest)) := by
        intro c hc
        by_cases h0 : c0 ≥ c
        · rw [dif_pos h0, dif_pos h0]
        · rw [dif_neg h0, dif_neg h0, hA.add_le (by fit)]
          dsimp only
          by_cases h1 : c + size / 4 ≥ bytes.length
          · rw [if_pos h1, dif_pos h1]
          · have hsl := slice_ok (show c0 ≤ c by omega) hc
            rw [if_neg h1, dif_neg h1, hsl]
            split
            · next h2 => cases h2
            · rw [hA.add_le (by fit)]
              dsimp only
              rw [ih (bytes.length - c) (by omega) c (c + size) rfl]
      cases r with
      | none => exact key c1 (by omega)
      | some x =>
        obtain ⟨c, v⟩ := x
        obtain ⟨h1, h2, h3, h4, h5, h6⟩ := hsound c v rfl
        exact key c (by omega)

theorem partitionRangesA_eq (L : Lawful S) (hR : Room M bytes) (num : Nat) :
    partitionRangesA A S bytes num = partitionRanges S bytes num := by
  unfold partitionRangesA partitionRanges
  by_cases h : num = 0
  · rw [if_pos h, if_pos h]
  · rw [if_neg h, if_neg h, partitionLoopA_eq hA L hR _ _ _ (Nat.div_le_self _ _)]

theorem partitionFromA_eq (L : Lawful S) (hR : Room M bytes) (num : Nat) :
    partitionFromA A S bytes num = partitionFrom S bytes num := by
  unfold partitionFromA partitionFrom
  rw [partitionRangesA_eq hA L hR]
  rfl

end

end Verif
