import Verif.Lemmas.BuildRun
import Verif.Props.Text

/-! # The commands of `ripdlt` in any build -/

set_option linter.unusedSimpArgs false

namespace Verif

open Spec

section
variable {M : Nat} {A : Arith} (hA : ExactTo M A)
include hA

theorem bucketLineA_of {m : List (Nat × Nat)} {ls : List (Nat × Nat × Nat)} (h : bucketLines m = .ok ls)
    (hM : ∀ e ∈ m, e.1 + 1 ≤ M) : printLoop (bucketLineA A) m = printLoop bucketLine m := by
  induction m generalizing ls with
  | nil => rfl
  | cons e m ih =>
    obtain ⟨k, v⟩ := e
    rw [bucketLines] at h
    cases hu : uadd k 1 with
    | panic => rw [hu] at h; cases h
    | ok k' =>
      rw [hu] at h
      simp only [Res.bind] at h
      cases hr : bucketLines m with
      | panic => rw [hr] at h; cases h
      | ok ls' =>
        rw [printLoop, printLoop, ih hr fun e he => hM e (List.mem_cons_of_mem _ he)]
        have : bucketLineA A (k, v) = bucketLine (k, v) := by
          unfold bucketLineA bucketLine
          have hle : k' ≤ M := (uadd_le hu).1 ▸ hM (k, v) (List.mem_cons_self ..)
          simp only [hA.of_uadd hu hle, hu]
        rw [this]

omit hA in
theorem bind_same {α β : Type} {x y : Res α} {f g : α → Res β} {a : α} (hx : x = .ok a) (hy : y = .ok a)
    (h : f a = g a) : x.bind f = y.bind g := by
  subst hx hy
  exact h

omit hA in
theorem bind_inv {α β : Type} {x : Res α} {f : α → Res β} {b : β} (h : x.bind f = .ok b) : ∃ a, x = .ok a ∧ f a = .ok b := by
  cases x with
  | panic => cases h
  | ok a => exact ⟨a, rfl, h⟩

theorem offsetLineA_one {k v a k' b : Nat} (hu : umul k 100000000 = .ok a) (hu2 : uadd k 1 = .ok k')
    (hu3 : umul k' 100000000 = .ok b) (hM : (k + 1) * 100000000 ≤ M) : offsetLineA A (k, v) = offsetLine (k, v) := by
  have h1 := umul_val hu
  have h2 := (uadd_le hu2).1
  have h3 := umul_val hu3
  subst h2
  unfold offsetLineA offsetLine
  dsimp only
  rw [hA.of_umul hu (by omega), hu, Res.ok_bind', Res.ok_bind', hA.of_uadd hu2 (by omega), hu2, Res.ok_bind', Res.ok_bind', hA.of_umul hu3 (by omega), hu3]

omit hA in
theorem offsetLines_inv {k v : Nat} {m : List (Nat × Nat)} {ls : List (Nat × Nat × Nat)}
    (h : offsetLines ((k, v) :: m) = .ok ls) : ∃ a k' b ls', umul k 100000000 = .ok a ∧ uadd k 1 = .ok k' ∧
      umul k' 100000000 = .ok b ∧ offsetLines m = .ok ls' := by
  rw [offsetLines] at h
  obtain ⟨a, hu, h⟩ := bind_inv h
  obtain ⟨k', hu2, h⟩ := bind_inv h
  obtain ⟨b, hu3, h⟩ := bind_inv h
  obtain ⟨ls', hr, -⟩ := bind_inv h
  exact ⟨a, k', b, ls', hu, hu2, hu3, hr⟩

theorem offsetLineA_of {m : List (Nat × Nat)} {ls : List (Nat × Nat × Nat)} (h : offsetLines m = .ok ls)
    (hM : ∀ e ∈ m, (e.1 + 1) * 100000000 ≤ M) : printLoop (offsetLineA A) m = printLoop offsetLine m := by
  induction m generalizing ls with
  | nil => rw [printLoop, printLoop]
  | cons e m ih =>
    obtain ⟨k, v⟩ := e
    obtain ⟨a, k', b, ls', hu, hu2, hu3, hr⟩ := offsetLines_inv h
    rw [printLoop, printLoop, ih hr fun e he => hM e (List.mem_cons_of_mem _ he)]
    rw [offsetLineA_one hA hu hu2 hu3 (hM (k, v) (List.mem_cons_self ..))]

omit hA in
theorem totalSize_grows {m : List (Nat × Nat)} {t n : Nat} (h : totalSize t m = .ok n) : t ≤ n := by
  induction m generalizing t with
  | nil => cases h; exact Nat.le_refl _
  | cons e m ih =>
    obtain ⟨k, v⟩ := e
    rw [totalSize] at h
    obtain ⟨size, hu, h⟩ := bind_inv h
    obtain ⟨t', hu2, h⟩ := bind_inv h
    have := ih h
    have := (uadd_le hu2).1
    omega

theorem sizeLoopA_of (label : String) {m : List (Nat × Nat)} {t n : Nat} (h : totalSize t m = .ok n) (hM : n ≤ M) :
    sizeLoopA A label t m = sizeLoop label t m := by
  induction m generalizing t with
  | nil => rfl
  | cons e m ih =>
    obtain ⟨k, v⟩ := e
    rw [totalSize] at h
    cases hu : umul k v with
    | panic => rw [hu] at h; cases h
    | ok size =>
      rw [hu] at h
      simp only [Res.bind] at h
      cases hu2 : uadd t size with
      | panic => rw [hu2] at h; cases h
      | ok t' =>
        rw [hu2] at h
        rw [sizeLoopA, sizeLoop]
        have h1 := totalSize_grows h
        have h2 := (uadd_le hu2).1
        simp only [hA.of_umul hu (by omega), hu, hA.of_uadd hu2 (by omega), hu2, ih h]

variable {bytes : Bytes} (hR : Room M bytes)
include hR

theorem slicesLineA_eq (num : Nat) : slicesLineA A num bytes = slicesLine num bytes := by
  unfold slicesLineA slicesLine
  rw [partitionRangesA_eq hA dlt_lawful hR]
  rfl

omit hA hR in
/-- A command whose function and printing agree. -/
theorem around_iff {α : Type} {f fA : Option (Res α)} {head : Bytes} {body bodyA : α → Bytes × Bool} {out : Bytes × Bool}
    (h : ∃ v, f = some v ∧ fA = some v) (hb : ∀ a, f = some (.ok a) → bodyA a = body a) :
    (∃ q, fA = some q ∧ out = around head q bodyA) ↔ ∃ q, f = some q ∧ out = around head q body := by
  obtain ⟨v, rfl, rfl⟩ := h
  have key : around head v bodyA = around head v body := by
    cases v with
    | panic => rfl
    | ok a => simp only [around, hb a rfl]
  constructor
  · rintro ⟨q, hq, ho⟩
    cases hq
    exact ⟨v, rfl, by rw [ho, key]⟩
  · rintro ⟨q, hq, ho⟩
    cases hq
    exact ⟨v, rfl, by rw [ho, key]⟩

omit hA hR in
/-- The same for a command on several threads. -/
theorem around_par {α : Type} {P PA : Res α → Prop} {head : Bytes} {body bodyA : α → Bytes × Bool} {out : Bytes × Bool}
    (h : ∀ r, PA r ↔ P r) (hb : ∀ a, P (.ok a) → bodyA a = body a) :
    (∃ q, PA q ∧ out = around head q bodyA) ↔ ∃ q, P q ∧ out = around head q body := by
  have key : ∀ q, P q → around head q bodyA = around head q body := by
    intro q hq
    cases q with
    | panic => rfl
    | ok a => simp only [around, hb a hq]
  constructor
  · rintro ⟨q, hq, ho⟩
    exact ⟨q, (h q).1 hq, by rw [ho, key q ((h q).1 hq)]⟩
  · rintro ⟨q, hq, ho⟩
    exact ⟨q, (h q).2 hq, by rw [ho, key q hq]⟩

omit hR in
theorem parIterLinesA_iff {slices : List Bytes} (hs : ∀ s ∈ slices, Room M s) (ok : Bool) (lines : List Bytes) :
    ParIterLinesA A slices ok lines ↔ ParIterLines slices ok lines := by
  have h1 : ∀ s ∈ slices, iterLineA A s = iterLine s := by
    intro s hs'
    obtain ⟨v, h1, h2, -⟩ := lifecycleIterA_eq hA (hs s hs')
    unfold iterLineA iterLine
    rw [h1, h2]
    cases v <;> rfl
  have h2 : slices.map (iterLineA A) = slices.map iterLine := List.map_congr_left h1
  have h3 : slices.filterMap (iterLineA A) = slices.filterMap iterLine := by
    clear hs h2
    induction slices with
    | nil => rfl
    | cons s slices ih =>
      rw [List.filterMap_cons, List.filterMap_cons, h1 s (List.mem_cons_self ..),
        ih fun s hs => h1 s (List.mem_cons_of_mem _ hs)]
  unfold ParIterLinesA ParIterLines
  rw [h2, h3]


omit hA hR in
theorem hist_key {κ : Type} [Key κ] [DecidableEq κ] {keys : List κ} {m : List (κ × Nat)} (h : IsHistogram keys m) {e : κ × Nat}
    (he : e ∈ m) : e.1 ∈ keys := by
  obtain ⟨h9, h10⟩ := (h.mem e.1 e.2).1 he
  exact List.count_pos_iff.1 (h10 ▸ h9)

omit hA hR in
theorem timeSpanOf_lt (r : List StorageEntry) : timeSpanOf r < 2 ^ 32 := by
  unfold timeSpanOf
  split
  · rename_i a b _ _
    have : time b < 2 ^ 32 := by
      unfold time timeOf
      split
      · split
        · rename_i w x y z _ _
          simp only [Option.getD_some]
          unfold beVal
          have := w.toNat_lt; have := x.toNat_lt; have := y.toNat_lt; have := z.toNat_lt
          omega
        · decide
      · decide
    omega
  · decide

omit hA hR in
theorem payload_sum {bytes : Bytes} {msgs : List StorageEntry} (h : Messages bytes msgs) :
    (msgs.map fun e => ((payloadOf e).getD []).length).sum ≤ bytes.length := by
  refine Nat.le_trans ?_ (messages_sum h).1
  clear h
  induction msgs with
  | nil => simp
  | cons e msgs ih =>
    have h5 : ((payloadOf e).getD []).length ≤ (encode e).length := by
      have h6 : e.dlt.tail.length ≤ (encode e).length := by
        simp only [encode, List.length_append]
        omega
      unfold payloadOf
      split
      · simp only [Option.getD_some, List.length_drop]; omega
      · simp
    simp only [List.map_cons, List.sum_cons]
    omega

/-- Every command whose last line has room prints the same and ends the same way. -/
theorem commands_to (h32 : 2 ^ 32 - 1 ≤ M) (num : Nat) (c : Cmd) (out : Bytes × Bool)
    (h1 : c = .histogramTimestamp → ∀ m, timestampHistogram bytes = some (.ok m) → ∀ e ∈ m, e.1 + 1 ≤ M)
    (h2 : c = .parHistogramTimestamp → ∀ m, ParTimestampHistogram bytes num (.ok m) → ∀ e ∈ m, e.1 + 1 ≤ M) :
    CmdTextA A num bytes c out ↔ CmdText num bytes c out := by
  have hF := hR.fits
  have hlen := hR.len
  obtain ⟨msgs, hm⟩ := messages_exists hF
  have drop : ∀ {α : Type} {x y : Option (Res α)} {P : Res α → Prop}, (∃ v, x = some v ∧ y = some v ∧ P v) →
      ∃ v, x = some v ∧ y = some v := fun ⟨v, h1, h2, _⟩ => ⟨v, h1, h2⟩
  cases c with
  | histogramLifecycles =>
    refine around_iff (lifecycleHistogramA_eq hA hR) fun m h => ?_
    obtain ⟨h1, h2⟩ := C48_lifecycle_histogram_partial bytes hF msgs hm
    by_cases hc : TimesComplete msgs
    · obtain ⟨runs, m', -, h3, h5, -, h4⟩ := h2 hc
      rw [h] at h3
      cases h3
      refine bucketLineA_of hA h4 fun e he => ?_
      obtain ⟨r, -, hr⟩ := List.mem_map.1 (hist_key h5 he)
      have := timeSpanOf_lt r
      omega
    · rw [h1.2 hc] at h; cases h
  | splitLifecycles => exact around_iff (lifecycleSplitA_eq hA hR) fun _ _ => rfl
  | splitTimestamp => exact around_iff (timestampSplitA_eq hA hR) fun _ _ => rfl
  | parSplitTimestamp =>
    unfold CmdTextA CmdText
    dsimp only
    rw [slicesLineA_eq hA hR]
    exact around_par (parTimestampSplitA_iff hA hR num) fun _ _ => rfl
  | histogramTimestamp =>
    refine around_iff (timestampHistogramA_eq hA hR) fun m h => ?_
    obtain ⟨runs, m', -, h3, -, -, -, h4⟩ := C46_timestamp_histogram bytes hF msgs hm
    rw [h] at h3
    cases h3
    exact bucketLineA_of hA h4 (h1 rfl _ h)
  | parHistogramTimestamp =>
    unfold CmdTextA CmdText
    dsimp only
    rw [slicesLineA_eq hA hR]
    refine around_par (parTimestampHistogramA_iff hA hR num) fun m h => ?_
    have h3 := h2 rfl m h
    refine bucketLineA_of hA (bucketLines_ok m fun e he => ?_) h3
    by_cases hnum : num = 0
    · unfold ParTimestampHistogram at h
      rw [(C30_partition_panics_iff bytes hF num).2 hnum] at h
      cases h
    · obtain ⟨slices, runss, m', -, h1, -, h4⟩ := C35_par_histogram bytes num hnum hF
      have h5 := (h1 _).1 h
      cases h5
      obtain ⟨r, -, hr⟩ := List.mem_map.1 (hist_key h4 he)
      rw [← hr]
      exact secSpanOf_lt r
  | histogramMessageType => exact around_iff (mstpInfoHistogramA_eq hA hR) fun _ _ => rfl
  | histogramPayloadSize =>
    refine around_iff (histogramPayloadA_eq hA hR) fun m h => ?_
    obtain ⟨h1, h2⟩ := C50_payload_sizes_partial bytes hF msgs hm
    by_cases hc : ∃ e ∈ msgs, flag e.dlt 0 = true ∧ e.dlt.tail.length < optLen e.dlt
    · rw [h1.2 hc] at h; cases h
    · obtain ⟨m', h3, -, -, h4⟩ := h2 fun e he hf => by
        by_cases hl : e.dlt.tail.length < optLen e.dlt
        · exact absurd ⟨e, he, hf, hl⟩ hc
        · omega
      rw [h] at h3
      cases h3
      exact sizeLoopA_of hA _ h4 (by have := payload_sum hm; omega)
  | histogramMessageSize =>
    refine around_iff (histogramMessageA_eq hA hR) fun m h => ?_
    obtain ⟨m', h3, -, -, -, h5, h4⟩ := C45_message_sizes bytes hF msgs hm
    rw [h] at h3
    cases h3
    exact sizeLoopA_of hA _ h4 (by omega)
  | count => exact around_iff (drop (ripCountA_eq hA hR)) fun _ _ => rfl
  | parCount =>
    unfold CmdTextA CmdText
    dsimp only
    rw [slicesLineA_eq hA hR]
    exact around_par (multithreadedA_iff hA hR num fun h => ripCountA_eq hA h) fun _ _ => rfl
  | histogramHelloWorld =>
    refine around_iff (histogramHelloWorldA_eq hA hR) fun m h => ?_
    obtain ⟨hits, m', -, -, h6, h3, h5, -, h4⟩ := C63_histogram_hello_world bytes hF
    rw [h] at h3
    cases h3
    refine offsetLineA_of hA h4 fun e he => ?_
    obtain ⟨x, hx, hk⟩ := List.mem_map.1 (hist_key h5 he)
    have h7 := (readableAt_iff_msgAt.2 (h6 x hx).1).bounds dlt_lawful
    omega
  | countHelloWorld => exact around_iff (drop (countHelloWorldA_eq hA hR)) fun _ _ => rfl
  | countHelloWorldRaw => exact around_iff (drop (countHelloWorldRawA_eq hA hR)) fun _ _ => rfl
  | countHelloWorldGrepit => exact around_iff (drop (countHelloWorldGrepitA_eq hA hR)) fun _ _ => rfl
  | parCountHelloWorld =>
    unfold CmdTextA CmdText
    dsimp only
    rw [slicesLineA_eq hA hR]
    exact around_par (multithreadedA_iff hA hR num fun h => countHelloWorldA_eq hA h) fun _ _ => rfl
  | parCountHelloWorldRaw =>
    unfold CmdTextA CmdText
    dsimp only
    rw [slicesLineA_eq hA hR]
    exact around_par (multithreadedA_iff hA hR num fun h => countHelloWorldRawA_eq hA h) fun _ _ => rfl
  | parCountHelloWorldGrepit =>
    unfold CmdTextA CmdText
    dsimp only
    rw [slicesLineA_eq hA hR]
    exact around_par (multithreadedA_iff hA hR num fun h => countHelloWorldGrepitA_eq hA h) fun _ _ => rfl
  | parIter =>
    unfold CmdTextA CmdText
    dsimp only
    rw [slicesLineA_eq hA hR, partitionFromA_eq hA dlt_lawful hR]
    refine exists_congr fun q => exists_congr fun slices => exists_congr fun lines => ?_
    rw [multithreadedA_iff hA hR num fun h => lifecycleIterA_eq hA h]
    refine and_congr_right fun _ => and_congr_right fun hp => and_congr_right fun _ => ?_
    rw [parIterLinesA_iff hA (partition_room hR hp).2]
  | iter => exact around_iff (drop (lifecycleIterA_eq hA hR)) fun _ _ => rfl
  | itertools => exact around_iff (lifecycleItertoolsA_eq hA hR) fun _ _ => rfl

end


end Verif
