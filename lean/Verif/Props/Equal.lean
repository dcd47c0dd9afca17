import Verif.Lemmas.Equal
import Verif.Props.ParallelIff
import Verif.Props.Witness
import Verif.Props.Truncate

/-! # C126: how many of equally long messages the multithreaded commands see -/

set_option linter.unusedSimpArgs false

namespace Verif

open Spec

/-! ## From the size of a slice to the number of messages in it -/

section
variable {k L num : Nat}

theorem slice_size (hnum : 0 < num) : k * L / num = k / num * L + k % num * L / num := by
  conv => lhs; rw [← Nat.div_add_mod k num]
  rw [Nat.add_mul, Nat.mul_assoc, Nat.mul_add_div hnum]

theorem slice_rest (hnum : 0 < num) (hL : 0 < L) : k % num * L / num < L := by
  rw [Nat.div_lt_iff_lt_mul hnum, Nat.mul_comm L num]
  exact Nat.mul_lt_mul_of_pos_right (Nat.mod_lt _ hnum) hL

theorem slice_quarter (hL : 0 < L) : k * L / num / 4 / L = k / (4 * num) := by
  rw [Nat.div_div_eq_div_mul, Nat.div_div_eq_div_mul, ← Nat.mul_assoc, Nat.mul_comm num 4, Nat.mul_div_mul_right _ _ hL]

theorem missedIn_eq (hnum : 0 < num) (hL : 0 < L) (hq : k / num ≠ 0) :
    missedIn (k % (k / num)) (k / num) (k * L / num) L = leftOut k L num := by
  have h1 := slice_size (k := k) (L := L) hnum
  unfold missedIn leftOut
  rw [if_neg hq, slice_quarter hL]
  have e1 : (k * L / num + 1 = (k / num + 1) * L) ↔ k % num * L / num + 1 = L := by
    rw [Nat.succ_mul, h1]; omega
  have e2 : (k * L / num = k / num * L) ↔ k % num * L < num := by
    rw [h1]
    constructor
    · intro h
      have : k % num * L / num = 0 := by omega
      rcases Nat.div_eq_zero_iff.1 this with h | h <;> omega
    · intro h
      rw [Nat.div_eq_of_lt h, Nat.add_zero]
  simp only [e1, e2]

theorem madeIn_eq (hnum : 0 < num) (hL : 0 < L) (hq : k / num ≠ 0) :
    madeIn k (k % (k / num)) (k / num) (k * L / num) L = slicesOf k L num := by
  have h1 := slice_size (k := k) (L := L) hnum
  unfold madeIn slicesOf
  rw [if_neg hq, missedIn_eq hnum hL hq]
  have e1 : (k * L / num + 1 = (k / num + 1) * L) ↔ k % num * L / num + 1 = L := by
    rw [Nat.succ_mul, h1]; omega
  simp only [e1]

end

section
variable {es : List StorageEntry} {k L : Nat}

theorem packed_equal_take : ∀ (es : List StorageEntry) (j : Nat), (∀ e ∈ es, (encode e).length = L) →
    (packed es).take (j * L) = packed (es.take j)
  | [], j, _ => by simp [packed]
  | e :: es, 0, _ => by simp [packed]
  | e :: es, j + 1, h => by
    have h1 := packed_equal_take es j fun e he => h e (List.mem_cons_of_mem _ he)
    have h2 := h e (List.mem_cons_self ..)
    unfold packed at h1 ⊢
    rw [List.take_succ_cons, List.map_cons, List.map_cons, List.flatten_cons, List.flatten_cons, ← h1, Nat.succ_mul, List.take_append,
      h2, List.take_of_length_le (by omega), Nat.add_sub_cancel]

theorem packed_equal_drop (es : List StorageEntry) (j : Nat) (h : ∀ e ∈ es, (encode e).length = L) :
    (packed es).drop (j * L) = packed (es.drop j) := by
  have h1 : packed es = packed (es.take j) ++ packed (es.drop j) := by
    conv => lhs; rw [← List.take_append_drop j es]
    unfold packed
    rw [List.map_append, List.flatten_append]
  by_cases hj : j ≤ es.length
  · have h2 : (packed (es.take j)).length = j * L := by
      rw [packed_length _ L fun e he => h e (List.mem_of_mem_take he), List.length_take, Nat.min_eq_left hj]
    rw [h1, ← h2, List.drop_left]
  · have h2 := Nat.mul_le_mul_right L (show es.length ≤ j by omega)
    rw [List.drop_of_length_le (by rw [packed_length es L h]; exact h2), List.drop_of_length_le (by omega)]
    rfl

theorem ranges_equal (h : Equals es k L) {num : Nat} (hnum : num ≠ 0) :
    ∃ rs, partitionRanges dltStorage (packed es) num = .ok rs ∧ Tiles 0 rs ((k - leftOut k L num) * L) ∧
      rs.length = slicesOf k L num ∧ ∀ x ∈ rs.dropLast, x.2 = x.1 + k / num * L := by
  have hL := h.min
  have hL0 : 0 < L := by omega
  have hn0 : 0 < num := by omega
  have hs := slice_size (k := k) (L := L) hn0
  have hr := slice_rest (k := k) hn0 hL0
  rw [partitionRanges_pos hnum, h.length]
  by_cases hq : k / num = 0
  · refine ⟨[], ?_, ?_, ?_, fun x hx => by cases hx⟩
    · rw [hq, Nat.zero_mul, Nat.zero_add] at hs
      by_cases hk : k = 0
      · subst hk
        rw [Nat.zero_mul, Nat.zero_div]
        exact partitionLoop_stop _ (cut_end h (by omega)) rfl (by omega) (by show 0 ≤ 0; omega)
      · have hkL := Nat.mul_le_mul_right L (show 1 ≤ k by omega)
        by_cases hp : k * L / num + 1 < k * L
        · obtain ⟨r, h1, h2⟩ := cut_equal h (p := k * L / num) (i := 0) hp (by rw [Nat.zero_mul]; exact Nat.zero_le _) (by rw [hs, Nat.zero_add, Nat.one_mul]; exact hr)
          exact partitionLoop_stop _ h1 h2 (by rw [h.length]; omega) (by omega)
        · -- one message, one byte less than it: impossible, as there is more than one thread
          exfalso
          have h3 : k < num := by
            rcases Nat.div_eq_zero_iff.1 hq with h3 | h3 <;> omega
          have h4 : k * L / num ≤ k * L / 2 := Nat.div_le_div_left (by omega) (by omega)
          omega
    · show 0 = _
      unfold leftOut
      rw [if_pos hq, Nat.sub_self, Nat.zero_mul]
    · unfold slicesOf
      rw [if_pos hq]
      rfl
  · have hqk : k / num ≤ k := Nat.div_le_self _ _
    obtain ⟨rs, h1, h2, h3, h4⟩ := loop_equal h (q := k / num) (s := k * L / num) (Nat.pos_of_ne_zero hq)
      (by rw [hs]; exact Nat.le_add_right _ _)
      (by rw [Nat.succ_mul]; omega) (k % (k / num)) k 0 (by omega) hqk rfl (by
        intro _ h5
        apply Classical.byContradiction
        intro h6
        have h7 : k / num = k := by omega
        -- then there is one thread, and the slice is the file
        have h8 : num < 2 := by
          apply Classical.byContradiction
          intro h9
          have h10 : k / num ≤ k / 2 := Nat.div_le_div_left (by omega) (by omega)
          omega
        have h11 : num = 1 := by omega
        subst h11
        rw [Nat.div_one, Nat.div_one, Nat.succ_mul] at h5
        omega)
    rw [missedIn_eq hn0 hL0 hq] at h2
    rw [madeIn_eq hn0 hL0 hq] at h3
    rw [Nat.zero_mul, Nat.zero_add] at h1
    rw [Nat.zero_mul] at h2
    exact ⟨rs, h1, h2, h3, h4⟩

theorem slices_groups {q : Nat} (hL : 0 < L) (hl : ∀ e ∈ es, (encode e).length = L) :
    ∀ {rs : List (Nat × Nat)} {a b : Nat}, Tiles (a * L) rs (b * L) → (∀ x ∈ rs.dropLast, x.2 = x.1 + q * L) →
      (rs.map fun r => ((packed es).take r.2).drop r.1) = (groups q rs.length ((es.take b).drop a)).map packed := by
  have cut : ∀ c d, ((packed es).take (d * L)).drop (c * L) = packed ((es.take d).drop c) := by
    intro c d
    rw [packed_equal_take es d hl]
    exact packed_equal_drop _ c fun e he => hl e (List.mem_of_mem_take he)
  have le : ∀ {rs : List (Nat × Nat)} {a b : Nat}, Tiles a rs b → a ≤ b := fun h => (tiles_bounds h).1
  intro rs
  induction rs with
  | nil => intro a b _ _; rfl
  | cons x rs ih =>
    intro a b h hd
    obtain ⟨c, d⟩ := x
    obtain ⟨rfl, h2, h3⟩ := h
    cases rs with
    | nil =>
      obtain rfl : d = b * L := h3
      show [((packed es).take (b * L)).drop (a * L)] = [packed ((es.take b).drop a)]
      rw [cut]
    | cons y rs =>
      rw [List.dropLast_cons_cons] at hd
      have hdq : d = (a + q) * L := by
        rw [Nat.add_mul]
        exact hd (a * L, d) (List.mem_cons_self ..)
      subst hdq
      have hab : a + q ≤ b := Nat.le_of_mul_le_mul_right (le h3) hL
      have h4 := ih h3 fun x hx => hd x (List.mem_cons_of_mem _ hx)
      rw [List.map_cons, h4]
      show _ = (((es.take b).drop a).take q :: groups q (rs.length + 1) (((es.take b).drop a).drop q)).map packed
      rw [List.map_cons, cut, List.drop_drop]
      congr 2
      rw [List.drop_take, List.drop_take, List.take_take, Nat.min_eq_left (by omega), Nat.add_sub_cancel_left]

/-- **C126** what `partition_from` makes of a file of `k` messages of `L` bytes: how many slices, and which messages are in
each of them. -/
theorem C126_slices (h : Equals es k L) (num : Nat) (hnum : num ≠ 0) :
    partitionFrom dltStorage (packed es) num =
      .ok ((groups (k / num) (slicesOf k L num) (es.take (k - leftOut k L num))).map packed) := by
  have hL := h.min
  obtain ⟨rs, h1, h2, h3, h4⟩ := ranges_equal h hnum
  rw [partitionFrom_of_ranges h1]
  rw [show (0 : Nat) = 0 * L from (Nat.zero_mul _).symm] at h2
  rw [slices_groups (by omega) h.len h2 h4, h3, List.drop_zero]

theorem groups_flatten {α : Type} (q : Nat) : ∀ (n : Nat) (xs : List α), n ≠ 0 → (groups q n xs).flatten = xs
  | 0, _, h => absurd rfl h
  | 1, xs, _ => by simp [groups]
  | n + 2, xs, _ => by
    show (xs.take q :: groups q (n + 1) (xs.drop q)).flatten = xs
    rw [List.flatten_cons, groups_flatten q (n + 1) _ (by omega), List.take_append_drop]

theorem groups_mem {α : Type} (q : Nat) : ∀ (n : Nat) (xs : List α), ∀ g ∈ groups q n xs, ∀ x ∈ g, x ∈ xs
  | 0, _, g, hg, _, _ => by cases hg
  | 1, xs, g, hg, x, hx => by
    obtain rfl : g = xs := List.mem_singleton.1 hg
    exact hx
  | n + 2, xs, g, hg, x, hx => by
    rcases List.mem_cons.1 hg with rfl | hg
    · exact List.mem_of_mem_take hx
    · exact List.mem_of_mem_drop (groups_mem q (n + 1) _ g hg x hx)

theorem slicesOf_zero (h : Equals es k L) {num : Nat} (hnum : num ≠ 0) (h0 : slicesOf k L num = 0) :
    k - leftOut k L num = 0 := by
  have hL := h.min
  obtain ⟨rs, -, h2, h3, -⟩ := ranges_equal h hnum
  rw [h0] at h3
  rw [List.length_eq_zero_iff.1 h3] at h2
  rcases Nat.mul_eq_zero.1 h2.symm with h4 | h4
  · exact h4
  · omega

/-- **C126** the messages read from the slices. -/
theorem C126_messages (h : Equals es k L) (num : Nat) (hnum : num ≠ 0) :
    ∃ slices, partitionFrom dltStorage (packed es) num = .ok slices ∧
      Each Messages slices (groups (k / num) (slicesOf k L num) (es.take (k - leftOut k L num))) ∧
      (groups (k / num) (slicesOf k L num) (es.take (k - leftOut k L num))).flatten = es.take (k - leftOut k L num) := by
  refine ⟨_, C126_slices h num hnum, ?_, ?_⟩
  · have : ∀ gs : List (List StorageEntry), (∀ g ∈ gs, ∀ e ∈ g, WF e) → Each Messages (gs.map packed) gs := by
      intro gs
      induction gs with
      | nil => intro _; trivial
      | cons g gs ih => exact fun hw => ⟨messages_packed (hw g (List.mem_cons_self ..)), ih fun g hg => hw g (List.mem_cons_of_mem _ hg)⟩
    exact this _ fun g hg e he => h.wf e (List.mem_of_mem_take (groups_mem _ _ _ g hg e he))
  · by_cases h0 : slicesOf k L num = 0
    · rw [h0, slicesOf_zero h hnum h0]
      rfl
    · exact groups_flatten _ _ _ h0

theorem leftOut_le (k L num : Nat) : leftOut k L num ≤ k := by
  have h1 : k / num ≤ k := Nat.div_le_self _ _
  have h2 : k % (k / num) ≤ k := Nat.mod_le _ _
  unfold leftOut
  repeat' split
  all_goals omega

/-- **C126** what `par_count` prints. -/
theorem C126_count (h : Equals es k L) (num : Nat) (hnum : num ≠ 0) (r : Res Report) :
    RunCmd num (packed es) .parCount r ↔ r = .ok (.number (k - leftOut k L num)) := by
  obtain ⟨slices, h1, h2, h3⟩ := C126_messages h num hnum
  obtain ⟨slices', mss', h5, h6, h7⟩ := C34_par_count_never_panics (packed es) num hnum h.fits
  rw [h1] at h5
  cases h5
  obtain rfl := each_messages_unique h2 h6
  rw [h3, List.length_take, h.count, Nat.min_eq_left (Nat.sub_le _ _)] at h7
  constructor
  · rintro ⟨q, hq, rfl⟩
    rw [(h7 q).1 hq]
    rfl
  · rintro rfl
    exact ⟨_, (h7 _).2 rfl, rfl⟩

/-- **C126** exactly when it prints what `count` prints. -/
theorem C126_iff (h : Equals es k L) (num : Nat) (hnum : num ≠ 0) :
    (∀ r, RunCmd num (packed es) .parCount r ↔ RunCmd num (packed es) .count r) ↔ leftOut k L num = 0 := by
  have h1 := C45_count (packed es) h.fits es (messages_packed h.wf)
  have hseq : ∀ r, RunCmd num (packed es) .count r ↔ r = .ok (.number k) := by
    intro r
    rw [h.count] at h1
    show printed (ripCount (packed es)) numberReport = some r ↔ _
    rw [h1]
    exact ⟨fun h2 => (Option.some.inj h2).symm, fun h2 => h2 ▸ rfl⟩
  have hle := leftOut_le k L num
  constructor
  · intro h2
    have h3 := (C126_count h num hnum _).1 ((h2 _).2 ((hseq _).2 rfl))
    simp only [Res.ok.injEq, Report.number.injEq] at h3
    omega
  · intro h2 r
    rw [C126_count h num hnum, hseq, h2, Nat.sub_zero]

/-- **C126** enough messages for the number of threads: then none is left out. -/
theorem C126_enough (k L num : Nat) (hnum : num ≠ 0) (h : 4 * num * num ≤ k) : leftOut k L num = 0 := by
  have hn0 : 0 < num := by omega
  have h1 : num ≤ k / (4 * num) := by
    rw [Nat.le_div_iff_mul_le (by omega), Nat.mul_comm]
    exact h
  have h2 : 4 * num ≤ k / num := by
    rw [Nat.le_div_iff_mul_le hn0]
    exact h
  have h3 : k % num < num := Nat.mod_lt _ hn0
  have h4 : k % (k / num) = k % num := by
    conv => lhs; rw [← Nat.div_add_mod k num, Nat.mul_comm, Nat.div_add_mod' k num]
    have h5 : k = k % num + k / num * num := by rw [Nat.add_comm, Nat.div_add_mod']
    conv => lhs; arg 1; rw [h5]
    rw [Nat.add_mul_mod_self_left, Nat.mod_eq_of_lt (by omega)]
  unfold leftOut
  rw [if_neg (by omega), h4]
  split
  · rfl
  · split
    · rename_i h5
      rw [h5, Nat.zero_mul, if_pos hn0]
    · rw [if_pos (by omega)]

/-- **C126** fewer messages than threads: then none is in a slice. -/
theorem C126_few (k L num : Nat) (h : k < num) : leftOut k L num = k ∧ slicesOf k L num = 0 := by
  have h1 : k / num = 0 := Nat.div_eq_of_lt h
  unfold leftOut slicesOf
  rw [if_pos h1, if_pos h1]
  exact ⟨rfl, rfl⟩

open Classical in
/-- **C126** `par_count_hello_world` does what `count_hello_world` does on the file without the last messages. -/
theorem C126_hello (h : Equals es k L) (num : Nat) (hnum : num ≠ 0) (r : Res Report) :
    RunCmd num (packed es) .parCountHelloWorld r ↔
      RunCmd num (packed (es.take (k - leftOut k L num))) .countHelloWorld r := by
  obtain ⟨slices, hp, hm, hflat⟩ := C126_messages h num hnum
  generalize groups (k / num) (slicesOf k L num) (es.take (k - leftOut k L num)) = mss at hm hflat
  have hF := h.fits
  have hfit := (partition_fits hF hp).2
  have hw : ∀ e ∈ es.take (k - leftOut k L num), WF e := fun e he => h.wf e (List.mem_of_mem_take he)
  have hF' : Fits (packed (es.take (k - leftOut k L num))) := by
    rw [← packed_equal_take es _ h.len]
    exact fits_take hF _
  have key : ∀ q, Multithreaded countHelloWorld (packed es) num q ↔
      some q = countHelloWorld (packed (es.take (k - leftOut k L num))) := by
    intro r
    have hseq := C49_count_hello_world_partial _ hF' _ (messages_packed hw)
    have hpar := C35_counters_sum countHelloWorld (packed es) num hF slices hp countHelloWorld_total
    rw [← hflat] at hseq ⊢
    by_cases hpan : ∃ e ∈ mss.flatten, payloadOf e = none
    · rw [hseq.1.2 hpan, Option.some.injEq]
      obtain ⟨e, he, hn⟩ := hpan
      obtain ⟨ms, hms, he⟩ := List.mem_flatten.1 he
      obtain ⟨s, hs, h1⟩ := each_right hm ms hms
      exact hpar.1 ⟨s, hs, (C49_count_hello_world_partial s (hfit s hs) ms h1).1.2 ⟨e, he, hn⟩⟩ r
    · have hall : ∀ e ∈ mss.flatten, (payloadOf e).isSome := fun e he => by
        cases hq : payloadOf e with
        | some p => rfl
        | none => exact absurd ⟨e, he, hq⟩ hpan
      rw [hseq.2 hall, Option.some.injEq]
      let F : Bytes → Nat := fun s => match countHelloWorld s with
        | some (Res.ok n) => n
        | _ => 0
      have hF1 : ∀ s ∈ slices, ∀ ms ∈ mss, Messages s ms →
          countHelloWorld s = some (.ok (F s)) ∧ F s = (ms.filter fun e => decide (hasText helloWorld e)).length := by
        intro s hs ms hms h
        have h1 := (C49_count_hello_world_partial s (hfit s hs) ms h).2 fun e he => hall e (List.mem_flatten.2 ⟨ms, hms, he⟩)
        have h2 : F s = (ms.filter fun e => decide (hasText helloWorld e)).length := by
          show (match countHelloWorld s with
            | some (Res.ok n) => n
            | _ => 0) = _
          rw [h1]
        exact ⟨by rw [h1, h2], h2⟩
      have hsum : (slices.map F).sum = (mss.flatten.filter fun e => decide (hasText helloWorld e)).length := by
        rw [sum_each F (fun ms => (ms.filter fun e => decide (hasText helloWorld e)).length)
          (each_imp hm fun s hs ms hms h => (hF1 s hs ms hms h).2)]
        clear hm hflat hseq hpar hpan hall hF1
        induction mss with
        | nil => rfl
        | cons ms mss ih =>
          simp only [List.map_cons, List.sum_cons, List.flatten_cons, List.filter_append, List.length_append, ih]
      have h1 := hpar.2 F (by
        intro s hs
        obtain ⟨ms, hms, h⟩ := each_left hm s hs
        exact (hF1 s hs ms hms h).1) (by
        have h2 := messages_flatten_length hfit hm
        have h3 := fits_le hF
        have h4 := (partition_fits hF hp).1
        have h5 := List.length_filter_le (fun e => decide (hasText helloWorld e)) mss.flatten
        rw [hsum]
        unfold usizeMax
        omega) r
      rw [hsum] at h1
      exact h1
  show (∃ q, Multithreaded countHelloWorld (packed es) num q ∧ r = q.bind numberReport) ↔
    printed (countHelloWorld (packed (es.take (k - leftOut k L num)))) numberReport = some r
  constructor
  · rintro ⟨q, h1, rfl⟩
    rw [← (key q).1 h1]
    cases q <;> rfl
  · intro h1
    cases h2 : countHelloWorld (packed (es.take (k - leftOut k L num))) with
    | none => rw [h2] at h1; cases h1
    | some q =>
      rw [h2] at h1
      refine ⟨q, (key q).2 h2.symm, ?_⟩
      cases q <;> exact (Option.some.inj h1).symm

end

/-- **C126** for `dd_dlt` and payloads up to 65502 bytes: how many of the `k` messages written `par_count` counts. -/
theorem C126_dd (bd : Build) (addr : Ctor → UInt8) (ecuid appid size input : Bytes) (rest : List Bytes) (n : Nat)
    (hecu : ecuid.length = 4) (happ : appid.length = 4) (hsize : Decimal size n) (h1 : 1 ≤ n) (h2 : n ≤ 65502)
    (hk : input.length / n ≤ 42949673) (hfit : ∀ i, i < input.length / n → LinesFit (roomBehind bd.late) (chunk n input i))
    (num : Nat) (hnum : num ≠ 0) :
    ∃ output, (∀ out e, DdMain bd addr (ecuid :: appid :: size :: rest) input out e ↔
        out = output ∧ e = .finished (UInt32.ofNat (input.length / n))) ∧
      ∀ r, RunCmd num output .parCount r ↔ r = .ok (.number (input.length / n - leftOut (input.length / n) (34 + n) num)) := by
  obtain ⟨output, msgs, h3, -, h4, h5, h6, h7, h8⟩ := C51_round_trip_partial bd addr ecuid appid size input rest n hecu happ
    hsize h1 (by omega) (.inr hk) hfit
  have hl : ∀ e ∈ msgs, (encode e).length = 34 + n := by
    intro e he
    obtain ⟨i, hi⟩ := List.getElem?_of_mem he
    have hi' : i < input.length / n := by
      rw [← h4]
      exact (List.getElem?_eq_some_iff.1 hi).1
    rw [(h8 i e hi).size, chunk_length (index_le _ i rfl hi')]
  rw [h5] at h6 h3
  exact ⟨packed msgs, h3, C126_count ⟨h7, h4, hl, h6, by omega, by omega⟩ num hnum⟩

/-! ## Files that meet the hypotheses -/

/-- `k` times the shortest message. -/
theorem equals_replicate {k : Nat} (hk : k * 20 < 2 ^ 63) : Equals (List.replicate k msg0) k 20 where
  wf e he := by rw [List.eq_of_mem_replicate he]; exact msg0_wf
  count := List.length_replicate ..
  len e he := by rw [List.eq_of_mem_replicate he]; rfl
  fits := by
    unfold Fits
    rw [packed_length _ 20 (fun e he => by rw [List.eq_of_mem_replicate he]; rfl), List.length_replicate]
    exact hk
  min := by decide
  max := by decide

/-- **C126** with two threads one message is lost of five or seven, none of nine. -/
example (r : Res Report) :
    (RunCmd 2 (packed (List.replicate 5 msg0)) .parCount r ↔ r = .ok (.number 4)) ∧
    (RunCmd 2 (packed (List.replicate 7 msg0)) .parCount r ↔ r = .ok (.number 6)) ∧
    (RunCmd 2 (packed (List.replicate 9 msg0)) .parCount r ↔ r = .ok (.number 9)) :=
  ⟨C126_count (equals_replicate (by decide)) 2 (by decide) r, C126_count (equals_replicate (by decide)) 2 (by decide) r,
    C126_count (equals_replicate (by decide)) 2 (by decide) r⟩

/-- **C126** with four threads a whole slice is lost of fifteen messages. -/
example (r : Res Report) : RunCmd 4 (packed (List.replicate 15 msg0)) .parCount r ↔ r = .ok (.number 12) :=
  C126_count (equals_replicate (by decide)) 4 (by decide) r

/-- **C126** with twenty threads and thirty-nine messages of 20 bytes a slice ends one byte in front of the end of the
file: nothing is lost. -/
example (r : Res Report) : RunCmd 20 (packed (List.replicate 39 msg0)) .parCount r ↔ r = .ok (.number 39) :=
  C126_count (equals_replicate (by decide)) 20 (by decide) r

/-- **C126** sixty-four messages are enough for four threads. -/
example : leftOut 64 20 4 = 0 := C126_enough 64 20 4 (by decide) (by decide)

end Verif
