import Verif.Props.ParallelCount

/-! # C57, C58: files on which the claims fail -/

set_option linter.unusedSimpArgs false

namespace Verif

open Spec

/-! ## C57 -/

/-- **C57 (violated)** a file of two readable messages on which `lifecycle_itertools` panics. -/
theorem C57_lifecycle_itertools_can_panic : ∃ bytes, Fits bytes ∧ Messages bytes [msgNoExt, msg1] ∧
    lifecycleItertools bytes = some .panic := by
  have hF : Fits (fileOf [([], msgNoExt), ([], msg1)] []) := by unfold Fits; decide
  have hm : Messages (fileOf [([], msgNoExt), ([], msg1)] []) [msgNoExt, msg1] :=
    messages_fileOf (segs := [([], msgNoExt), ([], msg1)]) (t := []) (by unfold Clean; decide)
  exact ⟨_, hF, hm, (C57_lifecycle_itertools_partial _ hF _ hm).1.2 ⟨msgNoExt, by decide, by decide⟩⟩

/-! ## C58 -/

/-- Five messages of 32 bytes with the payload `Hello World!`. -/
def fiveHello : List StorageEntry := [helloMsg, helloMsg, helloMsg, helloMsg, helloMsg]

theorem helloMsg_wf : WF helloMsg := by decide

theorem fiveHello_wf : ∀ e ∈ fiveHello, WF e := by
  intro e he
  simp only [fiveHello, List.mem_cons, List.not_mem_nil, or_false] at he
  rcases he with rfl | rfl | rfl | rfl | rfl <;> exact helloMsg_wf

theorem fiveHello_at : packedAt 0 fiveHello =
    [(0, helloMsg), (32, helloMsg), (64, helloMsg), (96, helloMsg), (128, helloMsg)] := rfl

theorem fiveHello_max : AtMost 65536 (packedAt 0 fiveHello) := by
  intro x hx
  simp only [fiveHello_at, List.mem_cons, List.not_mem_nil, or_false] at hx
  rcases hx with rfl | rfl | rfl | rfl | rfl <;> show 32 ≤ 65536 <;> decide

theorem fiveHello_len : (packed fiveHello).length = 160 := by decide +kernel
theorem fiveHello_fits : Fits (packed fiveHello) := by unfold Fits; rw [fiveHello_len]; decide

theorem fiveHello_contained {p k : Nat} (hp : p < 159) (hk : (k, helloMsg) ∈ packedAt 0 fiveHello) (h : k < p ∧ p < k + 32) :
    containedBy dltStorage (packed fiveHello) p (p + 1) = .ok (some (k, helloMsg)) :=
  containedBy_packed fiveHello_wf fiveHello_fits fiveHello_max (by rw [fiveHello_len]; omega) hk h

theorem fiveHello_ranges : partitionRanges dltStorage (packed fiveHello) 2 = .ok [(0, 64), (64, 128)] := by
  rw [partitionRanges_pos (by decide), fiveHello_len, show 160 / 2 = 80 from rfl]
  have hl := fiveHello_len
  refine partitionLoop_cut _ (c := 64) (fiveHello_contained (p := 80) (k := 64) (by decide) (by simp [fiveHello_at]) (by decide)) rfl
    (by omega) (by omega) (by omega) (by omega) ?_
  refine partitionLoop_cut _ (c := 128) (fiveHello_contained (p := 144) (k := 128) (by decide) (by simp [fiveHello_at]) (by decide)) rfl
    (by omega) (by omega) (by omega) (by omega) ?_
  exact partitionLoop_over _ (by omega)

open Classical in
theorem count_hellos (n : Nat) (hF : Fits (packed (List.replicate n helloMsg))) :
    countHelloWorld (packed (List.replicate n helloMsg)) = some (.ok n) := by
  have hw : ∀ e ∈ List.replicate n helloMsg, WF e := fun e he => by
    rw [List.eq_of_mem_replicate he]; exact helloMsg_wf
  have hm := messages_fileOf (clean_packed hw)
  rw [fileOf_packed, List.map_map] at hm
  simp only [Function.comp_def, List.map_id'] at hm
  have h1 := (C49_count_hello_world_partial _ hF _ hm).2 fun e he => by
    rw [List.eq_of_mem_replicate he]; rfl
  rw [h1, List.filter_eq_self.2, List.length_replicate]
  intro e he
  rw [List.eq_of_mem_replicate he, decide_eq_true_eq]
  exact ⟨_, rfl, ⟨[], [33], rfl⟩⟩

/-- **C58 (violated)** five messages that say `Hello World`, two threads: `count_hello_world` returns five, every
schedule of `par_count_hello_world` four. -/
theorem C58_par_count_hello_world_wrong : countHelloWorld (packed fiveHello) = some (.ok 5) ∧
    ∀ r, Multithreaded countHelloWorld (packed fiveHello) 2 r ↔ r = .ok 4 := by
  refine ⟨count_hellos 5 fiveHello_fits, fun r => ?_⟩
  have hp := partitionFrom_of_ranges fiveHello_ranges
  have h2 := count_hellos 2 (by unfold Fits; decide)
  have h := (C35_counters_sum countHelloWorld (packed fiveHello) 2 fiveHello_fits _ hp countHelloWorld_total).2 (fun _ => 2) (by
    intro s hs
    have : s = packed (List.replicate 2 helloMsg) := by
      simp only [List.map_cons, List.map_nil, List.mem_cons, List.not_mem_nil, or_false] at hs
      rcases hs with rfl | rfl <;> decide
    rw [this, h2]) (by decide)
  exact h r

end Verif
