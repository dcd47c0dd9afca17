import Verif.Model.TestStruct
import Verif.Model.Partition
import Verif.Props.Program
import Verif.Props.Dltit
import Verif.Spec.Grep

/-!
# The repository's own unit tests, replayed on the model

Every unit test of the workspace whose input is in the source (the others read generated files of up to 4 GB) is an
`example` here: the model computes what the test asserts. These are checks of the model, not claims.
Tests with `f32` are replayed with halves counted in `Nat`.
-/

set_option linter.unusedSimpArgs false

namespace Verif
open TestStruct Spec

/-! ## test_matchit/src/lib.rs -/

def rep (n : Nat) (bs : Bytes) : Bytes := (List.replicate n bs).flatten

/-- Offset and value of what an iterator yields. -/
def yields (next : NextFn (Nat × TestStruct)) (off : Nat) : Option (Res (List (Nat × UInt32))) :=
  match collectN next 20 off with
  | some (.ok l) => some (.ok (l.map fun x => (x.1, x.2.val)))
  | some .panic => some .panic
  | none => none

/-- searchit_num_matches, revsearchit_num_matches, readit_num_matches (63-86). -/
example : yields (searchNext searchable (rep 4 [1,2,3,4,0,0,0,1])) 0 = some (.ok [(0, 1), (8, 1), (16, 1), (24, 1)]) := by
  decide +kernel
example : yields (readFallbackNext searchable (rep 4 [1,2,3,4,0,0,0,1])) 0 =
    some (.ok [(0, 1), (8, 1), (16, 1), (24, 1)]) := by decide +kernel
example : yields (revNext searchable (rep 4 [1,2,3,4,0,0,0,1])) 32 = some (.ok [(24, 1), (16, 1), (8, 1), (0, 1)]) := by
  decide +kernel

/-- searchit_robust_offset, revsearchit_robust_offset, readit_robust_offset (88-115). -/
example : yields (searchNext searchable (rep 4 [34,34,1,2,3,4,0,0,0,1])) 0 =
    some (.ok [(2, 1), (12, 1), (22, 1), (32, 1)]) := by decide +kernel
example : yields (readFallbackNext searchable (rep 4 [34,34,1,2,3,4,0,0,0,1])) 0 =
    some (.ok [(2, 1), (12, 1), (22, 1), (32, 1)]) := by decide +kernel
example : yields (revNext searchable (rep 4 [34,34,1,2,3,4,0,0,0,1])) 40 =
    some (.ok [(32, 1), (22, 1), (12, 1), (2, 1)]) := by decide +kernel

/-- searchit_skipped_simple, readit_skipped_simple (117-135). -/
example : yields (searchNext searchable (rep 2 [1,2,3,4,0,0,0,1,34])) 0 = some (.ok [(0, 1), (9, 1)]) := by decide +kernel
example : yields (readFallbackNext searchable (rep 2 [1,2,3,4,0,0,0,1,34])) 0 = some (.ok [(0, 1), (9, 1)]) := by
  decide +kernel

/-- searchit_wrap_values, readit_wrap_values, revsearchit_wrap_values (137-153). -/
def wrapped : Bytes := rep 2 [1,2,3,34,34,1,2,3,4,0,0,0,255,1,2,3]
example : yields (searchNext searchable wrapped) 0 = some (.ok [(5, 255), (21, 255)]) := by decide +kernel
example : yields (readFallbackNext searchable wrapped) 0 = some (.ok [(5, 255), (21, 255)]) := by decide +kernel
example : yields (revNext searchable wrapped) 0 = some (.ok []) := by decide +kernel

/-- A bounded version of the recursion of `grepSearch`, to compute with. -/
def grepSearchN {T : Type} (S : SearchableMarker T) (re : Regex) (bytes : Bytes) : Nat → Nat →
    Option (Res (Option (Nat × T)))
  | 0, _ => none
  | fuel + 1, offset =>
    if offset ≥ bytes.length then some (.ok none)
    else
      match re.findAt bytes offset with
      | none => some (.ok none)
      | some (start, stop) =>
        match revSearch S bytes start with
        | .panic => some .panic
        | .ok (some (off, val)) =>
          match uadd off (S.len val) with
          | .panic => some .panic
          | .ok e =>
            if off < start ∧ e < stop then grepSearchN S re bytes fuel stop
            else some (.ok (some (off, val)))
        | .ok none =>
          if stop ≥ bytes.length then some (.ok none)
          else grepSearchN S re bytes fuel stop

theorem grepSearchN_sound {T : Type} (S : SearchableMarker T) (re : Regex) (bytes : Bytes) (fuel off : Nat)
    (r : Res (Option (Nat × T))) (h : grepSearchN S re bytes fuel off = some r) : grepSearch S re bytes off = some r := by
  induction fuel generalizing off with
  | zero => simp [grepSearchN] at h
  | succ fuel ih =>
    rw [grepSearchN] at h
    rw [grepSearch]
    by_cases h1 : off ≥ bytes.length
    · simp only [h1, ↓reduceIte] at h ⊢; exact h
    · simp only [h1, ↓reduceIte] at h ⊢
      cases h2 : re.findAt bytes off with
      | none => rw [h2] at h; exact h
      | some se =>
        obtain ⟨s, e⟩ := se
        rw [h2] at h
        simp only at h ⊢
        cases h3 : revSearch S bytes s with
        | panic => rw [h3] at h; exact h
        | ok o =>
          rw [h3] at h
          cases o with
          | none =>
            simp only at h ⊢
            by_cases h4 : e ≥ bytes.length
            · simp only [h4, ↓reduceIte] at h ⊢; exact h
            · simp only [h4, ↓reduceIte] at h ⊢; exact ih e h
          | some x =>
            obtain ⟨o, v⟩ := x
            simp only at h ⊢
            cases h4 : uadd o (S.len v) with
            | panic => rw [h4] at h; exact h
            | ok z =>
              rw [h4] at h
              simp only at h ⊢
              by_cases h5 : o < s ∧ z < e
              · simp only [h5, and_self, ↓reduceIte] at h ⊢; exact ih e h
              · simp only [h5, ↓reduceIte] at h ⊢; exact h

/-- grepit_test (155-173): one hit per repetition, at `24 * i + 8`, then the end. -/
def grepBytes : Bytes := rep 4 [1,2,3,4,0,0,0,255, 1,2,3,4,12,10,15,15, 1,2,3,4,0,0,0,255]
example : ∀ i < 4, (grepSearch searchable (literal [12,10,15,15]) grepBytes (if i = 0 then 0 else 24 * i - 8)) =
    some (.ok (some (24 * i + 8, ⟨⟨1,2,3,4⟩, 0x0C0A0F0F⟩))) := by
  intro i hi
  apply grepSearchN_sound (fuel := 3)
  have : i = 0 ∨ i = 1 ∨ i = 2 ∨ i = 3 := by omega
  rcases this with rfl | rfl | rfl | rfl <;> decide +kernel
example : grepSearch searchable (literal [12,10,15,15]) grepBytes 88 = some (.ok none) :=
  grepSearchN_sound _ _ _ 3 _ _ (by decide +kernel)

/-- grepit_test2 (174-192): matches in front of and behind the messages are no hits. -/
def grepBytes2 : Bytes := [12,10,15,15,12,10,15,15, 1,2,3,4,12,10,15,15, 1,2,3,4,0,0,0,255, 12,10,15,15]
example : grepSearch searchable (literal [12,10,15,15]) grepBytes2 0 = some (.ok (some (8, ⟨⟨1,2,3,4⟩, 0x0C0A0F0F⟩))) :=
  grepSearchN_sound _ _ _ 5 _ _ (by decide +kernel)
example : grepSearch searchable (literal [12,10,15,15]) grepBytes2 16 = some (.ok none) :=
  grepSearchN_sound _ _ _ 5 _ _ (by decide +kernel)

/-! ## rapiddlt/src/dlt_v1.rs -/

/-- storage_header (458-462). -/
example : (StorageHeader.refFromPrefix [68, 76, 84, 1, 1, 0, 0, 0, 0, 0, 0, 0, 01, 99, 17, 49]).isSome := by decide +kernel

/-- dlt_robust_iterator_none (463-469). -/
example : (collectN (dltitNext [68, 76, 84, 1, 226, 26, 74, 101, 79, 4, 1, 0, 69, 48, 48, 49, 68, 76, 84, 1, 226, 26, 74, 101,
    79, 4, 1, 0, 69, 48, 48, 49, 68, 76, 84, 1, 68, 76, 84, 1, 68, 76, 84, 1]) 1 0) = some (.ok []) := by decide +kernel

/-- dltentry_empty, dltentry_zeros (537-549). -/
example : StorageEntry.tryRead [] = .ok none ∧ DltEntry.tryRead [] = .ok none := by decide +kernel
example : StorageEntry.tryRead (List.replicate 100 0) = .ok none ∧ DltEntry.tryRead (List.replicate 100 0) = .ok none := by
  decide +kernel

/-- dltstorageentry_oneoff (552-556). -/
example : StorageEntry.tryRead [68, 76, 84, 1, 226, 26, 74, 101, 79, 4, 1, 0, 69, 48, 48, 49, 49, 63, 0, 62, 0, 0, 132, 198,
    65, 4, 65, 48, 49, 49, 67, 48, 48, 49, 0, 130, 0, 0, 38, 0, 45, 45, 97, 110, 111, 110, 44, 114, 101, 99, 101, 112, 116,
    105, 111, 110, 95, 116, 105, 109, 101, 58, 49, 54, 57, 57, 51, 53, 53, 51, 54, 50, 48, 54, 54, 109, 115] = .ok none := by
  decide +kernel

/-- dltstorageentry_onlystorage (558-563). -/
example : (StorageHeader.refFromPrefix [68, 76, 84, 1, 226, 26, 74, 101, 79, 4, 1, 0, 69, 48, 48, 49]).isSome ∧
    StorageEntry.tryRead [68, 76, 84, 1, 226, 26, 74, 101, 79, 4, 1, 0, 69, 48, 48, 49] = .ok none := by decide +kernel

/-- The buffer of dltstorageentry_incorrect and dltstorageentry_correct (567, 578). -/
def testBuf1 : Bytes := [68, 76, 84, 1, 102, 26, 74, 101, 220, 63, 15, 0, 69, 48, 48, 49, 49, 226, 0, 62, 0, 37, 20, 44, 65, 1,
  65, 48, 48, 49, 67, 48, 48, 49, 0, 130, 0, 0, 38, 0, 45, 45, 97, 110, 111, 110, 44, 114, 101, 99, 101, 112, 116, 105, 111,
  110, 95, 116, 105, 109, 101, 58, 49, 54, 57, 57, 51, 53, 53, 50, 51, 56, 57, 57, 57, 109, 115, 0]
/-- The buffer of dltstorageentry_correct2 (594). -/
def testBuf2 : Bytes := [68, 76, 84, 1, 226, 26, 74, 101, 79, 4, 1, 0, 69, 48, 48, 49, 49, 63, 0, 62, 0, 0, 132, 198, 65, 4, 65,
  48, 49, 49, 67, 48, 48, 49, 0, 130, 0, 0, 38, 0, 45, 45, 97, 110, 111, 110, 44, 114, 101, 99, 101, 112, 116, 105, 111, 110,
  95, 116, 105, 109, 101, 58, 49, 54, 57, 57, 51, 53, 53, 51, 54, 50, 48, 54, 54, 109, 115, 0]

/-- dltstorageentry_incorrect (565-570). -/
example : DltEntry.tryRead testBuf1 = .ok none := by decide +kernel

/-- What the two tests look at: size, header length, four flags, time stamp and payload. -/
def looksAt (bs : Bytes) : Option (Nat × Nat × (Bool × Bool × Bool × Bool) × Res (Option UInt32) × Res (Option Bytes)) :=
  match StorageEntry.tryRead bs with
  | .ok (some (n, e)) => some (n, e.dlt.header.len,
      (e.dlt.header.headerType.isWithEcuId, e.dlt.header.headerType.isWithSessionId,
        e.dlt.header.headerType.isWithTimestamp, e.dlt.header.headerType.isExtendedHeader),
      e.dlt.timestamp, e.dlt.payload)
  | _ => none

/-- dltstorageentry_correct (572-590). -/
example : looksAt testBuf1 = some (78, testBuf1.length - 16, (false, false, true, true), .ok (some 2429996),
    .ok (some (testBuf1.drop 0x22))) := by rfl
/-- dltstorageentry_correct2 (592-608). -/
example : looksAt testBuf2 = some (78, testBuf2.length - 16, (false, false, true, true), .ok (some 33990),
    .ok (some (testBuf2.drop 0x22))) := by rfl

/-! ## matchit/src/generator/mod.rs and fromgenerator.rs -/

/-- The accumulator `|acc, next| acc + next` over `usize`. -/
def sumP : Prog Nat Nat := .fold 0 () fun c acc x => (uadd acc x).bind fun s => .ok (c, s)
/-- `|acc, _| acc + 1`. -/
def countP {α : Type} : Prog α Nat := .fold 0 () fun c acc _ => (uadd acc 1).bind fun s => .ok (c, s)

def upTo (n : Nat) : List Nat := List.range n

/-- fold_generator (15-22). -/
example : runRed (countP (α := Nat)).red (upTo 255) = some (.ok 255) := C83_program_runs _ _ _ (by
  show _ = foldV _ _ _ _; decide +kernel)

/-- fold_adapter, filter_generator (25-47). -/
example : runRed (Prog.behind (.filter .nil fun x => .ok (decide (x < 120))) countP).red (upTo 255) = some (.ok 120) :=
  C83_program_runs _ _ _ (Or.inr ⟨upTo 120, by decide +kernel, by show _ = foldV _ _ _ _; decide +kernel⟩)

/-- filter_adapter (50-62), values in halves. -/
example : runRed (Prog.behind (.filter (.map .nil fun x => .ok x) fun x => .ok (decide (x < 240))) countP).red (upTo 255) =
    some (.ok 240) :=
  C83_program_runs _ _ _ (Or.inr ⟨upTo 240, by decide +kernel, by show _ = foldV _ _ _ _; decide +kernel⟩)

/-- map_generator (66-75), in halves. -/
example : runRed (Prog.behind (.map .nil fun x => .ok x) sumP).red (upTo 11) = some (.ok 55) :=
  C83_program_runs _ _ _ (Or.inr ⟨upTo 11, by decide +kernel, by show _ = foldV _ _ _ _; decide +kernel⟩)

/-- map_adapter (78-88), in halves: `N(N+1)/2 - 6`. -/
example : runRed (Prog.behind (.map (.filter .nil fun x => .ok (decide (3 < x))) fun x => .ok x) sumP).red (upTo 11) =
    some (.ok 49) :=
  C83_program_runs _ _ _ (Or.inr ⟨[4, 5, 6, 7, 8, 9, 10], by decide +kernel, by show _ = foldV _ _ _ _; decide +kernel⟩)

/-- fork_adapter (91-104): `N(N+1)/2` (counted in halves) and `2N(N+1)`. -/
example : runRed (Prog.behind (.map .nil fun x => .ok (x * 2)) (.fork (.behind (.map .nil fun x => .ok x) sumP)
    (.behind (.map .nil fun x => .ok (x * 2)) sumP))).red (upTo 11) = some (.ok (110, 220)) :=
  C83_program_runs _ _ _ (Or.inr ⟨(upTo 11).map (· * 2), by decide +kernel, Or.inl ⟨110, 220,
    Or.inr ⟨(upTo 11).map (· * 2), by decide +kernel, by show _ = foldV _ _ _ _; decide +kernel⟩,
    Or.inr ⟨(upTo 11).map (· * 4), by decide +kernel, by show _ = foldV _ _ _ _; decide +kernel⟩, rfl⟩⟩)

/-- fork_generator (106-118). -/
example : runRed (Prog.fork (.behind (.map .nil fun x => .ok x) sumP) (.behind (.map .nil fun x => .ok (x * 2)) sumP)).red
    (upTo 11) = some (.ok (55, 110)) :=
  C83_program_runs _ _ _ (Or.inl ⟨55, 110,
    Or.inr ⟨upTo 11, by decide +kernel, by show _ = foldV _ _ _ _; decide +kernel⟩,
    Or.inr ⟨(upTo 11).map (· * 2), by decide +kernel, by show _ = foldV _ _ _ _; decide +kernel⟩, rfl⟩)

/-- groupby_generator (121-129). -/
example : runRed (Prog.behind (.groupby .nil fun a b => .ok (decide (a ≤ b))) countP).red [0,1,2,0,0,2,3,0,4,3] =
    some (.ok 4) :=
  C83_program_runs _ _ _ (Or.inr ⟨[(0, 2), (0, 3), (0, 4), (3, 3)], by decide +kernel, by
    show _ = foldV _ _ _ _; decide +kernel⟩)

/-- groupby_adapter (132-141). -/
example : runRed (Prog.behind (.groupby (.map .nil fun x => .ok (x * 2)) fun a b => .ok (decide (a ≤ b))) countP).red
    [0,1,2,0,0,2,3,0,4,3] = some (.ok 4) :=
  C83_program_runs _ _ _ (Or.inr ⟨[(0, 4), (0, 6), (0, 8), (6, 6)], by decide +kernel, by
    show _ = foldV _ _ _ _; decide +kernel⟩)

/-- groupby_collect (144-154). -/
example : collected (.map (.groupby .nil fun a b => .ok (decide (a ≤ b))) fun r => .ok (r.2 - r.1))
    [0,1,2,0,0,2,3,0,4,3,4,4] = some (.ok [2, 3, 4, 1]) := by rw [C83_chain_exact]; decide +kernel

/-- The merge function of merge_generator and merge_adapter (158-169). -/
def unionT (a b : Nat × Nat) : Option (Nat × Nat) :=
  if b.1 ≥ a.1 ∧ b.1 ≤ a.2 then some (a.1, max a.2 b.2)
  else if a.1 ≥ b.1 ∧ a.1 ≤ b.2 then some (b.1, max a.2 b.2)
  else none

/-- merge_generator (157-176), merge_adapter (179-200): the tests print the result and assert nothing. -/
example : collected (.merge inferInstance .nil (fun a b => .ok (unionT a b)) fun v => v)
    [(0,1),(1,1),(2,3),(0,0),(0,0),(2,2),(3,4),(0,0),(4,5),(3,6)] = some (.ok [(0, 1), (2, 6)]) := by
  rw [C83_chain_exact]; decide +kernel
example : collected (.merge inferInstance (.map .nil fun a : Nat × Nat => .ok (a.1 + 1, a.2 + 1))
    (fun a b => .ok (unionT a b)) fun v => v)
    [(0,1),(1,1),(2,3),(0,0),(0,0),(2,2),(3,4),(0,0),(4,5),(3,6)] = some (.ok [(1, 2), (3, 7)]) := by
  rw [C83_chain_exact]; decide +kernel

/-- split_generator (203-217). -/
example : runRed (Prog.split inferInstance inferInstance (fun x : Nat => .ok x) fun _ => sumP).red
    [0,1,2,0,0,2,3,0,4,3,4,4] = some (.ok [(0, 0), (1, 1), (2, 4), (3, 6), (4, 12)]) := by
  apply C83_program_runs
  refine Or.inr ⟨by simp, Or.inr ⟨_, rfl, by decide, ?_, ?_⟩⟩
  · intro j; simp only [List.map_cons, List.map_nil, List.mem_cons, List.not_mem_nil, or_false, Res.ok.injEq]
    constructor
    · rintro (rfl | rfl | rfl | rfl | rfl) <;> exact ⟨_, by simp, rfl⟩
    · rintro ⟨x, hx, rfl⟩; omega
  · intro j v h
    simp only [List.mem_cons, Prod.mk.injEq, List.not_mem_nil, or_false] at h
    rcases h with ⟨rfl, rfl⟩ | ⟨rfl, rfl⟩ | ⟨rfl, rfl⟩ | ⟨rfl, rfl⟩ | ⟨rfl, rfl⟩ <;>
      (show _ = foldV _ _ _ _; decide +kernel)

/-- split_adapter (220-237). -/
example : runRed (Prog.behind (.map .nil fun x : Nat => .ok (x * 2)) (.split inferInstance inferInstance (fun x => .ok x)
    fun _ => .behind (.groupby .nil fun a b => .ok (decide (a ≤ b))) countP)).red
    [0,1,2,0,0,2,3,0,4,3,4,4] = some (.ok [(0, 1), (2, 1), (4, 1), (6, 1), (8, 1)]) := by
  apply C83_program_runs
  refine Or.inr ⟨[0,2,4,0,0,4,6,0,8,6,8,8], rfl, ?_⟩
  refine Or.inr ⟨by simp, Or.inr ⟨_, rfl, by decide, ?_, ?_⟩⟩
  · intro j; simp only [List.map_cons, List.map_nil, List.mem_cons, List.not_mem_nil, or_false, Res.ok.injEq]
    constructor
    · rintro (rfl | rfl | rfl | rfl | rfl) <;> exact ⟨_, by simp, rfl⟩
    · rintro ⟨x, hx, rfl⟩; omega
  · intro j v h
    simp only [List.mem_cons, Prod.mk.injEq, List.not_mem_nil, or_false] at h
    rcases h with ⟨rfl, rfl⟩ | ⟨rfl, rfl⟩ | ⟨rfl, rfl⟩ | ⟨rfl, rfl⟩ | ⟨rfl, rfl⟩ <;>
      exact Or.inr ⟨[(_, _)], rfl, by show _ = foldV _ _ _ _; decide +kernel⟩

end Verif
