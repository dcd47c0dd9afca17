import Verif.Model.Print

/-!
# The build: checked or wrapping arithmetic

The other model files describe a debug build: arithmetic overflow panics. A release build (the one README.md recommends)
wraps around instead. This file models the code of `matchit` and `ripdlt` once more, with the arithmetic as a parameter. The
functions without additions, subtractions or multiplications are shared with the other files, `RevSearchIterator` (which uses
`checked_sub`) among them; the sums of rapiddlt/src/dlt_v1.rs are below `2^17` and cannot overflow. `dd_dlt` has its own parameter for the build (Model/DdDlt.lean).
-/

set_option linter.unusedVariables false

namespace Verif

/-- What `+` and `*` on `usize` and `-` on `u32` do. -/
structure Arith where
  add : Nat → Nat → Res Nat
  mul : Nat → Nat → Res Nat
  sub32 : UInt32 → UInt32 → Res UInt32

/-- A debug build: overflow panics. -/
def Arith.debug : Arith := ⟨uadd, umul, subU32⟩

/-- A release build (`overflow-checks = false`, the default of the profile): the result is taken modulo `2^64` or `2^32`. -/
def Arith.release : Arith :=
  ⟨fun a b => .ok ((a + b) % 2 ^ 64), fun a b => .ok ((a * b) % 2 ^ 64), fun a b => .ok (a - b)⟩

/-- A debug build for a machine on which `usize` has 32 bits. -/
def Arith.debug32 : Arith :=
  ⟨fun a b => if a + b < 2 ^ 32 then .ok (a + b) else .panic, fun a b => if a * b < 2 ^ 32 then .ok (a * b) else .panic, subU32⟩

/-- A release build for a machine on which `usize` has 32 bits. -/
def Arith.release32 : Arith :=
  ⟨fun a b => .ok ((a + b) % 2 ^ 32), fun a b => .ok ((a * b) % 2 ^ 32), fun a b => .ok (a - b)⟩

variable (A : Arith)

/-! ## The iterators of `matchit` -/

/-- `ReadFallbackIterator::next` (matchit/src/searchable/readfallbackit.rs:47-81); `none`: the call does not return. -/
def readFallbackNextA {T : Type} (S : SearchableMarker T) (bytes : Bytes) (offset : Nat) :
    Option (Res (Option (Nat × T) × Nat)) :=
  match A.add offset S.marker.length with                                             -- 48
  | .panic => some .panic
  | .ok e =>
    if e ≥ bytes.length then some (.ok (none, offset))                                -- 48-50
    else
      match slice bytes offset e with                                                 -- 51
      | .panic => some .panic
      | .ok s =>
        match sliceFrom bytes offset with                                             -- 53, 65
        | .panic => some .panic
        | .ok t =>
          if s = S.marker then
            match S.tryReadValidMarker t with                                         -- 53
            | .panic => some .panic
            | .ok (some (bytesRead, val)) =>                                          -- 54-58
              match A.add offset bytesRead with
              | .panic => some .panic
              | .ok offset' => some (.ok (some (offset, val), offset'))
            | .ok none => some (.ok (none, offset))                                   -- 59-61
          else
            match searchMarker S t with                                               -- 65
            | some position =>
              if position = 0 then some (.ok (none, offset))                          -- 67-70
              else
                match A.add offset position with
                | .panic => some .panic
                | .ok offset' => readFallbackNextA S bytes offset'                    -- 72-73
            | none => some (.ok (none, offset))                                       -- 76-78
partial_fixpoint

/-- `SearchIterator::search` (matchit/src/searchable/searchit.rs:33-42). -/
def searchSearchA {T : Type} (S : SearchableMarker T) (bytes : Bytes) (offset : Nat) : Res (Option (Nat × T)) :=
  if offset ≥ bytes.length then .ok none
  else
    match sliceFrom bytes offset with
    | .panic => .panic
    | .ok t =>
      match find S.marker t with
      | none => .ok none
      | some candidate =>
        match A.add candidate offset with
        | .panic => .panic
        | .ok candidate =>
          match sliceFrom bytes candidate with
          | .panic => .panic
          | .ok t' =>
            match S.tryReadValidMarker t' with
            | .panic => .panic
            | .ok none => .ok none
            | .ok (some (_, v)) => .ok (some (candidate, v))

/-- `SearchIterator::next` (matchit/src/searchable/searchit.rs:53-67). -/
def searchNextA {T : Type} (S : SearchableMarker T) (bytes : Bytes) (self : Nat) : Option (Res (Option (Nat × T) × Nat)) :=
  match searchSearchA A S bytes self with
  | .panic => some .panic
  | .ok (some (offset, t)) =>
    match A.add offset (S.len t) with
    | .panic => some .panic
    | .ok off' => some (.ok (some (offset, t), off'))
  | .ok none =>
    match A.add self S.marker.length with
    | .panic => some .panic
    | .ok self' => if self' ≥ bytes.length then some (.ok (none, self')) else searchNextA S bytes self'
partial_fixpoint

/-- `ReadIterator::next` (matchit/src/readit.rs:43-57). -/
def readNextA {T : Type} (S : FromBytesReadable T) (bytes : Bytes) (offset : Nat) : Res (Option (Nat × T) × Nat) :=
  if offset ≥ bytes.length then .ok (none, offset)
  else
    match sliceFrom bytes offset with
    | .panic => .panic
    | .ok t =>
      match S.tryRead t with
      | .panic => .panic
      | .ok (some (bytesRead, val)) =>
        match A.add offset bytesRead with
        | .panic => .panic
        | .ok off' => .ok (some (offset, val), off')
      | .ok none => .ok (none, offset)

/-- `GrepIterator::search` (matchit/src/searchable/grepit.rs:34-57). -/
def grepSearchA {T : Type} (S : SearchableMarker T) (re : Regex) (bytes : Bytes) (offset : Nat) :
    Option (Res (Option (Nat × T))) :=
  if offset ≥ bytes.length then some (.ok none)
  else
    match re.findAt bytes offset with
    | none => some (.ok none)
    | some (start, stop) =>
      match revSearch S bytes start with
      | .panic => some .panic
      | .ok (some (off, val)) =>
        if off < start then                                                           -- `&&` (42)
          match A.add off (S.len val) with
          | .panic => some .panic
          | .ok e => if e < stop then grepSearchA S re bytes stop else some (.ok (some (off, val)))
        else some (.ok (some (off, val)))
      | .ok none => if stop ≥ bytes.length then some (.ok none) else grepSearchA S re bytes stop
partial_fixpoint

/-- `GrepIterator::next` (matchit/src/searchable/grepit.rs:66-74). -/
def grepNextA {T : Type} (S : SearchableMarker T) (re : Regex) (bytes : Bytes) (self : Nat) :
    Option (Res (Option (Nat × T) × Nat)) :=
  match grepSearchA A S re bytes self with
  | none => none
  | some .panic => some .panic
  | some (.ok none) => some (.ok (none, self))
  | some (.ok (some (offset, val))) =>
    match A.add offset (S.len val) with
    | .panic => some .panic
    | .ok self' => some (.ok (some (offset, val), self'))

/-- `RegExMatcherIterator::capture` (matchit/src/searchable/grepit.rs:103-128). -/
def regexCaptureA {T : Type} (S : SearchableMarker T) (re : Regex) (bytes : Bytes) (offset : Nat) :
    Option (Res (Option (Nat × (Nat × Nat)))) :=
  if offset ≥ bytes.length then some (.ok none)
  else
    match re.capturesAt bytes offset with
    | none => some (.ok none)
    | some (start, stop, group) =>
      match revSearch S bytes start with
      | .panic => some .panic
      | .ok (some (off, val)) =>
        let found := match group with
          | some g => some (.ok (some (off, g)))
          | none => some (.ok none)
        if off < start then                                                           -- `&&` (114)
          match A.add off (S.len val) with
          | .panic => some .panic
          | .ok e => if e < stop then regexCaptureA S re bytes stop else found
        else found
      | .ok none => if stop ≥ bytes.length then some (.ok none) else regexCaptureA S re bytes stop
partial_fixpoint

/-- `RegExMatcherIterator::next` (matchit/src/searchable/grepit.rs:138-146). -/
def regexNextA {T : Type} (S : SearchableMarker T) (re : Regex) (bytes : Bytes) (self : Nat) :
    Option (Res (Option (Nat × (Nat × Nat)) × Nat)) :=
  match regexCaptureA A S re bytes self with
  | none => none
  | some .panic => some .panic
  | some (.ok none) => some (.ok (none, self))
  | some (.ok (some (offset, val))) =>
    match A.add offset val.2 with
    | .panic => some .panic
    | .ok self' => some (.ok (some (offset, val), self'))

mutual

/-- `ContainedBySearch::contained_by` (matchit/src/lib.rs:77-108). -/
def containedByA {T : Type} (S : SearchableMarker T) (bytes : Bytes) (p0 p1 : Nat) : Res (Option (Nat × T)) :=
  if p0 ≥ bytes.length ∨ p1 ≥ bytes.length ∨ p0 ≥ p1 ∨ p1 = 0 then .ok none
  else
    let backwardsOffset := p0 - S.maxLen                                              -- `checked_sub`
    match sliceFrom bytes backwardsOffset with
    | .panic => .panic
    | .ok t => containedByLoopA S bytes p0 p1 backwardsOffset (findIter S.marker t)
termination_by (p0, 1, 0)

/-- The `for` loop of `contained_by` (matchit/src/lib.rs:91-107), with the addition of line 91. -/
def containedByLoopA {T : Type} (S : SearchableMarker T) (bytes : Bytes) (p0 p1 base : Nat) :
    List Nat → Res (Option (Nat × T))
  | [] => .ok none
  | x :: xs =>
    match A.add x base with                                                           -- 91
    | .panic => .panic
    | .ok c =>
      if h : c ≥ p0 then .ok none
      else
        match sliceFrom bytes c with
        | .panic => .panic
        | .ok t =>
          match S.tryRead t with
          | .panic => .panic
          | .ok none => containedByLoopA S bytes p0 p1 base xs
          | .ok (some (_, container)) =>
            match A.add c (S.len container) with                                      -- 98
            | .panic => .panic
            | .ok e =>
              if e ≥ p1 then
                match A.add c S.marker.length with                                    -- 100
                | .panic => .panic
                | .ok c' =>
                  match containedByA S bytes c c' with
                  | .panic => .panic
                  | .ok (some _) => containedByLoopA S bytes p0 p1 base xs
                  | .ok none => .ok (some (c, container))
              else containedByLoopA S bytes p0 p1 base xs
termination_by xs => (p0, 0, xs.length)

end

theorem slice_le {bs s : Bytes} {a b : Nat} (h : slice bs a b = .ok s) : b ≤ bs.length := by
  unfold slice at h
  split at h
  · next h1 => exact h1.2
  · cases h

/-- The loop of `partition_from` (matchit/src/lib.rs:121-151), with the additions of lines 126, 144 and 149. -/
def partitionLoopA {T : Type} (S : SearchableMarker T) (bytes : Bytes) (size c0 c1 : Nat) : Res (List (Nat × Nat)) :=
  if c0 > bytes.length ∨ c1 > bytes.length then .ok []
  else
    match A.add c1 1 with                                                             -- 126
    | .panic => .panic
    | .ok c1s =>
      match containedByA A S bytes c1 c1s with
      | .panic => .panic
      | .ok r =>
        let c1' := match r with
          | some (container, _) => container
          | none => c1
        if h0 : c0 ≥ c1' then .ok []
        else
          match A.add c1' (size / 4) with                                             -- 144
          | .panic => .panic
          | .ok q =>
            if q ≥ bytes.length then
              match sliceFrom bytes c0 with
              | .panic => .panic
              | .ok _ => .ok [(c0, bytes.length)]
            else
              match hs : slice bytes c0 c1' with
              | .panic => .panic
              | .ok _ =>
                match A.add c1' size with                                             -- 149
                | .panic => .panic
                | .ok c2 =>
                  match partitionLoopA S bytes size c1' c2 with
                  | .panic => .panic
                  | .ok rest => .ok ((c0, c1') :: rest)
termination_by bytes.length - c0
decreasing_by
  have := slice_le hs
  omega

/-- `partition_from` (matchit/src/lib.rs:114-155), as ranges of `bytes`. -/
def partitionRangesA {T : Type} (S : SearchableMarker T) (bytes : Bytes) (num : Nat) : Res (List (Nat × Nat)) :=
  if num = 0 then .panic
  else partitionLoopA A S bytes (bytes.length / num) 0 (bytes.length / num)

/-- `partition_from` (matchit/src/lib.rs:114-155): the contents of the returned slices. -/
def partitionFromA {T : Type} (S : SearchableMarker T) (bytes : Bytes) (num : Nat) : Res (List Bytes) :=
  match partitionRangesA A S bytes num with
  | .panic => .panic
  | .ok rs => .ok (rs.map fun r => (bytes.take r.2).drop r.1)

/-! ## The statistics functions of `ripdlt` -/

/-- `dltit(b)` (dlt_v1.rs:444-446, matchit/src/lib.rs:31-34) as an iterator. -/
@[reducible] def dltPullA (bytes : Bytes) : Pull StorageEntry where
  σ := Nat
  next off :=
    match readFallbackNextA A dltStorage bytes off with
    | none => none
    | some .panic => some .panic
    | some (.ok (none, off')) => some (.ok (off', none))
    | some (.ok (some (_, v), off')) => some (.ok (off', some v))

/-- `DltGrepIterator` as an iterator. -/
@[reducible] def grepPullA (re : Regex) (bytes : Bytes) : Pull (Nat × StorageEntry) where
  σ := Nat
  next off :=
    match grepNextA A dltStorage re bytes off with
    | none => none
    | some .panic => some .panic
    | some (.ok (o, off')) => some (.ok (off', o))

/-- `count` (matchit/src/generator/adapter.rs:142-145) and `Iterator::count` (std, which inherits the overflow checks of the
crate it is used in). -/
@[reducible] def countRedA (α : Type) : Red α Nat := foldRed 0 fun acc _ => A.add acc 1

/-- `Generator::count()` (generator.rs:32-35). -/
@[reducible] def genCountA (α : Type) : Red α Nat := reducer (countRedA A α) (nilStage α)

/-- `Iterator::count` (std). -/
def pullCountA {α : Type} (it : Pull α) (s : it.σ) : Option (Res Nat) := pullReduce (countRedA A α) it s

/-- `count` (ripdlt/src/main.rs:97-102). -/
def ripCountA (bytes : Bytes) : Option (Res Nat) := pullCountA A (dltPullA A bytes) 0

/-- `count_hello_world` (ripdlt/src/main.rs:104-114). -/
def countHelloWorldA (bytes : Bytes) : Option (Res Nat) := pullCountA A (pullFilter helloPredicate (dltPullA A bytes)) 0

/-- `count_hello_world_raw` (ripdlt/src/main.rs:116-119). -/
def countHelloWorldRawA (bytes : Bytes) : Option (Res Nat) := runRed (countRedA A Nat) (findIter helloWorld bytes)

/-- `count_hello_world_grepit` (ripdlt/src/main.rs:121-124). -/
def countHelloWorldGrepitA (re : Regex) (bytes : Bytes) : Option (Res Nat) := pullCountA A (grepPullA A re bytes) 0

/-- `continuous_timestamp_histogram` (ripdlt/src/main.rs:141-150). -/
def timestampHistogramA (bytes : Bytes) : Option (Res (OrdMap Nat Nat)) :=
  pullSplit (fun id : UInt32 => .ok id.toNat) (fun _ => genCountA A UInt32)
    (pullMap (fun r : StorageEntry × StorageEntry => A.sub32 r.2.secs r.1.secs)
      (pullGroupBy secsPredicate (dltPullA A bytes))) (.empty, 0)

/-- `mstp_info_histogram` (ripdlt/src/main.rs:152-158). -/
def mstpInfoHistogramA (bytes : Bytes) : Option (Res (OrdMap (Bool × Option MsgType) Nat)) :=
  pullSplit infoKey (fun _ => genCountA A StorageEntry)
    (pullFilter (fun e => .ok e.dlt.header.headerType.isExtendedHeader) (dltPullA A bytes)) 0

/-- `r.1.dlt.timestamp().unwrap() - r.0.dlt.timestamp().unwrap()` (ripdlt/src/main.rs:164,232,270,287). -/
def timeDeltaA (r : StorageEntry × StorageEntry) : Res UInt32 := do
  let t1 ← r.2.dlt.timestamp
  let t1 ← Res.unwrap t1
  let t0 ← r.1.dlt.timestamp
  let t0 ← Res.unwrap t0
  A.sub32 t1 t0

/-- `lifecycle_splitit` (ripdlt/src/main.rs:160-182). -/
def lifecycleSplitA (bytes : Bytes) : Option (Res (OrdMap B4 (OrdMap UInt32 Nat × Nat))) :=
  pullSplit (fun e : StorageEntry => .ok e.storageHeader.ecu)
    (fun _ => reducer (forkRed
        (reducer (splitRed (fun k : UInt32 => .ok k) (fun _ => genCountA A UInt32))
          (adapter (mapStage fun r => (timeDeltaA A r).bind fun d => .ok (d / 10000))
            (adapter (groupByStage timePredicate) (nilStage StorageEntry))))
        (genCountA A StorageEntry)) (nilStage StorageEntry))
    (pullFilter (fun e => .ok e.dlt.header.headerType.isWithTimestamp) (dltPullA A bytes)) 0

/-- `timestamp_splitit` (ripdlt/src/main.rs:199-223). -/
def timestampSplitA (bytes : Bytes) : Option (Res (OrdMap B4 (OrdMap UInt32 Nat × Nat))) :=
  pullSplit (fun e : StorageEntry => .ok e.storageHeader.ecu)
    (fun _ => reducer (forkRed
        (reducer (splitRed (fun k : UInt32 => .ok k) (fun _ => genCountA A UInt32))
          (adapter (mapStage fun r : StorageEntry × StorageEntry => A.sub32 r.2.secs r.1.secs)
            (adapter (mergeStage (fun a b => .ok (mergeOverlapping a b)) spanKey)
              (adapter (groupByStage secsPredicate) (nilStage StorageEntry)))))
        (genCountA A StorageEntry)) (nilStage StorageEntry)) (dltPullA A bytes) 0

/-- `lifecycle_histogram` (ripdlt/src/main.rs:225-235). -/
def lifecycleHistogramA (bytes : Bytes) : Option (Res (OrdMap Nat Nat)) :=
  pullSplit (fun id : UInt32 => .ok (id.toNat / 10000)) (fun _ => genCountA A UInt32)
    (pullMap (timeDeltaA A) (pullGroupBy lifecyclePredicate
      (pullFilter (fun e => .ok e.dlt.header.headerType.isWithTimestamp) (dltPullA A bytes)))) (.empty, 0)

/-- `histogram_payload` (ripdlt/src/main.rs:237-244). -/
def histogramPayloadA (bytes : Bytes) : Option (Res (OrdMap Nat Nat)) :=
  pullSplit (fun id : Nat => .ok id) (fun _ => genCountA A Nat)
    (pullMap (fun e : StorageEntry => e.dlt.payload.bind fun p => .ok (p.getD []).length) (dltPullA A bytes)) 0

/-- `histogram_message` (ripdlt/src/main.rs:246-253). -/
def histogramMessageA (bytes : Bytes) : Option (Res (OrdMap Nat Nat)) :=
  pullSplit (fun id : Nat => .ok id) (fun _ => genCountA A Nat)
    (pullMap (fun e : StorageEntry => .ok e.len) (dltPullA A bytes)) 0

/-- `histogram_hello_world` (ripdlt/src/main.rs:256-261). -/
def histogramHelloWorldA (re : Regex) (bytes : Bytes) : Option (Res (OrdMap Nat Nat)) :=
  pullSplit (fun off : Nat => .ok (off / 100000000)) (fun _ => genCountA A Nat)
    (pullMap (fun x : Nat × StorageEntry => .ok x.1) (grepPullA A re bytes)) 0

/-- `... >= MIN_TIME_DMS` (ripdlt/src/main.rs:270,287). -/
def longEnoughA (r : StorageEntry × StorageEntry) : Res Bool := (timeDeltaA A r).bind fun d => .ok (decide (18000000 ≤ d))

/-- `lifecycle_iter` (ripdlt/src/main.rs:263-275). -/
def lifecycleIterA (bytes : Bytes) : Option (Res Nat) :=
  pullCountA A (pullFilter (longEnoughA A) (pullGroupBy timePredicate
    (pullFilter (fun e => .ok e.dlt.header.headerType.isWithTimestamp) (dltPullA A bytes)))) (.empty, 0)

/-- `lifecycle_itertools` (ripdlt/src/main.rs:279-292). -/
def lifecycleItertoolsA (bytes : Bytes) : Option (Res Nat) :=
  pullCountA A (pullFilter (longEnoughA A) (pullFilter (fun r : StorageEntry × StorageEntry => timePredicate r.1 r.2)
    (tupleWindows (pullFilter (fun e => .ok e.dlt.header.headerType.isWithTimestamp) (dltPullA A bytes))))) (none, 0)

/-- `multithreaded` (ripdlt/src/main.rs:16-38). -/
def MultithreadedA (f : Bytes → Option (Res Nat)) (bytes : Bytes) (num : Nat) (r : Res Nat) : Prop :=
  match partitionFromA A dltStorage bytes num with
  | .panic => r = .panic
  | .ok slices => ParReduce f A.add 0 slices r

/-- `*acc.entry(k).or_insert(0) += v` (ripdlt/src/main.rs:59-60,87-88). -/
def bumpA {κ : Type} [Key κ] (acc : OrdMap κ Nat) (k : κ) (v : Nat) : Res (OrdMap κ Nat) :=
  (A.add ((acc.get k).getD 0) v).bind fun n => .ok (acc.insert k n)

/-- The reduction of `par_continuous_timestamp_histogram` (ripdlt/src/main.rs:57-63) and the inner loop of
`par_timestamp_splitit` (ripdlt/src/main.rs:86-89). -/
def mergeCountsA {κ : Type} [Key κ] (acc : OrdMap κ Nat) : List (κ × Nat) → Res (OrdMap κ Nat)
  | [] => .ok acc
  | (k, v) :: rest => (bumpA A acc k v).bind fun acc' => mergeCountsA acc' rest

/-- `par_continuous_timestamp_histogram` (ripdlt/src/main.rs:40-64). -/
def ParTimestampHistogramA (bytes : Bytes) (num : Nat) (r : Res (OrdMap Nat Nat)) : Prop :=
  match partitionFromA A dltStorage bytes num with
  | .panic => r = .panic
  | .ok slices => ParReduce (timestampHistogramA A) (mergeCountsA A) [] slices r

/-- The reduction of `par_timestamp_splitit` (ripdlt/src/main.rs:83-93). -/
def mergeNestedA (acc : OrdMap B4 (OrdMap UInt32 Nat × Nat)) :
    List (B4 × (OrdMap UInt32 Nat × Nat)) → Res (OrdMap B4 (OrdMap UInt32 Nat × Nat))
  | [] => .ok acc
  | (k, v) :: rest =>
    let e := (acc.get k).getD ([], 0)
    (mergeCountsA A e.1 v.1).bind fun h =>
      (A.add e.2 v.2).bind fun n => mergeNestedA (acc.insert k (h, n)) rest

/-- `par_timestamp_splitit` (ripdlt/src/main.rs:66-94). -/
def ParTimestampSplitA (bytes : Bytes) (num : Nat) (r : Res (OrdMap B4 (OrdMap UInt32 Nat × Nat))) : Prop :=
  match partitionFromA A dltStorage bytes num with
  | .panic => r = .panic
  | .ok slices => ParReduce (timestampSplitA A) (mergeNestedA A) [] slices r

/-! ## The commands of `ripdlt` -/

/-- `println!("{:?}-{:?} secs: {:?}", k, k+1, v)` (ripdlt/src/main.rs:318,342,348). -/
def bucketLineA (e : Nat × Nat) : Res Bytes :=
  (A.add e.1 1).bind fun k' => .ok (text s!"{e.1}-{k'} secs: {e.2}\n")

/-- `println!("Offset {:?}M-{:?}M: {:?}", ..)` (ripdlt/src/main.rs:391). -/
def offsetLineA (e : Nat × Nat) : Res Bytes :=
  (A.mul e.1 100000000).bind fun a => (A.add e.1 1).bind fun k' => (A.mul k' 100000000).bind fun b =>
    .ok (text s!"Offset {a / 1000000}M-{b / 1000000}M: {e.2}\n")

/-- The loops of the size commands with the line behind them (ripdlt/src/main.rs:360-366,370-377). -/
def sizeLoopA (label : String) : Nat → List (Nat × Nat) → Bytes × Bool
  | total, [] => (text s!"{label} in total: {total / 1024} kB\n", true)
  | total, (k, v) :: rest =>
    match A.mul k v with
    | .panic => ([], false)
    | .ok size =>
      let line := text s!"{k}b: {v}, overall: {size / 1024} kB\n"
      match A.add total size with
      | .panic => (line, false)
      | .ok total' => (line ++ (sizeLoopA label total' rest).1, (sizeLoopA label total' rest).2)

/-- `println!("available parallelism = {}, slices = {}", ..)` (ripdlt/src/main.rs:23,48,74). -/
def slicesLineA (num : Nat) (bytes : Bytes) : Bytes :=
  match partitionRangesA A dltStorage bytes num with
  | .panic => []
  | .ok rs => text s!"available parallelism = {num}, slices = {rs.length}\n"

/-- The line `lifecycle_iter` prints in each thread (ripdlt/src/main.rs:273). -/
def iterLineA (bytes : Bytes) : Option Bytes :=
  match lifecycleIterA A bytes with
  | some (.ok n) => some (text s!"{n} lifecycles >= 1800s\n")
  | _ => none

/-- `par_iter`: the lines of the threads (ripdlt/src/main.rs:25-37,273,418). -/
def ParIterLinesA (slices : List Bytes) (ok : Bool) (lines : List Bytes) : Prop :=
  if ok then ∃ ls, slices.map (iterLineA A) = ls.map some ∧ lines.Perm ls
  else ∃ ls, ls.Sublist (slices.filterMap (iterLineA A)) ∧ lines.Perm ls

/-- Running a command prints `out.1` and then ends normally (`out.2 = true`) or panics (ripdlt/src/main.rs:314-427). -/
def CmdTextA (num : Nat) (bytes : Bytes) (c : Cmd) (out : Bytes × Bool) : Prop :=
  match c with
  | .histogramLifecycles => ∃ q, lifecycleHistogramA A bytes = some q ∧
      out = around (text "Distribution of lifecycle durations:\n") q (printLoop (bucketLineA A))
  | .splitLifecycles => ∃ q, lifecycleSplitA A bytes = some q ∧
      out = around (text "Distribution of lifecycle durations:\n") q (printLoop ecuLine)
  | .splitTimestamp => ∃ q, timestampSplitA A bytes = some q ∧
      out = around (text "Durations of periods where DLT storage header timestamps are continuous:\n") q (printLoop ecuLine)
  | .parSplitTimestamp => ∃ q, ParTimestampSplitA A bytes num q ∧
      out = around (text "Durations of periods where DLT storage header timestamps are continuous:\n" ++ slicesLineA A num bytes)
        q (printLoop ecuLine)
  | .histogramTimestamp => ∃ q, timestampHistogramA A bytes = some q ∧
      out = around (text "Durations of periods where DLT storage header timestamps are continuous:\n") q
        (printLoop (bucketLineA A))
  | .parHistogramTimestamp => ∃ q, ParTimestampHistogramA A bytes num q ∧
      out = around (text "Durations of periods where DLT storage header timestamps are continuous:\n" ++ slicesLineA A num bytes)
        q (printLoop (bucketLineA A))
  | .histogramMessageType => ∃ q, mstpInfoHistogramA A bytes = some q ∧
      out = around (text "(verbose, message type): # dlt messages\n") q (printLoop infoLine)
  | .histogramPayloadSize => ∃ q, histogramPayloadA A bytes = some q ∧
      out = around (text "Distribution of payload length:\n") q (sizeLoopA A "Payload" 0)
  | .histogramMessageSize => ∃ q, histogramMessageA A bytes = some q ∧
      out = around (text "Distribution of DLT message length:\n") q (sizeLoopA A "DLT messages" 0)
  | .count => ∃ q, ripCountA A bytes = some q ∧ out = around [] q (numberLine "messages")
  | .parCount => ∃ q, MultithreadedA A (ripCountA A) bytes num q ∧
      out = around (slicesLineA A num bytes) q (numberLine "messages")
  | .histogramHelloWorld => ∃ q, histogramHelloWorldA A helloRegex bytes = some q ∧
      out = around (text "Distribution of 'Hello World' matches:\n") q (printLoop (offsetLineA A))
  | .countHelloWorld => ∃ q, countHelloWorldA A bytes = some q ∧
      out = around [] q (numberLine "hello world messages")
  | .countHelloWorldRaw => ∃ q, countHelloWorldRawA A bytes = some q ∧
      out = around [] q (numberLine "raw hello world matches")
  | .countHelloWorldGrepit => ∃ q, countHelloWorldGrepitA A helloRegex bytes = some q ∧
      out = around [] q (numberLine "hello world messages")
  | .parCountHelloWorld => ∃ q, MultithreadedA A (countHelloWorldA A) bytes num q ∧
      out = around (slicesLineA A num bytes) q (numberLine "hello world messages")
  | .parCountHelloWorldRaw => ∃ q, MultithreadedA A (countHelloWorldRawA A) bytes num q ∧
      out = around (slicesLineA A num bytes) q (numberLine "hello world messages")
  | .parCountHelloWorldGrepit => ∃ q, MultithreadedA A (countHelloWorldGrepitA A helloRegex) bytes num q ∧
      out = around (slicesLineA A num bytes) q (numberLine "hello world messages")
  | .parIter => ∃ q slices lines, MultithreadedA A (lifecycleIterA A) bytes num q ∧
      partitionFromA A dltStorage bytes num = .ok slices ∧ out.2 = q.isOk ∧ ParIterLinesA A slices out.2 lines ∧
      out.1 = slicesLineA A num bytes ++ lines.flatten
  | .iter => ∃ q, lifecycleIterA A bytes = some q ∧ out = around [] q (numberLine "lifecycles >= 1800s")
  | .itertools => ∃ q, lifecycleItertoolsA A bytes = some q ∧ out = around [] q (numberLine "lifecycles >= 1800s")

/-- What a run of `ripdlt` built with `A` prints and how it ends (ripdlt/src/main.rs:296-427). -/
def RipTextA (num : Nat) (f : OsFile) (prog : String) (args : List String) (out : Bytes × Bool) : Prop :=
  match args with
  | m :: c :: _ :: _ =>
    let echo := text (String.intercalate " " (prog :: args) ++ "\n")
    match (if m = "mmap" then DltBuffer.mmapFile f else if m = "read" then DltBuffer.readFile f else none) with
    | none => out = (echo, false)
    | some b =>
      match Cmd.ofString c with
      | none => out = (echo, false)
      | some c => ∃ o, CmdTextA A num b.asSlice c o ∧ out = (echo ++ o.1, o.2)
  | _ => out = (text (s!"usage: {prog} <file_access_method> <test_name> <filename.dlt>\n" ++
      "  runs ripdlt tests with different implementations\n"), true)

end Verif
