import Verif.Model.Pull
import Verif.Model.Grep
import Verif.Model.Partition

/-!
# Model of `ripdlt/src/main.rs`: the statistics functions

Results are `Option (Res _)`: `none` if the call does not return, `some .panic` if it panics. Output on the
terminal (`println!`) is not modelled, except for the arithmetic and the string conversion in it.
-/

namespace Verif

/-- `[u8; 4]` is ordered lexicographically. -/
def B4.rank (x : B4) : Nat :=
  ((x.b0.toNat * 256 + x.b1.toNat) * 256 + x.b2.toNat) * 256 + x.b3.toNat

theorem B4.rank_inj (a b : B4) (h : a.rank = b.rank) : a = b := by
  obtain ⟨a0, a1, a2, a3⟩ := a
  obtain ⟨b0, b1, b2, b3⟩ := b
  have := a1.toNat_lt; have := a2.toNat_lt; have := a3.toNat_lt
  have := b1.toNat_lt; have := b2.toNat_lt; have := b3.toNat_lt
  simp only [B4.rank] at h
  simp only [B4.mk.injEq]
  refine ⟨UInt8.toNat_inj.1 ?_, UInt8.toNat_inj.1 ?_, UInt8.toNat_inj.1 ?_, UInt8.toNat_inj.1 ?_⟩ <;> omega

instance : Key B4 := Key.ofRank B4.rank B4.rank_inj

/-- The derived `Ord` of `(bool, Option<DltMessageType>)` (dlt_v1.rs:147,158,171,182,195): `false < true`,
`None < Some`, variants by discriminant, then the type info by discriminant. -/
def infoRank : Bool × Option MsgType → Nat
  | (v, t) => (if v then 64 else 0) + match t with
    | none => 0
    | some (.log i) => 8 + i.toU8.toNat
    | some (.appTrace i) => 16 + i.toU8.toNat
    | some (.nwTrace i) => 24 + i.toU8.toNat
    | some (.control i) => 32 + i.toU8.toNat

theorem infoRank_inj (a b : Bool × Option MsgType) (h : infoRank a = infoRank b) : a = b := by
  obtain ⟨v, t⟩ := a
  obtain ⟨w, u⟩ := b
  revert h
  rcases v with _ | _ <;> rcases w with _ | _ <;>
    rcases t with _ | (i | i | i | i) <;> rcases u with _ | (j | j | j | j) <;>
    first
    | (cases i <;> cases j <;> decide)
    | (cases i <;> decide)
    | (cases j <;> decide)
    | decide

instance : Key (Bool × Option MsgType) := Key.ofRank infoRank infoRank_inj

/-- Comparison of `Option<u32>` (derived `PartialOrd`): `None` is smaller than every `Some`. -/
def optGe : Option UInt32 → Option UInt32 → Bool
  | some b, some a => a ≤ b
  | some _, none => true
  | none, none => true
  | none, some _ => false

/-- `e.storage_header.secs.get()`. -/
abbrev StorageEntry.secs (e : StorageEntry) : UInt32 := e.storageHeader.secs

/-- `dltit(mmap)` as an iterator; its initial state is `0`. -/
@[reducible] def dltPull (bytes : Bytes) : Pull StorageEntry := pullOf (dltitNext bytes)

/-- `count` (ripdlt/src/main.rs:97-102). -/
def ripCount (bytes : Bytes) : Option (Res Nat) := pullCount (dltPull bytes) 0

/-- `"Hello World".as_bytes()`. -/
def helloWorld : Bytes := [72, 101, 108, 108, 111, 32, 87, 111, 114, 108, 100]

/-- The predicate of `count_hello_world` (ripdlt/src/main.rs:109). -/
def helloPredicate (e : StorageEntry) : Res Bool := do
  let p ← e.dlt.payload
  let p ← Res.unwrap p
  .ok (findIter helloWorld p).head?.isSome

/-- `count_hello_world` (ripdlt/src/main.rs:104-114). -/
def countHelloWorld (bytes : Bytes) : Option (Res Nat) := pullCount (pullFilter helloPredicate (dltPull bytes)) 0

/-- `count_hello_world_raw` (ripdlt/src/main.rs:116-119). -/
def countHelloWorldRaw (bytes : Bytes) : Option (Res Nat) := runRed (countRed Nat) (findIter helloWorld bytes)

/-- `DltGrepIterator` as an iterator. -/
@[reducible] def grepPull (re : Regex) (bytes : Bytes) : Pull (Nat × StorageEntry) where
  σ := Nat
  next off :=
    match grepNext dltStorage re bytes off with
    | none => none
    | some .panic => some .panic
    | some (.ok (o, off')) => some (.ok (off', o))

/-- `count_hello_world_grepit` (ripdlt/src/main.rs:121-124); `re` is the compiled pattern `H.* World`. -/
def countHelloWorldGrepit (re : Regex) (bytes : Bytes) : Option (Res Nat) := pullCount (grepPull re bytes) 0

/-- `|a, b| b.storage_header.secs >= a.storage_header.secs` (ripdlt/src/main.rs:143,202). -/
def secsPredicate (a b : StorageEntry) : Res Bool := .ok (decide (a.secs ≤ b.secs))

/-- `Generator::count()` (generator.rs:32-35): `Reducer(Fold, NilAdapter)`. -/
@[reducible] def genCount (α : Type) : Red α Nat := reducer (countRed α) (nilStage α)

/-- `continuous_timestamp_histogram` (ripdlt/src/main.rs:141-150). -/
def timestampHistogram (bytes : Bytes) : Option (Res (OrdMap Nat Nat)) :=
  pullSplit (fun id : UInt32 => .ok id.toNat) (fun _ => genCount UInt32)
    (pullMap (fun r : StorageEntry × StorageEntry => subU32 r.2.secs r.1.secs)
      (pullGroupBy secsPredicate (dltPull bytes))) (.empty, 0)

/-- The key function of `mstp_info_histogram` (ripdlt/src/main.rs:157). -/
def infoKey (e : StorageEntry) : Res (Bool × Option MsgType) := do
  let x ← e.dlt.extendedHeader
  let x ← Res.unwrap x
  .ok x.msin.info

/-- `mstp_info_histogram` (ripdlt/src/main.rs:152-158). -/
def mstpInfoHistogram (bytes : Bytes) : Option (Res (OrdMap (Bool × Option MsgType) Nat)) :=
  pullSplit infoKey (fun _ => genCount StorageEntry)
    (pullFilter (fun e => .ok e.dlt.header.headerType.isExtendedHeader) (dltPull bytes)) 0

/-- `|a, b| b.dlt.timestamp() >= a.dlt.timestamp()` (ripdlt/src/main.rs:163,227,265,281). -/
def timePredicate (a b : StorageEntry) : Res Bool := do
  let tb ← b.dlt.timestamp
  let ta ← a.dlt.timestamp
  .ok (optGe tb ta)

/-- `r.1.dlt.timestamp().unwrap() - r.0.dlt.timestamp().unwrap()` (ripdlt/src/main.rs:164,232,270,287). -/
def timeDelta (r : StorageEntry × StorageEntry) : Res UInt32 := do
  let t1 ← r.2.dlt.timestamp
  let t1 ← Res.unwrap t1
  let t0 ← r.1.dlt.timestamp
  let t0 ← Res.unwrap t0
  subU32 t1 t0

/-- `lifecycle_splitit` (ripdlt/src/main.rs:160-182). -/
def lifecycleSplit (bytes : Bytes) : Option (Res (OrdMap B4 (OrdMap UInt32 Nat × Nat))) :=
  pullSplit (fun e : StorageEntry => .ok e.storageHeader.ecu)
    (fun _ => reducer (forkRed
        (reducer (splitRed (fun k : UInt32 => .ok k) (fun _ => genCount UInt32))
          (adapter (mapStage fun r => (timeDelta r).bind fun d => .ok (d / 10000))
            (adapter (groupByStage timePredicate) (nilStage StorageEntry))))
        (genCount StorageEntry)) (nilStage StorageEntry))
    (pullFilter (fun e => .ok e.dlt.header.headerType.isWithTimestamp) (dltPull bytes)) 0

/-- `merge_overlapping_timestamps` (ripdlt/src/main.rs:184-197). -/
def mergeOverlapping (a b : StorageEntry × StorageEntry) : Option (StorageEntry × StorageEntry) :=
  let max := fun x y : StorageEntry => if x.secs ≥ y.secs then x else y
  if b.1.secs ≥ a.1.secs ∧ b.1.secs ≤ a.2.secs then some (a.1, max a.2 b.2)
  else if a.1.secs ≥ b.1.secs ∧ a.1.secs ≤ b.2.secs then some (b.1, max a.2 b.2)
  else none

/-- `keyfn` of `timestamp_splitit` (ripdlt/src/main.rs:205). -/
def spanKey (r : StorageEntry × StorageEntry) : UInt32 × UInt32 := (r.1.secs, r.2.secs)

/-- The first branch of the fork of `timestamp_splitit` (ripdlt/src/main.rs:211-217). -/
@[reducible] def spanRed : Red StorageEntry (OrdMap UInt32 Nat) :=
  reducer (splitRed (fun k : UInt32 => .ok k) (fun _ => genCount UInt32))
    (adapter (mapStage fun r : StorageEntry × StorageEntry => subU32 r.2.secs r.1.secs)
      (adapter (mergeStage (fun a b => .ok (mergeOverlapping a b)) spanKey)
        (adapter (groupByStage secsPredicate) (nilStage StorageEntry))))

/-- `timestamp_splitit` (ripdlt/src/main.rs:199-223). -/
def timestampSplit (bytes : Bytes) : Option (Res (OrdMap B4 (OrdMap UInt32 Nat × Nat))) :=
  pullSplit (fun e : StorageEntry => .ok e.storageHeader.ecu)
    (fun _ => reducer (forkRed spanRed (genCount StorageEntry)) (nilStage StorageEntry)) (dltPull bytes) 0

/-- The predicate of `lifecycle_histogram` (ripdlt/src/main.rs:227); `&&` evaluates its right side only if needed. -/
def lifecyclePredicate (a b : StorageEntry) : Res Bool := do
  let ea ← a.dlt.ecuId
  let eb ← b.dlt.ecuId
  if ea = eb then timePredicate a b else .ok false

/-- `lifecycle_histogram` (ripdlt/src/main.rs:225-235). -/
def lifecycleHistogram (bytes : Bytes) : Option (Res (OrdMap Nat Nat)) :=
  pullSplit (fun id : UInt32 => .ok (id.toNat / 10000)) (fun _ => genCount UInt32)
    (pullMap timeDelta (pullGroupBy lifecyclePredicate
      (pullFilter (fun e => .ok e.dlt.header.headerType.isWithTimestamp) (dltPull bytes)))) (.empty, 0)

/-- `histogram_payload` (ripdlt/src/main.rs:237-244). -/
def histogramPayload (bytes : Bytes) : Option (Res (OrdMap Nat Nat)) :=
  pullSplit (fun id : Nat => .ok id) (fun _ => genCount Nat)
    (pullMap (fun e : StorageEntry => e.dlt.payload.bind fun p => .ok (p.getD []).length) (dltPull bytes)) 0

/-- `histogram_message` (ripdlt/src/main.rs:246-253). -/
def histogramMessage (bytes : Bytes) : Option (Res (OrdMap Nat Nat)) :=
  pullSplit (fun id : Nat => .ok id) (fun _ => genCount Nat)
    (pullMap (fun e : StorageEntry => .ok e.len) (dltPull bytes)) 0

/-- `histogram_hello_world` (ripdlt/src/main.rs:256-261). -/
def histogramHelloWorld (re : Regex) (bytes : Bytes) : Option (Res (OrdMap Nat Nat)) :=
  pullSplit (fun off : Nat => .ok (off / 100000000)) (fun _ => genCount Nat)
    (pullMap (fun x : Nat × StorageEntry => .ok x.1) (grepPull re bytes)) 0

/-- `r.1.timestamp().unwrap() - r.0.timestamp().unwrap() >= MIN_TIME_DMS` (ripdlt/src/main.rs:6,270,287). -/
def longEnough (r : StorageEntry × StorageEntry) : Res Bool := (timeDelta r).bind fun d => .ok (decide (18000000 ≤ d))

/-- `lifecycle_iter` (ripdlt/src/main.rs:263-275). -/
def lifecycleIter (bytes : Bytes) : Option (Res Nat) :=
  pullCount (pullFilter longEnough (pullGroupBy timePredicate
    (pullFilter (fun e => .ok e.dlt.header.headerType.isWithTimestamp) (dltPull bytes)))) (.empty, 0)

/-- `itertools::tuple_windows` for pairs: the state holds the last pair. -/
@[reducible] def tupleWindows {α : Type} (it : Pull α) : Pull (α × α) where
  σ := Option (α × α) × it.σ
  next s :=
    match it.next s.2 with
    | none => none
    | some .panic => some .panic
    | some (.ok (s', none)) => some (.ok ((s.1, s'), none))
    | some (.ok (s', some x)) =>
      match s.1 with
      | some (_, b) => some (.ok ((some (b, x), s'), some (b, x)))
      | none =>
        match it.next s' with
        | none => none
        | some .panic => some .panic
        | some (.ok (s'', none)) => some (.ok ((none, s''), none))
        | some (.ok (s'', some y)) => some (.ok ((some (x, y), s''), some (x, y)))

/-- `lifecycle_itertools` (ripdlt/src/main.rs:279-292). -/
def lifecycleItertools (bytes : Bytes) : Option (Res Nat) :=
  pullCount (pullFilter longEnough (pullFilter (fun r : StorageEntry × StorageEntry => timePredicate r.1 r.2) (tupleWindows
    (pullFilter (fun e => .ok e.dlt.header.headerType.isWithTimestamp) (dltPull bytes))))) (none, 0)

/-! ## The commands that print maps -/

/-- Checked `usize` multiplication: overflow panics (as in a debug build). -/
def umul (a b : Nat) : Res Nat := if a * b ≤ usizeMax then .ok (a * b) else .panic

/-- The loop of the commands `histogram_payload_size` and `histogram_message_size`
(ripdlt/src/main.rs:358-377): `total_size` behind it. -/
def totalSize : Nat → List (Nat × Nat) → Res Nat
  | total, [] => .ok total
  | total, (k, v) :: rest =>
    (umul k v).bind fun size => (uadd total size).bind fun total' => totalSize total' rest

/-- The loop of the commands `histogram_lifecycles`, `histogram_timestamp` and `par_histogram_timestamp`
(ripdlt/src/main.rs:315-320,339-350): the printed lines `k-(k+1) secs: v`. -/
def bucketLines : List (Nat × Nat) → Res (List (Nat × Nat × Nat))
  | [] => .ok []
  | (k, v) :: rest => (uadd k 1).bind fun k' => (bucketLines rest).bind fun ls => .ok ((k, k', v) :: ls)

/-- A UTF-8 continuation byte. -/
def isCont (b : UInt8) : Bool := 0x80 ≤ b && b ≤ 0xBF

/-- `String::from_utf8(bytes).is_ok()` (std): well-formed UTF-8 as in table 3-7 of the Unicode standard. -/
def utf8Valid : Bytes → Bool
  | [] => true
  | a :: rest =>
    if a < 0x80 then utf8Valid rest
    else match rest with
    | [] => false
    | b :: rest =>
      if 0xC2 ≤ a && a ≤ 0xDF then isCont b && utf8Valid rest
      else match rest with
      | [] => false
      | c :: rest =>
        if a == 0xE0 then 0xA0 ≤ b && b ≤ 0xBF && isCont c && utf8Valid rest
        else if a == 0xED then 0x80 ≤ b && b ≤ 0x9F && isCont c && utf8Valid rest
        else if 0xE1 ≤ a && a ≤ 0xEF then isCont b && isCont c && utf8Valid rest
        else match rest with
        | [] => false
        | d :: rest =>
          if a == 0xF0 then 0x90 ≤ b && b ≤ 0xBF && isCont c && isCont d && utf8Valid rest
          else if a == 0xF4 then 0x80 ≤ b && b ≤ 0x8F && isCont c && isCont d && utf8Valid rest
          else if 0xF1 ≤ a && a ≤ 0xF3 then isCont b && isCont c && isCont d && utf8Valid rest
          else false

/-- The loop of the commands `split_lifecycles`, `split_timestamp` and `par_split_timestamp`
(ripdlt/src/main.rs:321-338): the printed lines; `String::from_utf8(k.to_vec()).unwrap()` panics on an id that is
not UTF-8. -/
def ecuLines {ν : Type} : List (B4 × ν) → Res (List (Bytes × ν))
  | [] => .ok []
  | (k, v) :: rest =>
    if utf8Valid k.toBytes then (ecuLines rest).bind fun ls => .ok ((k.toBytes, v) :: ls) else .panic

/-- A command: the statistics function, then the loop that prints its result. -/
def printed {α β : Type} (r : Option (Res α)) (lines : α → Res β) : Option (Res β) :=
  match r with
  | none => none
  | some .panic => some .panic
  | some (.ok a) => some (lines a)

/-- The command `split_lifecycles` (ripdlt/src/main.rs:321-326). -/
def cmdSplitLifecycles (bytes : Bytes) : Option (Res (List (Bytes × (OrdMap UInt32 Nat × Nat)))) :=
  printed (lifecycleSplit bytes) ecuLines

/-- The command `split_timestamp` (ripdlt/src/main.rs:327-332). -/
def cmdSplitTimestamp (bytes : Bytes) : Option (Res (List (Bytes × (OrdMap UInt32 Nat × Nat)))) :=
  printed (timestampSplit bytes) ecuLines

/-- The loop of the command `histogram_hello_world` (ripdlt/src/main.rs:388-391): the printed lines
`Offset k*IDX_BUCKET_SIZE / 1000000 M-(k+1)*IDX_BUCKET_SIZE / 1000000 M: v`. -/
def offsetLines : List (Nat × Nat) → Res (List (Nat × Nat × Nat))
  | [] => .ok []
  | (k, v) :: rest =>
    (umul k 100000000).bind fun a => (uadd k 1).bind fun k' => (umul k' 100000000).bind fun b =>
      (offsetLines rest).bind fun ls => .ok ((a / 1000000, b / 1000000, v) :: ls)

/-! ## The thread pool -/

/-- One work item of a parallel reduction: `rayon` folds a segment sequentially, starting with the identity. -/
def parLeaf {β ρ : Type} (f : β → Option (Res ρ)) (op : ρ → ρ → Res ρ) : ρ → List β → Option (Res ρ)
  | acc, [] => some (.ok acc)
  | acc, x :: xs =>
    match f x with
    | none => none
    | some .panic => some .panic
    | some (.ok v) =>
      match op acc v with
      | .panic => some .panic
      | .ok acc' => parLeaf f op acc' xs

/-- `slices.into_par_iter().map(f).reduce(identity, op)` (rayon): `ParReduce f op e xs r` if some way of splitting
`xs` into consecutive segments and combining the segments' results pairwise gives `r`. A panic in any job is
propagated. -/
inductive ParReduce {β ρ : Type} (f : β → Option (Res ρ)) (op : ρ → ρ → Res ρ) (e : ρ) : List β → Res ρ → Prop where
  | leaf {xs r} : parLeaf f op e xs = some r → ParReduce f op e xs r
  | node {xs ys a b} : ParReduce f op e xs (.ok a) → ParReduce f op e ys (.ok b) → ParReduce f op e (xs ++ ys) (op a b)
  | panicL {xs ys b} : ParReduce f op e xs .panic → ParReduce f op e ys b → ParReduce f op e (xs ++ ys) .panic
  | panicR {xs ys a} : ParReduce f op e xs a → ParReduce f op e ys .panic → ParReduce f op e (xs ++ ys) .panic

/-- `multithreaded` (ripdlt/src/main.rs:16-38): `partition` into `num` slices, then `.map(f).sum()`; `num` is
`available_parallelism()`. -/
def Multithreaded (f : Bytes → Option (Res Nat)) (bytes : Bytes) (num : Nat) (r : Res Nat) : Prop :=
  match partitionFrom dltStorage bytes num with
  | .panic => r = .panic
  | .ok slices => ParReduce f uadd 0 slices r

/-- `*acc.entry(k).or_insert(0) += v` (ripdlt/src/main.rs:59-60,87-88). -/
def bump {κ : Type} [Key κ] (acc : OrdMap κ Nat) (k : κ) (v : Nat) : Res (OrdMap κ Nat) :=
  (uadd ((acc.get k).getD 0) v).bind fun n => .ok (acc.insert k n)

/-- The reduction of `par_continuous_timestamp_histogram` (ripdlt/src/main.rs:57-63) and the inner loop of
`par_timestamp_splitit` (ripdlt/src/main.rs:86-89). -/
def mergeCounts {κ : Type} [Key κ] (acc : OrdMap κ Nat) : List (κ × Nat) → Res (OrdMap κ Nat)
  | [] => .ok acc
  | (k, v) :: rest => (bump acc k v).bind fun acc' => mergeCounts acc' rest

/-- `par_continuous_timestamp_histogram` (ripdlt/src/main.rs:40-64). -/
def ParTimestampHistogram (bytes : Bytes) (num : Nat) (r : Res (OrdMap Nat Nat)) : Prop :=
  match partitionFrom dltStorage bytes num with
  | .panic => r = .panic
  | .ok slices => ParReduce timestampHistogram mergeCounts [] slices r

/-- The reduction of `par_timestamp_splitit` (ripdlt/src/main.rs:83-93). -/
def mergeNested (acc : OrdMap B4 (OrdMap UInt32 Nat × Nat)) :
    List (B4 × (OrdMap UInt32 Nat × Nat)) → Res (OrdMap B4 (OrdMap UInt32 Nat × Nat))
  | [] => .ok acc
  | (k, v) :: rest =>
    let e := (acc.get k).getD ([], 0)
    (mergeCounts e.1 v.1).bind fun h =>
      (uadd e.2 v.2).bind fun n => mergeNested (acc.insert k (h, n)) rest

/-- `par_timestamp_splitit` (ripdlt/src/main.rs:66-94). -/
def ParTimestampSplit (bytes : Bytes) (num : Nat) (r : Res (OrdMap B4 (OrdMap UInt32 Nat × Nat))) : Prop :=
  match partitionFrom dltStorage bytes num with
  | .panic => r = .panic
  | .ok slices => ParReduce timestampSplit mergeNested [] slices r

end Verif
