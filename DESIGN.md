# Formal model of pgraubner/rapiddlt in Lean 4 — design

This file says what is modelled, what is trusted, how each property is proved, and what the code gets wrong.
Statuses and exact theorem names are in `MANIFEST.json`; English statements are in `properties.jsonl`; edits of the model that
were tried against the theorems are in `seeded/LOG.jsonl`.

## Layout

* `lean/Verif/Model/*.lean`  – the model of the code, definition by definition, each citing the lines of `/repo` it models.
* `lean/Verif/Spec/*.lean`   – small declarative specifications (wire format, "message at offset", greedy scan, maximal runs,
  histograms, cuts, free messages, list semantics of pipelines, ...). They do not use the model's functions; they share only
  its data types (byte lists, message records, `Res`, ordered maps with insert and remove, the syntax of chains and programs).
* `lean/Verif/Lemmas/*.lean` – helper lemmas, not part of any claim.
* `lean/Verif/Props/*.lean`  – the theorems named in the manifest, each with an `example` or witness theorem that a concrete,
  non-trivial case meets the hypotheses.
* `lean/Verif/Props/Conformance.lean` – the repository's own unit tests (all whose input is in the source) replayed on the model.
* `lean/Verif/Tools/RunFiles.lean` – runs the model on the sample files of `/repo/test`; no claim depends on it.

No Mathlib module is needed; the development imports only Lean's core library.

## Trusted base

1. **Lean's kernel** (4.33.0). There is no `native_decide`, no `bv_decide`, no axiom of ours, no unfinished proof.
   `decide`/`decide +kernel` occur only where the kernel evaluates a *complete* finite table (all 256 header bytes, all codes),
   which is then lifted to the quantified statement, and for concrete witnesses of existential statements (counterexamples,
   non-vacuity).
2. **Axioms.** Every theorem of the manifest depends on a subset of `propext`, `Classical.choice`, `Quot.sound`
   (531 on `[propext, Classical.choice, Quot.sound]`, 68 on `[propext, Quot.sound]`, 14 on `[propext]`, 7 on no axiom; checked with `collectAxioms`).
3. **Faithfulness of the model**, i.e. that the definitions in `Model/` say what the cited Rust lines do. This includes the
   contracts of the libraries the code calls, listed below. The sandbox cannot build the project, so the model was not
   compared with compiled code, but with what the repository says its code computes: the unit tests (Props/Conformance.lean)
   and the sample files. On `/repo/test/*.dlt` the model computes the numbers the repository's tests and `test/test_gen.sh`
   expect: `lc_ex002.dlt` has 11696 messages of at most 22 bytes, `lc_ex003.dlt` 8045 messages, 1322 of which contain
   "Hello world" (`test_substring` of the repository: 1322), `lc_ex006.dlt` 10001 messages of at most 62 bytes, and the two
   generated files 10000 messages each of 82 and 107 bytes.

### How Rust is represented

| Rust | model |
| --- | --- |
| `&[u8]` | `List UInt8`; theorems about offsets assume `Fits`: at most `isize::MAX` bytes, which Rust guarantees for every slice |
| `usize` | `Nat`; where the code adds to an offset the user may choose freely, the addition is checked (`uadd`, overflow = panic), `checked_sub` as in the code (`RevSearchIterator`, `contained_by`). `Model/Build.lean` models the same code for any arithmetic, so that release builds are covered (C119) and builds for 32-bit machines (C146) |
| `u8`, `u16`, `u32` | `UInt8/16/32`; overflow panics as in a debug build, release builds: `Model/Build.lean` (C119). `dd_dlt` is parametrised by `checks`, so that debug and release builds are both covered |
| panic | explicit value `Res.panic`; slicing goes through `slice`, `sliceFrom`, `sliceTo`, which panic exactly when Rust's indexing does; `unwrap`/`expect` panic on `None` |
| non-termination | `Option`: loops and recursions that may not end are `partial_fixpoint` definitions, `none` = "does not return"; others are accepted by Lean's termination checker |
| `&mut self` | the new state is returned; an `Iterator` is a state and a `next` function; `calls n` lists the results of `n` calls |
| `Box<dyn Fn>`, closures | functions into `Res` (they may panic). All closures of the API are `Fn` except the one of `fold` (`FnMut`), which is modelled with its state (Model/FoldMut.lean, Model/Program.lean). The key function of `merge` is total in Model/Generator.lean; in Model/Effect.lean it may have effects and panic |
| generic parameter `T: SearchableMarkerTrait` | a record of functions (Model/Traits.lean); generic theorems take a record of laws, which is proved for `DltStorageEntry` (the test type of `test_matchit` does not obey them: its `try_read` reads behind the marker). Empty markers are excluded there; Model/AnyMarker.lean and Model/AnyMarkerGrep.lean model the iterators, `contained_by` and `partition_from` for them too (C138, C139) |
| `zerocopy` `ref_from_prefix`, `as_bytes` | the `repr(C)` layout; all fields have alignment 1, so reading succeeds exactly if there are enough bytes |
| `memchr::memmem` | executable leftmost / rightmost / non-overlapping search, with lemmas characterising it (C76, Lemmas/Find) |
| `regex` | a function giving the preferred match at each start position; `find_at` takes the leftmost (leftmost-first semantics). For the only pattern the tools use, `H.* World`, the match function is defined concretely (Model/Hello.lean: greedy, `.` = any UTF-8 encoded scalar value but newline) and proved to satisfy its declarative description. Model/Pattern.lean gives the match function of every parsed pattern (classes, sequences, alternatives, greedy and lazy repetitions, group 1, assertions); C118 proves it sound and complete, and that `H.* World` is an instance. The concrete syntax is not modelled; an invalid pattern (`Regex::new(..).unwrap()` in the constructors) is not modelled |
| `BTreeMap` | key-sorted association list (Model/OrdMap.lean); `entry().or_insert`, `insert`, `remove`, iteration in key order |
| `std::iter` `filter`, `map`, `count`, `sum`, `collect`; itertools `tuple_windows` | their documented loops (Model/Pull.lean, Model/Ripdlt.lean; with effects: Model/PullEffect.lean) |
| `rayon` `par_iter().map().sum()/reduce()` | any binary combination tree over consecutive segments of the list of slices, identity inserted anywhere: a relation, so that theorems hold for every schedule |
| `std::io::Stdout` | `LineWriter` with its 1024 byte buffer and its exact rule how many bytes one `write` call accepts (Model/Stdout.lean; both the standard library as of the commit's date, early 2024, and later versions, which buffer nothing of a rest of 1024 bytes or more: `Build.late`), in front of a sink that accepts everything; in Model/Refuse.lean the same in front of a sink that takes of each raw write as much as an arbitrary function says, or refuses it (`write` for `dd_dlt`), and `write_all` in Model/RefuseRip.lean (`println!`, `ripdlt`); Model/RefusePar.lean: threads that go on printing after one has been refused |
| `std::io::Stdin` | `BufReader` with its 8192 byte buffer, `read_exact`; the results of the calls of `read(2)` are data: pieces of any size, interruptions, errors (Model/Stdin.lean). Model/DdDlt.lean and the theorems about it take the bytes in front of the first error as given; C145_delivered connects the two |
| `File`, `read_to_end`, `memmap` 0.7 | the answers of the operating system are data: open/map error, contents, a possible read error after any prefix; `memmap` refuses empty files |
| `str::parse::<u16>`, `String::from_utf8`/`from_utf8` | executable definitions, characterised by `parseDigits_iff`, `utf8Valid_iff` |
| function-address casts (`DltTypeLog as u8`) | the addresses are parameters; theorems hold for all addresses |

### Not modelled

* Panic messages on standard error.
* Files that get shorter while they are mapped (files whose bytes change while they are mapped: C147, for the two forward iterators); writes interrupted by signals (the programs install no signal handlers); process memory exhaustion.
* Stack exhaustion as an outcome of the plain model. The recursion depth that could cause it is modelled (C74, and with a limited stack in Model/Stack.lean, C123).
* Time. The number of reads (C73) and of copied items (C78) is modelled.
* The crates' `README`, benches and the fuzz/CI set-up; `#[derive]`d `Debug`/`Clone` output other than what `ripdlt` prints.

### Function coverage

Every function of the workspace (outside `#[cfg(test)]`) and the model definitions that cite its lines. Constructors that only
store their arguments (`new` of the iterators) are represented by the initial state in the corresponding definition.

| function | lines | model |
| --- | --- | --- |
| dd_dlt/src/main.rs `main` | 7-61 | `parseU16` `ddTurn` `DdMain` `B4.ofBytes?` `encBE32` `envArgs` `ddErr` `DdProc` `ddEndOf` `DdProcOn` `ddTurnOn` `DdMainOn` `readExact` `ddTurnIn` `DdMainIn` `DdProcIn` |
| matchit/src/fromgenerator.rs `new` | 7-9 | `fromAdapt` `fromAdaptE` `ChainE.pulled` |
| matchit/src/fromgenerator.rs `next` | 20-38 | `genCountA` `countRed` `sumRed` `Prog` `fromAdaptFin` `fromAdaptNext` `fromAdapt` `fromAdaptFinE` `fromAdaptNextE` `fromAdaptE` `genCount` |
| matchit/src/fromgenerator.rs `groupby` | 44-49 | `Prog` `pullGroupBy` `ChainE.pulled` |
| matchit/src/fromgenerator.rs `split` | 51-65 | `ChainE` `Chain` `Prog` `pullReduceFrom` `pullSplit` `pullReduceFromE` |
| matchit/src/generator/adapter.rs `adapt` | 21-21 | `StageE` `Stage` |
| matchit/src/generator/adapter.rs `finalize` | 22-22 | `StageE` `Stage` |
| matchit/src/generator/adapter.rs `adapt` | 32-32 | `StageE` `Stage` |
| matchit/src/generator/adapter.rs `finalize` | 33-33 | `StageE` `Stage` |
| matchit/src/generator/adapter.rs `split` | 36-44 | `Prog` |
| matchit/src/generator/adapter.rs `fold` | 47-52 | `Prog` |
| matchit/src/generator/adapter.rs `fork` | 55-61 | `Prog` |
| matchit/src/generator/adapter.rs `filter` | 64-69 | `ChainE` `Chain` |
| matchit/src/generator/adapter.rs `map` | 72-77 | `ChainE` `Chain` |
| matchit/src/generator/adapter.rs `groupby` | 80-86 | `ChainE` `Chain` |
| matchit/src/generator/adapter.rs `merge` | 90-98 | `ChainE` `Chain` |
| matchit/src/generator/adapter.rs `new` | 104-106 | `nilStageE` `nilStage` |
| matchit/src/generator/adapter.rs `default` | 110-112 | `nilStageE` `nilStage` |
| matchit/src/generator/adapter.rs `adapt` | 120-122 | `nilStageE` `nilStage` |
| matchit/src/generator/adapter.rs `finalize` | 125-127 | `nilStageE` `nilStage` |
| matchit/src/generator/adapter.rs `new` | 132-134 | `adapterE` `adapter` |
| matchit/src/generator/adapter.rs `count` | 142-145 | `countRedA` `adapterE` `adapter` `countRed` `Prog` |
| matchit/src/generator/adapter.rs `sum` | 148-153 | `adapterE` `adapter` `sumRed` `Prog` |
| matchit/src/generator/adapter.rs `collect` | 156-161 | `adapterE` `adapter` `collectRed` `Prog` |
| matchit/src/generator/adapter.rs `adapt` | 174-182 | `adapterE` `adapter` |
| matchit/src/generator/adapter.rs `finalize` | 185-194 | `adapterFinE` `adapterE` `adapterFin` `adapter` |
| matchit/src/generator/adapter.rs `new` | 199-201 | `filterStageE` `filterStage` |
| matchit/src/generator/adapter.rs `adapt` | 212-218 | `filterStageE` `filterStage` |
| matchit/src/generator/adapter.rs `finalize` | 221-223 | `filterStageE` `filterStage` |
| matchit/src/generator/adapter.rs `new` | 228-230 | `mapStageE` `mapStage` |
| matchit/src/generator/adapter.rs `adapt` | 240-242 | `mapStageE` `mapStage` |
| matchit/src/generator/adapter.rs `finalize` | 245-247 | `mapStageE` `mapStage` |
| matchit/src/generator/generator.rs `split` | 13-21 | `Prog` |
| matchit/src/generator/generator.rs `fold` | 24-29 | `Prog` |
| matchit/src/generator/generator.rs `count` | 32-35 | `genCountA` `countRed` `Prog` `genCount` |
| matchit/src/generator/generator.rs `sum` | 38-43 | `sumRed` `Prog` |
| matchit/src/generator/generator.rs `fork` | 47-53 | `Prog` |
| matchit/src/generator/generator.rs `filter` | 56-61 | `ChainE` `Chain` |
| matchit/src/generator/generator.rs `map` | 64-69 | `ChainE` `Chain` |
| matchit/src/generator/generator.rs `groupby` | 72-78 | `ChainE` `Chain` |
| matchit/src/generator/generator.rs `merge` | 81-89 | `ChainE` `Chain` |
| matchit/src/generator/groupby.rs `new` | 22-24 | `groupByStageE` `groupByStage` |
| matchit/src/generator/groupby.rs `adapt` | 36-63 | `groupByAdaptE` `groupByStageE` `groupByAdapt` `groupByStage` |
| matchit/src/generator/groupby.rs `finalize` | 66-84 | `groupByFinE` `groupByStageE` `groupByFin` `groupByStage` |
| matchit/src/generator/groupby.rs `new` | 95-97 | `mergeStageE` `mergeStage` `mergeHeld` `ChainE.pulled` |
| matchit/src/generator/groupby.rs `finalize` | 113-123 | `mergeStageE` `mergeFin` `mergeStage` `mergeHeld` |
| matchit/src/generator/groupby.rs `adapt` | 127-144 | `mergeFindE` `mergeAdaptE` `mergeStageE` `mergeFind` `mergeAdapt` `mergeStage` |
| matchit/src/generator/reducer.rs `next` | 11-11 | `RedE` `Red` |
| matchit/src/generator/reducer.rs `finalize` | 12-12 | `RedE` `Red` |
| matchit/src/generator/reducer.rs `new` | 17-19 | `reducerE` `reducer` `Prog.red` |
| matchit/src/generator/reducer.rs `next` | 31-37 | `reducerE` `reducer` `Prog.red` |
| matchit/src/generator/reducer.rs `finalize` | 40-50 | `reducerDrainE` `reducerE` `reducerDrain` `reducer` `Prog.red` |
| matchit/src/generator/reducer.rs `new` | 55-57 | `splitRedE` `splitRed` |
| matchit/src/generator/reducer.rs `next` | 71-75 | `splitNextE` `splitRedE` `splitNext` `splitRed` |
| matchit/src/generator/reducer.rs `finalize` | 78-84 | `splitFinE` `splitRedE` `splitFin` `splitRed` |
| matchit/src/generator/reducer.rs `new` | 90-92 | `forkRedE` `forkRed` |
| matchit/src/generator/reducer.rs `next` | 105-108 | `forkRedE` `forkRed` |
| matchit/src/generator/reducer.rs `finalize` | 111-113 | `forkRedE` `forkRed` |
| matchit/src/generator/reducer.rs `new` | 118-120 | `foldRedE` `foldMutRed` `foldRed` `Prog.held` |
| matchit/src/generator/reducer.rs `next` | 132-134 | `foldRedE` `foldMutRed` `foldCopies` `foldRed` |
| matchit/src/generator/reducer.rs `finalize` | 137-139 | `foldRedE` `foldMutRed` `foldCopies` `foldRed` |
| matchit/src/lib.rs `new` | 21-23 | initial state |
| matchit/src/lib.rs `next` | 31-34 | `dltPullA` `noOffsetNext` |
| matchit/src/lib.rs `new` | 38-38 | initial state |
| matchit/src/lib.rs `try_read` | 47-47 | `FromBytesReadable` `SearchableMarker` |
| matchit/src/lib.rs `len` | 51-51 | `FromBytesReadable` `SearchableMarker` |
| matchit/src/lib.rs `max_len` | 54-54 | `FromBytesReadable` `SearchableMarker` |
| matchit/src/lib.rs `new` | 65-67 | initial state |
| matchit/src/lib.rs `contained_by` | 77-108 | `containedByM` `containedByLoopM` `containedByA` `containedByLoopA` `containedByC` `containedByLoopC` `containedBy` `containedByLoop` `containedByLoopStack` `containedByStack` |
| matchit/src/lib.rs `partition_from` | 114-155 | `partitionLoopM` `partitionRangesM` `partitionLoopA` `partitionRangesA` `partitionFromA` `partitionLoopC` `partitionRangesC` `partitionLoop` `partitionRanges` `partitionFrom` `partitionLoopStack` `partitionRangesStack` |
| matchit/src/readit.rs `new` | 26-28 | initial state |
| matchit/src/readit.rs `new` | 33-36 | initial state |
| matchit/src/readit.rs `next` | 43-57 | `readNextA` `readNext` |
| matchit/src/searchable/grepit.rs `new` | 22-27 | initial state |
| matchit/src/searchable/grepit.rs `search` | 34-57 | `grepSearchM` `grepSearchA` `grepStack` `grepSearch` `grepStackW` |
| matchit/src/searchable/grepit.rs `next` | 66-74 | `grepNextM` `grepNextA` `grepNext` |
| matchit/src/searchable/grepit.rs `new` | 91-96 | initial state |
| matchit/src/searchable/grepit.rs `capture` | 103-128 | `regexCaptureM` `regexCaptureA` `regexCapture` |
| matchit/src/searchable/grepit.rs `next` | 138-146 | `regexNextM` `regexNextA` `regexNext` |
| matchit/src/searchable/mod.rs `marker` | 12-12 | `AnyMarker` `SearchableMarker` `dltEntryReadable` |
| matchit/src/searchable/mod.rs `try_read_valid_marker` | 13-13 | `AnyMarker` `SearchableMarker` `dltEntryReadable` |
| matchit/src/searchable/mod.rs `search_marker` | 17-21 | `searchMarker` |
| matchit/src/searchable/mod.rs `search_last_marker` | 23-28 | `searchLastMarker` |
| matchit/src/searchable/readfallbackit.rs `new` | 28-30 | initial state |
| matchit/src/searchable/readfallbackit.rs `new` | 35-38 | initial state |
| matchit/src/searchable/readfallbackit.rs `next` | 47-81 | `fallbackNextM` `readFallbackNextA` `readFallbackNext` `readFallbackNextOn` `pollFrom` `readFallbackNextW` |
| matchit/src/searchable/searchit.rs `new` | 23-27 | `searchMapped` |
| matchit/src/searchable/searchit.rs `search` | 33-42 | `searchSearchM` `searchSearchA` `searchSearch` `searchSearchOn` `searchSearchW` |
| matchit/src/searchable/searchit.rs `next` | 53-67 | `searchNextM` `searchNextA` `searchNext` `searchNextOn` `searchNextW` |
| matchit/src/searchable/searchit.rs `search` | 83-91 | `revSearchM` `revSearchTo` `revSearch` `revSearchW` |
| matchit/src/searchable/searchit.rs `new` | 96-100 | initial state |
| matchit/src/searchable/searchit.rs `next` | 109-126 | `revNextM` `revNextTo` `revNext` `revNextW` |
| rapiddlt/src/dlt_v1.rs `new` | 19-46 | `new` |
| rapiddlt/src/dlt_v1.rs `is_extended_header` | 49-51 | `isExtendedHeader` |
| rapiddlt/src/dlt_v1.rs `is_msb_first` | 53-55 | `isMsbFirst` |
| rapiddlt/src/dlt_v1.rs `is_with_ecu_id` | 57-59 | `isWithEcuId` |
| rapiddlt/src/dlt_v1.rs `is_with_session_id` | 61-63 | `isWithSessionId` |
| rapiddlt/src/dlt_v1.rs `is_with_timestamp` | 65-67 | `isWithTimestamp` |
| rapiddlt/src/dlt_v1.rs `version` | 69-71 | `version` |
| rapiddlt/src/dlt_v1.rs `new` | 95-99 | `encBE16` `new` |
| rapiddlt/src/dlt_v1.rs `size` | 100-102 | `size` |
| rapiddlt/src/dlt_v1.rs `length` | 104-106 | `be16` `len` |
| rapiddlt/src/dlt_v1.rs `new` | 119-131 | `encLE32` `new` |
| rapiddlt/src/dlt_v1.rs `size` | 133-135 | `size` |
| rapiddlt/src/dlt_v1.rs `is_verbose` | 218-220 | `isVerbose` |
| rapiddlt/src/dlt_v1.rs `message_type` | 221-230 | `messageType` |
| rapiddlt/src/dlt_v1.rs `info` | 231-233 | `info` |
| rapiddlt/src/dlt_v1.rs `create_message_type` | 235-260 | `create` |
| rapiddlt/src/dlt_v1.rs `new` | 274-276 | `new` |
| rapiddlt/src/dlt_v1.rs `size` | 278-280 | `size` |
| rapiddlt/src/dlt_v1.rs `try_read` | 296-301 | `tryReadRaw` |
| rapiddlt/src/dlt_v1.rs `marker` | 305-307 | `marker` `dltStorage` |
| rapiddlt/src/dlt_v1.rs `try_read_valid_marker` | 310-312 | `tryReadValidMarker` `dltStorage` |
| rapiddlt/src/dlt_v1.rs `try_read` | 318-326 | `tryRead` `dltStorage` |
| rapiddlt/src/dlt_v1.rs `len` | 329-331 | `len` `lenAgain` `dltStorage` |
| rapiddlt/src/dlt_v1.rs `max_len` | 333-335 | `maxLen` `dltStorage` |
| rapiddlt/src/dlt_v1.rs `ecu_id` | 346-352 | `be32` `u32RefFromPrefix` `ecuId` |
| rapiddlt/src/dlt_v1.rs `timestamp` | 355-371 | `be32` `u32RefFromPrefix` `timestamp` |
| rapiddlt/src/dlt_v1.rs `extended_header` | 373-389 | `optOffset` `extendedHeader` |
| rapiddlt/src/dlt_v1.rs `payload` | 392-411 | `optOffset` `payload` |
| rapiddlt/src/dlt_v1.rs `try_read` | 417-426 | `tryRead` `dltEntryReadable` |
| rapiddlt/src/dlt_v1.rs `len` | 429-431 | `len` `dltEntryReadable` |
| rapiddlt/src/dlt_v1.rs `max_len` | 433-435 | `maxLen` `dltEntryReadable` |
| rapiddlt/src/dlt_v1.rs `dltit_offset` | 440-442 | `dltitOffsetNext` `dltitMapped` |
| rapiddlt/src/dlt_v1.rs `dltit` | 444-446 | `dltPullA` `dltitNext` |
| rapiddlt/src/dltbuffer.rs `mmap_file` | 10-14 | `mmapFile` `readFallbackNextOn` `dltitMapped` |
| rapiddlt/src/dltbuffer.rs `read_file` | 15-21 | `readFile` |
| rapiddlt/src/dltbuffer.rs `len` | 22-27 | `len` |
| rapiddlt/src/dltbuffer.rs `as_slice` | 28-33 | `asSlice` |
| rapiddlt/src/dltbuffer.rs `partition` | 38-41 | `partition` |
| ripdlt/src/main.rs `multithreaded` | 16-38 | `MultithreadedA` `slicesLineA` `ParIterLinesA` `slicesLine` `ParIterLines` `ParIterOn` `Multithreaded` |
| ripdlt/src/main.rs `par_continuous_timestamp_histogram` | 40-64 | `bumpA` `mergeCountsA` `ParTimestampHistogramA` `slicesLineA` `slicesLine` `bump` `mergeCounts` `ParTimestampHistogram` |
| ripdlt/src/main.rs `par_timestamp_splitit` | 66-94 | `bumpA` `mergeCountsA` `mergeNestedA` `ParTimestampSplitA` `slicesLineA` `slicesLine` `bump` `mergeCounts` `mergeNested` `ParTimestampSplit` |
| ripdlt/src/main.rs `count` | 97-102 | `ripCountA` `ripCount` |
| ripdlt/src/main.rs `count_hello_world` | 104-114 | `countHelloWorldA` `pullFilter` `pullFilterE` `helloPredicate` `countHelloWorld` |
| ripdlt/src/main.rs `count_hello_world_raw` | 116-119 | `countHelloWorldRawA` `countHelloWorldRaw` |
| ripdlt/src/main.rs `count_hello_world_grepit` | 121-124 | `countHelloWorldGrepitA` `countHelloWorldGrepit` |
| ripdlt/src/main.rs `continuous_timestamp_histogram` | 141-150 | `timestampHistogramA` `secsPredicate` `timestampHistogram` |
| ripdlt/src/main.rs `mstp_info_histogram` | 152-158 | `mstpInfoHistogramA` `pullFilter` `pullFilterE` `infoKey` `mstpInfoHistogram` |
| ripdlt/src/main.rs `lifecycle_splitit` | 160-182 | `timeDeltaA` `lifecycleSplitA` `pullFilter` `pullFilterE` `timePredicate` `timeDelta` `lifecycleSplit` |
| ripdlt/src/main.rs `merge_overlapping_timestamps` | 185-197 | `mergeOverlapping` |
| ripdlt/src/main.rs `timestamp_splitit` | 199-223 | `timestampSplitA` `secsPredicate` `spanKey` `spanRed` `timestampSplit` |
| ripdlt/src/main.rs `lifecycle_histogram` | 225-235 | `timeDeltaA` `lifecycleHistogramA` `timePredicate` `timeDelta` `lifecyclePredicate` `lifecycleHistogram` |
| ripdlt/src/main.rs `histogram_payload` | 237-244 | `histogramPayloadA` `histogramPayload` |
| ripdlt/src/main.rs `histogram_message` | 246-253 | `histogramMessageA` `histogramMessage` |
| ripdlt/src/main.rs `histogram_hello_world` | 257-261 | `histogramHelloWorldA` `histogramHelloWorld` |
| ripdlt/src/main.rs `lifecycle_iter` | 263-275 | `timeDeltaA` `longEnoughA` `lifecycleIterA` `iterLineA` `ParIterLinesA` `iterLine` `ParIterLines` `ParIterOn` `timePredicate` `timeDelta` `longEnough` `lifecycleIter` |
| ripdlt/src/main.rs `lifecycle_itertools` | 279-292 | `timeDeltaA` `longEnoughA` `lifecycleItertoolsA` `timePredicate` `timeDelta` `longEnough` `lifecycleItertools` |
| ripdlt/src/main.rs `main` | 296-423 | `bucketLineA` `offsetLineA` `sizeLoopA` `ParIterLinesA` `CmdTextA` `RipTextA` `Cmd` `Cmd.ofString` `sizeLines` `RunCmd` `RipMain` `bucketLine` `ecuLine` `infoLine` `offsetLine` `sizeLoop` `ParIterLines` `CmdText` `RipText` `envArgs` `RipProc` `RipProcOn` `ParIterOn` `RipRunOn` `RipRunProcOn` `RipTextOn` `totalSize` `bucketLines` `ecuLines` `cmdSplitLifecycles` `cmdSplitTimestamp` `offsetLines` |
| test_matchit/src/lib.rs `try_read` | 23-26 | `readPrefix` |
| test_matchit/src/lib.rs `marker` | 29-31 | `dltPullA` `noOffsetNext` `searchable` |
| test_matchit/src/lib.rs `try_read_valid_marker` | 33-35 | `dltPullA` `noOffsetNext` `searchable` |
| test_matchit/src/lib.rs `try_read` | 41-46 | `searchable` `FromBytesReadable` |
| test_matchit/src/lib.rs `len` | 48-50 | `searchable` `FromBytesReadable` |
| test_matchit/src/lib.rs `max_len` | 52-54 | `searchable` `FromBytesReadable` `SearchableMarker` |

## Defects found in the code

Each is a theorem about the model (a negation or an exact characterisation that contradicts the documented behaviour).

* `DltStorageEntry::max_len()` is 65535, messages reach 65551 bytes (C04). Consequences: `contained_by` overlooks messages
  longer than 65536 bytes (C29), partitioning cuts them (C32, C53).
* `MessageType::create_message_type` casts constructor functions to `u8` (C06); `message_type`/`info` use the mask
  `0x15 << 4 = 0x50`, so that most message infos are misreported (C07).
* `ecu_id()`, `extended_header()` and `payload()` panic on readable messages that are too short for their flags (C08, C10); so do
  the lifecycle, text and histogram commands (C48–C50, C57, C67).
* `dltit` stops for good at a corrupted message that has its marker, although the change log promises recovery (C16).
* `RevSearchIterator` restarts after `None` (C21).
* Grep: a pattern with an empty match makes `next` recurse for ever or report a message for ever (C24, C25); a match that spans
  two messages hides hits (C26, C62); recursion depth grows with the file (C74). `RegExMatcherIterator` adds an absolute
  position to an offset: reports twice or skips (C27).
* `contained_by` can be fooled by a message straddling the end of a top-level message (C29), and needs exponentially many reads
  on crafted input (C73).
* `partition_from` can drop the end of the file, return no slice at all or too many (C31, C33); the multithreaded commands then
  disagree with the sequential ones (C34, C36, C58).
* `groupby` loses inputs for relations that are not reflexive (C39); `merge` leaves mergeable values (C41); `collect` copies
  quadratically often (C78).
* `dd_dlt`: payload sizes 65518–65521 wrap the length field, size 0 never ends (C52); payloads with a newline are cut by the
  line-buffered output because `write` is called once (C51); time stamps overflow after 42949673 messages (C51).
* `read_file` ignores read errors (C54); the split commands panic on ECU ids that are not UTF-8 (C56).

## Properties

For every property: what is modelled, how it is proved, and the theorems. "partial" means that the full English statement is
false of the code (or not proved); the manifest note says what is missing.

* **C01 Reading a message never panics** (proved). `try_read` with checked slices (Model/Dlt); case analysis against the serialisation of Spec/Wire.
  `C01_read_never_panics`.
  Every byte slice; all three readers.
* **C02 Reading is exactly the inverse of the DLT v1 layout** (proved). `try_read` with checked slices (Model/Dlt); case analysis against the serialisation of Spec/Wire.
  `C02_read_iff`, `C02_round_trip`, `C02_read_none_iff`, `C02_unique`, `C02_dlt_entry_read_iff`.
  try_read is exactly the inverse of an independently written serialisation (Spec/Wire.lean).
* **C03 The reported size is the message's size, in bounds, and bytes after it are never looked at** (proved). `try_read` with checked slices (Model/Dlt); case analysis against the serialisation of Spec/Wire.
  `C03_size`.
* **C04 max_len bounds the length of every readable value** (partial). `try_read` with checked slices (Model/Dlt); case analysis against the serialisation of Spec/Wire.
  `C04_storage_entry_exceeds_max_len`, `C04_max_len_partial`.
  Violated by the code: DltStorageEntry::max_len is 65535 but stored messages reach 65551 bytes; negation proved, plus the exact attained bound and the positive statement for DltEntry.
* **C05 Header type byte round-trips** (proved). bit operations on `UInt8` (Model/Dlt); kernel evaluation of the complete table of 256 bytes, lifted to the quantified statement; specification by bit positions in Spec/Header.
  `C05_accessors_are_bits`, `C05_new_then_read`, `C05_read_then_new`.
  All 256 bytes and all flag/version combinations, checked by kernel evaluation of the whole finite table and lifted.
* **C06 Message info round-trips** (partial). bit operations on `UInt8` (Model/Dlt); kernel evaluation of the complete table of 256 bytes, lifted to the quantified statement; specification by bit positions in Spec/Header.
  `C06_no_round_trip`, `C06_round_trip_iff_partial`, `C06_aligned_decodes_as_log`, `C06_info_log_round_trips`.
  Violated by the code (casts constructor function addresses, MTIN mask 0x50); negation for every address assignment and exact round-trip condition proved.
* **C07 Message info decodes as the DLT v1 standard says** (partial). bit operations on `UInt8` (Model/Dlt); kernel evaluation of the complete table of 256 bytes, lifted to the quantified statement; specification by bit positions in Spec/Header.
  `C07_info_deviates`, `C07_info_exact_partial`, `C07_info_standard_partial`, `C07_types_never_reported`, `C07_verbose`.
  Violated by the code (mask 0x15<<4 truncates to 0x50); negation and exact behaviour on all 256 bytes proved.
* **C08 ecu_id() returns the ECU id or None, and does not panic** (partial). accessors with checked slices (Model/Dlt); case analysis against the field layout of Spec/Layout.
  `C08_ecu_id_can_panic`, `C08_ecu_id_exact_partial`.
  Violated: ecu_id() panics on a readable message with the ECU flag and fewer than 4 tail bytes; exact result and panic condition proved.
* **C09 timestamp() returns the timestamp field or None, and does not panic** (proved). accessors with checked slices (Model/Dlt); case analysis against the field layout of Spec/Layout.
  `C09_timestamp`, `C09_timestamp_some_iff`.
* **C10 extended_header() and payload() return the standard's regions or None, and do not panic** (partial). accessors with checked slices (Model/Dlt); case analysis against the field layout of Spec/Layout.
  `C10_ext_and_payload_can_panic`, `C10_panic_iff_partial`, `C10_extended_header_iff`, `C10_payload_iff`, `C10_regions`.
  Violated: both calls panic on readable messages whose flagged optional fields do not fit; exact panic condition and exact results proved.
* **C11 dltit terminates without panicking on any file** (proved). `ReadFallbackIterator` (Model/Iter); proved equal to the declarative scan relation of Spec/Scan by induction on the remaining bytes; the claims are consequences. Spec/File describes files with garbage.
  `C11_dltit_terminates`, `C11_next_never_panics`.
  Fits: slices have at most isize::MAX bytes. Recursion depth (stack) is not modelled.
* **C12 Every message dltit yields is really in the file at the reported offset** (proved). `ReadFallbackIterator` (Model/Iter); proved equal to the declarative scan relation of Spec/Scan by induction on the remaining bytes; the claims are consequences. Spec/File describes files with garbage.
  `C12_dltit_sound`.
* **C13 dltit yields messages in file order without overlap and skips only marker-free bytes** (proved). `ReadFallbackIterator` (Model/Iter); proved equal to the declarative scan relation of Spec/Scan by induction on the remaining bytes; the claims are consequences. Spec/File describes files with garbage.
  `C13_dltit_order_and_gaps`, `C13_dltit_stop`.
* **C14 dltit returns exactly the messages written, in order** (proved). `ReadFallbackIterator` (Model/Iter); proved equal to the declarative scan relation of Spec/Scan by induction on the remaining bytes; the claims are consequences. Spec/File describes files with garbage.
  `C14_dltit_round_trip`.
* **C15 dltit stays exhausted** (proved). `ReadFallbackIterator` (Model/Iter); proved equal to the declarative scan relation of Spec/Scan by induction on the remaining bytes; the claims are consequences. Spec/File describes files with garbage.
  `C15_dltit_fused`, `C15_dltit_no_offset_fused`.
* **C16 dltit recovers after a corrupted message** (partial). `ReadFallbackIterator` (Model/Iter); proved equal to the declarative scan relation of Spec/Scan by induction on the remaining bytes; the claims are consequences. Spec/File describes files with garbage.
  `C16_corruption_hides_the_rest`, `C16_no_recovery`, `C16_recovers_over_markerless_bytes_partial`.
  Violated: a corrupted message that keeps its marker ends the iteration; negation proved, and recovery over marker-free bytes proved.
* **C17 Concatenated files read as the concatenation of their messages** (proved). `ReadFallbackIterator` (Model/Iter); proved equal to the declarative scan relation of Spec/Scan by induction on the remaining bytes; the claims are consequences. Spec/File describes files with garbage.
  `C17_concat`.
* **C18 SearchIterator finds every message not hidden inside an earlier one** (proved). search and read iterators (Model/Iter); well-founded induction on the distance to the end of the slice; generic over the message type.
  `C18_search`, `C18_search_generic`, `C18_search_beyond`, `C18_search_fused`, `C18_search_none_offset`, `C18_search_recovers`.
* **C19 SearchIterator extends dltit** (proved). search and read iterators (Model/Iter); well-founded induction on the distance to the end of the slice; generic over the message type.
  `C19_search_extends_dltit`, `C19_agree_on_clean`.
* **C20 RevSearchIterator yields every valid marker position backwards** (proved). search and read iterators (Model/Iter); well-founded induction on the distance to the end of the slice; generic over the message type.
  `C20_rev_search`.
* **C21 RevSearchIterator stays exhausted** (partial). search and read iterators (Model/Iter); well-founded induction on the distance to the end of the slice; generic over the message type.
  `C21_rev_search_not_fused`, `C21_not_fused`, `C21_after_none_partial`.
  Violated: after None the offset is usize::MAX and the next call restarts. Exact: it stays ended if and only if the file holds no message at all, otherwise it starts again with the last message (if it ever returns: C97).
* **C22 ReadIterator reads back-to-back values until the first unreadable one** (proved). search and read iterators (Model/Iter); well-founded induction on the distance to the end of the slice; generic over the message type.
  `C22_read_iterator`, `C22_read_iterator_fused`.
* **C23 Every grep hit is a message containing a match** (proved). grep iterators (Model/Grep) over an abstract match function; induction on the bytes behind the offset, `partial_fixpoint` unfolding for divergence.
  `C23_grep_sound`.
  Regex abstracted as a function giving the preferred match at each start position (leftmost-first find_at). C23 excludes panics; divergence is C25.
* **C24 Grep reports a message at most once** (proved). grep iterators (Model/Grep) over an abstract match function; induction on the bytes behind the offset, `partial_fixpoint` unfolding for divergence.
  `C24_grep_increasing`, `C24_grep_resumes_behind`, `C24_repeats_forever`.
  Patterns without empty matches are the stated quantifier; beyond it the claim is false, proved for (?m)$.
* **C25 Grep terminates** (partial). grep iterators (Model/Grep) over an abstract match function; induction on the bytes behind the offset, `partial_fixpoint` unfolding for divergence.
  `C25_grep_terminates_partial`, `C25_next_diverges`, `C24_repeats_forever`, `C25_terminates_iff`.
  Proved for patterns without empty matches; violated otherwise (empty pattern makes next() recurse for ever). Exactly, for every pattern, file and offset: the iteration ends if and only if it does not get to an offset with an empty match that is not inside the message it is attributed to.
* **C26 Grep finds every message containing the text** (partial). grep iterators (Model/Grep) over an abstract match function; induction on the bytes behind the offset, `partial_fixpoint` unfolding for divergence.
  `C26_grep_complete_partial`, `C26_grep_literal_partial`, `C26_spanning_match_hides_hit`.
  Proved for patterns whose matches do not overlap message boundaries and literals; violated for matches spanning messages (witness).
* **C27 RegExMatcherIterator yields each message once and skips no message with a match** (partial). grep iterators (Model/Grep) over an abstract match function; induction on the bytes behind the offset, `partial_fixpoint` unfolding for divergence.
  `C27_regex_sound_partial`, `C27_regex_terminates_partial`, `C27_reported_twice`, `C27_message_skipped`, `C27_no_group_finds_nothing`, `C27_terminates_iff`, `C27_line_end_never_ends`.
  Violated: next() adds message offset and absolute group end; negations proved. Exactly when the iteration ends (C27_terminates_iff): the pattern (?m)($) on a message with a newline reports the same line end for ever.
* **C28 contained_by terminates, never panics, and only returns real containers** (proved). `contained_by` by well-founded recursion (Model/Partition); induction on the position searched for; top-level messages in Spec/Top.
  `C28_contained_by_sound`, `C28_contained_by_sound_generic`.
* **C29 contained_by finds the outermost message and is never fooled by embedded messages** (partial). `contained_by` by well-founded recursion (Model/Partition); induction on the position searched for; top-level messages in Spec/Top.
  `C29_contained_by_outermost_partial`, `C29_oversized_not_found`, `C29_straddling_message_found`, `C29_found_iff`.
  Proved for top-level messages of at most 65536 bytes and no marker straddling a message end; both exceptions shown to be real violations. Exactly, for messages of any length none of which has a message starting in its last 3 bytes or behind its first 65536: the message around p is found if and only if p is at most 65535 bytes behind its start (C29_found_iff). On every file: C79.
* **C30 Partitions are non-empty, contiguous and start at byte 0** (proved). `partition_from` (Model/Partition); loop invariants over the list of cuts; Spec/Partition, Spec/Cuts.
  `C30_partition_contiguous`, `C30_partition_panics_iff`, `C30_partition_contiguous_generic`.
* **C31 Partitions lose nothing** (partial). `partition_from` (Model/Partition); loop invariants over the list of cuts; Spec/Partition, Spec/Cuts.
  `C31_partition_drops_the_tail`, `C31_loses_bytes`, `C31_more_partitions_than_bytes`, `C31_what_is_lost_partial`, `C31_loses_less_than_a_slice_partial`, `C33_large_files_partial`.
  Violated: the last slice is dropped in several situations (witnesses). Proved: the slices are a prefix, the three reasons for a loss, less than one slice is lost if no message is longer than a slice; conditions for losslessness under C33.
* **C32 No message spans two partitions** (partial). `partition_from` (Model/Partition); loop invariants over the list of cuts; Spec/Partition, Spec/Cuts.
  `C32_no_message_spans_two_partial`, `C32_oversized_message_is_cut`, `C32_straddled_message_is_cut`, `C32_only_the_end`, `C32_first_cut_iff`.
  Proved for messages of at most 65536 bytes without straddling; exceptions shown to be real. For messages of any length (C32_only_the_end): a slice that ends inside a message ends in its last 15 bytes and has exactly the size aimed at; the first slice does so if and only if the place aimed at is there (C32_first_cut_iff).
* **C33 partition_from creates num partitions** (partial). `partition_from` (Model/Partition); loop invariants over the list of cuts; Spec/Partition, Spec/Cuts.
  `C33_large_files_partial`, `C33_short_messages_partial`, `C33_no_slices`, `C33_too_many_slices`, `C33_slice_count_wrong`.
  Proved for files large relative to message size; violated in general.
* **C34 par_count equals count** (partial). parallel commands as relations over reduction trees (Model/Ripdlt); induction on trees; prefix argument on the slices.
  `C34_par_count_exact_partial`, `C34_par_count_partial`, `C34_par_count_large_partial`, `C34_par_count_never_panics`, `C34_par_count_wrong`, `C34_par_count_iff`.
  par_count never panics and returns the number of messages in the slices (every file); it equals the sequential count on clean files with messages of at most 65536 bytes that do not straddle and slices that lose nothing. Violated in general: witness file on which the two counts differ. On such files the two agree if and only if no message starts behind the slices.
* **C35 Parallel reductions do not depend on the schedule** (proved). parallel commands as relations over reduction trees (Model/Ripdlt); induction on trees; prefix argument on the slices.
  `C35_counters`, `C35_counters_sum`, `C35_commands`, `C35_par_histogram`, `C35_par_split`, `C66_one_result`.
  The result of each multithreaded command is a function of the file and the number of threads: every schedule (every split of the slice list into a reduction tree) gives the same result. The remaining multithreaded command (grepit) is in C66_one_result.
* **C36 Parallel histograms equal the sequential ones** (partial). parallel commands as relations over reduction trees (Model/Ripdlt); induction on trees; prefix argument on the slices.
  `C36_par_histogram_partial`, `C36_par_split_counts_partial`, `C36_par_histogram_differs`, `C36_par_histogram_iff`.
  The counts per key are the sequential ones on clean files whose slices lose nothing; the lifecycle spans are per slice, so the full equality is violated (witness). Exactly, on such files: par_histogram_timestamp is histogram_timestamp if and only if the seconds decrease at every cut.
* **C37 A generator chain computes the composition of its stages** (proved). adapters and reducers as state machines with possibly diverging finalize (Model/Generator, Model/Pull); each stage is shown to satisfy a compositional output relation; induction on the chain.
  `C37_chain_terminates`, `C37_reducer_on_collected`, `C37_reducer_panic`, `C37_chain_composes`, `C37_nil_chain`.
* **C38 filter and map behave as on iterators** (proved). adapters and reducers as state machines with possibly diverging finalize (Model/Generator, Model/Pull); each stage is shown to satisfy a compositional output relation; induction on the chain.
  `C38_filter`, `C38_map`, `C38_panics_iff`.
* **C39 groupby returns the first and last element of every maximal run** (partial). adapters and reducers as state machines with possibly diverging finalize (Model/Generator, Model/Pull); each stage is shown to satisfy a compositional output relation; induction on the chain.
  `C39_groupby_maximal_runs_partial`, `C39_runs_unique`, `C39_nonreflexive_drops_inputs`, `C39_strict_less_loses_run`, `C39_groupby_exact`, `C39_reflexive_iff`.
  Proved for every reflexive predicate (all predicates used in ripdlt); for predicates that do not relate an item to itself, inputs are dropped (witness). Exactly: for every relation and input, the runs are returned if and only if every run of one element is related to itself, otherwise fewer pairs; the relations for which this holds of every input are the reflexive ones.
* **C40 merge neither loses nor invents covered time** (proved). adapters and reducers as state machines with possibly diverging finalize (Model/Generator, Model/Pull); each stage is shown to satisfy a compositional output relation; induction on the chain.
  `C40_merge_generic`, `C40_merge_overlapping`.
  Generic merge for any key order and merge function that preserves coverage, and merge_overlapping_timestamps behind any chain.
* **C41 merge leaves no two mergeable values** (partial). adapters and reducers as state machines with possibly diverging finalize (Model/Generator, Model/Pull); each stage is shown to satisfy a compositional output relation; induction on the chain.
  `C41_mergeable_left`, `C41_bridge`, `C41_merge_disjoint_partial`, `C41_exact`, `C41_groups`.
  Violated: an interval bridging two already separated intervals is merged with only one of them (witness). Exactly, for every sequence of well-formed intervals: no two outputs can be merged further if and only if no interval, when it arrives, meets two earlier ones that are not linked by earlier ones; and then the outputs are the groups of linked intervals.
* **C42 split reduces every key's inputs separately** (proved). adapters and reducers as state machines with possibly diverging finalize (Model/Generator, Model/Pull); each stage is shown to satisfy a compositional output relation; induction on the chain.
  `C42_split`, `C42_split_total`.
* **C43 fork, fold, count, sum and collect compute what they say** (proved). adapters and reducers as state machines with possibly diverging finalize (Model/Generator, Model/Pull); each stage is shown to satisfy a compositional output relation; induction on the chain.
  `C43_fork`, `C43_fold`, `C43_count`, `C43_sum`, `C43_collect`.
* **C44 Pull-based groupby equals push-based groupby** (proved). adapters and reducers as state machines with possibly diverging finalize (Model/Generator, Model/Pull); each stage is shown to satisfy a compositional output relation; induction on the chain.
  `C44_pull_groupby_eq_push`.
* **C45 Message size histogram accounts for every message** (proved). pipelines of Model/Ripdlt over the scan result; histograms specified in Spec/Histogram, statistics in Spec/Stats, runs in Spec/Generator.
  `C45_message_sizes`, `C45_count`, `messages_of_file`.
  Including the printed total.
* **C46 Timestamp histograms never underflow and account for every run** (proved). pipelines of Model/Ripdlt over the scan result; histograms specified in Spec/Histogram, statistics in Spec/Stats, runs in Spec/Generator.
  `C46_timestamp_histogram`.
  Including the printed bucket lines.
* **C47 split_timestamp never underflows and counts every message per ECU** (proved). pipelines of Model/Ripdlt over the scan result; histograms specified in Spec/Histogram, statistics in Spec/Stats, runs in Spec/Generator.
  `C47_split_timestamp`.
  Printing the ECU id is C56. The specification EcuSpans determines the spans (C141); how many there are is C142.
* **C48 Lifecycle statistics do not panic** (partial). pipelines of Model/Ripdlt over the scan result; histograms specified in Spec/Histogram, statistics in Spec/Stats, runs in Spec/Generator.
  `C48_lifecycle_histogram_partial`, `C48_lifecycle_iter_partial`, `C48_lifecycle_split_partial`, `C48_lifecycles_can_panic`.
  Exact characterisation: the three functions panic exactly if a message flagged to have a time stamp is too short to hold it (witness, so the full statement is false), and otherwise return the stated histogram.
* **C49 count_hello_world counts the messages whose payload contains the text, and does not panic** (partial). pipelines of Model/Ripdlt over the scan result; histograms specified in Spec/Histogram, statistics in Spec/Stats, runs in Spec/Generator.
  `C49_count_hello_world_partial`, `C49_count_hello_world_can_panic`, `C49_raw`, `C49_search_text`.
  Exact characterisation: count_hello_world panics exactly if a message's flagged fields are incomplete (witness), otherwise counts the payloads that contain the text; the raw count never panics and counts the leftmost non-overlapping occurrences.
* **C50 Message-type histogram and payload histogram account for every message and do not panic** (partial). pipelines of Model/Ripdlt over the scan result; histograms specified in Spec/Histogram, statistics in Spec/Stats, runs in Spec/Generator.
  `C50_payload_sizes_partial`, `C50_message_types_partial`, `C50_histograms_can_panic`.
  Exact characterisation of the panics (witness), otherwise exact histograms.
* **C51 dd_dlt output reads back as the input** (partial). Model/DdDlt and Model/Stdout; loop invariant relating written bytes to the chunks of the input (Spec/DdDlt), then the reader theorems.
  `C51_round_trip_partial`, `C51_round_trip_small_partial`, `C51_payload_cut`, `C51_overflow`, `C84_reads_back_iff`.
  Holds for payload sizes 1..65517 on every input none of whose chunks has more bytes behind its last newline than the output buffer takes: 1024, or 1023 with later versions of the standard library (always for sizes up to one more than that). Violated beyond: dd_dlt calls write once, std's LineWriter accepts only part of a long payload after a newline, and the rest is lost (C51_payload_cut); with overflow checks the time stamp overflows after 42949673 messages (C51_overflow). C84_reads_back_iff: the output reads back if and only if no payload is too long behind its last newline.
* **C52 dd_dlt rejects payload sizes it cannot represent** (partial). Model/DdDlt and Model/Stdout; loop invariant relating written bytes to the chunks of the input (Spec/DdDlt), then the reader theorems.
  `C52_size_argument`, `C52_usage`, `C52_bad_size_partial`, `C52_bad_id`, `C52_short_input`, `C52_too_large_panics`, `C52_too_large_unreadable`, `C52_size_zero_never_ends`, `C52_size_zero_panics`.
  The argument parser accepts exactly the decimals up to 65535; bad sizes and ids are reported. Violated: in a release build sizes 65518..65521 wrap the length field and give unreadable output, size 0 never ends.
* **C53 dd_dlt output can be partitioned without loss of framing** (partial). Model/DdDlt and Model/Stdout; loop invariant relating written bytes to the chunks of the input (Spec/DdDlt), then the reader theorems.
  `C53_partition_partial`, `C53_large_messages_are_cut`, `C53_partition_iff`, `C53_few_slices`, `C53_marker_at_the_end`.
  Holds for payload sizes up to 65502 and every input, nested DLT files included; violated for 65503..65517 (messages longer than the 64 KiB read window are cut). Exactly, unless a payload has the marker behind its first 65502 bytes: the cuts are at message boundaries if and only if len/num leaves a remainder below 65536 when divided by the message size (C53_partition_iff), which is always so for up to 4370 slices (C53_few_slices). With such a marker already two messages in two slices are cut (C53_marker_at_the_end).
* **C54 read_file returns the whole file or an error** (partial). Model/Buffer with the answers of the operating system as data; case analysis.
  `C54_read_file_partial`, `C54_read_error_truncates`, `C54_read_file_ok_but_short`.
  Holds when no read call fails; violated otherwise: read_file discards the result of read_to_end, so an I/O error gives a silently shortened buffer (for every split of the contents).
* **C55 Both buffer kinds present the same bytes** (proved). Model/Buffer with the answers of the operating system as data; case analysis.
  `C55_len`, `C55_same_contents`, `C55_read_and_mmap_agree`.
  For every buffer, and for every file opened in both ways without a read error.
* **C56 The split commands print every ECU id** (partial). pipelines of Model/Ripdlt over the scan result; histograms specified in Spec/Histogram, statistics in Spec/Stats, runs in Spec/Generator.
  `C56_split_timestamp_partial`, `C56_split_lifecycles_partial`, `C56_par_split_timestamp_partial`, `C56_split_timestamp_can_panic`, `utf8Valid_iff`.
  Violated for ids that are not UTF-8 (witness); panics characterised exactly, otherwise one line per id.
* **C57 The itertools lifecycle command counts the long steps and does not panic** (partial). pipelines of Model/Ripdlt over the scan result; histograms specified in Spec/Histogram, statistics in Spec/Stats, runs in Spec/Generator.
  `C57_lifecycle_itertools_partial`, `C57_lifecycle_itertools_can_panic`.
  Exact characterisation: panics exactly if a time-stamped message other than the last is incomplete (witness: a file of two messages).
* **C58 The multithreaded text count equals the sequential one** (partial). parallel commands as relations over reduction trees (Model/Ripdlt); induction on trees; prefix argument on the slices.
  `C58_par_count_hello_world_partial`, `C58_par_count_hello_world_wrong`, `C58_par_count_hello_world_iff`.
  Holds, panics included, on clean files with messages of at most 65536 bytes that do not straddle and slices that lose nothing; outside of that the slices can lose or change messages as in C34 (witness: five messages, two threads, four counted). Exactly, on such files: they agree if and only if a message in the slices is incomplete (both panic) or all messages behind the slices are complete and do not have the text.
* **C59 Headers written as bytes read back** (proved). `as_bytes` and `ref_from_prefix` layouts (Model/Dlt) against Spec/Wire.
  `C59_standard_header`, `C59_extended_header`, `C59_storage_header`, `C59_as_bytes_is_wire_format`.
  All header values and slices.
* **C60 A file can be mapped exactly if it opens, maps and is not empty** (proved). Model/Buffer with the answers of the operating system as data; case analysis.
  `C60_mmap_file`, `C60_empty_file`.
  Every file and every answer of the operating system; memmap 0.7 refuses empty files.
* **C61 count_hello_world_grepit ends and counts only messages that match** (proved). concrete semantics of `H.* World` (Model/Hello, Spec/Hello) plugged into the grep theorems.
  `C61_count_grepit`.
  Which messages exactly is C62_grepit_exact. Concrete semantics of the pattern H.* World (leftmost-first, greedy, dot = any scalar but newline) modelled and proved to be what the regex contract says.
* **C62 count_hello_world_grepit counts every message that says H.* World** (partial). concrete semantics of `H.* World` (Model/Hello, Spec/Hello) plugged into the grep theorems.
  `C62_grepit_lines_partial`, `C62_grepit_misses_messages`, `C62_grepit_exact`.
  Exact when every message ends in a newline and markers occur only at message starts; violated otherwise (witness: two messages saying Hello World, count 0).
* **C63 histogram_hello_world distributes the grepit matches over offsets** (proved). concrete semantics of `H.* World` (Model/Hello, Spec/Hello) plugged into the grep theorems.
  `C63_histogram_hello_world`, `C63_histogram_exact`.
  Every file.
* **C64 The command line runs exactly the documented commands** (proved). Model/Main (arguments, dispatch, printing) and Spec/Main (what each report is); case analysis over the commands using the theorems above.
  `C64_names`, `C64_usage`, `C64_rejects`, `C64_runs`.
  Every argument list and file.
* **C65 mmap and read give the same output** (proved). Model/Main (arguments, dispatch, printing) and Spec/Main (what each report is); case analysis over the commands using the theorems above.
  `C65_mmap_or_read`, `C65_same_text`.
  Every way the reads are split; C65_same_text for the printed text, which differs only in the argument mmap or read itself in the first line.
* **C66 Every run ends with one outcome** (proved). Model/Main (arguments, dispatch, printing) and Spec/Main (what each report is); case analysis over the commands using the theorems above.
  `C66_one_result`, `C66_program_ends`.
  Files of at most isize::MAX bytes (Fits), num threads >= 1.
* **C67 Sequential commands panic exactly on incomplete messages or ids that are not text** (proved). Model/Main (arguments, dispatch, printing) and Spec/Main (what each report is); case analysis over the commands using the theorems above.
  `C67_sequential_panics`, `C67_complete_files`.
  Exact panic conditions by the messages of the file.
* **C68 Sequential commands print the right report** (proved). Model/Main (arguments, dispatch, printing) and Spec/Main (what each report is); case analysis over the commands using the theorems above.
  `C68_sequential_prints`.
  The specification of each report is Spec.Prints; it allows exactly one report (C141).
* **C69 Multithreaded commands are the sums over the slices** (proved). parallel commands as relations over reduction trees (Model/Ripdlt); induction on trees; prefix argument on the slices.
  `C69_counters`, `C69_parallel_panics`.
  Slices are those of partition; which messages they contain is the subject of C30-C34.
* **C70 Partition slices are balanced** (proved). `partition_from` (Model/Partition); loop invariants over the list of cuts; Spec/Partition, Spec/Cuts.
  `C70_balanced`.
  L is any bound of the message lengths, at most len/num; file of at most isize::MAX bytes (Fits).
* **C71 Partition cuts exactly at message starts** (proved). `partition_from` (Model/Partition); loop invariants over the list of cuts; Spec/Partition, Spec/Cuts.
  `C71_partition_exact`.
  The specification is the inductive Spec.Cuts; messages <= 65536 bytes and not straddled are part of the quantifier.
* **C72 Multithreaded commands see a prefix of the messages** (proved). parallel commands as relations over reduction trees (Model/Ripdlt); induction on trees; prefix argument on the slices.
  `C72_slices_hold_a_prefix`, `C72_par_count_bounds`.
  Clean files with messages <= 65536 bytes that are not straddled (part of the quantifier).
* **C73 Partitioning takes a bounded number of reads per slice** (partial). Model/Cost: the same recursion with a counter, proved to erase to the original; lower bounds by a family of inputs.
  `C73_partition_exponential`, `C73_not_polynomial`, `C73_partition_linear_partial`.
  Violated: contained_by recurses without memory, so a file of 131080*a bytes of nested length announcements costs at least 3276^a - 1 reads. Proved: at most 131071 reads per slice (and once more) if messages have at most 65536 bytes and embedded messages end with the message they are in.
* **C74 Searching with a pattern takes bounded stack** (partial). Model/Cost: the same recursion with a counter, proved to erase to the original; lower bounds by a family of inputs.
  `C74_stack_sound`, `C74_linear_depth_partial`, `C74_depth_grows`.
  Violated: on n bytes x without a message, searching for x takes exactly n nested calls (the recursion is not a loop; a compiler may or may not turn it into one). Proved: for patterns without empty matches the depth is at most the number of bytes behind the offset and one.
* **C75 Type info codes follow the standard** (proved). bit operations on `UInt8` (Model/Dlt); kernel evaluation of the complete table of 256 bytes, lifted to the quantified statement; specification by bit positions in Spec/Header.
  `C75_from_code`, `C75_to_code`, `C75_tables_agree`.
  All 256 numbers by kernel evaluation of the whole table, lifted.
* **C76 Marker search finds the first and the last marker** (proved). `search_marker` (Model/Iter) against minimality/maximality of the offset.
  `C76_search_marker`, `C76_search_last_marker`.
  Any marker type; empty markers are excluded by the model's type.
* **C77 Fold calls its closure once per item, in order** (proved). Model/FoldMut: the closure's state and the clones are explicit; induction on the inputs.
  `C77_fold_stateful`, `C77_fold_stateless`.
  Fold is the only place where the code takes FnMut closures; all others are Fn and modelled as functions.
* **C78 Collecting costs a linear number of copies** (partial). Model/FoldMut: the closure's state and the clones are explicit; induction on the inputs.
  `C78_copies_erase`, `C78_collect_copies_partial`, `C78_not_linear`.
  Violated: Fold::next clones the accumulated value for every item, so collecting n items clones exactly n(n+1)/2; exact count proved.
* **C79 contained_by's answer is determined, on every input** (proved). uniqueness and existence of the set of free messages (Spec/Contained) by strong induction on offsets; `contained_by` and the partition loop follow it step by step.
  `C79_contained_by_exact`, `C79_free_unique`.
  Exact on every slice of at most isize::MAX bytes (Fits); C29 is what it amounts to on files without oversized or straddling messages.
* **C80 Partitioning is determined, on every input** (proved). uniqueness and existence of the set of free messages (Spec/Contained) by strong induction on offsets; `contained_by` and the partition loop follow it step by step.
  `C80_partition_exact`.
  Exact on every slice of at most isize::MAX bytes (Fits).
* **C81 Grep's results are determined, for every pattern and every input** (proved). Spec/GrepExact: relation of search outcomes, deterministic; the iterators follow it; divergence is exactly the absence of an outcome.
  `C81_next_exact`, `C81_grep_exact`, `C81_diverges_iff`.
  Exact on every slice of at most isize::MAX bytes (Fits) and for every pattern, empty matches included; C23-C26 are consequences on restricted inputs.
* **C82 The capture iterator's results are determined, for every pattern and every input** (proved). Spec/GrepExact: relation of search outcomes, deterministic; the iterators follow it; divergence is exactly the absence of an outcome.
  `C82_next_exact`, `C82_capture_exact`.
  Exact on every slice of at most isize::MAX bytes (Fits) and for every pattern; that a call never returns iff the search has no outcome is part of C82_next_exact (same search as C81).
* **C83 Every pipeline and reducer built with the generator API computes its list semantics** (proved). Model/Program: the inductive type of all reducers of the API; list semantics in Spec/Pipeline; induction on the program.
  `C83_chain_exact`, `C83_program_exact`, `C83_program_runs`.
  Covers every program of the API; the key function of merge is total (a panic inside it is not modelled) and closures other than fold's are pure.
* **C84 dd_dlt's output is determined byte for byte, lost payload bytes included** (proved). Model/DdDlt and Model/Stdout; the 34 bytes and the accepted part are given in Spec/DdDlt; induction on the number of payloads, lengths decide the iff.
  `C84_dd_output`, `C84_reads_back_iff`.
  Standard output is the model of std's line-buffered writer in Model/Stdout, in the version of the commit's date and in the later one, which take different numbers of bytes (the process' output takes every byte). C51-C53 are consequences on restricted inputs.
* **C85 The reading iterators work for every message type that keeps the trait's contract** (proved). The iterator lemmas are generic in the type (Lemmas/Iter); the statements use Spec/Scan only; a second lawful type in Props/Generic shows they are not about DLT in disguise.
  `C85_reader`, `C85_search`, `C85_rev_search`, `C85_ends`.
  The reader for every type satisfying Spec.Reads, the searches for every type satisfying Spec.Searches (markers that do not overlap themselves); the DLT type is one (dlt_lawful) and a made-up frame type another (frames_lawful). The repository's test type WrapTestStruct is not lawful: its two read functions disagree.
* **C86 contained_by and partition_from, exactly, for every message type** (proved). Specification Spec/Generic; strong induction on offsets as for C79/C80, over any lawful type.
  `C86_contained_by_exact`, `C86_partition_exact`, `C30_partition_contiguous_generic`, `C86_no_free_value_cut`.
  As C79 and C80, for every lawful type.
* **C87 The grep iterators, exactly, for every message type and pattern** (proved). Specification Spec/Generic; partial correctness of the fixpoint in one direction, induction on the search in the other.
  `C87_next_exact`, `C87_grep_exact`, `C87_diverges_iff`, `C87_capture_exact`.
  As C81 and C82, for every lawful type.
* **C88 The text ripdlt prints is the rendering of its report** (proved). Model/Print renders with the standard library's formatting; Spec/Text gives the lines per report; induction on the printing loops, linked to the reports of C64-C69.
  `C88_text`, `C88_panics`, `C88_ends`, `C88_one_output`, `C88_panic_prints_title`, `C88_split_timestamp_stops`, `C88_split_lifecycles_stops`, `C88_par_split_stops`, `C88_usage`, `C88_rejects`, `C88_runs`.
  Standard output takes every byte; panic messages (standard error) are not modelled.
* **C89 The printed text identifies the report** (proved). Lines form a prefix code (Lemmas/Text): numbers end at a non-digit, maps at the brace, type names at the colon, ids after four bytes; cancellation line by line.
  `C89_text_identifies_report`.
  An ECU id has exactly four bytes, which is why line breaks in it do no harm.
* **C90 par_iter prints the line of iter for each slice, in any order** (proved). Model/Print lets the threads' lines come in any order; permutations; two files with computed slices as witnesses.
  `C90_par_iter_prints`, `C90_par_iter_panics`, `C90_order_varies`, `C90_cut_lifecycle`.
  println! writes whole lines.
* **C91 A file that breaks off yields its complete messages** (proved). Induction on the two reading relations (Scan, Greedy) for a file written as front ++ back; what is readable in the front is what is readable in the whole and ends in the front.
  `C91_cut`, `C91_grows`, `C91_count`, `C91_search_cut`, `C91_search_finds_inner`, `C91_rev_cut`.
  The search iterator may find further messages inside the one that was cut; that is part of the statement and shown to happen.
* **C92 The library looks at inputs only through the caller's closures** (proved). Spec/Alike relates programs; induction on the program, one relational lemma per combinator.
  `C92_programs_see_through_closures`, `C92_chains_see_through_closures`, `C92_map_first`.
  The programs are those of C83 (Model/Program).
* **C93 Each sequential command depends on exactly stated parts of the messages** (proved). Relational version of the pull and reducer semantics (Lemmas/Alike), applied command by command.
  `C93_footprint`, `C93_only_messages`, `C93_raw_search_sees_more`.
  SameFor (Spec/Footprint) says per command what of a message matters. The raw and regex searches and the commands on slices are outside the claim; that a raw search does see other bytes is shown.
* **C94 Payloads are opaque to the sequential reader** (proved). Induction on the reading relation with the payload positions as the only places where the files may differ; then C93. The exception is computed with C80 on a file of 76 bytes.
  `C94_reader`, `C94_commands`, `C94_par_count_sees_payloads`.
  The claim is about the sequential commands; par_count is shown not to have the property.
* **C95 dd_dlt piped into ripdlt gives the statistics of the input** (proved). C51 gives the messages; each clause of the report specification (Spec/Main) is solved for these messages: histograms of equal keys, one maximal run.
  `C95_reports`, `C95_texts`.
  The eleven commands that go through the messages one by one. The message type is whatever the address-dependent info byte decodes to (C06).
* **C96 The iterators look at each byte a bounded number of times** (partial). The functions with counters (Model/Work.lean); erasing the counters gives the model of the iterators. Searches are counted with the bytes up to the end of the occurrence.
  `C96_dltit_linear_partial`, `C96_search_zeros`, `C96_rev_zeros`, `C96_search_not_linear`, `C96_search_bound_partial`, `C96_rev_bound_partial`, `C96_search_packed_partial`, `C96_grep_quadratic`.
  True of dltit; refuted for the others: after a failed search SearchIterator and RevSearchIterator move on by only the length of the marker and search the same bytes again (exactly 2q(q+1) bytes for 4q zero bytes), GrepIterator searches backwards from each match (n(n-1)/2 bytes). Proved: exact counts for these files, upper bounds for all files (quadratic only in the gap in front of the message found), and that logs without gaps are not affected.
* **C97 A call of next needs bounded stack** (partial). As C96; frames counts nested calls.
  `C97_dltit_two_frames_partial`, `C97_search_unbounded_stack`, `C97_rev_after_none`, `C96_search_zeros`, `C96_rev_zeros`, `C96_search_bound_partial`, `C96_rev_bound_partial`, `C96_search_packed_partial`.
  dltit: two frames. Refuted for SearchIterator and RevSearchIterator: one frame per four bytes without a message (exactly q and q+1 for 4q zero bytes), and never more than that. Asking a RevSearchIterator again after None nests more than 2^61 calls on every file. The calls are in tail position, but Rust does not promise to eliminate them. GrepIterator: C74.
* **C98 A pipeline calls its closures as the handwritten loop would** (proved). A model of the generators with closures W -> W x Res (Model/Effect.lean). The loop is written separately (Spec/Effect.lean). Erasing the effects gives the model of C37-C44, by a relation between the states of the two models.
  `C98_pipeline_is_loop`, `C98_fork_is_loop`, `C98_effects_do_not_matter`, `C98_no_effects`.
  Equality of the run with the loop, including the world after every panic.
* **C99 groupby asks about each pair of neighbours once** (proved). The closure logs its arguments; the list is stated over the maximal runs (Spec/Effect.lean).
  `C99_groupby_calls`, `C99_groupby_count`.
  The exact list of calls, and its length.
* **C100 split asks its factory once for every input, not once per key** (proved). The factory logs the keys it gets.
  `C100_split_factory_calls`, `C100_not_once_per_key`.
  What a user would expect, one call per key, is refuted on every input with two elements of the same key.
* **C101 merge compares at most n(n-1)/2 pairs** (proved). The closure counts its calls; the result is related to that of the closure that does not count by C98.
  `C101_merge_calls_bound`, `C101_merge_quadratic`, `C101_merge_linear`.
  Lifecycles without overlap are this worst case: merge is quadratic in their number.
* **C102 Pull-based groupby is lazy** (proved). Yields: the next calls of an arbitrary iterator, nothing said about later ones; the loop is a partial fixpoint, so the endless case is an equation with the value for divergence.
  `C102_first_group`, `C102_next_group`, `C102_endless_run`.
  The state of the source after the call is the state after exactly |run|+1 calls.
* **C103 Grouping ends when its source ends** (partial). Induction on the offset of the backward search; the None of the search always leads to a call that finds the last message of the file (C21).
  `C103_ends_partial`, `C103_asks_again`, `C103_rev_groupby_never_ends`, `C44_pull_groupby_eq_push`.
  True of sources that stay exhausted (C44). Refuted for RevSearchIterator: groupby does not remember the end of its source (FromAdaptFn's third field is never read), asks again, and a backward search starts again at the end of the file; so on every file with a message groupby over it never returns None. On a real machine the call that starts again needs 2^61 frames first (C97).
* **C104 dd_dlt on a full disk or closed pipe leaves the front of its output** (proved). Model/Refuse: Stdout (LineWriter, BufWriter) on an output given by a function that decides for every raw write how much is taken; a simulation (Sim) with the run on an output that takes everything: same contents until the room runs out, front of the complete output after.
  `C104_front`, `C104_messages`.
  Combines with C91 (a file that breaks off).
* **C105 dd_dlt reports output that was not taken** (partial). The invariant of C104's simulation bounds the complete output by L plus the buffer plus one write while no error has been returned; every turn adds at least 16 bytes.
  `C105_reported_partial`, `C105_only_if_missing`, `C105_ends`, `C105_silent_loss`, `C105_point_of_silence`, `C105_last_payload`.
  Refuted as stated: what is still in the buffer of Stdout when main returns is flushed at exit, and a failure then is ignored, so the loss of up to 1024 bytes and one write goes unreported (witness: the last byte of one message). Proved: if more is missing the error is reported; an error is reported only if bytes are missing; and the program always ends, also for payload size 0. Also exact: for every run there is one point of the output, near its end, such that the error is reported exactly if the output breaks off in front of it (C105_point_of_silence); a break inside the last payload is never noticed, and if that payload has a newline or at least 1024 bytes every other break is (C105_last_payload).
* **C106 dd_dlt loses nothing on an output that takes writes in pieces** (partial). The contract of Stdout::write on an arbitrary output (Ok(k): the first k bytes are promised; Err: none), then the same simulation.
  `C106_only_lost`, `C106_whole_partial`, `C106_short_write_loss`.
  Refuted as stated: dd_dlt ignores the number returned by write; a short write of a line drops the rest of the data (witness: an output that takes one byte at a time). Proved: the output is always a subsequence of the complete one; and if the output takes each write of up to max(1024, payload size) bytes as a whole, the program behaves as on an unlimited output (this also shows that Model/Refuse extends Model/DdDlt).
* **C107 ripdlt never ends normally with incomplete output** (proved). Model/RefuseRip: write_all of LineWriter, BufWriter and the raw output; invariant: if everything promised ends with a newline, the buffer is empty. Every text of every command ends with a newline (case analysis over the commands).
  `C107_complete_or_panic`, `C107_limited`.
  In contrast to dd_dlt (C105, C106): println! uses write_all, and every text of ripdlt consists of complete lines, which never stay in the buffer. The run is taken to stop at the first text that is refused; what the other threads of par_iter may print after that is the subject of C144.
* **C108 Iterators can be started anywhere** (proved). Scan and Greedy are shift invariant; for ReadIterator a simulation of collectN on the rest of the slice.
  `C108_reader`, `C108_search`, `C108_read`, `C108_beyond`, `C108_rev_beyond`, `C108_resume`.
  The out-of-range parts are stated for the DLT type.
* **C109 How the results of the iterators relate** (proved). From the characterisations C18, C19, C20 and sortedness.
  `C109_dltit_search`, `C109_search_rev`.
* **C110 What the iterators need of a message type** (partial). Counterexample types with marker 1 1 evaluated in the kernel; the laws split into Reads, Searches and Lawful (Spec/Scan).
  `C110_search_overlap`, `C110_rev_overlap`, `C110_contained_by_overlap`, `C110_reader_partial`, `C110_size_zero_never_ends`, `C110_test_type_panics`, `C110_test_type_reads`, `C110_test_type_breaks_contract`, `C110_test_type_iterators`.
  Violated for markers that overlap themselves (C110_search_overlap, C110_rev_overlap, C110_contained_by_overlap exhibit lost values); holds for the sequential reader (C110_reader_partial), and for the searches with borderless markers (C85). A type reporting size zero makes the readers yield for ever; the test type of the repository panics on short slices and reads behind the marker in try_read; the iterators that do not use try_read find its values (C110_test_type_iterators).
* **C111 The counting commands do not see the order of messages** (proved). From the characterisations C45, C49, C50 and the uniqueness of a histogram of a permuted list.
  `C111_order_blind`, `C111_time_sees_order`.
  The second theorem is a witness that the commands about time are rightly excluded.
* **C112 The split commands see the order of messages per ECU only** (proved). split is determined by the inputs of every key (runRed_split_per_key).
  `C112_interleaving`.
* **C113 The reports of the commands fit together** (proved). From the reports characterised by Prints and lemmas on histograms and maximal runs (Lemmas/RunsLength).
  `C113_sizes`, `C113_kinds`, `C113_times`, `C113_texts`.
* **C114 Two logs, one after the other** (proved). Scan of the concatenation (C23), runs of a concatenation (Lemmas/RunsLength).
  `C114_panics`, `C114_counts`, `C114_periods`, `C114_lifecycles`, `C114_iter`, `C114_itertools`, `C114_itertools_panics`, `C114_raw`.
* **C115 How far the multithreaded commands can be off** (proved). Runs of a list cut into pieces (runsL_pieces, longRuns_pieces), occurrences straddling a cut (C114_raw), the slices hold a prefix of the messages (C72).
  `C115_raw`, `C115_count`, `C115_hello`, `C115_periods`, `C115_iter`.
  The exact differences for the files on which nothing is missed are C34, C36, C58.
* **C116 Following a growing log** (proved). Spec.Follow is the history; a scan of a prefix, resumed at its end on the longer file, is the scan of the longer file (Spec.Scan.resume). Reader results via C85.
  `C116_follow`, `C116_follow_dlt`, `C116_search_differs`, `C116_search_covers`.
  C116_search_differs exhibits the message the searching iterator misses; C116_search_covers says what holds for it.
* **C117 Messages copied into a new file** (proved). The copied bytes are encode of the message (C12 soundness); the new file is fileOf of these, to which C13/C18 apply; commands by C93.
  `C117_extract`, `C117_iterators`, `C117_select`, `C117_clean`.
* **C118 Searching with a pattern as a user writes it** (proved). Model/Pattern: parsed patterns, the ways to match in order of preference; Spec/Pattern: language (Text) and positional matches (Span). Soundness and completeness by induction on the pattern / derivation; searches via C24, C25, C26, C27.
  `C118_matches`, `C118_texts`, `C118_ends`, `C118_nullable`, `C118_group`, `C118_capture_ends`, `C118_finds`, `C118_stays`, `C118_literal`, `C118_hello`, `C118_others`, `C118_preference`, `C118_whole_group`, `C118_last_group`, `C118_notation`.
  The regex crate is a dependency: Pat.compile models its documented leftmost-first semantics; parsing of the concrete syntax is not modelled.
* **C119 Debug and release builds agree** (proved). Model/Build.lean: the code of matchit and ripdlt with the arithmetic as a parameter; Spec/Build.lean: exact where nothing overflows. Equality with the debug model via the invariants (positions within the file, counts bounded by the number of messages, runs with ascending time stamps).
  `C119_builds`, `C119_scanning`, `C119_reading`, `C119_slicing`, `C119_far_positions`, `C119_commands`, `C119_ripdlt`, `C119_release_is_debug`.
  dd_dlt is covered by its own build parameter (C51 and others); it does differ between builds once its time stamps overflow.
* **C120 What the generated test files contain** (proved). Spec/TestGen.lean: a run of dd_dlt as a record, appended outputs. From C51 the messages of each run, from C68 what the commands say about the concatenated list; runs of related neighbours are the runs of dd_dlt (runs_flat).
  `C120_counts`, `C120_lifecycles`, `C120_equal_lifecycles`, `C120_single_messages_merge`, `C120_periods`, `C120_ecus`, `C120_par_count`, `C120_payloads`, `C120_nested`, `C120_runs_exist`, `C120_script`, `C120_script_random`, `C120_skipped`.
  The parts of the script that copy the .dlt files of the repository are covered by C114 (concatenation); the contents of these files are not modelled.
* **C121 Reports are in order** (proved). From C68 and C35 the reports are sorted by the key order of the map; alphabetical_of_rank and kindBefore_of_rank relate that order to the one a reader sees.
  `C121_in_order`.
  Orders are stated in Spec/Listing.lean without the model's key order: first differing byte for ECU ids, an explicit list for message types.
* **C122 Arguments and exit codes** (proved). Model/Process.lean wraps DdMain and RipText into processes (arguments as bytes, standard output and error, exit code). utf8_iff_string: Rust's UTF-8 check accepts exactly the encodings of strings; utf8_inj: a string is determined by its bytes. The rest from C51, C52, C67, C88, C95.
  `C122_not_text`, `C122_no_name`, `C122_dd_usage`, `C122_rip_usage`, `C122_dd_codes`, `C122_rip_codes`, `C122_rip_runs`, `C122_rip_fails`, `C122_dd_reports`, `C122_same_number`.
  The text of a panic message on standard error is not modelled (err = none). Outputs that refuse bytes are C105, C106 and C107.
* **C123 Cutting a file into slices takes bounded stack** (partial). Model/Stack.lean: contained_by and partition_from with room for a number of calls in progress (none is an overflow); soundness against the plain model, upper bound by induction over marker positions, exact depth of a family of files by induction, two frames from the top-level cover of the file.
  `C123_stack_sound`, `C123_depth_bound`, `C123_two_frames_partial`, `C123_depth_grows`, `C123_partition_overflows`, `C123_deep_is_cheap`.
  Violated: the recursion of contained_by is not a tail call, and in a file of messages that each reach over the marker of the next it is as deep as the number of messages in front (exactly j + 1 calls, one for every 20 bytes, at no more than 3276 reads each); no fixed stack is enough to cut such a file in two. Proved: a quarter of the file's length is always enough, and two calls are enough if messages have at most 65536 bytes and embedded messages end with the message they are in.
* **C124 The searching iterators stay exhausted** (partial). invariant (offset behind the end) for SearchIterator; the other two leave their state alone when they return None.
  `C124_search_partial`, `C124_search_panics`, `C124_release_starts_again`, `C124_grep`, `C124_captures`.
  True of the two pattern iterators. SearchIterator moves its offset on with every call, also behind the end: true for the first (2^64 - offset)/4 further calls, then a debug build panics and a release build starts again at the front of the slice (both proved). dltit: C15, ReadIterator: C22, RevSearchIterator: C21.
* **C125 Exit code 0 means that everything came out** (partial). Model/ProcessOn.lean: the processes of C122 on the outputs of C105 - C107; ripdlt by the fact that its text consists of complete lines (C107), dd_dlt by the simulations behind C105 and C106.
  `C125_rip_success`, `C125_rip_front`, `C125_rip_limited`, `C125_rip_runs`, `C125_dd_codes`, `C125_dd_whole`, `C125_dd_error`, `C125_dd_loss_partial`, `C125_dd_ends`, `C125_dd_silent`, `C125_dd_last_payload`.
  Proved of ripdlt, and of dd_dlt for exit code 1 and for losses of more than 66559 bytes. Violated by dd_dlt otherwise (C125_dd_silent): with one byte missing it ends with exit code 0 and says that it wrote a message. C125_dd_last_payload: a loss inside the last payload is never shown in the exit code, and if that payload has a newline or at least 1024 bytes every other loss is. The text of the messages std writes to standard error is not modelled.
* **C126 How many equally long messages the multithreaded commands see** (proved). Spec/Equal.lean gives the number left out as arithmetic on k, L and n. Lemmas/Equal.lean: where contained_by puts a cut in such a file, then induction over the messages behind the current cut, with the remainder as invariant; Props/Equal.lean links the size of a slice in bytes with k / n.
  `C126_slices`, `C126_messages`, `C126_count`, `C126_hello`, `C126_iff`, `C126_enough`, `C126_few`, `C126_dd`.
  Exact. Shows that the multithreaded counts are wrong on most small files: 5 or 7 messages and 2 threads lose one, 15 messages and 4 threads lose a whole slice of 3.
* **C127 dd_dlt piped into the multithreaded commands** (proved). Spec/DdParallel.lean computes the numbers of the messages in each slice and the seconds they span. C126 gives the slices, C51 the messages; each slice is a run of successive messages, for which the sequential commands are known (Props/EndToEnd.lean).
  `C127_reports`, `C127_texts`, `C127_par_iter`.
  Exact for payloads up to 65502 bytes (longer ones do not fit a DLT message of 65535 bytes as the slicing reads it; see C51). For the raw counts on such a file see C136.
* **C128 One core, more cores than bytes, and the empty file** (proved). The loop of partition_from is unfolded once. A reduction of one value with an identity on both sides is the value, whatever the schedule (parReduce_one_iff); that the empty map is an identity follows from the uniqueness of histograms and tables.
  `C128_one_slice`, `C128_no_slice`, `C128_one_core`, `C128_one_core_same_text`, `C128_one_core_raw`, `C128_one_core_par_iter`, `C128_too_many`, `C128_too_many_text`, `C128_empty`.
  The files with more cores than bytes are tiny, but they show that the multithreaded counts do not only differ from the sequential ones by messages at the end of the file (C126): a file of 96 bytes with four messages gives 0 on 97 cores.
* **C129 Merging twice settles the spans** (proved). C40 gives the order of the first merge's result, C41_merge_disjoint_partial applies to it. Steps from a second to the next are preserved by merging, and determine disjoint spans in order (spans_unique).
  `C129_merge_twice`, `C129_order`, `C129_third`, `C129_second_iff`, `C129_merge_apart`.
  C41 shows that one merge (which is what timestamp_splitit uses) is not enough; the second one is the remedy.
* **C130 Laws for rewriting pipelines** (proved). From the exact list semantics (C83): chainV and Means are compared side by side; the split laws use withKey (filter by key) commuting with itself and with filters.
  `C130_map_map`, `C130_filter_filter`, `C130_map_filter`, `C130_nested_chains`, `C130_no_adapters`, `C130_fork_behind`, `C130_behind_congr`, `C130_fork_congr`, `C130_split_congr`, `C130_split_filter`, `C130_split_split`, `C130_split_collect`.
  The split laws are stated for runs that return; the adapter and fork laws also say that both sides panic on the same inputs.
* **C131 How far damage reaches** (proved). frame_agree: marker and length field decide presence and length of a message. Front: cutting (C91) for the reader, strong induction over the start offset for the search. Behind: both lists are sorted, so it is enough to compare membership; coverage (C18) and the stop condition (C13) give it.
  `C131_frame`, `C131_frame_commands`, `C131_reader_front`, `C131_search_front`, `C131_backwards`, `C131_search_behind`, `C131_reader_behind`, `C131_wiped`.
* **C132 How many periods and lifecycles are reported** (proved). runsL_count: the number of maximal runs is one more than the number of neighbours that are not related; with C46/C48 through runs_prints. Boots: maximal runs are unique.
  `C132_periods`, `C132_lifecycles`, `C132_split`, `C132_boots`.
* **C133 Logs in order of time** (proved). A list in order is a single run (inOrder_runs); a single run gives a single span (inOrder_spans); on slices with log_messages (C115), C35 and par_split_table.
  `C133_one_period_iff`, `C133_split`, `C133_par_periods`, `C133_par_split`.
* **C134 Any number of logs, one after the other** (proved). Induction over the logs with C114.
  `C134_panics`, `C134_numbers`, `C134_sizes`, `C134_types`, `C134_ecus`, `C134_copies`, `C134_periods`.
* **C135 Several threads and messages of more than 65536 bytes** (proved). Scan.behind: reading from a place inside a message without a marker in its rest goes on with the next message; together with C32_only_the_end and C91 (a file that breaks off). The counts follow from tiles_cases: a message is in one range, or a range ends in it, or it is behind them.
  `C135_slices`, `C135_count`, `C135_count_packed`, `C135_hello`, `C135_reports`, `C135_one_lost`, `C135_dd`.
  C135_one_lost: two messages of 65551 and 65541 bytes, two threads: par_count prints 1. Completes C34, C58 and C115 for long messages.
* **C136 Where count_hello_world_raw finds the text in a log** (proved). Places of a text (Spec.occ) add up over pieces that start with the marker (C114_raw). A bad byte in every window of 11 bytes of the header (bytes 3, 7, 11, 16, 25) and the repetition of the application id exclude a text starting before byte 30. Slices of equal messages by C126, others by C32.
  `C136_raw`, `C136_par_raw`, `C136_dd`, `C136_dd_input`, `C136_dd_par`.
  C136_dd_input and C136_dd_par count in the input of dd_dlt itself. An application id ending with e.g. "He" can complete a text that is not in the input (example beside the theorems).
* **C137 Iterator pipelines do what the loop does, also when reading and closures have effects** (proved). Model/PullEffect.lean: the iterators of Model/Pull.lean with a world. Fusion lemma: a reducer behind FromAdaptFn is the reducer with one more stage (two inductions by partial correctness, for the values and for returning); nested reducers are one reducer of the composed chain; std's filter and map are FromAdaptFn with the stages Filter and Map; induction over the chain.
  `C137_iterator_is_generator`, `C137_read_process_alternate`, `C137_pipeline_is_loop`, `C137_over_a_list`, `C137_groupby_calls`, `C137_effects_do_not_matter`, `C137_no_effects_groupby`, `C137_no_effects_std`, `C137_over_is_needed`.
  The source must be over once it has said None (sources that are not: C103); C137_over_is_needed shows that otherwise it is false.
* **C138 Message types with an empty marker** (proved). Model/AnyMarker.lean: the functions without the assumption that the marker is not empty (next may then not return: partial_fixpoint). Equality with Model/Iter.lean and Model/Partition.lean for other markers by induction along those definitions. With an empty marker find gives 0, rfind the length, find_iter all positions; a call that comes back to its own argument does not return (partial correctness).
  `C138_other_markers`, `C138_reader`, `C138_search`, `C138_rev`, `C138_rev_never_ends`, `C138_contained_by`.
  contained_by for try_read that does not panic and values whose end does not overflow usize. Grep iterators and partition_from: C139.
* **C139 Patterns and slices for message types with an empty marker** (proved). Model/AnyMarkerGrep.lean on top of Model/AnyMarker.lean. With an empty marker the backward search from the start of a match gives the position itself, so the search is the inductive relation StartSearch (Spec/AnyMarker.lean); both directions by partial correctness and induction. Slices: CutsBy (C80) with the cut at the first covering value, from C138_contained_by.
  `C139_other_markers`, `C139_grep_next`, `C139_grep`, `C139_grep_diverges_iff`, `C139_capture_next`, `C139_capture`, `C139_partition`.
  Hypotheses: reading in the slice does not panic and the end of a value does not overflow usize (Harmless).
* **C140 Exit code 0 of ripdlt means that the right report was printed** (proved). No new model: C125 (the process on an output), C122 (the process), C88 (text of a report), C66 to C68 (the report of a sequential command) and C89 (a text identifies its report) are composed.
  `C140_text`, `C140_success`, `C140_succeeds_iff`, `C140_same_text`.
  par-iter, whose lines may come in any order, is excluded from C140_text and C140_same_text. C140_success and C140_succeeds_iff are about the commands that run on one thread; what the other commands report is the subject of C34, C58, C115, C126 and C135. Hypothesis: the file fits in memory (Fits).
* **C141 The reports of the sequential commands are determined** (proved). No new model. Spec.Absorbed states what the merge of split_timestamp leaves of the runs; absorbed_foldl ties it to the model of merge, absorbed_unique shows that it determines the spans. Uniqueness of maximal runs, histograms and grep results give the rest.
  `C141_determined`, `C141_exact`.
  C141_determined is about the specification alone (Spec.Prints of C68 is a partial function); with C68 it gives C141_exact. Hypothesis of C141_exact: the file fits in memory (Fits).
* **C142 The periods split_timestamp shows for an ECU** (partial). No new model. The exact specification of C141 (Absorbed) is analysed by induction over the runs (absorbed_one), and C41's groups are carried over to files (ecuSpans_groups).
  `C142_one_period_iff`, `C142_jitter`, `C142_groups`, `C142_total_partial`, `C142_too_long`.
  The last sentence is false of the code: on the messages 10, 12, 3, 5, 4, 11 (within 9 seconds) split_timestamp shows periods of 2 and 8 seconds (C142_too_long), because merge extends only the first span a run meets (C41). It is proved for files on which no run bridges a gap (C142_total_partial); the other sentences are proved for every file.
* **C143 The report of a multithreaded command is the sum of the reports on the slices** (proved). No new model. Spec.AddsUp (Spec/AddUp.lean) says what the sum of reports is; lineSums_hist turns the histogram of a concatenation into a line by line sum; par_histogram_sum and par_split_sum use C35_par_histogram and C35_par_split; uniqueness (lines_ext) from the order of the lines (C121). Cases: the sum of two ECU reports; four messages in one second with two threads.
  `C143_determined`, `C143_sum`, `C143_exact`, `C143_by_messages`.
  C143_determined is about the specification alone (Spec.AddsUp is a partial function). C143_exact is an iff: a report is possible if and only if it is the sum of reports on the slices. C143_by_messages replaces the run of the sequential command by the specification of its report (C68, C141). Hypotheses: the file fits in memory, at least one thread. That the sum may differ from the sequential report on the whole file is C36.
* **C144 The threads of par_iter on an output that refuses what is written** (proved). Model/RefusePar.lean: the lines of the threads are tried one after the other, in any order; after a refused line any of the others may follow. Lemmas: printing from any state of the buffer (prints_any), what has gone out stays out (ext_try), so with limited room nothing goes out after the first refusal (try_refused); the lines tried can be completed to the lines of a run (parIter_complete). Case: four messages, two threads.
  `C144_success`, `C144_limited`, `C144_bytes`, `C144_exists`, `C144_other_commands`, `C144_gap`.
  Lifts the simplification of C107 and C125, which stop at the first text that is refused. C144_limited and C144_bytes need that the file fits in memory (Fits). C144_gap shows that the claim of C107 (what comes out is a front of the text) is false of par_iter on outputs that recover.
* **C145 dd_dlt processes its complete standard input or reports a failure** (partial). Model/Stdin.lean: the results of the calls of read(2) are data; `Stdin` is a `BufReader` of 8192 bytes (read, read_exact, std). Spec/Stdin.lean: the bytes in front of the first error. Lemmas: each read takes bytes from the front of what is left (read_spec), read_exact gives the next bytes or an error (readExact_spec), a turn of the loop does not look at the rest of the input (ddTurnOn_input), so the loops agree step by step (ddTurnsIn_sim). Case: three bytes, an error, three bytes; and the same bytes in five reads with interruptions.
  `C145_delivered`, `C145_pieces`, `C145_complete_partial`, `C145_silent`, `C145_loss`.
  Proved: sizes and interruptions do not matter, and without read errors the complete input is processed. Violated: a read error ends the loop like the end of the input (dd_dlt/src/main.rs:28-31), for every position of the error, with exit code 0 and a message that reports success (C145_silent, C145_loss).
* **C146 32-bit builds agree with 64-bit builds** (partial). The lemmas of C119 are for any arithmetic that is exact up to a largest number M (`ExactTo`, Spec/Build.lean) and any file with 2*length < M (`Room`); C119 is the instance M = 2^64-1, C146 the instance M = 2^32-1 (`Arith.debug32`, `Arith.release32`). Lemmas/BuildText.lean: every number the commands compute and print is bounded by the length of the file or by a u32; only the upper end of a bucket of storage seconds can be 2^32. The last key of the histogram decides (hist_last). `RevSearchIterator` has its own parameter for usize::MAX (Model/BuildRev.lean): before the end the states are equal, behind it each is its own usize::MAX, and 2^64-2^32 is a multiple of the marker's length, so the walk down reaches the same positions.
  `C146_builds`, `C146_scanning`, `C146_reading`, `C146_slicing`, `C146_reverse`, `C146_reverse_asked`, `C146_commands_partial`, `C146_timestamp_iff`, `C146_par_timestamp_iff`, `C146_ripdlt_partial`.
  Proved for the library and for all commands but two. Violated by histogram_timestamp and par_histogram_timestamp (ripdlt/src/main.rs:342,348: k+1 with k: usize made from a u32): they agree exactly if no run of messages with non-decreasing storage seconds starts in second 0 and ends in second 2^32-1. If there is one, the 32-bit debug build panics in front of the last line, and the 32-bit release build prints 4294967295-0 (C146_timestamp_iff, C146_par_timestamp_iff, with a file of four messages). Not modelled: what mmap and read do with files of 2^31 bytes or more on such a machine.
* **C147 Reading a mapped log while it is being written** (proved). Model/Mapped.lean: `readFallbackNextOn` and `searchNextOn` are the calls of next with a sequence of versions of the file, one for each access; `pollFrom` runs a number of calls, whether or not None is returned. Spec/Mapped.lean: the file while it is written (`written`, `filled`), a message only part of which is there (`half`), and which message it is the turn of (`taken`). Lemmas/Mapped.lean `call_written` is one call exactly, by cases on how many bytes of the current message the two accesses see (fewer than 4, fewer than 20, more); `pollFrom_of` strings calls together. C147_filled is the case of C147_written in which the writer stops at message boundaries only. With versions that agree behind the offset the model is the one of the other theorems (C147_call_unchanged).
  `C147_call_safe`, `C147_call_unchanged`, `C147_safe`, `C147_behind`, `C147_written`, `C147_filled`, `C147_follow`, `C147_half_message`, `C147_wrong_size`, `C147_search_safe`, `C147_search_unchanged`, `C147_search_skips`, `C147_search_overlap`.
  Simplified: one access (comparing the marker, one search for it, one try_read_valid_marker, reading the length again) sees one version of the file, and a message returned is a copy of what was read (in the program it refers to the mapping, so its bytes can change later). The file does not get shorter while it is mapped (the operating system ends the program then). The Rust language calls it undefined behaviour if bytes behind a shared slice change at all; the model says what the code does if the compiler makes each access once, as written.
* **C148 What a pipeline keeps in memory** (proved). Model/Held.lean: `Chain.held` and `Prog.held` count the values in the state of any pipeline, struct by struct. Spec/Held.lean: `chainOpen` says on lists what has come out of a chain and how many values it keeps, `Keeps` the same for a program (for `split` by the keys that occur and the inputs with each), `Slots` the number of folds and groupbys of a pipeline without merge and split. C148_kept_exact is by induction on the program: for a chain as in C83, with the state kept instead of drained; for split from the invariant that each key has the state of its reducer on its inputs. The bounds follow from the exact count.
  `C148_chain_open`, `C148_kept_exact`, `C148_constant`, `C148_split_keys`, `C148_merge_keeps`, `C148_merge_copy`, `C148_merge_unbounded`.
  Counted are the values held in the fields of the stages and reducers between two calls. An accumulated value counts as one, whatever it contains (collect keeps a list that grows), and so does a value, whatever its size; what closures capture and the temporaries of a call are not counted, nor the spare room of the maps.
* **C149 How long reports can be** (proved). Spec/ReportSize.lean: `tableLines` counts the lines of a report, `mostLines` is the bound for each command. The histograms are duplicate-free maps of the keys that occur (`IsHistogram`), so they are as long as the set of possible keys allows, by pigeonhole on a list that contains all keys: sizes from the 16 bit length field, seconds and time stamps from their 32 bits, kinds by evaluation of the decoder on 256 bytes (kernel). C149_lines_by_file: as many lines as groups or messages at most, and messages are disjoint and of 20 bytes at least. C149_reached: explicit files, of all message infos, of all sizes, of all texts as ECU ids (Lemmas/IdTexts.lean lists and counts the UTF-8 texts of four bytes), and of sawtooth times 0,1,0,2,0,3,..., whose maximal runs are the teeth; nothing of that size is evaluated.
  `C149_most_lines`, `C149_lines_by_file`, `C149_reached`.
  Lines are counted, not characters (C88 has the text of a line); the total at the end of the sizes and commands that print a number are not tables. An ECU id that is not UTF-8 ends the split commands with a panic (C56), so the longest table of ECUs that is printed has a line for each text of four bytes. That the bounds are reached is proved for the sequential commands. 22 and not 40 lines of types: the decoder drops a bit of the type (C07), so nine of the twenty kinds never appear.
* **C150 A log split by ECU** (proved). `ecuFile` is `extract` (C117) for the items with an id; by C117 it decodes to the messages with that id, so each claim is about filters of lists: an ordered map of the split commands is filtered by key (`IsHistogram` is unique, C141_exact characterises the runs), descents of a sublist are at most those of the list, the concatenation over the ids is a permutation of the messages and C-order results for permutations apply. Examples run `apart` and `shortBoots`.
  `C150_line`, `C150_panics`, `C150_together`, `C150_sums`, `C150_periods`, `C150_lifecycles`, `C150_periods_not_sum`.
  The copying is done by the reader of the offsets (C117), there is no such command in ripdlt. itertools is excluded from C150_panics because its sum is over all messages and can overflow on the log only (C37). histogram_lifecycles on the whole log is not the sum: it cuts where messages of ECUs alternate (C47). C150_periods_not_sum: the log of two ECUs whose clocks are five seconds apart shows two periods of five seconds, the file of each ECU one of one second.
* **C151 Moved clocks** (proved). `Received` and `Stamped` relate a message and the same message under another clock; files are related by `Pointwise`. Runs of related lists are related (runsL_alike), and their spans have the same length; the merged spans of split_timestamp move with the runs (absorbed_moved) and are unique. The reports follow from C141 (what is printed) and C93 (the commands that do not look at the seconds). C151_lifecycles: the messages of a run agree in the ECU id (run_ends_agree), so each run moves as a whole. C151_set_clock: a file of written messages with other seconds. Examples: `apart` with the second clock set back, two boots 6.5 seconds later; C151_one_clock: `apart` shows that histogram_timestamp needs one clock.
  `C151_recorder`, `C151_set_clock`, `C151_stamps`, `C151_steps`, `C151_lifecycles`, `C151_one_clock`, `C151_recorder_text`, `C151_stamps_text`, `C151_lifecycles_text`.
  The commands that search the raw bytes or cut the file into slices are not covered: the bytes of another time may hold a marker or a newline. The values must not leave the 32 bits of their fields, which the equations on integers in `Received` and `Stamped` say. The `_text` theorems say the same of the printed text of the runs that end, and of whether a run panics; the lines that a panicking run has printed before are not compared.
* **C152 Renamed ECUs** (proved). `Renamed` relates the messages, `NamesApart` says one-to-one on the log. renamed_table: two tables (IsHistogram, so sorted and free of duplicates) with the same lines under the names are permutations of each other; the line of an ECU depends on its messages only (Clock.lean). C152_blind is C93. Example: `apart` with the names exchanged.
  `C152_blind`, `C152_renamed`, `C152_panics`, `C152_text`.
  Ids in the storage header only; histogram_lifecycles compares those in the standard header, which stay. Commands that search the raw bytes or cut the file into slices are not covered: another id may hold a marker.
