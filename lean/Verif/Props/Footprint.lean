import Verif.Spec.Footprint
import Verif.Lemmas.Alike
import Verif.Props.Text
import Verif.Props.ContainExact
import Verif.Props.ParallelCount

/-! # C92–C94: what the library and the commands look at -/

set_option linter.unusedSimpArgs false

namespace Verif

open Spec

/-! ## C92 -/

/-- **C92** every reducer built with the API looks at its inputs only through the closures it was given: on two sequences
of inputs that are related, value by value, by a relation the closures respect, the two programs return the same result
(a value or a panic). The types of the inputs may differ. -/
theorem C92_programs_see_through_closures {α α' ρ : Type} (R : α → α' → Prop) (p : Prog α ρ) (p' : Prog α' ρ)
    (h : ProgAlike R p p') (xs : List α) (xs' : List α') (hx : Pointwise R xs xs') :
    runRed p.red xs = runRed p'.red xs' := by
  obtain ⟨v, h1, h2⟩ := prog_alike h xs xs' hx
  rw [h1, h2]

/-- **C92** the same for a chain: related outputs, or a panic of both. -/
theorem C92_chains_see_through_closures {α α' β β' : Type} (R : α → α' → Prop) (Q : β → β' → Prop) (c : Chain α β)
    (c' : Chain α' β') (h : ChainAlike R Q c c') (xs : List α) (xs' : List α') (hx : Pointwise R xs xs') :
    ∃ q q', collected c xs = some q ∧ collected c' xs' = some q' ∧ ResRel (Pointwise Q) q q' :=
  ⟨_, _, C83_chain_exact c xs, C83_chain_exact c' xs', chainV_alike h hx⟩

/-- **C92** renaming the inputs before or inside the program is the same: a program that starts with `map g`. -/
theorem C92_map_first {α β ρ : Type} (g : α → β) (p : Prog β ρ) (xs : List α) :
    runRed (Prog.behind (.map .nil fun x => .ok (g x)) p).red xs = runRed p.red (xs.map g) := by
  have h := runRed_reducer (r := p.red) (outs_chainV (.map .nil fun x => .ok (g x)) xs)
  refine h.trans ?_
  show (mapV (fun x => .ok (g x)) xs).andThen _ = _
  rw [mapV_eq, mapR_pure]; rfl

/-- Numbers seen only through their remainder: the program splits by parity and counts. -/
example : runRed (Prog.split (α := Nat) (ρ := Nat) inferInstance inferInstance (fun x => .ok (x % 2))
      fun _ => .fold 0 () fun c n x => .ok (c, n + x % 2)).red [1, 2, 3] =
    runRed (Prog.split (α := Nat) (ρ := Nat) inferInstance inferInstance (fun x => .ok (x % 2))
      fun _ => .fold 0 () fun c n x => .ok (c, n + x % 2)).red [7, 4, 11] :=
  C92_programs_see_through_closures (fun x y : Nat => x % 2 = y % 2) _ _
    (.split (fun _ _ h => by rw [h]) fun _ => .fold fun _ _ _ _ h => by rw [h]) _ _
    (.cons rfl (.cons rfl (.cons rfl .nil)))

/-! ## C93 -/

section
variable {a b : Bytes} {xs ys : List StorageEntry}

theorem pull_alike {R : StorageEntry → StorageEntry → Prop} (ha : Fits a) (hb : Fits b) (hx : Messages a xs)
    (hy : Messages b ys) (h : Pointwise R xs ys) : PullAlike R (dltPull a) 0 (dltPull b) 0 :=
  ⟨_, _, streams_dlt ha hx, streams_dlt hb hy, h⟩

theorem pull_timed_alike {R : StorageEntry → StorageEntry → Prop} (ha : Fits a) (hb : Fits b) (hx : Messages a xs)
    (hy : Messages b ys) (h : Pointwise R (timed xs) (timed ys)) :
    PullAlike R (pullFilter (fun e => .ok e.dlt.header.headerType.isWithTimestamp) (dltPull a)) 0
      (pullFilter (fun e => .ok e.dlt.header.headerType.isWithTimestamp) (dltPull b)) 0 :=
  ⟨_, _, streams_timed ha hx, streams_timed hb hy, h⟩

theorem stamp_eq_of {e e' : StorageEntry} (h : timeOf e = timeOf e') : stamp e = stamp e' := by
  rw [← stamp_timeOf, ← stamp_timeOf] at h
  cases h1 : stamp e <;> cases h2 : stamp e' <;> rw [h1, h2] at h <;> simp at h
  rw [UInt32.toNat_inj.1 h]

theorem secs_eq_of {e e' : StorageEntry} (h : secsOf e = secsOf e') : e.secs = e'.secs := UInt32.toNat_inj.1 h

theorem timePredicate_alike {x x' y y' : StorageEntry} (hx : timeOf x = timeOf x') (hy : timeOf y = timeOf y') :
    timePredicate x y = timePredicate x' y' := by
  rw [timePredicate_eq, timePredicate_eq, stamp_eq_of hx, stamp_eq_of hy]

theorem timeDelta_alike {p q : StorageEntry × StorageEntry} (h : PairRel (fun e e' => timeOf e = timeOf e') p q) :
    timeDelta p = timeDelta q := by
  rw [timeDelta_eq, timeDelta_eq, stamp_eq_of h.1, stamp_eq_of h.2]

theorem resRel_eq {α : Type} {p q : Res α} (h : p = q) : ResRel (fun x y : α => x = y) p q := by
  subst h
  cases p with
  | ok x => exact rfl
  | panic => trivial

/-- The part of a footprint on the messages with time stamp flag. -/
theorem timed_alike {R Q : StorageEntry → StorageEntry → Prop} (h : Pointwise R xs ys)
    (h1 : ∀ e e', R e e' → flag e.dlt 4 = flag e'.dlt 4) (h2 : ∀ e e', R e e' → flag e.dlt 4 = true → Q e e') :
    Pointwise Q (timed xs) (timed ys) := by
  unfold timed
  induction h with
  | nil => exact .nil
  | @cons x y xs ys h3 _ ih =>
    have := h1 _ _ h3
    cases hx : flag x.dlt 4 with
    | true =>
      rw [List.filter_cons_of_pos (p := fun e : StorageEntry => flag e.dlt 4) hx,
        List.filter_cons_of_pos (p := fun e : StorageEntry => flag e.dlt 4) (this ▸ hx)]
      exact .cons (h2 _ _ h3 hx) ih
    | false =>
      rw [List.filter_cons_of_neg (by rw [hx]; simp), List.filter_cons_of_neg (by rw [← this, hx]; simp)]
      exact ih

theorem count_same (ha : Fits a) (hb : Fits b) (hx : Messages a xs) (hy : Messages b ys)
    (h : Pointwise (SameFor .count) xs ys) : ripCount a = ripCount b :=
  pullReduce_alike (pull_alike ha hb hx hy h) count_alike

theorem message_size_same (ha : Fits a) (hb : Fits b) (hx : Messages a xs) (hy : Messages b ys)
    (h : Pointwise (SameFor .histogramMessageSize) xs ys) : histogramMessage a = histogramMessage b := by
  have h' : Pointwise (fun e e' : StorageEntry => e.len = e'.len) xs ys := by
    have hwx := messages_wf hx
    have hwy := messages_wf hy
    clear hx hy
    induction h with
    | nil => exact .nil
    | @cons x y xs ys h1 _ ih =>
      refine .cons ?_ (ih (fun e he => hwx e (List.mem_cons_of_mem _ he)) fun e he => hwy e (List.mem_cons_of_mem _ he))
      have h2 : (encode x).length = (encode y).length := h1
      rw [encode_len x (hwx x List.mem_cons_self), encode_len y (hwy y List.mem_cons_self)] at h2
      exact h2
  exact pullReduce_alike (pullMap_alike (Q := fun m n : Nat => m = n) (pull_alike ha hb hx hy h')
    fun _ _ h => resRel_eq (by rw [h])) (split_alike (fun _ _ h => by rw [h]) fun _ => genCount_alike)

theorem timestamp_same (ha : Fits a) (hb : Fits b) (hx : Messages a xs) (hy : Messages b ys)
    (h : Pointwise (SameFor .histogramTimestamp) xs ys) : timestampHistogram a = timestampHistogram b := by
  have h' : Pointwise (fun e e' : StorageEntry => e.secs = e'.secs) xs ys := h.imp fun _ _ h => secs_eq_of h
  exact pullReduce_alike (pullMap_alike (Q := fun m n : UInt32 => m = n) (pullGroupBy_alike (pull_alike ha hb hx hy h')
    fun _ _ _ _ h1 h2 => by rw [secsPredicate, secsPredicate, h1, h2])
    fun p q h => resRel_eq (by rw [h.1, h.2])) (split_alike (fun _ _ h => by rw [h]) fun _ => genCount_alike)

theorem split_timestamp_same (ha : Fits a) (hb : Fits b) (hx : Messages a xs) (hy : Messages b ys)
    (h : Pointwise (SameFor .splitTimestamp) xs ys) : timestampSplit a = timestampSplit b := by
  have h' : Pointwise (fun e e' : StorageEntry => e.secs = e'.secs ∧ e.storageHeader.ecu = e'.storageHeader.ecu) xs ys :=
    h.imp fun _ _ h => ⟨secs_eq_of h.1, h.2⟩
  refine pullReduce_alike (pull_alike ha hb hx hy h') (split_alike (fun _ _ h => by rw [h.2]) fun k => ?_)
  refine behind_alike (c := .nil) (c' := .nil) ChainAlike.nil (fork_alike ?_ genCount_alike)
  refine behind_alike (c := .map spanChain fun r => subU32 r.2.secs r.1.secs)
    (c' := .map spanChain fun r => subU32 r.2.secs r.1.secs)
    (Q := fun m n : UInt32 => m = n) (ChainAlike.map (Q := PairRel fun e e' : StorageEntry =>
      e.secs = e'.secs ∧ e.storageHeader.ecu = e'.storageHeader.ecu) ?_ fun p q h => resRel_eq (by rw [h.1.1, h.2.1]))
    (split_alike (fun _ _ h => by rw [h]) fun _ => genCount_alike)
  refine ChainAlike.merge (ChainAlike.groupby .nil fun _ _ _ _ h1 h2 => by rw [secsPredicate, secsPredicate, h1.1, h2.1])
    ?_ fun p q h => by rw [spanKey, spanKey, h.1.1, h.2.1]
  rintro ⟨x1, x2⟩ ⟨x1', x2'⟩ ⟨y1, y2⟩ ⟨y1', y2'⟩ ⟨h1, h2⟩ ⟨h3, h4⟩
  simp only at h1 h2 h3 h4
  have hmax : (fun e e' : StorageEntry => e.secs = e'.secs ∧ e.storageHeader.ecu = e'.storageHeader.ecu)
      (if x2.secs ≥ y2.secs then x2 else y2) (if x2'.secs ≥ y2'.secs then x2' else y2') := by
    rw [← h2.1, ← h4.1]
    split
    · exact h2
    · exact h4
  show OptRel _ (mergeOverlapping _ _) (mergeOverlapping _ _)
  unfold mergeOverlapping
  simp only [← h1.1, ← h2.1, ← h3.1, ← h4.1] at hmax ⊢
  split
  · exact ⟨h1, hmax⟩
  · split
    · exact ⟨h3, hmax⟩
    · trivial

theorem iter_same (ha : Fits a) (hb : Fits b) (hx : Messages a xs) (hy : Messages b ys)
    (h : Pointwise (SameFor .iter) xs ys) : lifecycleIter a = lifecycleIter b := by
  have h' : Pointwise (fun e e' => timeOf e = timeOf e') (timed xs) (timed ys) :=
    timed_alike h (fun _ _ h => h.1) fun _ _ h _ => h.2
  exact pullReduce_alike (pullFilter_alike (pullGroupBy_alike (pull_timed_alike ha hb hx hy h')
    fun _ _ _ _ h1 h2 => timePredicate_alike h1 h2) fun p q h => by rw [longEnough, longEnough, timeDelta_alike h])
    count_alike

theorem itertools_same (ha : Fits a) (hb : Fits b) (hx : Messages a xs) (hy : Messages b ys)
    (h : Pointwise (SameFor .itertools) xs ys) : lifecycleItertools a = lifecycleItertools b := by
  have h' : Pointwise (fun e e' => timeOf e = timeOf e') (timed xs) (timed ys) :=
    timed_alike h (fun _ _ h => h.1) fun _ _ h _ => h.2
  have hp : PullAlike (PairRel fun e e' : StorageEntry => timeOf e = timeOf e')
      (tupleWindows (pullFilter (fun e => .ok e.dlt.header.headerType.isWithTimestamp) (dltPull a))) (none, 0)
      (tupleWindows (pullFilter (fun e => .ok e.dlt.header.headerType.isWithTimestamp) (dltPull b))) (none, 0) :=
    ⟨_, _, streams_tupleWindows (streams_timed ha hx), streams_tupleWindows (streams_timed hb hy), h'.pairs⟩
  exact pullReduce_alike (pullFilter_alike (pullFilter_alike hp fun p q h => timePredicate_alike h.1 h.2)
    fun p q h => by rw [longEnough, longEnough, timeDelta_alike h]) count_alike

theorem lifecycles_same (ha : Fits a) (hb : Fits b) (hx : Messages a xs) (hy : Messages b ys)
    (h : Pointwise (SameFor .histogramLifecycles) xs ys) : lifecycleHistogram a = lifecycleHistogram b := by
  have h' : Pointwise (fun e e' => timeOf e = timeOf e' ∧ ecuOf e = ecuOf e') (timed xs) (timed ys) :=
    timed_alike h (fun _ _ h => h.1) fun _ _ h h' => h.2 h'
  by_cases hc : TimesComplete xs
  · have hcy : TimesComplete ys := by
      intro e he
      obtain ⟨e', h1, h2⟩ := h'.mem_right e he
      rw [← h2.1]; exact hc e' h1
    have h2 : Pointwise (fun e e' => timeOf e = timeOf e' ∧ ecuOf e = ecuOf e' ∧ e.dlt.ecuId ≠ .panic ∧
        e'.dlt.ecuId ≠ .panic) (timed xs) (timed ys) := by
      have key : ∀ e, (timeOf e).isSome → e.dlt.ecuId ≠ .panic := fun e he hp =>
        stamp_none.1 (ecu_panic_incomplete hp) he
      have h3 : ∀ e ∈ timed xs, (timeOf e).isSome := hc
      have h4 : ∀ e ∈ timed ys, (timeOf e).isSome := hcy
      generalize timed xs = l at h' h3
      generalize timed ys = l' at h' h4
      induction h' with
      | nil => exact .nil
      | cons h5 _ ih =>
        exact .cons ⟨h5.1, h5.2, key _ (h3 _ List.mem_cons_self), key _ (h4 _ List.mem_cons_self)⟩
          (ih (fun e he => h3 e (List.mem_cons_of_mem _ he)) fun e he => h4 e (List.mem_cons_of_mem _ he))
    refine pullReduce_alike (pullMap_alike (Q := fun m n : UInt32 => m = n)
      (pullGroupBy_alike (pull_timed_alike ha hb hx hy h2) fun x x' y y' h1 h2 => ?_)
      fun p q h => resRel_eq (timeDelta_alike ⟨h.1.1, h.2.1⟩)) (split_alike (fun _ _ h => by rw [h]) fun _ => genCount_alike)
    rw [lifecyclePredicate_ok h1.2.2.1 h2.2.2.1, lifecyclePredicate_ok h1.2.2.2 h2.2.2.2]
    unfold lifecycleF
    rw [stamp_eq_of h1.1, stamp_eq_of h2.1, (ecuVal_eq_iff x x').2 h1.2.1, (ecuVal_eq_iff y y').2 h2.2.1]
  · have hcy : ¬ TimesComplete ys := by
      intro hcy
      refine hc fun e he => ?_
      obtain ⟨e', h1, h2⟩ := h'.mem_left e he
      rw [h2.1]; exact hcy e' h1
    rw [(C48_lifecycle_histogram_partial a ha xs hx).1.2 hc, (C48_lifecycle_histogram_partial b hb ys hy).1.2 hcy]

theorem split_lifecycles_same (ha : Fits a) (hb : Fits b) (hx : Messages a xs) (hy : Messages b ys)
    (h : Pointwise (SameFor .splitLifecycles) xs ys) : lifecycleSplit a = lifecycleSplit b := by
  have h' : Pointwise (fun e e' => timeOf e = timeOf e' ∧ e.storageHeader.ecu = e'.storageHeader.ecu) (timed xs) (timed ys) :=
    timed_alike h (fun _ _ h => h.1) fun _ _ h h' => h.2 h'
  refine pullReduce_alike (pull_timed_alike ha hb hx hy h') (split_alike (fun _ _ h => by rw [h.2]) fun k => ?_)
  refine behind_alike (c := .nil) (c' := .nil) ChainAlike.nil (fork_alike ?_ genCount_alike)
  refine behind_alike (c := lifeChain) (c' := lifeChain) (Q := fun m n : UInt32 => m = n)
    (ChainAlike.map (Q := PairRel fun e e' : StorageEntry => timeOf e = timeOf e' ∧
      e.storageHeader.ecu = e'.storageHeader.ecu) ?_ fun p q h => resRel_eq (by rw [timeDelta_alike ⟨h.1.1, h.2.1⟩]))
    (split_alike (fun _ _ h => by rw [h]) fun _ => genCount_alike)
  exact ChainAlike.groupby .nil fun _ _ _ _ h1 h2 => timePredicate_alike h1.1 h2.1

theorem message_type_same (ha : Fits a) (hb : Fits b) (hx : Messages a xs) (hy : Messages b ys)
    (h : Pointwise (SameFor .histogramMessageType) xs ys) : mstpInfoHistogram a = mstpInfoHistogram b := by
  have h1 : ∀ (bs : Bytes) (ms : List StorageEntry), Fits bs → Messages bs ms → Streams
      (pullFilter (fun e => .ok e.dlt.header.headerType.isExtendedHeader) (dltPull bs)) 0
      (.ok (ms.filter fun e => flag e.dlt 0)) := by
    intro bs ms hF hm
    exact streams_filter_on (streams_dlt hF hm) (F := fun e => .ok e.dlt.header.headerType.isExtendedHeader)
      (f := fun e => flag e.dlt 0) fun e _ => by rw [flag_ext]
  have h2 : Pointwise (fun e e' : StorageEntry => infoKey e = infoKey e') (xs.filter fun e => flag e.dlt 0)
      (ys.filter fun e => flag e.dlt 0) := by
    clear hx hy
    induction h with
    | nil => exact .nil
    | @cons x y xs ys h3 _ ih =>
      obtain ⟨h4, h5⟩ := h3
      cases hf : flag x.dlt 0 with
      | false =>
        rw [List.filter_cons_of_neg (by rw [hf]; simp), List.filter_cons_of_neg (by rw [← h4, hf]; simp)]
        exact ih
      | true =>
        rw [List.filter_cons_of_pos (p := fun e : StorageEntry => flag e.dlt 0) hf,
          List.filter_cons_of_pos (p := fun e : StorageEntry => flag e.dlt 0) (h4 ▸ hf)]
        refine .cons ?_ ih
        have h6 := h5 hf
        unfold infoOf at h6
        by_cases hl : optLen x.dlt + 10 ≤ x.dlt.tail.length
        · rw [if_pos hl] at h6
          by_cases hl' : optLen y.dlt + 10 ≤ y.dlt.tail.length
          · rw [if_pos hl'] at h6
            rw [infoKey_ok hf hl, infoKey_ok (h4 ▸ hf) hl']
            injection h6 with h6
            rw [h6]
          · rw [if_neg hl'] at h6; cases h6
        · rw [if_neg hl] at h6
          by_cases hl' : optLen y.dlt + 10 ≤ y.dlt.tail.length
          · rw [if_pos hl'] at h6; cases h6
          · rw [infoKey_panic (by omega), infoKey_panic (by omega)]
  exact pullReduce_alike ⟨_, _, h1 a xs ha hx, h1 b ys hb hy, h2⟩ (split_alike (fun _ _ h => h) fun _ => genCount_alike)

theorem payload_size_same (ha : Fits a) (hb : Fits b) (hx : Messages a xs) (hy : Messages b ys)
    (h : Pointwise (SameFor .histogramPayloadSize) xs ys) : histogramPayload a = histogramPayload b := by
  refine pullReduce_alike (pullMap_alike (Q := fun m n : Nat => m = n) (pull_alike ha hb hx hy h)
    fun e e' h => resRel_eq ?_) (split_alike (fun _ _ h => by rw [h]) fun _ => genCount_alike)
  obtain ⟨h1, h2⟩ := h
  rw [payload_payloadOf, payload_payloadOf]
  by_cases hp : flag e.dlt 0 = true ∧ e.dlt.tail.length < optLen e.dlt
  · rw [if_pos hp, if_pos (h1.1 hp)]
  · rw [if_neg hp, if_neg fun h => hp (h1.2 h)]
    show Res.ok _ = Res.ok _
    rw [h2]

theorem hello_same (ha : Fits a) (hb : Fits b) (hx : Messages a xs) (hy : Messages b ys)
    (h : Pointwise (SameFor .countHelloWorld) xs ys) : countHelloWorld a = countHelloWorld b := by
  refine pullReduce_alike (pullFilter_alike (pull_alike ha hb hx hy h) fun e e' h => ?_) count_alike
  obtain ⟨h1, h2⟩ := h
  cases hp : payloadOf e with
  | none => rw [helloPredicate_panic hp, helloPredicate_panic (h1.1 hp)]
  | some p =>
    cases hq : payloadOf e' with
    | none => rw [h1.2 hq] at hp; cases hp
    | some q =>
      rw [helloPredicate_ok hp, helloPredicate_ok hq]
      congr 1
      rw [Bool.eq_iff_iff, findIter_isSome, findIter_isSome]
      unfold hasText at h2
      rw [hp, hq] at h2
      simpa using h2

end

/-- **C93** what a command reports and prints depends on the messages of the file only, and on them only as far as
`SameFor` says: two files whose messages are pairwise the same for the command give the same report or panic, and the
same output. -/
theorem C93_footprint (c : Cmd) (hc : perMessage c = true) (a b : Bytes) (ha : Fits a) (hb : Fits b)
    (xs ys : List StorageEntry) (hx : Messages a xs) (hy : Messages b ys) (h : Pointwise (SameFor c) xs ys) (num : Nat) :
    (∀ r, RunCmd num a c r ↔ RunCmd num b c r) ∧ ∀ out, CmdText num a c out ↔ CmdText num b c out := by
  cases c
  case count => simp only [RunCmd, CmdText, count_same ha hb hx hy h, implies_true, and_self]
  case histogramMessageSize => simp only [RunCmd, CmdText, message_size_same ha hb hx hy h, implies_true, and_self]
  case histogramTimestamp => simp only [RunCmd, CmdText, timestamp_same ha hb hx hy h, implies_true, and_self]
  case splitTimestamp => simp only [RunCmd, CmdText, split_timestamp_same ha hb hx hy h, implies_true, and_self]
  case iter => simp only [RunCmd, CmdText, iter_same ha hb hx hy h, implies_true, and_self]
  case itertools => simp only [RunCmd, CmdText, itertools_same ha hb hx hy h, implies_true, and_self]
  case histogramLifecycles => simp only [RunCmd, CmdText, lifecycles_same ha hb hx hy h, implies_true, and_self]
  case splitLifecycles => simp only [RunCmd, CmdText, split_lifecycles_same ha hb hx hy h, implies_true, and_self]
  case histogramMessageType => simp only [RunCmd, CmdText, message_type_same ha hb hx hy h, implies_true, and_self]
  case histogramPayloadSize => simp only [RunCmd, CmdText, payload_size_same ha hb hx hy h, implies_true, and_self]
  case countHelloWorld => simp only [RunCmd, CmdText, hello_same ha hb hx hy h, implies_true, and_self]
  all_goals cases hc

theorem pointwise_refl {α : Type} {R : α → α → Prop} (hr : ∀ x, R x x) (xs : List α) : Pointwise R xs xs := by
  induction xs with
  | nil => exact .nil
  | cons x xs ih => exact .cons (hr x) ih

theorem sameFor_refl {c : Cmd} (hc : perMessage c = true) (e : StorageEntry) : SameFor c e e := by
  cases c <;> first | exact trivial | exact rfl | exact ⟨rfl, rfl⟩ | exact ⟨rfl, fun _ => ⟨rfl, rfl⟩⟩ |
    exact ⟨rfl, fun _ => rfl⟩ | exact ⟨Iff.rfl, rfl⟩ | exact ⟨Iff.rfl, Iff.rfl⟩ | cases hc

/-- **C93** in particular, what lies between and behind the messages does not matter. -/
theorem C93_only_messages (c : Cmd) (hc : perMessage c = true) (a b : Bytes) (ha : Fits a) (hb : Fits b)
    (msgs : List StorageEntry) (hx : Messages a msgs) (hy : Messages b msgs) (num : Nat) :
    (∀ r, RunCmd num a c r ↔ RunCmd num b c r) ∧ ∀ out, CmdText num a c out ↔ CmdText num b c out :=
  C93_footprint c hc a b ha hb msgs msgs hx hy (pointwise_refl (sameFor_refl hc) msgs) num

/-! ## C94 -/

theorem agree_take {a b : Bytes} {s n : Nat} (h : ∀ p, s ≤ p → p < s + n → a[p]? = b[p]?) :
    (a.drop s).take n = (b.drop s).take n := by
  apply List.ext_getElem?
  intro k
  rw [List.getElem?_take, List.getElem?_take, List.getElem?_drop, List.getElem?_drop]
  split
  · next hk => exact h _ (by omega) (by omega)
  · rfl

theorem agree_drop {a b : Bytes} {s : Nat} (h : ∀ p, s ≤ p → a[p]? = b[p]?) : a.drop s = b.drop s := by
  apply List.ext_getElem?
  intro k
  rw [List.getElem?_drop, List.getElem?_drop]
  exact h _ (by omega)

theorem markerAt_take {bytes : Bytes} {j : Nat} : MarkerAt dltStorage bytes j ↔ (bytes.drop j).take 4 = dltMarker := by
  unfold MarkerAt
  rw [dltStorage_marker, List.prefix_iff_eq_take, dltMarker_length]
  exact eq_comm

theorem markerAt_agree {a b : Bytes} {j : Nat} (h : ∀ p, j ≤ p → p < j + 4 → a[p]? = b[p]?) :
    MarkerAt dltStorage a j ↔ MarkerAt dltStorage b j := by
  rw [markerAt_take, markerAt_take, agree_take h]

/-- The message with another tail. -/
def withTail (e : StorageEntry) (t : Bytes) : StorageEntry := { e with dlt := { e.dlt with tail := t } }

theorem encode_eq_head (e : StorageEntry) : encode e = (encode e).take 20 ++ e.dlt.tail := by
  conv => lhs; rw [← List.take_append_drop 20 (encode e)]
  congr 1

theorem encode_head_withTail (e : StorageEntry) (t : Bytes) : (encode (withTail e t)).take 20 = (encode e).take 20 := rfl

/-- One message, with other bytes in its payload. -/
theorem msgAt_agree {a b : Bytes} {i : Nat} {e : StorageEntry} (hl : a.length = b.length) (h : MsgAt a i e)
    (hp : ∀ p, i ≤ p → p < i + 20 + preLen e → a[p]? = b[p]?) :
    ∃ e', MsgAt b i e' ∧ SameButPayload e e' := by
  obtain ⟨hwf, hle, hpre⟩ := msgAt_iff_drop.1 h
  have hlen := hpre.length_le
  rw [encode_length, List.length_drop] at hlen
  obtain ⟨t, ht⟩ : ∃ t, t = (b.drop (i + 20)).take e.dlt.tail.length := ⟨_, rfl⟩
  have htl : t.length = e.dlt.tail.length := by
    rw [ht, List.length_take, List.length_drop]; omega
  have h20 : (a.drop i).take 20 = (encode e).take 20 := by
    obtain ⟨post, hpost⟩ := hpre
    rw [← hpost, List.take_append_of_le_length (by rw [encode_length]; omega)]
  have h20b : (b.drop i).take 20 = (encode e).take 20 := by
    rw [← h20, agree_take fun p h1 h2 => hp p h1 (by omega)]
  have hta : e.dlt.tail = (a.drop (i + 20)).take e.dlt.tail.length := by
    obtain ⟨post, hpost⟩ := hpre
    rw [← List.drop_drop, ← hpost, List.drop_append_of_le_length (by rw [encode_length]; omega)]
    have : (encode e).drop 20 = e.dlt.tail := rfl
    rw [this, List.take_left]
  refine ⟨withTail e t, msgAt_iff_drop.2 ⟨⟨hwf.1, ?_⟩, by omega, b.drop (i + 20 + e.dlt.tail.length), ?_⟩, rfl, rfl,
    htl.symm, ?_⟩
  · show e.dlt.header.length.toNat = 4 + t.length
    rw [htl]; exact hwf.2
  · rw [encode_eq_head, encode_head_withTail, ← h20b]
    show (b.drop i).take 20 ++ t ++ _ = _
    rw [List.append_assoc, ht]
    have : b.drop (i + 20 + e.dlt.tail.length) = (b.drop (i + 20)).drop e.dlt.tail.length := by rw [List.drop_drop]
    rw [this, List.take_append_drop, ← List.drop_drop, List.take_append_drop]
  · show e.dlt.tail.take (preLen e) = t.take (preLen e)
    conv => lhs; rw [hta]
    rw [ht, List.take_take, List.take_take]
    exact agree_take fun p h1 h2 => hp p (by omega) (by omega)

theorem sameButPayload_len {e e' : StorageEntry} (h : SameButPayload e e') : dltStorage.len e = dltStorage.len e' := by
  rw [dltStorage_len, dltStorage_len]
  unfold StorageEntry.len
  rw [h.2.1]

theorem scan_agree {a b : Bytes} {s : Nat} {items : List (Nat × StorageEntry)} (hl : a.length = b.length)
    (h : Scan dltStorage a s items) (hp : ∀ p, s ≤ p → ¬ InPayload items p → a[p]? = b[p]?) :
    ∃ items', Scan dltStorage b s items' ∧ Pointwise (fun x y => x.1 = y.1 ∧ SameButPayload x.2 y.2) items items' := by
  induction h with
  | done s hno =>
    refine ⟨[], .done _ fun j hj hm => hno j hj ?_, .nil⟩
    exact (markerAt_agree fun p h1 _ => hp p (by omega) (by rintro ⟨x, hx, _⟩; cases hx)).2 hm
  | bad s i hf hno =>
    have hag : ∀ j, s ≤ j → a.drop j = b.drop j := fun j hj =>
      agree_drop fun p h1 => hp p (by omega) (by rintro ⟨x, hx, _⟩; cases hx)
    refine ⟨[], .bad _ i ⟨hf.1, ?_, fun j h1 h2 hm => hf.2.2 j h1 h2 ?_⟩ fun v hv => hno v ?_, .nil⟩
    · have := hf.2.1; unfold MarkerAt at *; rw [← hag i hf.1]; exact this
    · unfold MarkerAt at *; rw [hag j h1]; exact hm
    · unfold ReadableAt at *; rw [hag i hf.1]; exact hv
  | msg s i v rest hf hr hrest ih =>
    have hb := hr.bounds dlt_lawful
    have hmsg := readableAt_iff_msgAt.1 hr
    have henc := encode_len v hmsg.1
    have hel := encode_length v
    rw [dltStorage_len] at hb
    have hnear : ∀ p, s ≤ p → p < i + 20 + preLen v → p < i + v.len → a[p]? = b[p]? := by
      intro p h1 h2 h3
      refine hp p h1 ?_
      rintro ⟨x, hx, h4, h5⟩
      rcases List.mem_cons.1 hx with rfl | hx
      · simp only at h4; omega
      · have := hrest.disjoint.2 x hx
        rw [dltStorage_len] at this
        omega
    have hgap : ∀ p, s ≤ p → p < i + 20 → a[p]? = b[p]? := fun p h1 h2 => hnear p h1 (by omega) (by omega)
    have hafter : ∀ p, i + v.len ≤ p → ¬ InPayload rest p → a[p]? = b[p]? := by
      intro p h1 h2
      refine hp p (by have := hf.1; omega) ?_
      rintro ⟨x, hx, h4, h5⟩
      rcases List.mem_cons.1 hx with rfl | hx
      · simp only at h5; omega
      · exact h2 ⟨x, hx, h4, h5⟩
    obtain ⟨items', h1, h2⟩ := ih (by rw [dltStorage_len]; exact hafter)
    have hmsg' : ∃ e', MsgAt b i e' ∧ SameButPayload v e' := by
      by_cases hpre : preLen v ≤ v.dlt.tail.length
      · exact msgAt_agree hl hmsg fun p h3 h4 => hnear p (by have := hf.1; omega) h4 (by omega)
      · -- the message ends before its payload starts: all its bytes are kept
        have hk : (a.drop i).take (encode v).length = (b.drop i).take (encode v).length :=
          agree_take fun p h3 h4 => hnear p (by have := hf.1; omega) (by omega) (by omega)
        refine ⟨v, msgAt_iff_drop.2 ⟨hmsg.1, by omega, ?_⟩, rfl, rfl, rfl, rfl⟩
        have := (msgAt_iff_drop.1 hmsg).2.2
        rw [List.prefix_iff_eq_take] at this ⊢
        rw [← hk]; exact this
    obtain ⟨e', h3, h4⟩ := hmsg'
    refine ⟨(i, e') :: items', .msg _ i e' _ ⟨hf.1, ?_, fun j h5 h6 hm => hf.2.2 j h5 h6 ?_⟩
      (readableAt_iff_msgAt.2 h3) (by rw [← sameButPayload_len h4]; exact h1), .cons ⟨rfl, h4⟩ h2⟩
    · exact (markerAt_agree fun p h5 h6 => hgap p (by have := hf.1; omega) (by omega)).1 hf.2.1
    · exact (markerAt_agree fun p h7 h8 => hgap p (by omega) (by omega)).2 hm

/-- **C94** payloads are opaque to the reader: change any bytes that belong to payloads of messages the reader yields (and
no others), to anything at all, start markers and whole messages included, and it yields the same messages at the same
offsets with other payloads of the same length. -/
theorem C94_reader (a b : Bytes) (ha : Fits a) (hl : a.length = b.length) (items : List (Nat × StorageEntry))
    (h : Collects (dltitOffsetNext a) 0 items) (hp : ∀ p, ¬ InPayload items p → a[p]? = b[p]?) :
    ∃ items', Collects (dltitOffsetNext b) 0 items' ∧
      Pointwise (fun x y => x.1 = y.1 ∧ SameButPayload x.2 y.2) items items' := by
  obtain ⟨items', h1, h2⟩ := scan_agree hl (dltit_scan ha h) fun p _ => hp p
  exact ⟨items', scan_dltit (by unfold Fits at *; omega) h1, h2⟩

/-- The accessors in front of the payload do not see it. -/
theorem sameButPayload_flag {e e' : StorageEntry} (h : SameButPayload e e') (k : Nat) : flag e.dlt k = flag e'.dlt k := by
  unfold flag; rw [h.2.1]

theorem sameButPayload_optLen {e e' : StorageEntry} (h : SameButPayload e e') : optLen e.dlt = optLen e'.dlt := by
  unfold optLen; rw [sameButPayload_flag h, sameButPayload_flag h, sameButPayload_flag h]

theorem sameButPayload_preLen {e e' : StorageEntry} (h : SameButPayload e e') : preLen e = preLen e' := by
  unfold preLen; rw [sameButPayload_flag h, sameButPayload_optLen h]

theorem sameButPayload_getElem {e e' : StorageEntry} (h : SameButPayload e e') {k : Nat} (hk : k < preLen e) :
    e.dlt.tail[k]? = e'.dlt.tail[k]? := by
  have := congrArg (fun l : Bytes => l[k]?) h.2.2.2
  simp only [List.getElem?_take, if_pos hk] at this
  exact this

/-- A number of four bytes in front of the payload. -/
theorem four_eq {x y : Bytes} (hl : x.length = y.length) (h : ∀ k, k < 4 → x[k]? = y[k]?) :
    (match x with | a :: b :: c :: d :: _ => some (beVal a b c d) | _ => none) =
    (match y with | a :: b :: c :: d :: _ => some (beVal a b c d) | _ => none) := by
  have h0 := h 0 (by omega)
  have h1 := h 1 (by omega)
  have h2 := h 2 (by omega)
  have h3 := h 3 (by omega)
  match x, y, hl with
  | [], [], _ => rfl
  | [_], [_], _ => rfl
  | [_, _], [_, _], _ => rfl
  | [_, _, _], [_, _, _], _ => rfl
  | a :: b :: c :: d :: _, a' :: b' :: c' :: d' :: _, _ =>
    simp at h0 h1 h2 h3
    subst h0; subst h1; subst h2; subst h3
    rfl

theorem sameButPayload_time {e e' : StorageEntry} (h : SameButPayload e e') : timeOf e = timeOf e' := by
  unfold timeOf
  rw [← sameButPayload_flag h, ← sameButPayload_flag h, ← sameButPayload_flag h]
  by_cases hf : flag e.dlt 4 = true
  · rw [if_pos hf, if_pos hf]
    refine four_eq (by rw [List.length_drop, List.length_drop, h.2.2.1]) fun k hk => ?_
    rw [List.getElem?_drop, List.getElem?_drop]
    refine sameButPayload_getElem h ?_
    unfold preLen optLen
    rw [hf]
    have : Spec.four true = 4 := rfl
    omega
  · rw [if_neg hf, if_neg hf]

theorem sameButPayload_ecu {e e' : StorageEntry} (h : SameButPayload e e') : ecuOf e = ecuOf e' := by
  unfold ecuOf
  rw [← sameButPayload_flag h]
  by_cases hf : flag e.dlt 2 = true
  · rw [if_pos hf, if_pos hf]
    refine four_eq h.2.2.1 fun k hk => sameButPayload_getElem h ?_
    unfold preLen optLen
    rw [hf]
    have : Spec.four true = 4 := rfl
    omega
  · rw [if_neg hf, if_neg hf]

theorem sameButPayload_sameFor {c : Cmd} (hc : blindToPayload c = true) {e e' : StorageEntry} (h : SameButPayload e e') :
    SameFor c e e' := by
  have hs : secsOf e = secsOf e' := by unfold secsOf; rw [h.1]
  have hecu : e.storageHeader.ecu = e'.storageHeader.ecu := by rw [h.1]
  have hf := sameButPayload_flag h
  cases c
  case count => trivial
  case histogramMessageSize => show (encode e).length = _; rw [encode_length, encode_length, h.2.2.1]
  case histogramTimestamp => exact hs
  case splitTimestamp => exact ⟨hs, hecu⟩
  case iter => exact ⟨hf 4, sameButPayload_time h⟩
  case itertools => exact ⟨hf 4, sameButPayload_time h⟩
  case histogramLifecycles => exact ⟨hf 4, fun _ => ⟨sameButPayload_time h, sameButPayload_ecu h⟩⟩
  case splitLifecycles => exact ⟨hf 4, fun _ => ⟨sameButPayload_time h, hecu⟩⟩
  case histogramMessageType =>
    refine ⟨hf 0, fun h0 => ?_⟩
    unfold infoOf infoByte
    rw [sameButPayload_optLen h, h.2.2.1, List.getD_eq_getElem?_getD, List.getD_eq_getElem?_getD,
      sameButPayload_getElem h]
    unfold preLen
    rw [if_pos h0, sameButPayload_optLen h]
    omega
  case histogramPayloadSize =>
    refine ⟨by rw [hf 0, h.2.2.1, sameButPayload_optLen h], ?_⟩
    unfold payloadOf
    rw [sameButPayload_preLen h, h.2.2.1]
    split
    · simp only [Option.getD_some, List.length_drop, h.2.2.1]
    · rfl
  all_goals cases hc

/-- **C94** so the ten commands that do not search payloads give the same report or panic, and the same output. -/
theorem C94_commands (c : Cmd) (hc : blindToPayload c = true) (a b : Bytes) (ha : Fits a) (hl : a.length = b.length)
    (items : List (Nat × StorageEntry)) (h : Collects (dltitOffsetNext a) 0 items)
    (hp : ∀ p, ¬ InPayload items p → a[p]? = b[p]?) (num : Nat) :
    (∀ r, RunCmd num a c r ↔ RunCmd num b c r) ∧ ∀ out, CmdText num a c out ↔ CmdText num b c out := by
  have hb : Fits b := by unfold Fits at *; omega
  obtain ⟨items', h1, h2⟩ := C94_reader a b ha hl items h hp
  refine C93_footprint c ?_ a b ha hb _ _ ⟨items, dltit_scan ha h, rfl⟩ ⟨items', dltit_scan hb h1, rfl⟩
    (h2.map fun x y h => sameButPayload_sameFor hc h.2) num
  cases c <;> first | rfl | cases hc

/-- A message of 40 bytes whose payload is zeros. -/
def opaqueZeros : StorageEntry := ⟨⟨⟨68, 76, 84, 1⟩, 9, 0, ⟨69, 67, 85, 49⟩⟩, ⟨⟨⟨0x20⟩, 0, 24⟩, List.replicate 20 0⟩⟩
/-- The message of 20 bytes without payload. -/
def bare : StorageEntry := ⟨⟨⟨68, 76, 84, 1⟩, 7, 0, ⟨69, 67, 85, 50⟩⟩, ⟨⟨⟨0x20⟩, 0, 4⟩, []⟩⟩
/-- The message of 40 bytes whose payload is that message. -/
def opaqueNested : StorageEntry := ⟨⟨⟨68, 76, 84, 1⟩, 9, 0, ⟨69, 67, 85, 49⟩⟩, ⟨⟨⟨0x20⟩, 0, 24⟩, encode bare⟩⟩

theorem opaque_items : Collects (dltitOffsetNext (encode opaqueZeros ++ encode bare)) 0 [(0, opaqueZeros), (40, bare)] :=
  ⟨5, by decide +kernel⟩

theorem opaque_agree (p : Nat) (h : ¬ InPayload [(0, opaqueZeros), (40, bare)] p) :
    (encode opaqueZeros ++ encode bare)[p]? = (encode opaqueNested ++ encode bare)[p]? := by
  by_cases h1 : p < 20
  · revert h1; clear h; revert p; decide
  · by_cases h2 : p < 40
    · exact absurd ⟨(0, opaqueZeros), List.mem_cons_self, (by show 0 + 20 + 0 ≤ p; omega), (by show p < 0 + 40; omega)⟩ h
    · have h3 : (encode opaqueZeros).length ≤ p := by show 40 ≤ p; omega
      have h4 : (encode opaqueNested).length ≤ p := by show 40 ≤ p; omega
      rw [List.getElem?_append_right h3, List.getElem?_append_right h4]
      rfl

/-- **C94** at work: a whole message in a payload is not counted. -/
example (num : Nat) (r : Res Report) :
    RunCmd num (encode opaqueZeros ++ encode bare) .count r ↔ RunCmd num (encode opaqueNested ++ encode bare) .count r :=
  (C94_commands .count rfl _ _ (by decide) (by decide) _ opaque_items opaque_agree num).1 r

/-- **C93** at work: two files with messages of other contents and other bytes in between, the same for `count`. -/
example (num : Nat) (r : Res Report) :
    RunCmd num (encode opaqueZeros ++ encode bare) .count r ↔ RunCmd num (1 :: encode bare ++ [2] ++ encode bare) .count r :=
  (C93_footprint .count rfl _ _ (by decide) (by decide) _ [bare, bare] ⟨_, dltit_scan (by decide) opaque_items, rfl⟩
    ⟨[(1, bare), (22, bare)], dltit_scan (by decide) (⟨5, by decide +kernel⟩), rfl⟩
    (.cons trivial (.cons trivial .nil)) num).1 r

/-! ### The other commands -/

/-- **C93 (not the raw searches)** two files without any message, told apart by `count_hello_world_raw`. -/
theorem C93_raw_search_sees_more : ∃ a b : Bytes, Messages a [] ∧ Messages b [] ∧
    ∀ num, (∀ r, RunCmd num a .countHelloWorldRaw r ↔ r = .ok (.number 1)) ∧
      (∀ r, RunCmd num b .countHelloWorldRaw r ↔ r = .ok (.number 0)) := by
  refine ⟨helloWorld, [], ⟨[], ?_, rfl⟩, ⟨[], ?_, rfl⟩, fun num => ⟨fun r => ?_, fun r => ?_⟩⟩
  · exact dltit_scan (by decide) (⟨5, by decide +kernel⟩)
  · exact dltit_scan (by decide) (⟨5, by decide +kernel⟩)
  · have h : countHelloWorldRaw helloWorld = some (.ok 1) := by rw [(C49_raw _ (by decide)).1]; decide +kernel
    show printed _ _ = some r ↔ _
    rw [h]
    constructor
    · intro h; injection h with h; exact h.symm
    · rintro rfl; rfl
  · have h : countHelloWorldRaw [] = some (.ok 0) := by rw [(C49_raw _ (by decide)).1]; decide +kernel
    show printed _ _ = some r ↔ _
    rw [h]
    constructor
    · intro h; injection h with h; exact h.symm
    · rintro rfl; rfl

/-- The straddling file with zeros in the payload of its only message. -/
def unstraddled : Bytes :=
  [68, 76, 84, 1, 0, 0, 0, 0, 0, 0, 0, 0, 0, 0, 0, 0, 0x20, 0, 0, 6, 0, 0] ++
  ([84, 1, 0, 0, 0, 0, 0, 0, 0, 0, 0, 0, 0, 0, 0x20, 0, 0, 40] ++ List.replicate 36 0)

/-- Its only message. -/
def unstraddledOuter : StorageEntry := ⟨⟨⟨68, 76, 84, 1⟩, 0, 0, ⟨0, 0, 0, 0⟩⟩, ⟨⟨⟨0x20⟩, 0, 6⟩, [0, 0]⟩⟩

theorem unstraddled_markers (j : Nat) (hm : dltMarker <+: unstraddled.drop j) : j = 0 := by
  have h1 := hm.length_le
  rw [List.length_drop] at h1
  have hl : unstraddled.length = 76 := rfl
  have h4 : dltMarker.length = 4 := rfl
  have key : ∀ j, j < 73 → dltMarker <+: unstraddled.drop j → j = 0 := by decide
  exact key j (by omega) hm

theorem unstraddled_msg : MsgAt unstraddled 0 unstraddledOuter := ⟨by decide, [], unstraddled.drop 22, by decide, rfl⟩

theorem unstraddled_msgs {d : Nat} {w : StorageEntry} (h : MsgAt unstraddled d w) : d = 0 ∧ w = unstraddledOuter := by
  have hr := readableAt_iff_msgAt.2 h
  have := unstraddled_markers d (hr.marker dlt_lawful)
  subst this
  exact ⟨rfl, hr.unique dlt_lawful (readableAt_iff_msgAt.2 unstraddled_msg)⟩

theorem unstraddled_free : IsFree unstraddled (fun c => c = 0) := by
  intro c
  constructor
  · rintro rfl
    exact ⟨⟨unstraddledOuter, unstraddled_msg⟩, fun d w _ _ h => by omega⟩
  · rintro ⟨⟨e, he⟩, _⟩
    exact (unstraddled_msgs he).1

theorem unstraddled_cut {p : Nat} (h1 : 22 ≤ p) : CutAt unstraddled (fun c => c = 0) p p := by
  refine .inr ⟨fun _ x h => ?_, rfl⟩
  obtain ⟨d, w⟩ := x
  obtain ⟨_, hw, _, _, h5⟩ := h
  obtain ⟨rfl, rfl⟩ := unstraddled_msgs hw
  have h5 : p + 1 ≤ 0 + 22 := h5
  omega

/-- **C94 (not the commands on slices)** two files that differ in the payload of their only message: `count` counts one
message in both, `par_count` with two threads counts it only in one of them. -/
theorem C94_par_count_sees_payloads :
    Collects (dltitOffsetNext unstraddled) 0 [(0, unstraddledOuter)] ∧
    Collects (dltitOffsetNext straddle) 0 [(0, straddleOuter)] ∧ SameButPayload unstraddledOuter straddleOuter ∧
    (∀ p, ¬ InPayload [(0, unstraddledOuter)] p → unstraddled[p]? = straddle[p]?) ∧
    (∀ r, RunCmd 2 unstraddled .parCount r ↔ r = .ok (.number 1)) ∧
    (∀ r, RunCmd 2 straddle .parCount r ↔ r = .ok (.number 0)) := by
  refine ⟨⟨3, by decide +kernel⟩, ⟨3, by decide +kernel⟩, by unfold SameButPayload; decide, fun p hp => ?_, fun r => ?_, fun r => ?_⟩
  · by_cases h1 : p < 20
    · clear hp; revert p; decide
    · by_cases h2 : p < 22
      · exact absurd ⟨(0, unstraddledOuter), List.mem_cons_self, (by show 0 + 20 + 0 ≤ p; omega), (by show p < 0 + 22; omega)⟩ hp
      · have h3 : 22 ≤ p := by omega
        have h4 : p = 22 + (p - 22) := by omega
        rw [h4, ← List.getElem?_drop, ← List.getElem?_drop]
        rfl
  · obtain ⟨slices, mss, h1, h2, h3⟩ := C34_par_count_never_panics unstraddled 2 (by decide) (by decide)
    have h4 : partitionRanges dltStorage unstraddled 2 = .ok [(0, 38), (38, 76)] :=
      (C80_partition_exact unstraddled (by decide) _ unstraddled_free 2 (by decide) _).2
        (.cut (by decide) (unstraddled_cut (by decide)) (by decide) (by decide)
          (.last (by decide) (unstraddled_cut (by decide)) (by decide) (by decide)))
    unfold partitionFrom at h1
    rw [h4] at h1
    injection h1 with h1
    subst h1
    match mss, h2 with
    | [x, y], ⟨hx, hy, _⟩ =>
      have hx' := messages_unique hx ⟨[(0, unstraddledOuter)], dltit_scan (by decide) ⟨3, by decide +kernel⟩, rfl⟩
      have hy' := messages_unique hy ⟨[], dltit_scan (by decide) ⟨3, by decide +kernel⟩, rfl⟩
      subst hx'; subst hy'
      constructor
      · rintro ⟨q, hq, rfl⟩
        rw [(h3 q).1 hq]; rfl
      · rintro rfl
        exact ⟨_, (h3 _).2 rfl, rfl⟩
  · obtain ⟨slices, mss, h1, h2, h3⟩ := C34_par_count_never_panics straddle 2 (by decide) (by decide)
    have h4 : partitionRanges dltStorage straddle 2 = .ok [(0, 20)] :=
      (C80_partition_exact straddle (by decide) _ straddle_free 2 (by decide) _).2
        (.cut (by decide) (straddle_cut (by decide) (by decide)) (by decide) (by decide)
          (.stuck (by decide) (straddle_cut (by decide) (by decide)) (by decide)))
    unfold partitionFrom at h1
    rw [h4] at h1
    injection h1 with h1
    subst h1
    match mss, h2 with
    | [x], ⟨hx, _⟩ =>
      have hx' := messages_unique hx ⟨[], dltit_scan (by decide) ⟨3, by decide +kernel⟩, rfl⟩
      subst hx'
      constructor
      · rintro ⟨q, hq, rfl⟩
        rw [(h3 q).1 hq]; rfl
      · rintro rfl
        exact ⟨_, (h3 _).2 rfl, rfl⟩

end Verif
