import Verif.Props.Restart
import Verif.Props.HelloExact
import Verif.Props.MergeExact

set_option linter.unusedSimpArgs false

/-!
# C141, C142: the reports are determined; the periods `split_timestamp` shows
-/

namespace Verif

open Spec

/-! ## The specification leaves no freedom -/

/-- Two lists in strict order with the same members are equal. -/
theorem ordered_ext {α : Type} {lt : α → α → Prop} (hasym : ∀ a b, lt a b → lt b a → False) :
    ∀ {xs ys : List α}, xs.Pairwise lt → ys.Pairwise lt → (∀ a, a ∈ xs ↔ a ∈ ys) → xs = ys
  | [], [], _, _, _ => rfl
  | [], y :: ys, _, _, h => absurd ((h y).2 List.mem_cons_self) List.not_mem_nil
  | x :: xs, [], _, _, h => absurd ((h x).1 List.mem_cons_self) List.not_mem_nil
  | x :: xs, y :: ys, hx, hy, h => by
    rw [List.pairwise_cons] at hx hy
    have hxy : x = y := by
      rcases List.mem_cons.1 ((h x).1 List.mem_cons_self) with h1 | h1
      · exact h1
      · rcases List.mem_cons.1 ((h y).2 List.mem_cons_self) with h2 | h2
        · exact h2.symm
        · exact (hasym x y (hx.1 y h2) (hy.1 x h1)).elim
    subst hxy
    have hirr : ∀ a, ¬ lt a a := fun a ha => hasym a a ha ha
    rw [ordered_ext hasym hx.2 hy.2 fun a => ?_]
    constructor
    · intro ha
      rcases List.mem_cons.1 ((h a).1 (List.mem_cons_of_mem _ ha)) with rfl | h1
      · exact (hirr _ (hx.1 _ ha)).elim
      · exact h1
    · intro ha
      rcases List.mem_cons.1 ((h a).2 (List.mem_cons_of_mem _ ha)) with rfl | h1
      · exact (hirr _ (hy.1 _ ha)).elim
      · exact h1

theorem runs_same {R : StorageEntry → StorageEntry → Prop} {xs : List StorageEntry} {r1 r2 : List (List StorageEntry)}
    (h1 : MaximalRuns R xs r1) (h2 : MaximalRuns R xs r2) : r1 = r2 := by
  classical
  rw [runs_eq_runsL (fun a b => decide (R a b)) (fun a b => by simp) h1,
    runs_eq_runsL (fun a b => decide (R a b)) (fun a b => by simp) h2]

theorem starts_inj {S : List (Nat × Nat)} (h : S.Pairwise fun a b => a.1 < b.1) {a b : Nat × Nat} (ha : a ∈ S) (hb : b ∈ S)
    (he : a.1 = b.1) : a = b := by
  induction S with
  | nil => cases ha
  | cons x S ih =>
    rw [List.pairwise_cons] at h
    rcases List.mem_cons.1 ha with rfl | ha' <;> rcases List.mem_cons.1 hb with rfl | hb'
    · rfl
    · have := h.1 b hb'; omega
    · have := h.1 a ha'; omega
    · exact ih h.2 ha' hb'

theorem absorbed_sorted {ys S : List (Nat × Nat)} (h : Absorbed ys S) : S.Pairwise fun a b => a.1 < b.1 := by
  cases h with
  | nil => exact List.Pairwise.nil
  | snoc _ _ h => exact h

/-- How the last span arrived. -/
theorem absorbed_last {l S' : List (Nat × Nat)} (h : Absorbed l S') :
    (l = [] ∧ S' = []) ∨ ∃ ys y S, l = ys ++ [y] ∧ Absorbed ys S ∧ Absorbs S y S' ∧ S'.Pairwise fun a b => a.1 < b.1 := by
  cases h with
  | nil => exact .inl ⟨rfl, rfl⟩
  | snoc h1 h2 h3 => exact .inr ⟨_, _, _, rfl, h1, h2, h3⟩

theorem absorbs_mem {S : List (Nat × Nat)} (hS : S.Pairwise fun a b => a.1 < b.1) {y : Nat × Nat} {A B : List (Nat × Nat)}
    (ha : Absorbs S y A) (hb : Absorbs S y B) (z : Nat × Nat) : z ∈ A ↔ z ∈ B := by
  rcases ha with ⟨a1, a2⟩ | ⟨p, a1, a2, a3, a4⟩ <;> rcases hb with ⟨b1, b2⟩ | ⟨q, b1, b2, b3, b4⟩
  · rw [a2, b2]
  · exact (a1 q b1 b2).elim
  · exact (b1 p a1 a2).elim
  · have : p = q := starts_inj hS a1 b1 (Nat.le_antisymm (a3 q b1 b2) (b3 p a1 a2))
    subst this
    rw [a4, b4]

/-- The spans left are determined by those that arrived. -/
theorem absorbed_unique {ys A B : List (Nat × Nat)} (ha : Absorbed ys A) (hb : Absorbed ys B) : A = B := by
  induction ha generalizing B with
  | nil =>
    rcases absorbed_last hb with ⟨-, rfl⟩ | ⟨ys, y, S, h, -⟩
    · rfl
    · simp at h
  | snoc h1 h2 h3 ih =>
    rcases absorbed_last hb with ⟨h, -⟩ | ⟨ys, y, S, h, g1, g2, g3⟩
    · simp at h
    · obtain ⟨e1, e2⟩ := List.append_inj' h rfl
      subst e1
      cases e2
      rw [ih g1] at h2
      exact ordered_ext (fun a b x y => by omega) h3 g3 (absorbs_mem (absorbed_sorted g1) h2 g2)

theorem ecuSpans_unique {msgs : List StorageEntry} {r1 r2 : List (List StorageEntry)} {s1 s2 : List (Nat × Nat)}
    (h1 : EcuSpans msgs r1 s1) (h2 : EcuSpans msgs r2 s2) : r1 = r2 ∧ s1 = s2 := by
  obtain rfl := runs_same h1.isRuns h2.isRuns
  exact ⟨rfl, absorbed_unique h1.merged h2.merged⟩

theorem map_pinned {α β : Type} (f : α → β) : ∀ {xs ys : List α}, xs.map f = ys.map f →
    (∀ x ∈ xs, ∀ y ∈ ys, f x = f y → x = y) → xs = ys
  | [], [], _, _ => rfl
  | [], _ :: _, h, _ => by simp at h
  | _ :: _, [], h, _ => by simp at h
  | x :: xs, y :: ys, h, hp => by
    simp only [List.map_cons, List.cons.injEq] at h
    rw [hp x List.mem_cons_self y List.mem_cons_self h.1,
      map_pinned f h.2 fun a ha b hb => hp a (List.mem_cons_of_mem _ ha) b (List.mem_cons_of_mem _ hb)]

theorem hist32_unique {keys : List Nat} {a b : OrdMap UInt32 Nat} (ha : IsHistogram keys (a.map fun e => (e.1.toNat, e.2)))
    (hb : IsHistogram keys (b.map fun e => (e.1.toNat, e.2))) : a = b := by
  refine map_pinned _ (isHistogram_unique ha hb) fun x _ y _ h => ?_
  simp only [Prod.mk.injEq] at h
  exact Prod.ext (UInt32.toNat_inj.1 h.1) h.2

theorem ecuTable_unique {keys : List B4} {m m' : List (B4 × (OrdMap UInt32 Nat × Nat))}
    (h : IsHistogram keys (m.map fun e => (e.1, e.2.2))) (h' : IsHistogram keys (m'.map fun e => (e.1, e.2.2)))
    (hv : ∀ ecu hist n hist' n', (ecu, hist, n) ∈ m → (ecu, hist', n') ∈ m' → hist = hist') : m = m' := by
  refine map_pinned _ (isHistogram_unique h h') fun x hx y hy he => ?_
  obtain ⟨ecu, hist, n⟩ := x
  obtain ⟨ecu', hist', n'⟩ := y
  simp only [Prod.mk.injEq] at he
  obtain ⟨rfl, rfl⟩ := he
  rw [hv _ _ _ _ _ hx hy]

/-- **C141** the specification of the reports leaves no freedom: for a file and its messages there is at most one report a
sequential command may print. -/
theorem C141_determined (bytes : Bytes) (msgs : List StorageEntry) (c : Cmd) (r r' : Report)
    (h : Spec.Prints bytes msgs c r) (h' : Spec.Prints bytes msgs c r') : r = r' := by
  cases c <;> cases r <;> first | exact h.elim | skip
  all_goals cases r' <;> first | exact h'.elim | skip
  case histogramLifecycles =>
    obtain ⟨r1, m1, a1, a2, rfl⟩ := h
    obtain ⟨r2, m2, b1, b2, rfl⟩ := h'
    obtain rfl := runs_same a1 b1
    rw [isHistogram_unique a2 b2]
  case splitLifecycles =>
    obtain ⟨m1, a1, a2, rfl⟩ := h
    obtain ⟨m2, b1, b2, rfl⟩ := h'
    rw [ecuTable_unique a1 b1 fun ecu hist n hist' n' h1 h2 => by
      obtain ⟨r1, c1, c2⟩ := a2 _ _ _ h1
      obtain ⟨r2, d1, d2⟩ := b2 _ _ _ h2
      obtain rfl := runs_same c1 d1
      exact hist32_unique c2 d2]
  case splitTimestamp =>
    obtain ⟨m1, a1, a2, rfl⟩ := h
    obtain ⟨m2, b1, b2, rfl⟩ := h'
    rw [ecuTable_unique a1 b1 fun ecu hist n hist' n' h1 h2 => by
      obtain ⟨r1, s1, c1, c2⟩ := a2 _ _ _ h1
      obtain ⟨r2, s2, d1, d2⟩ := b2 _ _ _ h2
      obtain ⟨-, rfl⟩ := ecuSpans_unique c1 d1
      exact hist32_unique c2 d2]
  case histogramTimestamp =>
    obtain ⟨r1, m1, a1, a2, rfl⟩ := h
    obtain ⟨r2, m2, b1, b2, rfl⟩ := h'
    obtain rfl := runs_same a1 b1
    rw [isHistogram_unique a2 b2]
  case histogramMessageType => rw [isHistogram_unique h h']
  case histogramPayloadSize =>
    obtain ⟨m1, a1, rfl, rfl⟩ := h
    obtain ⟨m2, b1, rfl, rfl⟩ := h'
    rw [isHistogram_unique a1 b1]
  case histogramMessageSize =>
    obtain ⟨m1, a1, rfl, rfl⟩ := h
    obtain ⟨m2, b1, rfl, rfl⟩ := h'
    rw [isHistogram_unique a1 b1]
  case count => rw [show _ = _ from h, show _ = _ from h']
  case histogramHelloWorld =>
    obtain ⟨x1, m1, a1, -, -, a2, rfl⟩ := h
    obtain ⟨x2, m2, b1, -, -, b2, rfl⟩ := h'
    obtain rfl := grepYields_unique a1 b1
    rw [isHistogram_unique a2 b2]
  case countHelloWorld => rw [show _ = _ from h, show _ = _ from h']
  case countHelloWorldRaw =>
    obtain ⟨x1, a1, a2, rfl⟩ := h
    obtain ⟨x2, b1, b2, rfl⟩ := h'
    rw [ordered_ext (fun a b x y => by omega) a1 b1 fun i => by rw [a2, b2]]
  case countHelloWorldGrepit =>
    obtain ⟨x1, a1, -, -, rfl⟩ := h
    obtain ⟨x2, b1, -, -, rfl⟩ := h'
    rw [grepYields_unique a1 b1]
  case iter =>
    obtain ⟨r1, a1, rfl⟩ := h
    obtain ⟨r2, b1, rfl⟩ := h'
    rw [runs_same a1 b1]
  case itertools => rw [show _ = _ from h, show _ = _ from h']

/-- **C141** the reports of the sequential commands, exactly: a report is printed if and only if the command does not panic on
the messages of the file and the report is the one specified. -/
theorem C141_exact (num : Nat) (bytes : Bytes) (hF : Fits bytes) (msgs : List StorageEntry) (h : Messages bytes msgs) (c : Cmd)
    (hc : sequential c = true) (rep : Report) :
    RunCmd num bytes c (.ok rep) ↔ ¬ Panics msgs c ∧ Spec.Prints bytes msgs c rep := by
  constructor
  · intro hr
    refine ⟨fun hp => ?_, runs_prints hF h hc hr⟩
    have := (sequential_outcome num bytes hF msgs h c hc)
    rcases this with ⟨-, h2⟩ | ⟨h2, -⟩
    · cases (h2 _).1 hr
    · exact h2 hp
  · rintro ⟨hn, hp⟩
    obtain ⟨rep', h1, h2⟩ := C68_sequential_prints num bytes hF msgs h c hc hn
    rw [C141_determined bytes msgs c rep rep' hp h1]
    exact (h2 _).2 rfl

/-! ## How many periods -/

theorem two_of_length {S : List (Nat × Nat)} (h : 2 ≤ S.length) (hS : S.Pairwise fun a b => a.1 < b.1) :
    ∃ a ∈ S, ∃ b ∈ S, a.1 < b.1 := by
  match S, h with
  | a :: b :: S, _ =>
    exact ⟨a, by simp, b, by simp, (List.pairwise_cons.1 hS).1 b (by simp)⟩

theorem length_of_two {S : List (Nat × Nat)} {a b : Nat × Nat} (ha : a ∈ S) (hb : b ∈ S) (hne : a ≠ b) : 2 ≤ S.length := by
  match S with
  | [] => cases ha
  | [x] =>
    rw [List.mem_singleton] at ha hb
    exact (hne (ha.trans hb.symm)).elim
  | _ :: _ :: S => simp

/-- What is left of spans that each start before the one before them is over: one span exactly if each of them ends no
earlier than some earlier one starts, and then it reaches from the lowest start to the highest end. -/
theorem absorbed_one {l S : List (Nat × Nat)} (h : Absorbed l S) (hw : ∀ y ∈ l, y.1 ≤ y.2)
    (hn : ∀ before x y after, l = before ++ x :: y :: after → y.1 ≤ x.2) :
    (l ≠ [] → 1 ≤ S.length) ∧
    (S.length = 1 ↔ l ≠ [] ∧ ∀ before y after, l = before ++ y :: after → before ≠ [] → ∃ x ∈ before, x.1 ≤ y.2) ∧
    ∀ z, S = [z] → (∃ x ∈ l, x.1 = z.1) ∧ (∃ x ∈ l, x.2 = z.2) ∧ ∀ x ∈ l, z.1 ≤ x.1 ∧ x.2 ≤ z.2 := by
  induction h with
  | nil => simp
  | @snoc ys S S' y h1 h2 h3 ih =>
    have hwl : ∀ y ∈ ys, y.1 ≤ y.2 := fun x hx => hw x (by simp [hx])
    have hy : y.1 ≤ y.2 := hw y (by simp)
    obtain ⟨i1, i2, i3⟩ := ih hwl fun before x y' after he => hn before x y' (after ++ [y]) (by rw [he]; simp)
    have hS := absorbed_sorted h1
    by_cases h0 : ys = []
    · subst h0
      have : S = [] := absorbed_unique h1 .nil
      subst this
      have hS' : S' = [y] := ordered_ext (fun a b x y => by omega) h3 (by simp) fun a => by
        rcases h2 with ⟨-, h2⟩ | ⟨p, hp, -⟩
        · rw [h2]; simp
        · cases hp
      subst hS'
      refine ⟨fun _ => by simp, ⟨fun _ => ⟨by simp, ?_⟩, fun _ => rfl⟩, ?_⟩
      · intro before y' after he hne
        have hlen := congrArg List.length he
        simp only [List.nil_append, List.length_append, List.length_cons, List.length_nil] at hlen
        have : 0 < before.length := List.length_pos_iff.2 hne
        omega
      · intro z hz
        cases hz
        simp
    · have hsplit : (∀ before y' after, ys ++ [y] = before ++ y' :: after → before ≠ [] → ∃ x ∈ before, x.1 ≤ y'.2) ↔
          (∀ before y' after, ys = before ++ y' :: after → before ≠ [] → ∃ x ∈ before, x.1 ≤ y'.2) ∧ ∃ x ∈ ys, x.1 ≤ y.2 := by
        constructor
        · intro hh
          exact ⟨fun before y' after he hb => hh before y' (after ++ [y]) (by rw [he]; simp) hb, hh ys y [] rfl h0⟩
        · rintro ⟨g1, g2⟩ before y' after he hb
          rcases List.eq_nil_or_concat after with rfl | ⟨r, u, rfl⟩
          · obtain ⟨e1, e2⟩ := List.append_inj' he rfl
            subst e1; cases e2
            exact g2
          · rw [List.concat_eq_append, ← List.cons_append, ← List.append_assoc] at he
            obtain ⟨e1, e2⟩ := List.append_inj' he rfl
            exact g1 before y' r e1 hb
      rw [hsplit]
      -- the last of the earlier spans
      obtain ⟨front, x, hx⟩ : ∃ front x, ys = front ++ [x] := by
        rcases List.eq_nil_or_concat ys with h | ⟨r, u, h⟩
        · exact (h0 h).elim
        · exact ⟨r, u, by rw [h, List.concat_eq_append]⟩
      have hxy : y.1 ≤ x.2 := hn front x y [] (by rw [hx]; simp)
      have hxl : x ∈ ys := by rw [hx]; simp
      by_cases hone : S.length = 1
      · obtain ⟨z, rfl⟩ := List.length_eq_one_iff.1 hone
        obtain ⟨⟨u, hu, hu'⟩, ⟨v, hv, hv'⟩, hall⟩ := i3 z rfl
        have hz : z.1 ≤ z.2 := by have := hwl u hu; have := hall u hu; omega
        have hyz : y.1 ≤ z.2 := Nat.le_trans hxy (hall x hxl).2
        by_cases hm : Meet z y
        · have hzy := ((meet_iff hz hy).1 hm).1
          have hS' : S' = [(min z.1 y.1, max z.2 y.2)] := ordered_ext (fun a b x y => by omega) h3 (by simp) fun a => by
            rcases h2 with ⟨h2, -⟩ | ⟨p, hp, -, -, h2⟩
            · exact (h2 z (by simp) hm).elim
            · rw [List.mem_singleton] at hp
              subst hp
              rw [h2]
              simp
          subst hS'
          refine ⟨fun _ => by simp, ⟨fun _ => ⟨by simp, (i2.1 rfl).2, u, hu, by omega⟩, fun _ => rfl⟩, ?_⟩
          intro w hw'
          cases hw'
          refine ⟨?_, ?_, fun t ht => ?_⟩
          · by_cases hc : z.1 ≤ y.1
            · exact ⟨u, by simp [hu], by simp only; omega⟩
            · exact ⟨y, by simp, by simp only; omega⟩
          · by_cases hc : y.2 ≤ z.2
            · exact ⟨v, by simp [hv], by simp only; omega⟩
            · exact ⟨y, by simp, by simp only; omega⟩
          · rw [List.mem_append, List.mem_singleton] at ht
            rcases ht with ht | rfl
            · have := hall t ht
              simp only; omega
            · simp only; omega
        · have hlt : y.2 < z.1 := by
            refine Nat.lt_of_not_le fun hle => hm ((meet_iff hz hy).2 ⟨hle, hyz⟩)
          have h2' : ∀ w, w ∈ S' ↔ w = y ∨ w ∈ [z] := by
            rcases h2 with ⟨-, h2⟩ | ⟨p, hp, hmp, -, -⟩
            · exact h2
            · rw [List.mem_singleton] at hp
              subst hp
              exact (hm hmp).elim
          have htwo : 2 ≤ S'.length := length_of_two ((h2' y).2 (.inl rfl)) ((h2' z).2 (.inr (by simp))) (by
            rintro rfl; omega)
          refine ⟨fun _ => by omega, ⟨fun h => by omega, ?_⟩, ?_⟩
          · rintro ⟨-, -, t, ht, htl⟩
            have := hall t ht
            omega
          · rintro w rfl
            simp at htwo
      · have hge : 2 ≤ S.length := by have := i1 h0; omega
        obtain ⟨a, ha, b, hb, hab⟩ := two_of_length hge hS
        have htwo : 2 ≤ S'.length := by
          rcases h2 with ⟨-, h2⟩ | ⟨p, hp, hmp, hfirst, h2⟩
          · exact length_of_two ((h2 a).2 (.inr ha)) ((h2 b).2 (.inr hb)) (by rintro rfl; omega)
          · -- another span than the one that is extended
            obtain ⟨q, hq, hqp⟩ : ∃ q ∈ S, q ≠ p := by
              by_cases hap : a = p
              · exact ⟨b, hb, by rintro rfl; subst hap; omega⟩
              · exact ⟨a, ha, hap⟩
            refine length_of_two ((h2 q).2 (.inr ⟨hq, hqp⟩)) ((h2 _).2 (.inl rfl)) ?_
            intro he
            have e1 : q.1 = min p.1 y.1 := congrArg Prod.fst he
            have e2 : q.2 = max p.2 y.2 := congrArg Prod.snd he
            have hqy : Meet q y := ⟨y.2, by unfold Covers; omega, by unfold Covers; omega⟩
            have := hfirst q hq hqy
            exact hqp (starts_inj hS hq hp (by omega))
        refine ⟨fun _ => by omega, ⟨fun h => by omega, ?_⟩, ?_⟩
        · rintro ⟨-, h4, -⟩
          exact (hone (i2.2 ⟨h0, h4⟩)).elim
        · rintro w rfl
          simp at htwo

/-! ## C142 -/

theorem run_sorted : ∀ {r : List StorageEntry},
    (∀ i a b, r[i]? = some a → r[i + 1]? = some b → secsOf a ≤ secsOf b) → r.Pairwise fun a b => secsOf a ≤ secsOf b
  | [], _ => List.Pairwise.nil
  | [x], _ => by simp
  | x :: y :: r, h => by
    have ih := run_sorted (r := y :: r) fun i a b ha hb => h (i + 1) a b ha hb
    refine List.pairwise_cons.2 ⟨fun z hz => ?_, ih⟩
    have hxy : secsOf x ≤ secsOf y := h 0 x y rfl rfl
    rcases List.mem_cons.1 hz with rfl | hz
    · exact hxy
    · exact Nat.le_trans hxy ((List.pairwise_cons.1 ih).1 z hz)

theorem ends_some {r : List StorageEntry} (h : r ≠ []) : ∃ a b, r.head? = some a ∧ r.getLast? = some b := by
  cases r with
  | nil => exact (h rfl).elim
  | cons x r => exact ⟨x, _, rfl, List.getLast?_eq_some_getLast (by simp)⟩

theorem sorted_bounds {r : List StorageEntry} (h : r.Pairwise fun a b => secsOf a ≤ secsOf b) {a b : StorageEntry}
    (ha : r.head? = some a) (hb : r.getLast? = some b) : ∀ e ∈ r, secsOf a ≤ secsOf e ∧ secsOf e ≤ secsOf b := by
  induction r generalizing a with
  | nil => cases ha
  | cons x r ih =>
    cases ha
    rw [List.pairwise_cons] at h
    cases r with
    | nil =>
      simp only [List.getLast?_singleton, Option.some.injEq] at hb
      subst hb
      intro e he
      rw [List.mem_singleton] at he
      subst he
      exact ⟨Nat.le_refl _, Nat.le_refl _⟩
    | cons y r =>
      rw [List.getLast?_cons_cons] at hb
      have := ih h.2 rfl hb
      intro e he
      rcases List.mem_cons.1 he with rfl | he
      · exact ⟨Nat.le_refl _, Nat.le_trans (h.1 y (by simp)) (this y (by simp)).2⟩
      · exact ⟨h.1 e he, (this e he).2⟩

/-- The pair of a run: its first and its last second are its lowest and its highest one. -/
theorem run_pair {xs : List StorageEntry} {runs : List (List StorageEntry)}
    (h : MaximalRuns (fun a b => secsOf a ≤ secsOf b) xs runs) {r : List StorageEntry} (hr : r ∈ runs) :
    (∃ a ∈ r, r.head? = some a ∧ secsOf a = (secsPairOf r).1) ∧ (∃ b ∈ r, r.getLast? = some b ∧ secsOf b = (secsPairOf r).2) ∧
    ∀ e ∈ r, (secsPairOf r).1 ≤ secsOf e ∧ secsOf e ≤ (secsPairOf r).2 := by
  obtain ⟨a, b, ha, hb⟩ := ends_some (h.nonempty r hr)
  have hp : secsPairOf r = (secsOf a, secsOf b) := by unfold secsPairOf; rw [ha, hb]
  rw [hp]
  exact ⟨⟨a, List.mem_of_head? ha, ha, rfl⟩, ⟨b, List.mem_of_getLast? hb, hb, rfl⟩,
    sorted_bounds (run_sorted (h.related r hr)) ha hb⟩

theorem pairs_facts {xs : List StorageEntry} {runs : List (List StorageEntry)}
    (h : MaximalRuns (fun a b => secsOf a ≤ secsOf b) xs runs) :
    (∀ y ∈ runs.map secsPairOf, y.1 ≤ y.2) ∧
    ∀ before x y after, runs.map secsPairOf = before ++ x :: y :: after → y.1 ≤ x.2 := by
  constructor
  · intro y hy
    obtain ⟨r, hr, rfl⟩ := List.mem_map.1 hy
    obtain ⟨⟨a, ha, -, h1⟩, -, h3⟩ := run_pair h hr
    have := h3 a ha
    omega
  · intro before x y after he
    have hlen := congrArg List.length he
    have e1 : (runs.map secsPairOf)[before.length]? = some x := by rw [he]; simp
    have e2 : (runs.map secsPairOf)[before.length + 1]? = some y := by
      rw [he, List.getElem?_append_right (by omega)]
      simp
    rw [List.getElem?_map, Option.map_eq_some_iff] at e1 e2
    obtain ⟨r, hr, rfl⟩ := e1
    obtain ⟨r', hr', rfl⟩ := e2
    obtain ⟨-, ⟨b, -, hb, hb'⟩, -⟩ := run_pair h (List.mem_of_getElem? hr)
    obtain ⟨⟨a, -, ha, ha'⟩, -, -⟩ := run_pair h (List.mem_of_getElem? hr')
    have := h.maximal _ r r' b a hr hr' hb ha
    omega

/-- One row of the table of `split_timestamp`. -/
theorem split_row {num : Nat} {bytes : Bytes} (hF : Fits bytes) {msgs : List StorageEntry} (h : Messages bytes msgs)
    {es : List (Bytes × (OrdMap UInt32 Nat × Nat))} (hr : RunCmd num bytes .splitTimestamp (.ok (.ecus es)))
    {id : Bytes} {hist : OrdMap UInt32 Nat} {n : Nat} (hm : (id, hist, n) ∈ es) :
    ∃ (ecu : B4) (runs : List (List StorageEntry)) (spans : List (Nat × Nat)), id = ecu.toBytes ∧ ofEcu ecu msgs ≠ [] ∧
      EcuSpans (ofEcu ecu msgs) runs spans ∧ IsHistogram (spans.map fun s => s.2 - s.1) (hist.map fun e => (e.1.toNat, e.2)) := by
  obtain ⟨m, h1, h2, rfl⟩ := runs_prints hF h rfl hr
  obtain ⟨⟨ecu, hist', n'⟩, h3, h4⟩ := List.mem_map.1 hm
  simp only [Prod.mk.injEq] at h4
  obtain ⟨rfl, rfl, rfl⟩ := h4
  obtain ⟨runs, spans, h5, h6⟩ := h2 ecu hist' n' h3
  refine ⟨ecu, runs, spans, rfl, ?_, h5, h6⟩
  have h7 := ((h1.mem ecu n').1 (List.mem_map.2 ⟨_, h3, rfl⟩))
  intro h0
  have h8 : ecu ∈ msgs.map fun e => e.storageHeader.ecu := List.count_pos_iff.1 (by omega)
  obtain ⟨e, he, rfl⟩ := List.mem_map.1 h8
  have : e ∈ ofEcu e.storageHeader.ecu msgs := List.mem_filter.2 ⟨he, by simp⟩
  rw [h0] at this
  cases this

theorem runs_ne {xs : List StorageEntry} {runs : List (List StorageEntry)} {R : StorageEntry → StorageEntry → Prop}
    (h : MaximalRuns R xs runs) (hne : xs ≠ []) : runs ≠ [] := by
  rintro rfl
  exact hne h.flatten.symm

/-- **C142** when `split_timestamp` shows a single period for an ECU: exactly if of no run of its messages (up to the next
message with a lower second) all seconds are below those of all messages of the ECU before it. -/
theorem C142_one_period_iff (num : Nat) (bytes : Bytes) (hF : Fits bytes) (msgs : List StorageEntry) (h : Messages bytes msgs)
    (es : List (Bytes × (OrdMap UInt32 Nat × Nat))) (hr : RunCmd num bytes .splitTimestamp (.ok (.ecus es))) :
    ∀ id hist n, (id, hist, n) ∈ es → ∃ (ecu : B4) (runs : List (List StorageEntry)), id = ecu.toBytes ∧
      MaximalRuns (fun a b => secsOf a ≤ secsOf b) (ofEcu ecu msgs) runs ∧
      ((hist.map (·.2)).sum = 1 ↔ ∀ before r after, runs = before ++ r :: after → before ≠ [] →
        ¬ ∀ a ∈ before.flatten, ∀ b ∈ r, secsOf b < secsOf a) := by
  intro id hist n hm
  obtain ⟨ecu, runs, spans, h1, h2, h3, h4⟩ := split_row hF h hr hm
  refine ⟨ecu, runs, h1, h3.isRuns, ?_⟩
  obtain ⟨f1, f2⟩ := pairs_facts h3.isRuns
  have key := (absorbed_one h3.merged f1 f2).2.1
  rw [hist_total32 h4, List.length_map, key]
  have hne : runs.map secsPairOf ≠ [] := by
    intro h0
    exact runs_ne h3.isRuns h2 (List.map_eq_nil_iff.1 h0)
  constructor
  · rintro ⟨-, hh⟩ before r after he hb hall
    obtain ⟨x, hx, hle⟩ := hh (before.map secsPairOf) (secsPairOf r) (after.map secsPairOf) (by rw [he]; simp)
      (fun h0 => hb (List.map_eq_nil_iff.1 h0))
    obtain ⟨r', hr', rfl⟩ := List.mem_map.1 hx
    obtain ⟨⟨a, ha, -, ha'⟩, -, -⟩ := run_pair h3.isRuns (r := r') (by rw [he]; simp [hr'])
    obtain ⟨-, ⟨b, hb', -, hb''⟩, -⟩ := run_pair h3.isRuns (r := r) (by rw [he]; simp)
    have := hall a (List.mem_flatten.2 ⟨r', hr', ha⟩) b hb'
    omega
  · intro hh
    refine ⟨hne, fun before y after he hb => ?_⟩
    obtain ⟨l1, l2', e0, e1, e2⟩ := List.map_eq_append_iff.1 he
    obtain ⟨r, l2, rfl, rfl, e3⟩ := List.map_eq_cons_iff.1 e2
    have hb1 : l1 ≠ [] := by rintro rfl; exact hb e1.symm
    have := hh l1 r l2 e0 hb1
    refine Decidable.byContradiction fun hno => this fun a ha b hb' => ?_
    refine Nat.lt_of_not_le fun hle => hno ?_
    obtain ⟨r', hr', har⟩ := List.mem_flatten.1 ha
    refine ⟨secsPairOf r', by rw [← e1]; exact List.mem_map.2 ⟨r', hr', rfl⟩, ?_⟩
    have b1 := (run_pair h3.isRuns (r := r') (by rw [e0]; simp [hr'])).2.2 a har
    have b2 := (run_pair h3.isRuns (r := r) (by rw [e0]; simp)).2.2 b hb'
    omega

/-- **C142** jitter does not show: if no message of an ECU has a lower second than the first one of this ECU, then
`split_timestamp` shows one period for it, from the first second to the highest, however the seconds go up and down. -/
theorem C142_jitter (num : Nat) (bytes : Bytes) (hF : Fits bytes) (msgs : List StorageEntry) (h : Messages bytes msgs)
    (hj : ∀ ecu a, (ofEcu ecu msgs).head? = some a → ∀ e ∈ ofEcu ecu msgs, secsOf a ≤ secsOf e)
    (es : List (Bytes × (OrdMap UInt32 Nat × Nat))) (hr : RunCmd num bytes .splitTimestamp (.ok (.ecus es))) :
    ∀ id hist n, (id, hist, n) ∈ es → ∃ (ecu : B4) (a b : StorageEntry), id = ecu.toBytes ∧
      (ofEcu ecu msgs).head? = some a ∧ b ∈ ofEcu ecu msgs ∧ (∀ e ∈ ofEcu ecu msgs, secsOf e ≤ secsOf b) ∧
      hist.map (fun e => (e.1.toNat, e.2)) = [(secsOf b - secsOf a, 1)] := by
  intro id hist n hm
  obtain ⟨ecu, runs, spans, h1, h2, h3, h4⟩ := split_row hF h hr hm
  obtain ⟨f1, f2⟩ := pairs_facts h3.isRuns
  obtain ⟨-, key, key2⟩ := absorbed_one h3.merged f1 f2
  obtain ⟨a, -, ha, -⟩ := ends_some h2
  have hj := hj ecu a ha
  have hmem : ∀ r ∈ runs, ∀ e ∈ r, e ∈ ofEcu ecu msgs := fun r hr e he => by
    rw [← h3.isRuns.flatten]; exact List.mem_flatten.2 ⟨r, hr, he⟩
  -- the first run starts with the first message
  obtain ⟨r0, rest, hrs⟩ : ∃ r0 rest, runs = r0 :: rest := by
    cases runs with
    | nil => exact (runs_ne h3.isRuns h2 rfl).elim
    | cons r0 rest => exact ⟨_, _, rfl⟩
  have hr0 : (secsPairOf r0).1 = secsOf a := by
    obtain ⟨⟨a', -, ha', e⟩, -, -⟩ := run_pair h3.isRuns (r := r0) (by rw [hrs]; simp)
    rw [← e]
    have : (ofEcu ecu msgs).head? = some a' := by
      rw [← h3.isRuns.flatten, hrs, List.flatten_cons, List.head?_append, ha']; rfl
    rw [ha] at this
    cases this
    rfl
  have hone : spans.length = 1 := by
    refine key.2 ⟨by rw [hrs]; simp, fun before y after he hb => ?_⟩
    obtain ⟨x, before', rfl⟩ : ∃ x b', before = x :: b' := by
      cases before with
      | nil => exact (hb rfl).elim
      | cons x b' => exact ⟨_, _, rfl⟩
    refine ⟨x, by simp, ?_⟩
    rw [hrs] at he
    simp only [List.map_cons, List.cons_append, List.cons.injEq] at he
    rw [← he.1, hr0]
    have hy : y ∈ runs.map secsPairOf := by rw [hrs, List.map_cons, he.2]; simp
    obtain ⟨r, hr, rfl⟩ := List.mem_map.1 hy
    obtain ⟨-, ⟨b, hb, -, e⟩, -⟩ := run_pair h3.isRuns hr
    rw [← e]
    exact hj b (hmem r hr b hb)
  obtain ⟨z, rfl⟩ := List.length_eq_one_iff.1 hone
  obtain ⟨⟨x, hx, hx'⟩, ⟨w, hw, hw'⟩, hall⟩ := key2 z rfl
  obtain ⟨rx, hrx, rfl⟩ := List.mem_map.1 hx
  obtain ⟨rw', hrw, rfl⟩ := List.mem_map.1 hw
  obtain ⟨⟨a2, ha2, -, ea2⟩, -, -⟩ := run_pair h3.isRuns hrx
  obtain ⟨-, ⟨b, hb, -, eb⟩, -⟩ := run_pair h3.isRuns hrw
  refine ⟨ecu, a, b, h1, ha, hmem _ hrw b hb, fun e he => ?_, ?_⟩
  · rw [← h3.isRuns.flatten] at he
    obtain ⟨r, hr, her⟩ := List.mem_flatten.1 he
    have b1 := (run_pair h3.isRuns hr).2.2 e her
    have b2 := hall _ (List.mem_map.2 ⟨r, hr, rfl⟩)
    omega
  · have hz1 : z.1 = secsOf a := by
      have b1 := hj a2 (hmem _ hrx a2 ha2)
      have b2 := (hall (secsPairOf r0) (List.mem_map.2 ⟨r0, by rw [hrs]; simp, rfl⟩)).1
      omega
    have hz2 : z.2 = secsOf b := by omega
    have := isHistogram_unique h4 (single_histogram (z.2 - z.1))
    rw [this, hz1, hz2]

/-- The spans of an ECU as `merge` forms them. -/
theorem ecuSpans_groups {xs : List StorageEntry} {runs : List (List StorageEntry)} {spans : List (Nat × Nat)}
    (h : EcuSpans xs runs spans) :
    (Apart (· ∈ spans) ↔ NoBridge (runs.map secsPairOf)) ∧
    (NoBridge (runs.map secsPairOf) → Groups (runs.map secsPairOf) (· ∈ spans)) := by
  have e : (runs.filterMap ends).map secsPair = runs.map secsPairOf :=
    map_ends secsPair secsPairOf h.isRuns.nonempty fun r _ a b ha hb => by
      unfold secsPairOf; rw [ha, hb]; rfl
  have hw : ∀ y ∈ runs.filterMap ends, fstSec y ≤ sndSec y := by
    intro y hy
    exact (pairs_facts h.isRuns).1 (secsPair y) (by rw [← e]; exact List.mem_map.2 ⟨y, hy, rfl⟩)
  have ha := absorbed_foldl (runs.filterMap ends) hw
  rw [e] at ha
  obtain rfl := absorbed_unique h.merged ha
  obtain ⟨-, g2, g3⟩ := groups_foldl (runs.filterMap ends) hw
  have hset : (fun z => z ∈ ((runs.filterMap ends).foldl (mergeStep mergeOverlapping spanKey) []).map fun x => secsPair x.2) =
      spansOfMap ((runs.filterMap ends).foldl (mergeStep mergeOverlapping spanKey) []) := by
    funext z
    exact propext List.mem_map
  rw [e] at g2 g3
  rw [hset]
  exact ⟨g2, g3⟩

/-- **C142** which runs of an ECU share a period, exactly: the periods have no second in common if and only if no run bridges a
gap that is there when it arrives; and then two runs are in one period if and only if they are linked by runs that overlap. -/
theorem C142_groups (num : Nat) (bytes : Bytes) (hF : Fits bytes) (msgs : List StorageEntry) (h : Messages bytes msgs)
    (es : List (Bytes × (OrdMap UInt32 Nat × Nat))) (hr : RunCmd num bytes .splitTimestamp (.ok (.ecus es))) :
    ∀ id hist n, (id, hist, n) ∈ es → ∃ (ecu : B4) (runs : List (List StorageEntry)) (spans : List (Nat × Nat)),
      id = ecu.toBytes ∧ MaximalRuns (fun a b => secsOf a ≤ secsOf b) (ofEcu ecu msgs) runs ∧
      IsHistogram (spans.map fun s => s.2 - s.1) (hist.map fun e => (e.1.toNat, e.2)) ∧
      (spans.Pairwise (fun s s' => ¬ Meet s s') ↔ NoBridge (runs.map secsPairOf)) ∧
      (NoBridge (runs.map secsPairOf) → ∀ r ∈ runs, ∀ r' ∈ runs,
        (∃ s ∈ spans, ∀ e ∈ r ++ r', Covers s.1 s.2 (secsOf e)) ↔ Spec.Linked (runs.map secsPairOf) (secsPairOf r) (secsPairOf r')) := by
  intro id hist n hm
  obtain ⟨ecu, runs, spans, h1, h2, h3, h4⟩ := split_row hF h hr hm
  obtain ⟨g1, g2⟩ := ecuSpans_groups h3
  have hs := absorbed_sorted h3.merged
  refine ⟨ecu, runs, spans, h1, h3.isRuns, h4, ?_, fun hb r hr r' hr' => ?_⟩
  · rw [← g1]
    constructor
    · intro hp z w hz hw hne
      exact pairwise_all hp (fun a b hab hm => hab (meet_symm_iff.1 hm)) hz hw hne
    · intro ha
      exact hs.imp_of_mem fun {a b} hma hmb hlt => ha a b hma hmb (by rintro rfl; omega)
  · have hg := g2 hb
    have key : ∀ q ∈ runs, ∀ s, (∀ e ∈ q, Covers s.1 s.2 (secsOf e)) ↔ SpanIn (secsPairOf q) s := by
      intro q hq s
      obtain ⟨⟨a, ha, -, ea⟩, ⟨b, hb, -, eb⟩, hall⟩ := run_pair h3.isRuns hq
      unfold SpanIn Covers
      constructor
      · intro hc
        have := hc a ha
        have := hc b hb
        omega
      · intro hc e he
        have := hall e he
        omega
    constructor
    · rintro ⟨s, hs', hc⟩
      refine hg.linked s hs' _ (List.mem_map.2 ⟨r, hr, rfl⟩) _ (List.mem_map.2 ⟨r', hr', rfl⟩) ?_ ?_
      · exact (key r hr s).1 fun e he => hc e (by simp [he])
      · exact (key r' hr' s).1 fun e he => hc e (by simp [he])
    · intro hl
      obtain ⟨s, hs', hin⟩ := hg.inside _ (List.mem_map.2 ⟨r, hr, rfl⟩)
      refine ⟨s, hs', fun e he => ?_⟩
      rcases List.mem_append.1 he with he | he
      · exact (key r hr s).2 hin e he
      · exact (key r' hr' s).2 (linked_same hg hs' hin hl) e he

theorem apart_sum : ∀ {spans : List (Nat × Nat)} {lo hi : Nat}, (spans.Pairwise fun a b => a.1 < b.1) →
    spans.Pairwise (fun s s' => ¬ Meet s s') → (∀ s ∈ spans, lo ≤ s.1 ∧ s.1 ≤ s.2 ∧ s.2 ≤ hi) →
    (spans.map fun s => s.2 - s.1).sum ≤ hi - lo
  | [], _, _, _, _, _ => by simp
  | s :: spans, lo, hi, h1, h2, h3 => by
    rw [List.pairwise_cons] at h1 h2
    have hs := h3 s (by simp)
    have := apart_sum (lo := s.2) (hi := hi) h1.2 h2.2 fun t ht => by
      have ht' := h3 t (by simp [ht])
      have hlt := h1.1 t ht
      have hm := h2.1 t ht
      rw [meet_iff hs.2.1 ht'.2.1] at hm
      refine ⟨?_, ht'.2⟩
      omega
    rw [List.map_cons, List.sum_cons]
    omega

/-- **C142 (partial)** the durations `split_timestamp` shows for an ECU add up to no more than the time between its earliest
and its latest message, if no run of its messages bridges a gap. Missing: without that they can add up to more
(`C142_too_long`). -/
theorem C142_total_partial (num : Nat) (bytes : Bytes) (hF : Fits bytes) (msgs : List StorageEntry) (h : Messages bytes msgs)
    (hb : ∀ ecu runs, MaximalRuns (fun a b => secsOf a ≤ secsOf b) (ofEcu ecu msgs) runs → NoBridge (runs.map secsPairOf))
    (es : List (Bytes × (OrdMap UInt32 Nat × Nat))) (hr : RunCmd num bytes .splitTimestamp (.ok (.ecus es))) :
    ∀ id hist n, (id, hist, n) ∈ es → ∃ ecu : B4, id = ecu.toBytes ∧
      ∀ lo hi, (∀ e ∈ ofEcu ecu msgs, lo ≤ secsOf e ∧ secsOf e ≤ hi) → (hist.map fun e => e.1.toNat * e.2).sum ≤ hi - lo := by
  intro id hist n hm
  obtain ⟨ecu, runs, spans, h1, h2, h3, h4⟩ := split_row hF h hr hm
  refine ⟨ecu, h1, fun lo hi hall => ?_⟩
  have hsum := isHistogram_sum (fun k => k) h4
  rw [List.map_map] at hsum
  have e : (hist.map fun e => e.1.toNat * e.2).sum = (spans.map fun s => s.2 - s.1).sum := by
    rw [List.map_id'] at hsum
    exact hsum
  rw [e]
  obtain ⟨g1, -⟩ := ecuSpans_groups h3
  have hap := g1.2 (hb ecu runs h3.isRuns)
  have hs := absorbed_sorted h3.merged
  refine apart_sum hs (hs.imp_of_mem fun {a b} hma hmb hlt => hap a b hma hmb (by rintro rfl; omega)) fun s hs' => ?_
  obtain ⟨a, ha, b, hb', rfl⟩ := h3.ends s hs'
  exact ⟨(hall a ha).1, h3.ordered _ hs', (hall b hb').2⟩

/-! ## At work -/

/-- The spans of messages, computed. -/
theorem ecuSpans_eq {xs : List StorageEntry} {runs : List (List StorageEntry)} {spans : List (Nat × Nat)}
    (h : EcuSpans xs runs spans) : runs = runsL (fun a b => decide (secsOf a ≤ secsOf b)) xs ∧
      spans = ((runs.filterMap ends).foldl (mergeStep mergeOverlapping spanKey) []).map fun x => secsPair x.2 := by
  have e : (runs.filterMap ends).map secsPair = runs.map secsPairOf :=
    map_ends secsPair secsPairOf h.isRuns.nonempty fun r _ a b ha hb => by
      unfold secsPairOf; rw [ha, hb]; rfl
  have hw : ∀ y ∈ runs.filterMap ends, fstSec y ≤ sndSec y := by
    intro y hy
    exact (pairs_facts h.isRuns).1 (secsPair y) (by rw [← e]; exact List.mem_map.2 ⟨y, hy, rfl⟩)
  have ha := absorbed_foldl (runs.filterMap ends) hw
  rw [e] at ha
  exact ⟨runs_eq_runsL _ (fun a b => by simp) h.isRuns, absorbed_unique h.merged ha⟩

/-- What `split_timestamp` shows for a file of `secMsg`s. -/
theorem secMsgs_split (num : Nat) (secs : List UInt32) (hne : secs ≠ []) (hF : Fits (packed (secs.map secMsg))) :
    ∃ (id : Bytes) (hist : OrdMap UInt32 Nat) (runs : List (List StorageEntry)) (spans : List (Nat × Nat)),
      RunCmd num (packed (secs.map secMsg)) .splitTimestamp (.ok (.ecus [(id, hist, secs.length)])) ∧
      EcuSpans (secs.map secMsg) runs spans ∧
      IsHistogram (spans.map fun s => s.2 - s.1) (hist.map fun e => (e.1.toNat, e.2)) := by
  have hwf : ∀ e ∈ secs.map secMsg, WF e := by
    intro e he
    obtain ⟨s, -, rfl⟩ := List.mem_map.1 he
    exact secMsg_wf s
  have hm := messages_packed hwf
  have hnp : ¬ Panics (secs.map secMsg) .splitTimestamp := by
    rintro ⟨e, he, h⟩
    obtain ⟨s, -, rfl⟩ := List.mem_map.1 he
    exact h ((utf8Valid_iff _).1 rfl)
  obtain ⟨rep, h1, h2⟩ := C68_sequential_prints num _ hF _ hm .splitTimestamp rfl hnp
  have hr := (h2 _).2 rfl
  cases rep <;> first | exact h1.elim | skip
  obtain ⟨m, a1, a2, rfl⟩ := h1
  obtain ⟨s0, srest, rfl⟩ := List.exists_cons_of_ne_nil hne
  have hecu : ((s0 :: srest).map secMsg).map (fun e => e.storageHeader.ecu) =
      List.replicate (srest.length + 1) (secMsg s0).storageHeader.ecu := by
    rw [List.map_map, List.eq_replicate_iff]
    refine ⟨by simp, fun b hb => ?_⟩
    obtain ⟨s, -, rfl⟩ := List.mem_map.1 hb
    rfl
  rw [hecu] at a1
  have hu : m.map (fun e => (e.1, e.2.2)) = [((secMsg s0).storageHeader.ecu, srest.length + 1)] := by
    refine isHistogram_unique a1 ⟨List.pairwise_singleton .., fun k v => ?_⟩
    rw [List.mem_singleton, List.count_replicate, Prod.mk.injEq]
    by_cases hk : (secMsg s0).storageHeader.ecu = k
    · subst hk; simp; omega
    · have hk' : ¬ k = (secMsg s0).storageHeader.ecu := fun h => hk h.symm
      simp [hk, hk']
      omega
  match m, hu with
  | [(ecu, hist, n)], hu =>
    simp only [List.map_cons, List.map_nil, List.cons.injEq, Prod.mk.injEq, and_true] at hu
    obtain ⟨rfl, rfl⟩ := hu
    obtain ⟨runs, spans, h3, h4⟩ := a2 _ _ _ List.mem_cons_self
    have hall : ofEcu (secMsg s0).storageHeader.ecu ((s0 :: srest).map secMsg) = (s0 :: srest).map secMsg := by
      unfold ofEcu
      rw [List.filter_eq_self]
      intro e he
      obtain ⟨s, -, rfl⟩ := List.mem_map.1 he
      exact decide_eq_true rfl
    rw [hall] at h3
    exact ⟨_, hist, runs, spans, hr, h3, h4⟩

/-- The messages 10, 12, 3, 5, 4, 11: the third run bridges the gap between the first two. -/
def bridging : List UInt32 := [10, 12, 3, 5, 4, 11]

theorem bridging_spans {runs : List (List StorageEntry)} {spans : List (Nat × Nat)}
    (h : EcuSpans (bridging.map secMsg) runs spans) : spans = [(3, 11), (10, 12)] := by
  obtain ⟨h1, h2⟩ := ecuSpans_eq h
  rw [h2, h1]
  decide +kernel

/-- **C142 (violated)** the durations `split_timestamp` shows for an ECU can add up to more than the time between its earliest and
its latest message: the messages of this file lie within 9 seconds, the periods shown have 2 and 8. -/
theorem C142_too_long (num : Nat) : ∃ (bytes : Bytes) (msgs : List StorageEntry) (id : Bytes) (hist : OrdMap UInt32 Nat) (n : Nat),
    Fits bytes ∧ Messages bytes msgs ∧ RunCmd num bytes .splitTimestamp (.ok (.ecus [(id, hist, n)])) ∧
    (∀ e ∈ msgs, 3 ≤ secsOf e ∧ secsOf e ≤ 12) ∧ hist = [(2, 1), (8, 1)] ∧ (hist.map fun e => e.1.toNat * e.2).sum = 10 := by
  have hF : Fits (packed (bridging.map secMsg)) := by decide +kernel
  obtain ⟨id, hist, runs, spans, h1, h2, h3⟩ := secMsgs_split num bridging (by decide) hF
  have hh : hist = [(2, 1), (8, 1)] := by
    rw [bridging_spans h2] at h3
    refine hist32_unique h3 ⟨by decide, fun k v => ?_⟩
    simp only [List.map_cons, List.map_nil, List.mem_cons, List.not_mem_nil, or_false, Prod.mk.injEq, List.count_cons,
      List.count_nil, beq_iff_eq]
    have e1 : (2 : UInt32).toNat = 2 := rfl
    have e2 : (8 : UInt32).toNat = 8 := rfl
    rw [e1, e2]
    by_cases k2 : k = 2
    · subst k2; simp; omega
    by_cases k8 : k = 8
    · subst k8; simp; omega
    have k2' : ¬ 2 = k := fun h => k2 h.symm
    have k8' : ¬ 8 = k := fun h => k8 h.symm
    simp [k2, k8, k2', k8']
    omega
  exact ⟨_, _, id, hist, _, hF, messages_packed (by decide), h1, by decide, hh, by rw [hh]; decide⟩

/-- The messages 5, 9, 7, 8, 6, 12: the seconds go up and down, but never below the first one. -/
def jittery : List UInt32 := [5, 9, 7, 8, 6, 12]

theorem jittery_fits : Fits (packed (jittery.map secMsg)) := by decide +kernel
theorem jittery_messages : Messages (packed (jittery.map secMsg)) (jittery.map secMsg) := messages_packed (by decide)

theorem ofEcu_secMsg (ecu : B4) (secs : List UInt32) :
    ofEcu ecu (secs.map secMsg) = if ecu = ⟨69, 67, 85, 49⟩ then secs.map secMsg else [] := by
  unfold ofEcu
  by_cases h : ecu = ⟨69, 67, 85, 49⟩
  · rw [if_pos h, List.filter_eq_self]
    intro e he
    obtain ⟨s, -, rfl⟩ := List.mem_map.1 he
    exact decide_eq_true h.symm
  · rw [if_neg h, List.filter_eq_nil_iff]
    intro e he
    obtain ⟨s, -, rfl⟩ := List.mem_map.1 he
    rw [decide_eq_true_eq]
    exact fun h' => h h'.symm

/-- **C142** jitter at work: `split_timestamp` shows a single period of 7 seconds, `histogram_timestamp` three. -/
example (num : Nat) : ∃ id hist bs, RunCmd num (packed (jittery.map secMsg)) .splitTimestamp (.ok (.ecus [(id, hist, 6)])) ∧
    hist.map (fun e => (e.1.toNat, e.2)) = [(7, 1)] ∧
    RunCmd num (packed (jittery.map secMsg)) .histogramTimestamp (.ok (.buckets bs)) ∧ periods bs = 3 := by
  obtain ⟨id, hist, runs, spans, h1, -, -⟩ := secMsgs_split num jittery (by decide) jittery_fits
  have hj : ∀ ecu a, (ofEcu ecu (jittery.map secMsg)).head? = some a → ∀ e ∈ ofEcu ecu (jittery.map secMsg), secsOf a ≤ secsOf e := by
    intro ecu a ha e he
    rw [ofEcu_secMsg] at ha he
    split at ha
    · next h =>
      rw [if_pos h] at he
      cases ha
      revert e
      decide
    · cases ha
  obtain ⟨ecu, a, b, -, h3, h4, h5, h6⟩ :=
    C142_jitter num _ jittery_fits _ jittery_messages hj _ h1 _ _ _ List.mem_cons_self
  obtain ⟨rep, p1, p2⟩ := C68_sequential_prints num _ jittery_fits _ jittery_messages .histogramTimestamp rfl fun h => h
  cases rep <;> first | exact p1.elim | skip
  have hr := (p2 _).2 rfl
  refine ⟨id, hist, _, h1, ?_, hr, ?_⟩
  · rw [h6]
    rw [ofEcu_secMsg] at h3 h4 h5
    split at h3
    · next h =>
      rw [if_pos h] at h4 h5
      cases h3
      have h12 := h5 (secMsg 12) (by decide)
      have hle : ∀ e ∈ jittery.map secMsg, secsOf e ≤ 12 := by decide
      have hb := hle b h4
      have e12 : secsOf (secMsg 12) = 12 := rfl
      have e5 : secsOf (secMsg 5) = 5 := rfl
      have : secsOf b = 12 := by omega
      rw [this, e5]
    · cases h3
  · rw [C132_periods num _ jittery_fits _ jittery_messages _ hr]
    decide

theorem noBridge_two (a b : Nat × Nat) : NoBridge [a, b] := by
  have e : [a, b] = ([] ++ [a]) ++ [b] := rfl
  rw [e, noBridge_snoc, noBridge_snoc]
  refine ⟨⟨noBridge_nil, by simp⟩, fun x hx y hy _ _ => ?_⟩
  simp only [List.nil_append, List.mem_singleton] at hx hy
  subst hx; subst hy
  exact .here (by simp)

/-- **C142** a file on which no run bridges a gap: the messages 5, 9, 1, 2. It shows two periods of 4 and 1 seconds. -/
example (ecu : B4) (runs : List (List StorageEntry))
    (h : MaximalRuns (fun a b => secsOf a ≤ secsOf b) (ofEcu ecu ([5, 9, 1, 2].map secMsg)) runs) :
    NoBridge (runs.map secsPairOf) := by
  rw [runs_eq_runsL (fun a b => decide (secsOf a ≤ secsOf b)) (fun a b => by simp) h, ofEcu_secMsg]
  split
  · have e : (runsL (fun a b => decide (secsOf a ≤ secsOf b)) ([5, 9, 1, 2].map secMsg)).map secsPairOf = [(5, 9), (1, 2)] := by
      decide +kernel
    rw [e]
    exact noBridge_two _ _
  · exact noBridge_nil

/-- **C142** two periods: of the second run, 1 and 2, all seconds are below those before. -/
example (num : Nat) : ∃ id hist, RunCmd num (packed ([5, 9, 1, 2].map secMsg)) .splitTimestamp (.ok (.ecus [(id, hist, 4)])) ∧
    (hist.map (·.2)).sum = 2 := by
  obtain ⟨id, hist, runs, spans, h1, h2, h3⟩ := secMsgs_split num [5, 9, 1, 2] (by decide) (by decide +kernel)
  refine ⟨id, hist, h1, ?_⟩
  obtain ⟨e1, e2⟩ := ecuSpans_eq h2
  have : spans = [(1, 2), (5, 9)] := by rw [e2, e1]; decide +kernel
  rw [hist_total32 h3, this]
  rfl

/-- **C141** at work: the report of `count` on this file is 6 and no other, that of `split_timestamp` has one line. -/
example (num n : Nat) : RunCmd num (packed (jittery.map secMsg)) .count (.ok (.number n)) ↔ n = 6 := by
  rw [C141_exact num _ jittery_fits _ jittery_messages .count rfl]
  exact ⟨fun h => h.2, fun h => ⟨id, h⟩⟩

end Verif
