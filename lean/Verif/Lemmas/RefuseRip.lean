import Verif.Model.RefuseRip
import Verif.Lemmas.Refuse
import Verif.Lemmas.Text

/-! # Lemmas about `println!` on an output that takes only part of what is written, or refuses it -/

set_option linter.unusedSimpArgs false

namespace Verif

open Spec

theorem rawAll_eq (acc : Outlet) (w : StdoutOn) (data : Bytes) : w.rawAll acc data =
    if data = [] then (w, true)
    else match acc w.calls w.sink.length data.length with
      | none => (⟨w.sink, w.buf, w.calls + 1⟩, false)
      | some 0 => (⟨w.sink, w.buf, w.calls + 1⟩, false)
      | some (k + 1) => StdoutOn.rawAll acc ⟨w.sink ++ data.take (k + 1), w.buf, w.calls + 1⟩ (data.drop (k + 1)) := by
  rw [StdoutOn.rawAll]
  by_cases h : data = []
  · rw [dif_pos h, if_pos h]
  · rw [dif_neg h, if_neg h]
    cases acc w.calls w.sink.length data.length with
    | none => rfl
    | some k => cases k <;> rfl

theorem rawAll_spec (acc : Outlet) (w : StdoutOn) (data : Bytes) : (w.rawAll acc data).1.buf = w.buf ∧
    ((w.rawAll acc data).2 = true → (w.rawAll acc data).1.sink = w.sink ++ data) ∧
    ((w.rawAll acc data).2 = false → ∃ p, p <+: data ∧ p.length < data.length ∧ (w.rawAll acc data).1.sink = w.sink ++ p) := by
  induction h : data.length using Nat.strongRecOn generalizing w data with
  | _ m ih =>
    rw [rawAll_eq]
    by_cases hd : data = []
    · rw [if_pos hd, hd]
      exact ⟨rfl, fun _ => (List.append_nil _).symm, fun h => (by cases h)⟩
    · rw [if_neg hd]
      have hp : 0 < data.length := List.length_pos_iff.2 hd
      have base : ∃ p, p <+: data ∧ p.length < m ∧ w.sink = w.sink ++ p := ⟨[], List.nil_prefix, by simp; omega, by simp⟩
      cases hacc : acc w.calls w.sink.length data.length with
      | none => exact ⟨rfl, fun h => (by cases h), fun _ => base⟩
      | some k =>
        cases k with
        | zero => exact ⟨rfl, fun h => (by cases h), fun _ => base⟩
        | succ k =>
          have hlt : (data.drop (k + 1)).length < m := by rw [List.length_drop]; omega
          obtain ⟨h1, h2, h3⟩ := ih _ hlt ⟨w.sink ++ data.take (k + 1), w.buf, w.calls + 1⟩ (data.drop (k + 1)) rfl
          dsimp only
          refine ⟨h1, fun h4 => ?_, fun h4 => ?_⟩
          · rw [h2 h4, List.append_assoc, List.take_append_drop]
          · obtain ⟨p, h5, h6, h7⟩ := h3 h4
            refine ⟨data.take (k + 1) ++ p, ?_, ?_, ?_⟩
            · conv => rhs; rw [← List.take_append_drop (k + 1) data]
              rw [List.prefix_append_right_inj]
              exact h5
            · rw [List.length_append, List.length_take]
              rw [List.length_drop] at h6
              omega
            · rw [h7, List.append_assoc]

/-- What `write_all` does: everything is promised, or part of it has been put out or promised, and not everything has been
put out. -/
def Prints (w : StdoutOn) (data : Bytes) (r : StdoutOn × Bool) : Prop :=
  (r.2 = true → r.1.all = w.all ++ data) ∧
  (r.2 = false → (∃ p, p <+: data ∧ r.1.all = w.all ++ p) ∧ r.1.sink.length < w.all.length + data.length)

theorem prints_of_all {w v : StdoutOn} {data : Bytes} {r : StdoutOn × Bool} (h : w.all = v.all) (hp : Prints w data r) :
    Prints v data r := by
  unfold Prints at *
  rwa [h] at hp

/-- A failing flush. -/
theorem prints_flush {acc : Outlet} {w v : StdoutOn} {data : Bytes} (h : w.flush acc = (v, false)) : Prints w data (v, false) := by
  have h1 := (flushOn_spec acc w).1
  rw [h] at h1
  refine ⟨fun h => (by cases h), fun _ => ⟨⟨[], List.nil_prefix, by rw [List.append_nil]; exact h1⟩, ?_⟩⟩
  have := sink_lt_of_buf h1 (flushOn_false acc w v h)
  dsimp only at this ⊢
  omega

theorem prints_append {w v : StdoutOn} {a b : Bytes} {r : StdoutOn × Bool} (h1 : v.all = w.all ++ a) (h2 : Prints v b r) :
    Prints w (a ++ b) r := by
  obtain ⟨h3, h4⟩ := h2
  rw [h1] at h3 h4
  refine ⟨fun h => by rw [h3 h, List.append_assoc], fun h => ?_⟩
  obtain ⟨⟨p, h5, h6⟩, h7⟩ := h4 h
  refine ⟨⟨a ++ p, (List.prefix_append_right_inj a).2 h5, by rw [h6, List.append_assoc]⟩, ?_⟩
  rw [List.length_append] at h7 ⊢
  omega

theorem prints_weaken {w v : StdoutOn} {a : Bytes} (b : Bytes) (h : Prints w a (v, false)) : Prints w (a ++ b) (v, false) := by
  refine ⟨fun h => (by cases h), fun _ => ?_⟩
  obtain ⟨⟨p, h1, h2⟩, h3⟩ := h.2 rfl
  refine ⟨⟨p, h1.trans (List.prefix_append _ _), h2⟩, ?_⟩
  rw [List.length_append]
  omega

theorem prints_raw (acc : Outlet) (w : StdoutOn) (data : Bytes) (h : w.buf = []) : Prints w data (w.rawAll acc data) ∧
    (w.rawAll acc data).1.buf = [] := by
  obtain ⟨h1, h2, h3⟩ := rawAll_spec acc w data
  have hw : w.all = w.sink := by unfold StdoutOn.all; rw [h, List.append_nil]
  have hr : (w.rawAll acc data).1.all = (w.rawAll acc data).1.sink := by unfold StdoutOn.all; rw [h1, h, List.append_nil]
  refine ⟨⟨fun h => by rw [hr, h2 h, hw], fun h => ?_⟩, by rw [h1, h]⟩
  obtain ⟨p, h4, h5, h6⟩ := h3 h
  refine ⟨⟨p, h4, by rw [hr, h6, hw]⟩, ?_⟩
  rw [h6, hw, List.length_append]
  omega

theorem prints_push (acc : Outlet) (w : StdoutOn) (data : Bytes) (h : LineWriter.capacity ≤ data.length → w.buf = []) :
    Prints w data (w.bufPushAll acc data) := by
  unfold StdoutOn.bufPushAll
  split
  · rename_i hge
    exact (prints_raw acc w data (h hge)).1
  · refine ⟨fun _ => ?_, fun h => (by cases h)⟩
    unfold StdoutOn.all
    dsimp only
    rw [List.append_assoc]

theorem prints_buf (acc : Outlet) (w : StdoutOn) (data : Bytes) : Prints w data (w.bufWriteAll acc data) := by
  unfold StdoutOn.bufWriteAll
  split
  · refine ⟨fun _ => ?_, fun h => (by cases h)⟩
    unfold StdoutOn.all
    dsimp only
    rw [List.append_assoc]
  · split
    · obtain ⟨h1, h2, _⟩ := flushOn_spec acc w
      rcases hf : w.flush acc with ⟨v, b⟩
      rw [hf] at h1 h2
      cases b with
      | false => exact prints_flush hf
      | true => exact prints_of_all h1 (prints_push acc v data (fun _ => h2 rfl))
    · refine prints_push acc w data (fun h => ?_)
      have : LineWriter.capacity = 1024 := rfl
      apply List.eq_nil_of_length_eq_zero
      omega

/-- Buffering nothing in an empty buffer. -/
theorem bufWriteAll_nil (acc : Outlet) (w : StdoutOn) (h : w.buf = []) : w.bufWriteAll acc [] = (w, true) := by
  obtain ⟨s, b, c⟩ := w
  dsimp only at h
  subst h
  unfold StdoutOn.bufWriteAll
  rw [if_pos (by simp [LineWriter.capacity])]
  rfl

theorem getLast?_append_ne {a b : Bytes} (h : b ≠ []) : (a ++ b).getLast? = b.getLast? := by
  rw [List.getLast?_append]
  cases b with
  | nil => exact absurd rfl h
  | cons x xs => rw [List.getLast?_eq_some_getLast (List.cons_ne_nil x xs)]; rfl

/-- The bytes end with a newline. -/
def EndsLine (s : Bytes) : Prop := s.getLast? = some 10

/-- Complete lines do not stay in the buffer. -/
def Flushed (w : StdoutOn) : Prop := w.all = [] ∨ EndsLine w.all → w.buf = []

theorem prints_all (acc : Outlet) (w : StdoutOn) (data : Bytes) (hw : Flushed w) : Prints w data (w.writeAll acc data) ∧
    ((w.writeAll acc data).2 = true → Flushed (w.writeAll acc data).1) := by
  unfold StdoutOn.writeAll
  cases h : rfind [10] data with
  | none =>
    dsimp only
    have h1 := (flushIfOn_spec acc w).1
    rcases hf : w.flushIfCompletedLine acc with ⟨v, b⟩
    rw [hf] at h1
    dsimp only at h1
    cases b with
    | false =>
      dsimp only
      refine ⟨?_, fun h => (by cases h)⟩
      unfold StdoutOn.flushIfCompletedLine at hf
      split at hf
      · exact prints_flush hf
      · cases hf
    | true =>
      dsimp only
      have hp := prints_buf acc v data
      refine ⟨prints_of_all h1 hp, fun hok hend => ?_⟩
      by_cases hd : data = []
      · subst hd
        rw [hp.1 hok, List.append_nil, h1] at hend
        have hb := hw hend
        have hv : v.buf = [] := by
          have := (flushIfOn_spec acc w).2
          rw [hf, hb] at this
          exact List.eq_nil_of_length_eq_zero (by simpa using this)
        rw [bufWriteAll_nil acc v hv]
        exact hv
      · exfalso
        rw [hp.1 hok] at hend
        rcases hend with hend | hend
        · exact hd (List.append_eq_nil_iff.1 hend).2
        · unfold EndsLine at hend
          rw [getLast?_append_ne hd, List.getLast?_eq_getElem?] at hend
          exact rfind_none h _ ((nl_at _ _).2 hend)
  | some i =>
    dsimp only
    obtain ⟨h2, h3⟩ := rfind_some (by decide) h
    have hi : i < data.length := by
      have := h2.length_le
      simp at this
      omega
    have hsplit : data.take (i + 1) ++ data.drop (i + 1) = data := List.take_append_drop _ _
    -- the last step: buffering what is behind the last newline in an empty buffer
    have last : ∀ {v : StdoutOn}, v.all = w.all ++ data.take (i + 1) → v.buf = [] →
        Prints w data (v.bufWriteAll acc (data.drop (i + 1))) ∧
        ((v.bufWriteAll acc (data.drop (i + 1))).2 = true → Flushed (v.bufWriteAll acc (data.drop (i + 1))).1) := by
      intro v hv hb
      have hp := prints_buf acc v (data.drop (i + 1))
      refine ⟨by have := prints_append hv hp; rwa [hsplit] at this, fun hok hend => ?_⟩
      by_cases hd : data.drop (i + 1) = []
      · rw [hd, bufWriteAll_nil acc v hb]
        exact hb
      · exfalso
        rw [hp.1 hok] at hend
        rcases hend with hend | hend
        · exact hd (List.append_eq_nil_iff.1 hend).2
        · unfold EndsLine at hend
          rw [getLast?_append_ne hd, List.getLast?_eq_getElem?, List.getElem?_drop] at hend
          exact h3 _ (by omega) ((nl_at _ _).2 hend)
    by_cases hb : w.buf = []
    · rw [if_pos hb]
      obtain ⟨h4, h5⟩ := prints_raw acc w (data.take (i + 1)) hb
      rcases hr : w.rawAll acc (data.take (i + 1)) with ⟨v, b⟩
      rw [hr] at h4 h5
      cases b with
      | false =>
        dsimp only
        refine ⟨?_, fun h => (by cases h)⟩
        have := prints_weaken (data.drop (i + 1)) h4
        rwa [hsplit] at this
      | true => exact last (h4.1 rfl) h5
    · rw [if_neg hb]
      have h4 := prints_buf acc w (data.take (i + 1))
      rcases hr : w.bufWriteAll acc (data.take (i + 1)) with ⟨v, b⟩
      rw [hr] at h4
      cases b with
      | false =>
        dsimp only
        refine ⟨?_, fun h => (by cases h)⟩
        have := prints_weaken (data.drop (i + 1)) h4
        rwa [hsplit] at this
      | true =>
        dsimp only
        have h5 := h4.1 rfl
        dsimp only at h5
        obtain ⟨h6, h7, _⟩ := flushOn_spec acc v
        rcases hf : v.flush acc with ⟨u, b⟩
        rw [hf] at h6 h7
        cases b with
        | false =>
          dsimp only
          refine ⟨?_, fun h => (by cases h)⟩
          have := prints_append (b := data.drop (i + 1)) h5 (prints_flush hf)
          rwa [hsplit] at this
        | true => exact last (h6.trans h5) (h7 rfl)

theorem prints_pieces (acc : Outlet) : ∀ (ps : List Bytes) (w : StdoutOn), Flushed w →
    Prints w ps.flatten (w.printAll acc ps) ∧ ((w.printAll acc ps).2 = true → Flushed (w.printAll acc ps).1)
  | [], w, hw => ⟨⟨fun _ => (List.append_nil _).symm, fun h => (by cases h)⟩, fun _ => hw⟩
  | p :: ps, w, hw => by
    obtain ⟨h1, h2⟩ := prints_all acc w p hw
    unfold StdoutOn.printAll
    rw [List.flatten_cons]
    rcases hr : w.writeAll acc p with ⟨v, b⟩
    rw [hr] at h1 h2
    cases b with
    | false => exact ⟨prints_weaken _ h1, fun h => (by cases h)⟩
    | true =>
      obtain ⟨h3, h4⟩ := prints_pieces acc ps v (h2 rfl)
      exact ⟨prints_append (h1.1 rfl) h3, h4⟩

/-- Printing complete lines: everything has gone out, or the front of it and there is an error. -/
theorem print_lines (acc : Outlet) (ps : List Bytes) (hend : ps.flatten = [] ∨ EndsLine ps.flatten) :
    ((StdoutOn.empty.printAll acc ps).2 = true → (StdoutOn.empty.printAll acc ps).1.output acc = ps.flatten ∧
      (StdoutOn.empty.printAll acc ps).1.sink = ps.flatten) ∧
    ((StdoutOn.empty.printAll acc ps).2 = false → (StdoutOn.empty.printAll acc ps).1.output acc <+: ps.flatten ∧
      (StdoutOn.empty.printAll acc ps).1.sink.length < ps.flatten.length) := by
  have he : StdoutOn.empty.all = [] := rfl
  obtain ⟨⟨h1, h2⟩, h3⟩ := prints_pieces acc ps .empty (fun _ => rfl)
  generalize StdoutOn.empty.printAll acc ps = r at *
  refine ⟨fun h => ?_, fun h => ?_⟩
  · have h4 := h1 h
    rw [he, List.nil_append] at h4
    have hb := h3 h (by rw [h4]; exact hend)
    have hs : r.1.sink = ps.flatten := by
      rw [← h4]
      unfold StdoutOn.all
      rw [hb, List.append_nil]
    refine ⟨?_, hs⟩
    unfold StdoutOn.output
    rw [flushOn_eq, if_pos hb]
    exact hs
  · obtain ⟨⟨p, h4, h5⟩, h6⟩ := h2 h
    rw [he, List.nil_append] at h5
    refine ⟨(outputOn_prefix acc r.1).trans ?_, by simpa [he] using h6⟩
    rw [h5]
    exact h4

/-! ## Limited room -/

/-- No more than `L` bytes go out, and an error means that it is exactly `L`. -/
def Bounded (L : Nat) (r : StdoutOn × Bool) : Prop := r.1.sink.length ≤ L ∧ (r.2 = false → r.1.sink.length = L)

theorem bounded_ok {L : Nat} {w : StdoutOn} (h : w.sink.length ≤ L) : Bounded L (w, true) := ⟨h, fun h => (by cases h)⟩

theorem bounded_flush {L : Nat} (w : StdoutOn) (h : w.sink.length ≤ L) : Bounded L (w.flush (.upTo L)) := by
  obtain ⟨c, hc⟩ := upTo_flush w h
  rw [hc]
  refine ⟨by simp; omega, fun h1 => ?_⟩
  have h1 := of_decide_eq_false h1
  simp
  omega

theorem bounded_raw {L : Nat} (w : StdoutOn) (data : Bytes) (h : w.sink.length ≤ L) : Bounded L (w.rawAll (.upTo L) data) := by
  induction hm : data.length using Nat.strongRecOn generalizing w data with
  | _ m ih =>
    rw [rawAll_eq]
    by_cases hd : data = []
    · rw [if_pos hd]; exact bounded_ok h
    · rw [if_neg hd]
      have hp : 0 < data.length := List.length_pos_iff.2 hd
      have hacc : Outlet.upTo L w.calls w.sink.length data.length =
        if L ≤ w.sink.length then none else some (min data.length (L - w.sink.length)) := rfl
      by_cases hL : L ≤ w.sink.length
      · rw [hacc, if_pos hL]
        exact ⟨h, fun _ => by dsimp only; omega⟩
      · rw [hacc, if_neg hL]
        obtain ⟨k, hk⟩ := Nat.exists_eq_succ_of_ne_zero (show min data.length (L - w.sink.length) ≠ 0 by omega)
        rw [hk]
        dsimp only
        refine ih (data.drop (k + 1)).length (by rw [List.length_drop]; omega) _ _ ?_ rfl
        rw [List.length_append, List.length_take]
        omega

theorem bounded_buf {L : Nat} (w : StdoutOn) (data : Bytes) (h : w.sink.length ≤ L) : Bounded L (w.bufWriteAll (.upTo L) data) := by
  have push : ∀ v : StdoutOn, v.sink.length ≤ L → Bounded L (v.bufPushAll (.upTo L) data) := by
    intro v hv
    unfold StdoutOn.bufPushAll
    split
    · exact bounded_raw v data hv
    · exact bounded_ok hv
  unfold StdoutOn.bufWriteAll
  split
  · exact bounded_ok h
  · split
    · have hf := bounded_flush w h
      rcases hr : w.flush (.upTo L) with ⟨v, b⟩
      rw [hr] at hf
      cases b with
      | false => exact hf
      | true => exact push v hf.1
    · exact push w h

theorem bounded_all {L : Nat} (w : StdoutOn) (data : Bytes) (h : w.sink.length ≤ L) : Bounded L (w.writeAll (.upTo L) data) := by
  unfold StdoutOn.writeAll
  cases rfind [10] data with
  | none =>
    dsimp only
    have hf : Bounded L (w.flushIfCompletedLine (.upTo L)) := by
      unfold StdoutOn.flushIfCompletedLine
      split
      · exact bounded_flush w h
      · exact bounded_ok h
    rcases hr : w.flushIfCompletedLine (.upTo L) with ⟨v, b⟩
    rw [hr] at hf
    cases b with
    | false => exact hf
    | true => exact bounded_buf v data hf.1
  | some i =>
    dsimp only
    by_cases hb : w.buf = []
    · rw [if_pos hb]
      have hf := bounded_raw w (data.take (i + 1)) h
      rcases hr : w.rawAll (.upTo L) (data.take (i + 1)) with ⟨v, b⟩
      rw [hr] at hf
      cases b with
      | false => exact hf
      | true => exact bounded_buf v _ hf.1
    · rw [if_neg hb]
      have hf := bounded_buf w (data.take (i + 1)) h
      rcases hr : w.bufWriteAll (.upTo L) (data.take (i + 1)) with ⟨v, b⟩
      rw [hr] at hf
      cases b with
      | false => exact hf
      | true =>
        dsimp only
        have hg := bounded_flush v hf.1
        rcases hs : v.flush (.upTo L) with ⟨u, b⟩
        rw [hs] at hg
        cases b with
        | false => exact hg
        | true => exact bounded_buf u _ hg.1

theorem bounded_pieces {L : Nat} : ∀ (ps : List Bytes) (w : StdoutOn), w.sink.length ≤ L → Bounded L (w.printAll (.upTo L) ps)
  | [], w, h => bounded_ok h
  | p :: ps, w, h => by
    unfold StdoutOn.printAll
    have hf := bounded_all w p h
    rcases hr : w.writeAll (.upTo L) p with ⟨v, b⟩
    rw [hr] at hf
    cases b with
    | false => exact hf
    | true => exact bounded_pieces ps v hf.1

end Verif
