import Verif.Model.RefusePar
import Verif.Lemmas.RefuseRip

/-! # Lemmas about threads that print on an output that takes only part of what is written, or refuses it -/

set_option linter.unusedSimpArgs false

namespace Verif

open Spec

/-! ## Printing after an error -/

/-- `prints_all` for any state of the buffer, in particular the one an error leaves. -/
theorem prints_any (acc : Outlet) (w : StdoutOn) (data : Bytes) : Prints w data (w.writeAll acc data) := by
  unfold StdoutOn.writeAll
  cases h : rfind [10] data with
  | none =>
    dsimp only
    have h1 := (flushIfOn_spec acc w).1
    rcases hf : w.flushIfCompletedLine acc with ⟨v, b⟩
    rw [hf] at h1
    dsimp only at h1
    cases b with
    | false =>
      dsimp only
      unfold StdoutOn.flushIfCompletedLine at hf
      split at hf
      · exact prints_flush hf
      · cases hf
    | true => exact prints_of_all h1 (prints_buf acc v data)
  | some i =>
    dsimp only
    have hsplit : data.take (i + 1) ++ data.drop (i + 1) = data := List.take_append_drop _ _
    have last : ∀ {v : StdoutOn}, v.all = w.all ++ data.take (i + 1) → Prints w data (v.bufWriteAll acc (data.drop (i + 1))) := by
      intro v hv
      have := prints_append hv (prints_buf acc v (data.drop (i + 1)))
      rwa [hsplit] at this
    by_cases hb : w.buf = []
    · rw [if_pos hb]
      obtain ⟨h4, -⟩ := prints_raw acc w (data.take (i + 1)) hb
      rcases hr : w.rawAll acc (data.take (i + 1)) with ⟨v, b⟩
      rw [hr] at h4
      cases b with
      | false =>
        have := prints_weaken (data.drop (i + 1)) h4
        rwa [hsplit] at this
      | true => exact last (h4.1 rfl)
    · rw [if_neg hb]
      have h4 := prints_buf acc w (data.take (i + 1))
      rcases hr : w.bufWriteAll acc (data.take (i + 1)) with ⟨v, b⟩
      rw [hr] at h4
      cases b with
      | false =>
        have := prints_weaken (data.drop (i + 1)) h4
        rwa [hsplit] at this
      | true =>
        dsimp only
        have h5 := h4.1 rfl
        dsimp only at h5
        have h6 := (flushOn_spec acc v).1
        rcases hf : v.flush acc with ⟨u, b⟩
        rw [hf] at h6
        cases b with
        | false =>
          have := prints_append (b := data.drop (i + 1)) h5 (prints_flush hf)
          rwa [hsplit] at this
        | true => exact last (h6.trans h5)

theorem prints_list (acc : Outlet) : ∀ (ps : List Bytes) (w : StdoutOn), Prints w ps.flatten (w.printAll acc ps)
  | [], w => ⟨fun _ => (List.append_nil _).symm, fun h => (by cases h)⟩
  | p :: ps, w => by
    have h1 := prints_any acc w p
    unfold StdoutOn.printAll
    rw [List.flatten_cons]
    rcases hr : w.writeAll acc p with ⟨v, b⟩
    rw [hr] at h1
    cases b with
    | false => exact prints_weaken _ h1
    | true => exact prints_append (h1.1 rfl) (prints_list acc ps v)

theorem prints_sublist {w : StdoutOn} {data : Bytes} {r : StdoutOn × Bool} (h : Prints w data r) : r.1.all.Sublist (w.all ++ data) := by
  cases hr : r.2 with
  | true => rw [h.1 hr]; exact List.Sublist.refl _
  | false =>
    obtain ⟨⟨p, h1, h2⟩, -⟩ := h.2 hr
    rw [h2]
    exact (List.Sublist.refl _).append h1.sublist

/-- What threads put out or promise is part of what they try to. -/
theorem try_sublist (acc : Outlet) : ∀ (ls : List (List Bytes)) (w : StdoutOn),
    (w.tryLines acc ls).1.all.Sublist (w.all ++ ls.flatten.flatten)
  | [], w => by simp [StdoutOn.tryLines]
  | l :: ls, w => by
    unfold StdoutOn.tryLines
    have h1 := prints_sublist (prints_list acc l w)
    have h2 := try_sublist acc ls (w.printAll acc l).1
    rw [List.flatten_cons, List.flatten_append, ← List.append_assoc]
    exact h2.trans (h1.append (List.Sublist.refl _))

theorem printAll_append (acc : Outlet) : ∀ (a b : List Bytes) (w : StdoutOn), w.printAll acc (a ++ b) =
    if (w.printAll acc a).2 = true then (w.printAll acc a).1.printAll acc b else w.printAll acc a
  | [], b, w => by simp [StdoutOn.printAll]
  | p :: a, b, w => by
    have e : ∀ (x : List Bytes), w.printAll acc (p :: x) =
      match w.writeAll acc p with | (w, false) => (w, false) | (w, true) => w.printAll acc x := fun _ => rfl
    rw [List.cons_append, e, e]
    rcases hr : w.writeAll acc p with ⟨v, c⟩
    cases c with
    | false => rfl
    | true => exact printAll_append acc a b v

/-- Threads none of whose lines is refused print like one. -/
theorem try_ok (acc : Outlet) : ∀ (ls : List (List Bytes)) (w : StdoutOn), (w.tryLines acc ls).2 = true →
    w.printAll acc ls.flatten = w.tryLines acc ls
  | [], w, _ => rfl
  | l :: ls, w, h => by
    unfold StdoutOn.tryLines at h
    dsimp only at h
    rw [Bool.and_eq_true] at h
    have e : w.tryLines acc (l :: ls) = (((w.printAll acc l).1.tryLines acc ls).1,
      (w.printAll acc l).2 && ((w.printAll acc l).1.tryLines acc ls).2) := rfl
    rw [List.flatten_cons, printAll_append, if_pos h.1, try_ok acc ls _ h.2, e, h.1, h.2]
    exact Prod.ext rfl h.2

/-! ## What has gone out stays out -/

theorem ext_raw (acc : Outlet) (w : StdoutOn) (data : Bytes) : w.sink <+: (w.rawAll acc data).1.sink := by
  obtain ⟨-, h2, h3⟩ := rawAll_spec acc w data
  cases hr : (w.rawAll acc data).2 with
  | true => rw [h2 hr]; exact List.prefix_append _ _
  | false =>
    obtain ⟨p, -, -, h4⟩ := h3 hr
    rw [h4]; exact List.prefix_append _ _

theorem ext_buf (acc : Outlet) (w : StdoutOn) (data : Bytes) : w.sink <+: (w.bufWriteAll acc data).1.sink := by
  have push : ∀ v : StdoutOn, v.sink <+: (v.bufPushAll acc data).1.sink := by
    intro v
    unfold StdoutOn.bufPushAll
    split
    · exact ext_raw acc v data
    · exact List.prefix_refl _
  unfold StdoutOn.bufWriteAll
  split
  · exact List.prefix_refl _
  · split
    · have hf := (flushOn_spec acc w).2.2.1
      rcases hr : w.flush acc with ⟨v, b⟩
      rw [hr] at hf
      cases b with
      | false => exact hf
      | true => exact hf.trans (push v)
    · exact push w

theorem ext_all (acc : Outlet) (w : StdoutOn) (data : Bytes) : w.sink <+: (w.writeAll acc data).1.sink := by
  unfold StdoutOn.writeAll
  cases rfind [10] data with
  | none =>
    dsimp only
    have hf : w.sink <+: (w.flushIfCompletedLine acc).1.sink := by
      unfold StdoutOn.flushIfCompletedLine
      split
      · exact (flushOn_spec acc w).2.2.1
      · exact List.prefix_refl _
    rcases hr : w.flushIfCompletedLine acc with ⟨v, b⟩
    rw [hr] at hf
    cases b with
    | false => exact hf
    | true => exact hf.trans (ext_buf acc v data)
  | some i =>
    dsimp only
    by_cases hb : w.buf = []
    · rw [if_pos hb]
      have hf := ext_raw acc w (data.take (i + 1))
      rcases hr : w.rawAll acc (data.take (i + 1)) with ⟨v, b⟩
      rw [hr] at hf
      cases b with
      | false => exact hf
      | true => exact hf.trans (ext_buf acc v _)
    · rw [if_neg hb]
      have hf := ext_buf acc w (data.take (i + 1))
      rcases hr : w.bufWriteAll acc (data.take (i + 1)) with ⟨v, b⟩
      rw [hr] at hf
      cases b with
      | false => exact hf
      | true =>
        dsimp only
        have hg := (flushOn_spec acc v).2.2.1
        rcases hs : v.flush acc with ⟨u, b⟩
        rw [hs] at hg
        cases b with
        | false => exact hf.trans hg
        | true => exact hf.trans (hg.trans (ext_buf acc u _))

theorem ext_list (acc : Outlet) : ∀ (ps : List Bytes) (w : StdoutOn), w.sink <+: (w.printAll acc ps).1.sink
  | [], w => List.prefix_refl _
  | p :: ps, w => by
    unfold StdoutOn.printAll
    have hf := ext_all acc w p
    rcases hr : w.writeAll acc p with ⟨v, b⟩
    rw [hr] at hf
    cases b with
    | false => exact hf
    | true => exact hf.trans (ext_list acc ps v)

theorem ext_try (acc : Outlet) : ∀ (ls : List (List Bytes)) (w : StdoutOn), w.sink <+: (w.tryLines acc ls).1.sink
  | [], w => List.prefix_refl _
  | l :: ls, w => by
    unfold StdoutOn.tryLines
    exact (ext_list acc l w).trans (ext_try acc ls _)

/-! ## Limited room -/

theorem try_bound {L : Nat} : ∀ (ls : List (List Bytes)) (w : StdoutOn), w.sink.length ≤ L → (w.tryLines (.upTo L) ls).1.sink.length ≤ L
  | [], w, h => h
  | l :: ls, w, h => by
    unfold StdoutOn.tryLines
    exact try_bound ls _ (bounded_pieces l w h).1

/-- With limited room, nothing goes out any more after the first line that is refused. -/
theorem try_refused {L : Nat} : ∀ (ls : List (List Bytes)) (w : StdoutOn), w.sink.length ≤ L → (w.tryLines (.upTo L) ls).2 = false →
    ∃ ps qs, ls.flatten = ps ++ qs ∧ (w.printAll (.upTo L) ps).2 = false ∧
      (w.tryLines (.upTo L) ls).1.sink = (w.printAll (.upTo L) ps).1.sink
  | [], w, _, h => by cases h
  | l :: ls, w, hL, h => by
    unfold StdoutOn.tryLines at h ⊢
    dsimp only at h ⊢
    have hb := bounded_pieces l w hL
    cases hr : (w.printAll (.upTo L) l).2 with
    | false =>
      refine ⟨l, ls.flatten, List.flatten_cons, hr, ?_⟩
      have h1 := hb.2 hr
      have h2 := try_bound ls _ hb.1
      have h3 := ext_try (.upTo L) ls (w.printAll (.upTo L) l).1
      exact (h3.eq_of_length (by have := h3.length_le; omega)).symm
    | true =>
      rw [hr, Bool.true_and] at h
      obtain ⟨ps, qs, h1, h2, h3⟩ := try_refused ls _ hb.1 h
      refine ⟨l ++ ps, qs, by rw [List.flatten_cons, h1, List.append_assoc], ?_⟩
      rw [printAll_append, if_pos hr]
      exact ⟨h2, h3⟩

theorem full_output_sink {L : Nat} {w : StdoutOn} (h : w.sink.length = L) : w.output (.upTo L) = w.sink := by
  obtain ⟨c, hc⟩ := upTo_flush w (Nat.le_of_eq h)
  unfold StdoutOn.output
  rw [hc, h]
  simp

/-- Complete lines with room for `L` bytes: the first `L` bytes come out; `false` exactly if there are more. -/
theorem print_limited (L : Nat) (ps : List Bytes) (hend : ps.flatten = [] ∨ EndsLine ps.flatten) :
    (StdoutOn.empty.printAll (.upTo L) ps).1.output (.upTo L) = ps.flatten.take L ∧
    ((StdoutOn.empty.printAll (.upTo L) ps).2 = false ↔ L < ps.flatten.length) := by
  obtain ⟨h2, h3⟩ := print_lines (.upTo L) ps hend
  have hb := bounded_pieces ps .empty (L := L) (Nat.zero_le _)
  cases hp : (StdoutOn.empty.printAll (.upTo L) ps).2 with
  | true =>
    obtain ⟨h4, h5⟩ := h2 hp
    have h6 := hb.1
    rw [h5] at h6
    rw [h4, List.take_of_length_le h6]
    exact ⟨rfl, fun h => (by cases h), fun h => by omega⟩
  | false =>
    obtain ⟨h4, h5⟩ := h3 hp
    have h6 := hb.2 hp
    refine ⟨?_, fun _ => by omega, fun _ => rfl⟩
    rw [full_output_sink h6] at h4 ⊢
    rw [List.prefix_iff_eq_take.1 h4, h6]

/-- `print_limited` for any bytes, if not all of them have room. -/
theorem print_refused (L : Nat) (ps : List Bytes) (h : (StdoutOn.empty.printAll (.upTo L) ps).2 = false) :
    (StdoutOn.empty.printAll (.upTo L) ps).1.sink = ps.flatten.take L ∧ L < ps.flatten.length ∧
    (StdoutOn.empty.printAll (.upTo L) ps).1.sink.length = L := by
  have hb := bounded_pieces ps .empty (L := L) (Nat.zero_le _)
  have h6 := hb.2 h
  have he : StdoutOn.empty.all = [] := rfl
  obtain ⟨⟨p, h4, h5⟩, h7⟩ := (prints_list (.upTo L) ps .empty).2 h
  rw [he] at h5 h7
  rw [List.nil_append] at h5
  have h8 : (StdoutOn.empty.printAll (.upTo L) ps).1.sink <+: ps.flatten :=
    (List.prefix_append _ _).trans (by rw [show (_ ++ _ : Bytes) = _ from h5]; exact h4)
  refine ⟨by rw [List.prefix_iff_eq_take.1 h8, h6], by simpa [h6] using h7, h6⟩

/-! ## Lists -/

theorem sublist_rest {α : Type} {a b : List α} (h : a.Sublist b) : ∃ c, b.Perm (a ++ c) := by
  induction h with
  | slnil => exact ⟨[], .refl _⟩
  | cons x _ ih =>
    obtain ⟨c, hc⟩ := ih
    exact ⟨x :: c, (hc.cons x).trans (List.perm_middle.symm)⟩
  | cons_cons x _ ih =>
    obtain ⟨c, hc⟩ := ih
    exact ⟨c, hc.cons x⟩

end Verif
