import Verif.Props.Concat
import Verif.Props.Footprint
import Verif.Props.Grep
import Verif.Props.Search
import Verif.Props.Generic
import Verif.Props.Truncate

/-!
# C117: messages copied into a new file

The iterators yield each message with its offset, and `len()` is its size: a program can copy the messages it wants, byte
for byte, into a new file.
-/

set_option linter.unusedSimpArgs false

namespace Verif

namespace Spec

/-- The file written by copying `bytes[offset .. offset + len]` for each of the messages, one after the other. -/
def extract (bytes : Bytes) (items : List (Nat × StorageEntry)) : Bytes :=
  (items.map fun x => (bytes.take (x.1 + x.2.len)).drop x.1).flatten

end Spec

open Spec

/-- The bytes copied are those of the message. -/
theorem copied_bytes {bytes : Bytes} {i : Nat} {e : StorageEntry} (h : MsgAt bytes i e) :
    (bytes.take (i + e.len)).drop i = encode e := by
  obtain ⟨hwf, pre, post, rfl, rfl⟩ := h
  have h1 : e.len = (encode e).length := (encode_len e hwf).symm
  rw [List.append_assoc, List.take_length_add_append, List.drop_left, h1, List.take_left]

theorem extract_eq {bytes : Bytes} : ∀ {items : List (Nat × StorageEntry)}, (∀ x ∈ items, MsgAt bytes x.1 x.2) →
    extract bytes items = fileOf (items.map fun x => ([], x.2)) []
  | [], _ => rfl
  | x :: items, h => by
    have h1 := copied_bytes (h x List.mem_cons_self)
    have h2 := extract_eq (items := items) fun y hy => h y (List.mem_cons_of_mem _ hy)
    unfold extract fileOf at *
    simp only [List.map_cons, List.flatten_cons, List.append_nil, List.nil_append] at *
    rw [h1, h2]

theorem messagesAt_bare : ∀ (es : List StorageEntry) (o : Nat), (∀ e ∈ es, WF e) →
    messagesAt o (es.map fun e => ([], e)) = backToBack StorageEntry.len o es
  | [], _, _ => rfl
  | e :: es, o, h => by
    have h1 : e.len = (encode e).length := (encode_len e (h e List.mem_cons_self)).symm
    simp only [List.map_cons, messagesAt, backToBack, List.length_nil, Nat.add_zero]
    rw [← h1, messagesAt_bare es _ fun y hy => h y (List.mem_cons_of_mem _ hy)]

/-- **C117** any messages of a file, copied in any order, once or several times, into a new file: `dltit` reads back
exactly these messages in this order, one directly behind the other, to the end of the new file. -/
theorem C117_extract (bytes : Bytes) (items : List (Nat × StorageEntry)) (h : ∀ x ∈ items, MsgAt bytes x.1 x.2)
    (hF : Fits (extract bytes items)) :
    Collects (dltitOffsetNext (extract bytes items)) 0 (backToBack StorageEntry.len 0 (items.map (·.2))) ∧
    Collects (dltitNext (extract bytes items)) 0 (items.map (·.2)) ∧
    Collects (searchNext dltStorage (extract bytes items)) 0 (backToBack StorageEntry.len 0 (items.map (·.2))) ∧
    ReadToEnd (extract bytes items) := by
  have hwf : ∀ e ∈ items.map (·.2), WF e := by
    intro e he
    obtain ⟨x, hx, rfl⟩ := List.mem_map.1 he
    exact (h x hx).1
  have heq := extract_eq h
  have hmap : (items.map fun x => (([] : Bytes), x.2)) = (items.map (·.2)).map fun e => ([], e) := by
    rw [List.map_map]; rfl
  have hc : Clean (items.map fun x => (([] : Bytes), x.2)) [] := by
    refine ⟨?_, by decide⟩
    intro s hs
    obtain ⟨x, hx, rfl⟩ := List.mem_map.1 hs
    exact ⟨(by decide : ¬ dltMarker <:+: []), (h x hx).1⟩
  rw [heq] at hF ⊢
  have h1 := C14_dltit_round_trip _ [] hc hF
  have h2 : messagesAt 0 (items.map fun x => (([] : Bytes), x.2)) = backToBack StorageEntry.len 0 (items.map (·.2)) := by
    rw [hmap, messagesAt_bare _ _ hwf]
  have hend := endOf_messagesAt (items.map fun x => (([] : Bytes), x.2)) 0 fun s hs => (hc.1 s hs).2
  rw [h2] at h1 hend
  refine ⟨h1.1, ?_, ?_, _, h1.1, ?_⟩
  · have := h1.2
    rwa [List.map_map] at this
  · rw [← h2]
    exact (C18_search_generic dltStorage dlt_lawful (by decide) _ hF 0 (Nat.zero_le _) _).2 (greedy_fileOf _ _ hc)
  · rw [Nat.zero_add] at hend; exact hend

/-- **C117** the messages any of the iterators yields, started at any offset in the file, can be copied. -/
theorem C117_iterators (bytes : Bytes) (hF : Fits bytes) (o : Nat) (ho : o ≤ bytes.length) (xs : List (Nat × StorageEntry))
    (h : Collects (dltitOffsetNext bytes) o xs ∨ Collects (searchNext dltStorage bytes) o xs ∨
      Collects (revNext dltStorage bytes) o xs ∨ ∃ re, CollectsD (dltGrepNext re bytes) o xs) :
    ∀ x ∈ xs, MsgAt bytes x.1 x.2 := by
  intro x hx
  rcases h with h | h | h | ⟨re, fuel, h⟩
  · exact readableAt_iff_msgAt.1 (((C85_reader dltStorage dlt_lawful (by decide) bytes hF o ho xs).1 h).readable x hx)
  · exact readableAt_iff_msgAt.1 (((C85_search dltStorage dlt_lawful (by decide) bytes hF o ho xs).1 h).readable x hx).1
  · exact readableAt_iff_msgAt.1 (((C85_rev_search dltStorage dlt_lawful bytes hF o ho xs).1 h).2 x |>.1 hx).1
  · clear ho
    induction fuel generalizing o xs with
    | zero => cases h
    | succ n ih =>
      unfold collectDN at h
      have hs := C23_grep_sound re bytes hF o
      rcases hn : dltGrepNext re bytes o with _ | (⟨_ | ⟨i, e⟩, o'⟩ | _)
      · rw [hn] at h; cases h
      · rw [hn] at h; cases h; cases hx
      · rw [hn] at h
        dsimp only at h
        rcases hc : collectDN (dltGrepNext re bytes) n o' with _ | (ys | _)
        · rw [hc] at h; cases h
        · rw [hc] at h
          cases h
          rcases List.mem_cons.1 hx with rfl | hx
          · exact (hs.2 i e o' hn).1
          · exact ih o' ys hx hc
        · rw [hc] at h; cases h
      · rw [hn] at h; cases h

theorem extract_length_le {bytes : Bytes} {s : Nat} {items : List (Nat × StorageEntry)} (h : Scan dltStorage bytes s items)
    (hs : s ≤ bytes.length) : (extract bytes items).length ≤ bytes.length - s := by
  induction h with
  | done | bad => exact Nat.zero_le _
  | msg s i v rest hf hr _ ih =>
    have h1 := hr.bounds dlt_lawful.toReads
    have h2 := ih h1.2
    have h3 := hf.1
    rw [dltStorage_len] at h1 h2
    have h4 : (extract bytes ((i, v) :: rest)).length = v.len + (extract bytes rest).length := by
      unfold extract
      simp only [List.map_cons, List.flatten_cons, List.length_append, List.length_drop, List.length_take]
      omega
    rw [h4]; omega

/-- **C117** copying those messages of a log that satisfy any condition (all of them, those of one ECU, those found to
contain a text, ...): the new log is not longer, and its messages are exactly these; so each command that reports on
messages prints for it what it prints for any other log with these messages. -/
theorem C117_select (bytes : Bytes) (hF : Fits bytes) (items : List (Nat × StorageEntry))
    (h : Collects (dltitOffsetNext bytes) 0 items) (p : StorageEntry → Bool) :
    let new := extract bytes (items.filter fun x => p x.2)
    new.length ≤ bytes.length ∧ Collects (dltitNext new) 0 ((items.map (·.2)).filter p) ∧
    (∀ (c : Cmd), perMessage c = true → ∀ (b : Bytes), Fits b → Collects (dltitNext b) 0 ((items.map (·.2)).filter p) →
      ∀ num, (∀ r, RunCmd num new c r ↔ RunCmd num b c r) ∧ ∀ out, CmdText num new c out ↔ CmdText num b c out) := by
  intro new
  have hs := dltit_scan hF h
  have hall := C12_dltit_sound bytes hF items h
  have hle : new.length ≤ bytes.length := by
    have h1 := extract_length_le hs (Nat.zero_le _)
    have h2 : ∀ l : List (Nat × StorageEntry), (extract bytes (l.filter fun x => p x.2)).length ≤ (extract bytes l).length := by
      intro l
      unfold extract
      rw [List.length_flatten, List.length_flatten, List.map_map, List.map_map]
      induction l with
      | nil => exact Nat.le_refl _
      | cons x l ih =>
        rw [List.filter_cons]
        split
        · simp only [List.map_cons, List.sum_cons]; omega
        · simp only [List.map_cons, List.sum_cons]; omega
    exact Nat.le_trans (h2 items) h1
  have hF' : Fits new := by have := fits_le hF; unfold Fits; omega
  have hsel : ∀ x ∈ items.filter (fun x => p x.2), MsgAt bytes x.1 x.2 := fun x hx => hall x (List.mem_filter.1 hx).1
  have h1 := (C117_extract bytes _ hsel hF').2.1
  have h2 : (items.filter fun x => p x.2).map (·.2) = (items.map (·.2)).filter p := by
    rw [List.filter_map]; rfl
  rw [h2] at h1
  refine ⟨hle, h1, fun c hc b hb hbm num => ?_⟩
  have key : ∀ (d : Bytes) (hd : Fits d) (ms : List StorageEntry), Collects (dltitNext d) 0 ms → Messages d ms := by
    intro d hd ms hm
    obtain ⟨its, h3, h4, _⟩ := C11_dltit_terminates d hd
    rw [hm.unique h4]
    exact ⟨its, dltit_scan hd h3, rfl⟩
  exact C93_only_messages c hc _ b hF' hb _ (key _ hF' _ h1) (key _ hb _ hbm) num

/-- **C117** copying all messages cleans a log: the per-message commands print the same for the copy, and copying the
copy changes nothing any more. -/
theorem C117_clean (bytes : Bytes) (hF : Fits bytes) (items : List (Nat × StorageEntry))
    (h : Collects (dltitOffsetNext bytes) 0 items) :
    (∀ c, perMessage c = true → ∀ num, (∀ r, RunCmd num (extract bytes items) c r ↔ RunCmd num bytes c r) ∧
      ∀ out, CmdText num (extract bytes items) c out ↔ CmdText num bytes c out) ∧
    ∀ again, Collects (dltitOffsetNext (extract bytes items)) 0 again → extract (extract bytes items) again = extract bytes items := by
  have hall := C12_dltit_sound bytes hF items h
  have hlen := extract_length_le (dltit_scan hF h) (Nat.zero_le _)
  have hF' : Fits (extract bytes items) := by have := fits_le hF; unfold Fits; omega
  have hf : items.filter (fun _ => true) = items := List.filter_eq_self.2 fun _ _ => rfl
  constructor
  · intro c hc num
    have := (C117_select bytes hF items h fun _ => true).2.2 c hc bytes hF (by
      rw [List.filter_eq_self.2 fun _ _ => rfl]; exact collects_noOffset h) num
    simp only [hf] at this
    exact this
  · intro again hg
    have h1 := (C117_extract bytes items hall hF').1
    obtain rfl := hg.unique h1
    have hm := C12_dltit_sound _ hF' _ h1
    rw [extract_eq hm, extract_eq hall]
    have : ∀ (es : List StorageEntry) (o : Nat), (backToBack StorageEntry.len o es).map (·.2) = es := by
      intro es
      induction es with
      | nil => exact fun _ => rfl
      | cons e es ih => intro o; simp only [backToBack, List.map_cons, ih]
    have h3 : ∀ l : List (Nat × StorageEntry), (l.map fun x => (([] : Bytes), x.2)) = (l.map (·.2)).map fun e => ([], e) := by
      intro l; rw [List.map_map]; rfl
    rw [h3, h3, this]

/-- Two messages of a log with garbage, in the other order, the second twice. -/
example : let file := fileOf [([9], msg0), ([7, 68], msgNested1), ([1, 2], msg1)] [5]
    Collects (dltitOffsetNext file) 0 [(1, msg0), (23, msgNested1), (66, msg1)] ∧
    Collects (dltitNext (extract file [(66, msg1), (1, msg0), (66, msg1)])) 0 [msg1, msg0, msg1] ∧
    (extract file [(66, msg1), (1, msg0), (66, msg1)]).length = 2 * (encode msg1).length + 20 :=
  ⟨⟨4, by decide +kernel⟩, ⟨4, by decide +kernel⟩, by decide +kernel⟩

end Verif
