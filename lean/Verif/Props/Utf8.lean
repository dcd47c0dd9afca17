import Verif.Props.Payload

/-! # C56: printing ECU ids -/

set_option linter.unusedSimpArgs false

namespace Verif

open Spec

theorem isCont_iff (b : UInt8) : isCont b = true ↔ 128 ≤ b.toNat ∧ b.toNat ≤ 191 := by
  simp only [isCont, Bool.and_eq_true, decide_eq_true_eq, UInt8.le_iff_toNat_le]
  exact Iff.rfl

theorem u8_eq_iff (a : UInt8) (n : UInt8) : (a == n) = true ↔ a.toNat = n.toNat := by
  rw [beq_iff_eq, UInt8.toNat_inj]

theorem u8_le_iff (a b : UInt8) : decide (a ≤ b) = true ↔ a.toNat ≤ b.toNat := by
  rw [decide_eq_true_eq, UInt8.le_iff_toNat_le]

theorem utf8Valid_sound : ∀ (n : Nat) (bs : Bytes), bs.length ≤ n → utf8Valid bs = true → Utf8 bs
  | _, [], _, _ => .nil
  | 0, _ :: _, hn, _ => by simp at hn
  | n + 1, a :: rest, hn, h => by
    rw [utf8Valid.eq_def] at h
    simp only at h
    have hlt := a.toNat_lt
    split at h
    · rename_i ha
      rw [UInt8.lt_iff_toNat_lt] at ha
      have ha' : a.toNat < 128 := ha
      exact .one a.toNat (by omega) rfl (utf8Valid_sound n rest (by simp at hn; omega) h)
    · rename_i ha
      rw [UInt8.lt_iff_toNat_lt] at ha
      have ha' : ¬ a.toNat < 128 := ha
      clear ha
      match rest, hn, h with
      | [], _, h => cases h
      | b :: rest, hn, h =>
        have hb := b.toNat_lt
        simp only at h
        split at h
        · rename_i hc
          rw [Bool.and_eq_true, u8_le_iff, u8_le_iff] at hc
          rw [Bool.and_eq_true, isCont_iff] at h
          have h1 : 194 ≤ a.toNat := hc.1
          have h2 : a.toNat ≤ 223 := hc.2
          obtain ⟨⟨h3, h4⟩, h5⟩ := h
          exact .two ((a.toNat - 192) * 64 + (b.toNat - 128)) (by omega) (by omega) (by omega) (by omega)
            (utf8Valid_sound n rest (by simp at hn; omega) h5)
        · rename_i hc
          rw [Bool.and_eq_true, u8_le_iff, u8_le_iff] at hc
          have hc' : ¬ (194 ≤ a.toNat ∧ a.toNat ≤ 223) := hc
          clear hc
          match rest, hn, h with
          | [], _, h => cases h
          | c :: rest, hn, h =>
            have hcl := c.toNat_lt
            simp only at h
            split at h
            · rename_i he
              rw [u8_eq_iff] at he
              have he' : a.toNat = 224 := he
              rw [Bool.and_eq_true, Bool.and_eq_true, Bool.and_eq_true, isCont_iff, u8_le_iff, u8_le_iff] at h
              obtain ⟨⟨⟨h1, h2⟩, h3, h4⟩, h5⟩ := h
              have h1' : 160 ≤ b.toNat := h1
              have h2' : b.toNat ≤ 191 := h2
              exact .three ((a.toNat - 224) * 4096 + (b.toNat - 128) * 64 + (c.toNat - 128)) (by omega) (by omega)
                (by omega) (by omega) (by omega) (by omega) (utf8Valid_sound n rest (by simp at hn; omega) h5)
            · split at h
              · rename_i he
                rw [u8_eq_iff] at he
                have he' : a.toNat = 237 := he
                rw [Bool.and_eq_true, Bool.and_eq_true, Bool.and_eq_true, isCont_iff, u8_le_iff, u8_le_iff] at h
                obtain ⟨⟨⟨h1, h2⟩, h3, h4⟩, h5⟩ := h
                have h1' : 128 ≤ b.toNat := h1
                have h2' : b.toNat ≤ 159 := h2
                exact .three ((a.toNat - 224) * 4096 + (b.toNat - 128) * 64 + (c.toNat - 128)) (by omega) (by omega)
                  (by omega) (by omega) (by omega) (by omega) (utf8Valid_sound n rest (by simp at hn; omega) h5)
              · rename_i hn1 hn2
                rw [u8_eq_iff] at hn1 hn2
                have hn1' : ¬ a.toNat = 224 := hn1
                have hn2' : ¬ a.toNat = 237 := hn2
                clear hn1 hn2
                split at h
                · rename_i he
                  rw [Bool.and_eq_true, u8_le_iff, u8_le_iff] at he
                  have he1 : 225 ≤ a.toNat := he.1
                  have he2 : a.toNat ≤ 239 := he.2
                  rw [Bool.and_eq_true, Bool.and_eq_true, isCont_iff, isCont_iff] at h
                  obtain ⟨⟨⟨h1, h2⟩, h3, h4⟩, h5⟩ := h
                  exact .three ((a.toNat - 224) * 4096 + (b.toNat - 128) * 64 + (c.toNat - 128)) (by omega) (by omega)
                    (by omega) (by omega) (by omega) (by omega) (utf8Valid_sound n rest (by simp at hn; omega) h5)
                · match rest, hn, h with
                  | [], _, h => cases h
                  | d :: rest, hn, h =>
                    have hdl := d.toNat_lt
                    simp only at h
                    split at h
                    · rename_i he
                      rw [u8_eq_iff] at he
                      have he' : a.toNat = 240 := he
                      rw [Bool.and_eq_true, Bool.and_eq_true, Bool.and_eq_true, Bool.and_eq_true, isCont_iff,
                        isCont_iff, u8_le_iff, u8_le_iff] at h
                      obtain ⟨⟨⟨⟨h1, h2⟩, h3, h4⟩, h6, h7⟩, h5⟩ := h
                      have h1' : 144 ≤ b.toNat := h1
                      have h2' : b.toNat ≤ 191 := h2
                      exact .four ((a.toNat - 240) * 262144 + (b.toNat - 128) * 4096 + (c.toNat - 128) * 64 +
                        (d.toNat - 128)) (by omega) (by omega) (by omega) (by omega) (by omega) (by omega)
                        (utf8Valid_sound n rest (by simp at hn; omega) h5)
                    · split at h
                      · rename_i he
                        rw [u8_eq_iff] at he
                        have he' : a.toNat = 244 := he
                        rw [Bool.and_eq_true, Bool.and_eq_true, Bool.and_eq_true, Bool.and_eq_true, isCont_iff,
                          isCont_iff, u8_le_iff, u8_le_iff] at h
                        obtain ⟨⟨⟨⟨h1, h2⟩, h3, h4⟩, h6, h7⟩, h5⟩ := h
                        have h1' : 128 ≤ b.toNat := h1
                        have h2' : b.toNat ≤ 143 := h2
                        exact .four ((a.toNat - 240) * 262144 + (b.toNat - 128) * 4096 + (c.toNat - 128) * 64 +
                          (d.toNat - 128)) (by omega) (by omega) (by omega) (by omega) (by omega) (by omega)
                          (utf8Valid_sound n rest (by simp at hn; omega) h5)
                      · split at h
                        · rename_i he
                          rw [Bool.and_eq_true, u8_le_iff, u8_le_iff] at he
                          have he1 : 241 ≤ a.toNat := he.1
                          have he2 : a.toNat ≤ 243 := he.2
                          rw [Bool.and_eq_true, Bool.and_eq_true, Bool.and_eq_true, isCont_iff, isCont_iff,
                            isCont_iff] at h
                          obtain ⟨⟨⟨⟨h1, h2⟩, h3, h4⟩, h6, h7⟩, h5⟩ := h
                          exact .four ((a.toNat - 240) * 262144 + (b.toNat - 128) * 4096 + (c.toNat - 128) * 64 +
                            (d.toNat - 128)) (by omega) (by omega) (by omega) (by omega) (by omega) (by omega)
                            (utf8Valid_sound n rest (by simp at hn; omega) h5)
                        · cases h

theorem Spec.Utf8.valid {bs : Bytes} (h : Utf8 bs) : utf8Valid bs = true := by
  have lt80 : ∀ a : UInt8, a < 128 ↔ a.toNat < 128 := fun a => by rw [UInt8.lt_iff_toNat_lt]; exact Iff.rfl
  have le8 : ∀ (a : UInt8) (n : UInt8), (a ≤ n) ↔ a.toNat ≤ n.toNat := fun a n => by rw [UInt8.le_iff_toNat_le]
  induction h with
  | nil => rw [utf8Valid]
  | one c h1 h2 _ ih =>
    rw [utf8Valid.eq_def]
    simp only
    rw [if_pos ((lt80 _).2 (by omega)), ih]
  | @two a b rest c h1 h2 h3 h4 _ ih =>
    have c194 : (0xC2 : UInt8).toNat = 194 := rfl
    have c223 : (0xDF : UInt8).toNat = 223 := rfl
    rw [utf8Valid.eq_def]
    simp only
    rw [if_neg (fun h => by have := (lt80 a).1 h; omega), if_pos, ih, (isCont_iff b).2 ⟨by omega, by omega⟩]
    · rfl
    · rw [Bool.and_eq_true, u8_le_iff, u8_le_iff, c194, c223]; omega
  | @three a b d rest c h1 h2 h3 h4 h5 h6 _ ih =>
    have c194 : (0xC2 : UInt8).toNat = 194 := rfl
    have c223 : (0xDF : UInt8).toNat = 223 := rfl
    have c224 : (0xE0 : UInt8).toNat = 224 := rfl
    have c225 : (0xE1 : UInt8).toNat = 225 := rfl
    have c239 : (0xEF : UInt8).toNat = 239 := rfl
    have c237 : (0xED : UInt8).toNat = 237 := rfl
    have c160 : (0xA0 : UInt8).toNat = 160 := rfl
    have c191 : (0xBF : UInt8).toNat = 191 := rfl
    have c128 : (0x80 : UInt8).toNat = 128 := rfl
    have c159 : (0x9F : UInt8).toNat = 159 := rfl
    have hb := (isCont_iff b).2 ⟨by omega, by omega⟩
    have hd := (isCont_iff d).2 ⟨by omega, by omega⟩
    rw [utf8Valid.eq_def]
    simp only
    rw [if_neg (fun h => by have := (lt80 a).1 h; omega), if_neg, ih, hb, hd]
    · split
      · rename_i he
        rw [u8_eq_iff, c224] at he
        rw [Bool.and_eq_true, Bool.and_eq_true, Bool.and_eq_true, u8_le_iff, u8_le_iff, c160, c191]
        exact ⟨⟨⟨by omega, by omega⟩, rfl⟩, rfl⟩
      · split
        · rename_i he
          rw [u8_eq_iff, c237] at he
          rw [Bool.and_eq_true, Bool.and_eq_true, Bool.and_eq_true, u8_le_iff, u8_le_iff, c128, c159]
          exact ⟨⟨⟨by omega, by omega⟩, rfl⟩, rfl⟩
        · rename_i hn1 hn2
          rw [u8_eq_iff, c224] at hn1
          rw [if_pos]
          · rfl
          · rw [Bool.and_eq_true, u8_le_iff, u8_le_iff, c225, c239]; omega
    · rw [Bool.and_eq_true, u8_le_iff, u8_le_iff, c194, c223]; omega
  | @four a b d e rest c h1 h2 h4 h5 h6 h7 _ ih =>
    have c194 : (0xC2 : UInt8).toNat = 194 := rfl
    have c223 : (0xDF : UInt8).toNat = 223 := rfl
    have c224 : (0xE0 : UInt8).toNat = 224 := rfl
    have c225 : (0xE1 : UInt8).toNat = 225 := rfl
    have c239 : (0xEF : UInt8).toNat = 239 := rfl
    have c237 : (0xED : UInt8).toNat = 237 := rfl
    have c240 : (0xF0 : UInt8).toNat = 240 := rfl
    have c241 : (0xF1 : UInt8).toNat = 241 := rfl
    have c243 : (0xF3 : UInt8).toNat = 243 := rfl
    have c244 : (0xF4 : UInt8).toNat = 244 := rfl
    have c144 : (0x90 : UInt8).toNat = 144 := rfl
    have c191 : (0xBF : UInt8).toNat = 191 := rfl
    have c128 : (0x80 : UInt8).toNat = 128 := rfl
    have c143 : (0x8F : UInt8).toNat = 143 := rfl
    have hb := (isCont_iff b).2 ⟨by omega, by omega⟩
    have hd := (isCont_iff d).2 ⟨by omega, by omega⟩
    have he := (isCont_iff e).2 ⟨by omega, by omega⟩
    rw [utf8Valid.eq_def]
    simp only
    rw [if_neg (fun h => by have := (lt80 a).1 h; omega), if_neg, if_neg, if_neg, if_neg, ih, hb, hd, he]
    · split
      · rename_i he
        rw [u8_eq_iff, c240] at he
        rw [Bool.and_eq_true, Bool.and_eq_true, Bool.and_eq_true, Bool.and_eq_true, u8_le_iff, u8_le_iff, c144, c191]
        exact ⟨⟨⟨⟨by omega, by omega⟩, rfl⟩, rfl⟩, rfl⟩
      · split
        · rename_i he
          rw [u8_eq_iff, c244] at he
          rw [Bool.and_eq_true, Bool.and_eq_true, Bool.and_eq_true, Bool.and_eq_true, u8_le_iff, u8_le_iff, c128, c143]
          exact ⟨⟨⟨⟨by omega, by omega⟩, rfl⟩, rfl⟩, rfl⟩
        · rename_i hn1 hn2
          rw [u8_eq_iff, c240] at hn1
          rw [u8_eq_iff, c244] at hn2
          rw [if_pos]
          · rfl
          · rw [Bool.and_eq_true, u8_le_iff, u8_le_iff, c241, c243]; omega
    · rw [Bool.and_eq_true, u8_le_iff, u8_le_iff, c225, c239]; omega
    · rw [u8_eq_iff, c237]; omega
    · rw [u8_eq_iff, c224]; omega
    · rw [Bool.and_eq_true, u8_le_iff, u8_le_iff, c194, c223]; omega

/-- The check of `String::from_utf8` accepts exactly the well-formed UTF-8 strings. -/
theorem utf8Valid_iff (bs : Bytes) : utf8Valid bs = true ↔ Utf8 bs :=
  ⟨utf8Valid_sound bs.length bs (Nat.le_refl _), fun h => h.valid⟩

/-- The printing loop panics exactly on a map with an id that is not UTF-8, and otherwise prints every entry. -/
theorem ecuLines_eq {ν : Type} (m : List (B4 × ν)) :
    (ecuLines m = .panic ↔ ∃ e ∈ m, ¬ Utf8 e.1.toBytes) ∧
    ((∀ e ∈ m, Utf8 e.1.toBytes) → ecuLines m = .ok (m.map fun e => (e.1.toBytes, e.2))) := by
  induction m with
  | nil => exact ⟨⟨fun h => by simp [ecuLines] at h, fun ⟨_, h, _⟩ => by simp at h⟩, fun _ => rfl⟩
  | cons x m ih =>
    obtain ⟨k, v⟩ := x
    rw [ecuLines]
    by_cases hk : Utf8 k.toBytes
    · rw [if_pos ((utf8Valid_iff _).2 hk)]
      refine ⟨⟨?_, ?_⟩, ?_⟩
      · intro h
        by_cases hp : ecuLines m = .panic
        · obtain ⟨e, he, h'⟩ := ih.1.1 hp
          exact ⟨e, List.mem_cons_of_mem _ he, h'⟩
        · cases h' : ecuLines m with
          | panic => exact absurd h' hp
          | ok l => rw [h'] at h; simp [Res.bind] at h
      · rintro ⟨e, he, h'⟩
        rcases List.mem_cons.1 he with rfl | he
        · exact absurd hk h'
        · rw [ih.1.2 ⟨e, he, h'⟩]; rfl
      · intro h
        rw [ih.2 fun e he => h e (List.mem_cons_of_mem _ he)]
        rfl
    · rw [if_neg fun h => hk ((utf8Valid_iff _).1 h)]
      refine ⟨⟨fun _ => ⟨_, List.mem_cons_self .., hk⟩, fun _ => rfl⟩, fun h => ?_⟩
      exact absurd (h _ (List.mem_cons_self ..)) hk

theorem histogram_keys {κ ν : Type} [Key κ] [DecidableEq κ] {keys : List κ} {m : OrdMap κ (ν × Nat)}
    (h : IsHistogram keys (m.map fun e => (e.1, e.2.2))) (P : κ → Prop) : (∃ e ∈ m, P e.1) ↔ ∃ k ∈ keys, P k := by
  constructor
  · rintro ⟨e, he, hp⟩
    have := (h.mem e.1 e.2.2).1 (List.mem_map.2 ⟨e, he, rfl⟩)
    exact ⟨e.1, List.count_pos_iff.1 (this.2 ▸ this.1), hp⟩
  · rintro ⟨k, hk, hp⟩
    have h1 : 0 < keys.count k := List.count_pos_iff.2 hk
    obtain ⟨e, he, h2⟩ := List.mem_map.1 ((h.mem k _).2 ⟨h1, rfl⟩)
    simp only [Prod.mk.injEq] at h2
    exact ⟨e, he, h2.1 ▸ hp⟩

/-- **C56 (partial)** `split_timestamp` prints one line per ECU, unless some message's ECU id is not UTF-8: then
the program panics. -/
theorem C56_split_timestamp_partial (bytes : Bytes) (hF : Fits bytes) (msgs : List StorageEntry)
    (h : Messages bytes msgs) :
    (cmdSplitTimestamp bytes = some .panic ↔ ∃ e ∈ msgs, ¬ Utf8 e.storageHeader.ecu.toBytes) ∧
    ((∀ e ∈ msgs, Utf8 e.storageHeader.ecu.toBytes) → ∃ m, timestampSplit bytes = some (.ok m) ∧
      cmdSplitTimestamp bytes = some (.ok (m.map fun e => (e.1.toBytes, e.2)))) := by
  obtain ⟨m, h1, h2, -, -⟩ := C47_split_timestamp bytes hF msgs h
  have hk := histogram_keys h2 (fun k => ¬ Utf8 k.toBytes)
  have hl := ecuLines_eq m
  have hc : cmdSplitTimestamp bytes = some (ecuLines m) := by unfold cmdSplitTimestamp printed; rw [h1]
  rw [hc]
  refine ⟨?_, fun hu => ⟨m, h1, ?_⟩⟩
  · rw [Option.some.injEq, hl.1, hk]
    exact ⟨fun ⟨_, hm, hn⟩ => by obtain ⟨x, hx, rfl⟩ := List.mem_map.1 hm; exact ⟨x, hx, hn⟩,
      fun ⟨x, hx, hn⟩ => ⟨_, List.mem_map.2 ⟨x, hx, rfl⟩, hn⟩⟩
  · rw [hl.2]
    intro e he
    refine Classical.byContradiction fun hn => ?_
    obtain ⟨k, hkm, hkn⟩ := hk.1 ⟨e, he, hn⟩
    obtain ⟨x, hx, rfl⟩ := List.mem_map.1 hkm
    exact hkn (hu x hx)

/-- **C56 (partial)** `split_lifecycles` prints one line per ECU, unless a message has an incomplete time stamp or
the ECU id of a message with a time stamp is not UTF-8: then the program panics. -/
theorem C56_split_lifecycles_partial (bytes : Bytes) (hF : Fits bytes) (msgs : List StorageEntry)
    (h : Messages bytes msgs) :
    (cmdSplitLifecycles bytes = some .panic ↔
      ¬ TimesComplete msgs ∨ ∃ e ∈ timed msgs, ¬ Utf8 e.storageHeader.ecu.toBytes) ∧
    (TimesComplete msgs → (∀ e ∈ timed msgs, Utf8 e.storageHeader.ecu.toBytes) →
      ∃ m, lifecycleSplit bytes = some (.ok m) ∧
        cmdSplitLifecycles bytes = some (.ok (m.map fun e => (e.1.toBytes, e.2)))) := by
  obtain ⟨hp, hok⟩ := C48_lifecycle_split_partial bytes hF msgs h
  by_cases hc : TimesComplete msgs
  · obtain ⟨m, h1, h2, -⟩ := hok hc
    have hk := histogram_keys h2 (fun k => ¬ Utf8 k.toBytes)
    have hl := ecuLines_eq m
    have hcmd : cmdSplitLifecycles bytes = some (ecuLines m) := by unfold cmdSplitLifecycles printed; rw [h1]
    rw [hcmd]
    refine ⟨?_, fun _ hu => ⟨m, h1, ?_⟩⟩
    · rw [Option.some.injEq, hl.1, hk]
      exact ⟨fun ⟨_, hm, hn⟩ => by obtain ⟨x, hx, rfl⟩ := List.mem_map.1 hm; exact Or.inr ⟨x, hx, hn⟩,
        fun h => h.elim (absurd hc) fun ⟨x, hx, hn⟩ => ⟨_, List.mem_map.2 ⟨x, hx, rfl⟩, hn⟩⟩
    · rw [hl.2]
      intro e he
      refine Classical.byContradiction fun hn => ?_
      obtain ⟨k, hkm, hkn⟩ := hk.1 ⟨e, he, hn⟩
      obtain ⟨x, hx, rfl⟩ := List.mem_map.1 hkm
      exact hkn (hu x hx)
  · refine ⟨⟨fun _ => Or.inl hc, fun _ => ?_⟩, fun h' => absurd h' hc⟩
    unfold cmdSplitLifecycles printed
    rw [hp.2 hc]

/-- A message whose ECU id is `é` in Latin-1, padded with zeros. -/
def latinMsg : StorageEntry := ⟨⟨⟨68, 76, 84, 1⟩, 7, 0, ⟨0xE9, 0, 0, 0⟩⟩, ⟨⟨⟨0x20⟩, 0, 4⟩, []⟩⟩

theorem latin_not_utf8 : ¬ Utf8 latinMsg.storageHeader.ecu.toBytes := by
  rw [← utf8Valid_iff]
  decide

/-- **C56 (violated)** a file that is one readable message on which `split_timestamp` panics although the
statistics were computed. -/
theorem C56_split_timestamp_can_panic : ∃ bytes, Fits bytes ∧ Messages bytes [latinMsg] ∧
    (∃ m, timestampSplit bytes = some (.ok m)) ∧ cmdSplitTimestamp bytes = some .panic := by
  have hF : Fits (fileOf [([], latinMsg)] []) := by unfold Fits; decide
  have hm := messages_single latinMsg (by decide)
  obtain ⟨m, h1, -⟩ := C47_split_timestamp _ hF _ hm
  exact ⟨_, hF, hm, ⟨m, h1⟩, (C56_split_timestamp_partial _ hF _ hm).1.2 ⟨latinMsg, by simp, latin_not_utf8⟩⟩

/-- Ids in ASCII, and one in UTF-8 beyond ASCII. -/
example : Utf8 (secMsg 3).storageHeader.ecu.toBytes ∧ Utf8 [0xC3, 0xA9, 0, 0] ∧ Utf8 [0xF0, 0x9F, 0xA6, 0x80] := by
  refine ⟨?_, ?_, ?_⟩ <;> · rw [← utf8Valid_iff]; decide

end Verif
