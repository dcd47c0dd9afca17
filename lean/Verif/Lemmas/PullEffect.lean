import Verif.Model.PullEffect
import Verif.Lemmas.Effect

/-! # Iterators with effects -/

set_option linter.unusedSimpArgs false

namespace Verif

theorem opt_ext {α : Type} {a b : Option α} (h1 : ∀ y, a = some y → b = some y) (h2 : ∀ y, b = some y → a = some y) : a = b := by
  cases a with
  | some y => exact (h1 y rfl).symm
  | none =>
    cases b with
    | none => rfl
    | some y => exact h2 y rfl

/-- `adapt` never ends the stream. -/
def StageE.NoBreak {W α β : Type} (a : StageE W α β) : Prop := ∀ s x w w' s', a.adapt s x w ≠ (w', .ok (s', .brk))

/-- Once a stage has nothing more to give, it stays so, without effects. -/
def StageE.Rests {W α β : Type} (a : StageE W α β) (s : a.σ) : Prop := ∀ w, a.fin s w = some (w, .ok (s, .brk))

/-- When `finalize` says it is over, it is over. -/
def StageE.Ends {W α β : Type} (a : StageE W α β) : Prop := ∀ s w w' s', a.fin s w = some (w', .ok (s', .brk)) → a.Rests s'

/-- After `None` an iterator says `None` for ever, without effects. -/
def PullE.Fused {W α : Type} (it : PullE W α) : Prop :=
  ∃ Done : it.σ → Prop, (∀ s w w' s', it.next s w = some (w', .ok (s', none)) → Done s') ∧
    ∀ s, Done s → ∀ w, ∃ s', it.next s w = some (w, .ok (s', none))

/-! ## A consumer behind an adapter is a consumer with a longer reducer -/

section

variable {W α β ρ : Type} {r : RedE W β ρ} {a : StageE W α β} {it : PullE W α}

/-- The loop of `Reducer::finalize`, seen from a `next` of the iterator. -/
theorem fin_drain : ∀ (sa : a.σ) (w : W) q, fromAdaptFinE a sa w = some q → ∀ sr : r.σ, reducerDrainE r a sr sa w =
    match q with
    | (w', .panic) => some (w', .panic)
    | (w', .ok (_, none)) => some (w', .ok sr)
    | (w', .ok (sa', some o)) =>
      match r.next sr o w' with
      | (w'', .panic) => some (w'', .panic)
      | (w'', .ok sr') => reducerDrainE r a sr' sa' w'' := by
  apply fromAdaptFinE.partial_correctness a
  intro f ih sa w q h sr
  rw [reducerDrainE]
  rcases hf : a.fin sa w with _ | ⟨w', ⟨sa', fl⟩ | _⟩
  · rw [hf] at h; cases h
  · rw [hf] at h
    rcases fl with _ | o
    · cases h; rfl
    · cases o with
      | none => exact ih _ _ _ h sr
      | some o => cases h; rfl
  · rw [hf] at h; cases h; rfl

/-- The consumer when the source has just ended. -/
theorem reduce_after {Done : it.σ → Prop} (hd : ∀ s, Done s → ∀ w, ∃ s', Done s' ∧ it.next s w = some (w, .ok (s', none))) :
    ∀ (sr : r.σ) (sa : a.σ) (w : W) q, reducerDrainE r a sr sa w = some q → ∀ s, Done s →
      (match fromAdaptFinE a sa w with
       | none => none
       | some (w', .panic) => some (w', .panic)
       | some (w', .ok (_, none)) => r.fin sr w'
       | some (w', .ok (sa', some o)) =>
         match r.next sr o w' with
         | (w'', .panic) => some (w'', .panic)
         | (w'', .ok sr') => pullReduceFromE r (fromAdaptE a it) sr' (sa', s) w'' : Option (W × Res ρ)) =
      match q with
      | (w', .panic) => some (w', .panic)
      | (w', .ok sr') => r.fin sr' w' := by
  apply reducerDrainE.partial_correctness r a
  intro f ih sr sa w q h s hs
  rw [fromAdaptFinE]
  simp only at h
  rcases hf : a.fin sa w with _ | ⟨w', ⟨sa', fl⟩ | _⟩
  · rw [hf] at h; cases h
  · rw [hf] at h
    rcases fl with _ | o
    · cases h; rfl
    · cases o with
      | none => exact ih _ _ _ _ h s hs
      | some o =>
        simp only at h ⊢
        rcases hn : r.next sr o w' with ⟨w'', sr' | _⟩
        · rw [hn] at h
          simp only at h ⊢
          obtain ⟨s', hs', hnext⟩ := hd s hs w''
          have := ih _ _ _ _ h s' hs'
          rw [← this, pullReduceFromE]
          rw [show (fromAdaptE a it).next (sa', s) w'' = fromAdaptNextE a it sa' s w'' from rfl, fromAdaptNextE, hnext]
          simp only
          rcases fromAdaptFinE a sa' w'' with _ | ⟨v, ⟨sa'', o'⟩ | _⟩
          · rfl
          · cases o' <;> rfl
          · rfl
        · rw [hn] at h; cases h; rfl
  · rw [hf] at h; cases h; rfl

theorem fused_done (h : it.Fused) : ∃ Done : it.σ → Prop, (∀ s w w' s', it.next s w = some (w', .ok (s', none)) → Done s') ∧
    ∀ s, Done s → ∀ w, ∃ s', Done s' ∧ it.next s w = some (w, .ok (s', none)) := by
  obtain ⟨Done, h1, h2⟩ := h
  refine ⟨Done, h1, fun s hs w => ?_⟩
  obtain ⟨s', h⟩ := h2 s hs w
  exact ⟨s', h1 _ _ _ _ h, h⟩

/-- One step of a consumer behind an adapter. -/
theorem reduce_step (sr : r.σ) (sa : a.σ) (s : it.σ) (w : W) : pullReduceFromE r (fromAdaptE a it) sr (sa, s) w =
    match fromAdaptNextE a it sa s w with
    | none => none
    | some (w', .panic) => some (w', .panic)
    | some (w', .ok (_, none)) => r.fin sr w'
    | some (w', .ok (s', some x)) =>
      match r.next sr x w' with
      | (w'', .panic) => some (w'', .panic)
      | (w'', .ok sr') => pullReduceFromE r (fromAdaptE a it) sr' s' w'' := by
  rw [pullReduceFromE, show (fromAdaptE a it).next (sa, s) w = fromAdaptNextE a it sa s w from rfl]
  rcases fromAdaptNextE a it sa s w with _ | ⟨v, ⟨s', o'⟩ | _⟩
  · rfl
  · cases o' <;> rfl
  · rfl

theorem fusion_back (hnb : a.NoBreak) (hit : it.Fused) : ∀ (sra : (reducerE r a).σ) (s : it.σ) (w : W) y,
    pullReduceFromE (reducerE r a) it sra s w = some y → pullReduceFromE r (fromAdaptE a it) sra.1 (sra.2, s) w = some y := by
  obtain ⟨Done, hd1, hd2⟩ := fused_done hit
  apply pullReduceFromE.partial_correctness (reducerE r a) it
  intro f ih sra s w y h
  obtain ⟨sr, sa⟩ := sra
  simp only at h ⊢
  rw [reduce_step, fromAdaptNextE]
  rcases hn : it.next s w with _ | ⟨w', ⟨s', o⟩ | _⟩
  · rw [hn] at h; cases h
  · rw [hn] at h
    cases o with
    | some x =>
      simp only [bind_apply] at h ⊢
      rcases ha : a.adapt sa x w' with ⟨w'', ⟨sa', fl⟩ | _⟩
      · rw [ha] at h
        rcases fl with _ | o
        · exact absurd ha (hnb _ _ _ _ _)
        · cases o with
          | none =>
            simp only [Eff.ok] at h ⊢
            have := ih _ _ _ _ h
            rw [reduce_step] at this
            exact this
          | some o =>
            simp only [bind_apply] at h ⊢
            rcases hr : r.next sr o w'' with ⟨v, sr' | _⟩
            · rw [hr] at h
              simp only [Eff.ok] at h ⊢
              exact ih _ _ _ _ h
            · rw [hr] at h; cases h; rfl
      · rw [ha] at h; cases h; rfl
    | none =>
      simp only at h ⊢
      rcases hdr : reducerDrainE r a sr sa w' with _ | q
      · rw [hdr] at h; cases h
      · have := reduce_after hd2 sr sa w' q hdr s' (hd1 _ _ _ _ hn)
        rw [hdr] at h
        obtain ⟨v, sr' | _⟩ := q
        · simp only at h this
          rw [h] at this
          rw [← this]
          rcases fromAdaptFinE a sa w' with _ | ⟨v, ⟨sa'', o'⟩ | _⟩
          · rfl
          · cases o' <;> rfl
          · rfl
        · simp only at h this
          rw [h] at this
          rw [← this]
          rcases fromAdaptFinE a sa w' with _ | ⟨v, ⟨sa'', o'⟩ | _⟩
          · rfl
          · cases o' <;> rfl
          · rfl
  · rw [hn] at h; cases h; rfl

/-- What the consumer with the longer reducer does, given the next item of the iterator behind the adapter. -/
theorem fusion_next {Done : it.σ → Prop} (hnb : a.NoBreak) (hd1 : ∀ s w w' s', it.next s w = some (w', .ok (s', none)) → Done s')
    (hd2 : ∀ s, Done s → ∀ w, ∃ s', Done s' ∧ it.next s w = some (w, .ok (s', none))) :
    ∀ (sa : a.σ) (s : it.σ) (w : W) q, fromAdaptNextE a it sa s w = some q → ∀ sr : r.σ,
      pullReduceFromE (reducerE r a) it (sr, sa) s w =
      match q with
      | (w', .panic) => some (w', .panic)
      | (w', .ok (_, none)) => r.fin sr w'
      | (w', .ok (s', some o)) =>
        match r.next sr o w' with
        | (w'', .panic) => some (w'', .panic)
        | (w'', .ok sr') => pullReduceFromE (reducerE r a) it (sr', s'.1) s'.2 w'' := by
  apply fromAdaptNextE.partial_correctness a it
  intro f ih sa s w q h sr
  rw [pullReduceFromE]
  simp only at h ⊢
  rcases hn : it.next s w with _ | ⟨w', ⟨s', o⟩ | _⟩
  · rw [hn] at h; cases h
  · rw [hn] at h
    cases o with
    | some x =>
      simp only [bind_apply] at h ⊢
      rcases ha : a.adapt sa x w' with ⟨w'', ⟨sa', fl⟩ | _⟩
      · rw [ha] at h
        rcases fl with _ | o
        · exact absurd ha (hnb _ _ _ _ _)
        · cases o with
          | none => exact ih _ _ _ _ h sr
          | some o =>
            cases h
            simp only [bind_apply]
            rcases r.next sr o w'' with ⟨v, sr' | _⟩ <;> rfl
      · rw [ha] at h; cases h; rfl
    | none =>
      simp only at h ⊢
      rcases hf : fromAdaptFinE a sa w' with _ | q'
      · rw [hf] at h; cases h
      · rw [hf] at h
        rw [fin_drain sa w' q' hf sr]
        obtain ⟨v, ⟨sa'', o'⟩ | _⟩ := q'
        · cases h
          cases o' with
          | none => rfl
          | some o =>
            simp only
            rcases r.next sr o v with ⟨v', sr' | _⟩
            · simp only
              obtain ⟨s'', -, hn'⟩ := hd2 s' (hd1 _ _ _ _ hn) v'
              rw [pullReduceFromE, hn']
            · rfl
        · cases h; rfl
  · rw [hn] at h; cases h; rfl

theorem fusion_forth (hnb : a.NoBreak) (hit : it.Fused) : ∀ (sr : r.σ) (sas : (fromAdaptE a it).σ) (w : W) y,
    pullReduceFromE r (fromAdaptE a it) sr sas w = some y → pullReduceFromE (reducerE r a) it (sr, sas.1) sas.2 w = some y := by
  obtain ⟨Done, hd1, hd2⟩ := fused_done hit
  apply pullReduceFromE.partial_correctness r (fromAdaptE a it)
  intro f ih sr sas w y h
  obtain ⟨sa, s⟩ := sas
  simp only at h ⊢
  rcases hq : fromAdaptNextE a it sa s w with _ | q
  · rw [hq] at h; cases h
  · rw [hq] at h
    rw [fusion_next hnb hd1 hd2 sa s w q hq sr]
    obtain ⟨w', ⟨s', o⟩ | _⟩ := q
    · cases o with
      | none => exact h
      | some o =>
        simp only at h ⊢
        rcases hr : r.next sr o w' with ⟨w'', sr' | _⟩
        · rw [hr] at h; exact ih _ _ _ _ h
        · rw [hr] at h; exact h
    · exact h

theorem fusion (hnb : a.NoBreak) (hit : it.Fused) (sr : r.σ) (sa : a.σ) (s : it.σ) (w : W) :
    pullReduceFromE r (fromAdaptE a it) sr (sa, s) w = pullReduceFromE (reducerE r a) it (sr, sa) s w :=
  opt_ext (fusion_forth hnb hit sr (sa, s) w) (fusion_back hnb hit (sr, sa) s w)

end

/-! ## `Reducer(r, Adapter(i, a))` is `Reducer(Reducer(r, i), a)` -/

section

variable {W α β γ ρ : Type} {r : RedE W γ ρ} {i : StageE W β γ} {a : StageE W α β}

/-- While `a` has nothing more to give, `finalize` of the pair asks `i`. -/
theorem adapterFin_rests {sa : a.σ} (h : a.Rests sa) (si : i.σ) (w : W) : adapterFinE i a si sa w =
    match i.fin si w with
    | none => none
    | some (w'', .panic) => some (w'', .panic)
    | some (w'', .ok (si', q)) => some (w'', .ok ((si', sa), q)) := by
  rw [adapterFinE, h w]
  simp only
  rcases i.fin si w with _ | ⟨v, ⟨s', o'⟩ | _⟩ <;> rfl

theorem drain_rests_forth {sa : a.σ} (h : a.Rests sa) : ∀ (sr : r.σ) (si : i.σ) (w : W) q, reducerDrainE r i sr si w = some q →
    reducerDrainE r (adapterE i a) sr (si, sa) w = some q := by
  apply reducerDrainE.partial_correctness r i
  intro f ih sr si w q hq
  rw [reducerDrainE, show (adapterE i a).fin (si, sa) w = adapterFinE i a si sa w from rfl, adapterFin_rests h]
  rcases hf : i.fin si w with _ | ⟨w', ⟨si', fl⟩ | _⟩
  · rw [hf] at hq; cases hq
  · rw [hf] at hq
    rcases fl with _ | o
    · cases hq; rfl
    · cases o with
      | none => exact ih _ _ _ _ hq
      | some o =>
        simp only at hq ⊢
        rcases hn : r.next sr o w' with ⟨w'', sr' | _⟩
        · rw [hn] at hq; exact ih _ _ _ _ hq
        · rw [hn] at hq; cases hq; rfl
  · rw [hf] at hq; cases hq; rfl

theorem drain_rests_back : ∀ (sr : r.σ) (s : i.σ × a.σ) (w : W) q, reducerDrainE r (adapterE i a) sr s w = some q → a.Rests s.2 →
    reducerDrainE r i sr s.1 w = some q := by
  apply reducerDrainE.partial_correctness r (adapterE i a)
  intro f ih sr s w q hq h
  obtain ⟨si, sa⟩ := s
  rw [reducerDrainE]
  simp only [show (adapterE i a).fin (si, sa) w = adapterFinE i a si sa w from rfl, adapterFin_rests h] at hq
  rcases hf : i.fin si w with _ | ⟨w', ⟨si', fl⟩ | _⟩
  · rw [hf] at hq; cases hq
  · rw [hf] at hq
    rcases fl with _ | o
    · cases hq; rfl
    · cases o with
      | none => exact ih _ _ _ _ hq h
      | some o =>
        simp only at hq ⊢
        rcases hn : r.next sr o w' with ⟨w'', sr' | _⟩
        · rw [hn] at hq; exact ih _ _ _ _ hq h
        · rw [hn] at hq; cases hq; rfl
  · rw [hf] at hq; cases hq; rfl

theorem drain_rests {sa : a.σ} (h : a.Rests sa) (sr : r.σ) (si : i.σ) (w : W) :
    reducerDrainE r (adapterE i a) sr (si, sa) w = reducerDrainE r i sr si w :=
  opt_ext (fun q hq => drain_rests_back sr (si, sa) w q hq h) (drain_rests_forth h sr si w)

/-- One step of draining the pair, when `a` gives something or ends. -/
theorem drain_pair_forth (hnb : i.NoBreak) (hE : a.Ends) : ∀ (s : r.σ × i.σ) (sa : a.σ) (w : W) q,
    reducerDrainE (reducerE r i) a s sa w = some q → reducerDrainE r (adapterE i a) s.1 (s.2, sa) w =
      match q with
      | (w', .panic) => some (w', .panic)
      | (w', .ok (sr', si')) => reducerDrainE r i sr' si' w' := by
  apply reducerDrainE.partial_correctness (reducerE r i) a
  intro f ih s sa w q hq
  obtain ⟨sr, si⟩ := s
  rw [reducerDrainE, show (adapterE i a).fin (si, sa) w = adapterFinE i a si sa w from rfl, adapterFinE]
  rcases hf : a.fin sa w with _ | ⟨w', ⟨sa', fl⟩ | _⟩
  · rw [hf] at hq; cases hq
  · rw [hf] at hq
    rcases fl with _ | o
    · cases hq
      have hrest := hE _ _ _ _ hf
      simp only
      have := drain_rests (r := r) (i := i) hrest sr si w'
      rw [← this, reducerDrainE, show (adapterE i a).fin (si, sa') w' = adapterFinE i a si sa' w' from rfl, adapterFin_rests hrest]
      rcases i.fin si w' with _ | ⟨v, ⟨s', o'⟩ | _⟩ <;> rfl
    · cases o with
      | none =>
        have := ih _ _ _ _ hq
        rw [← this]
        conv => rhs; rw [reducerDrainE]
      | some o =>
        simp only [bind_apply] at hq ⊢
        rcases hn : i.adapt si o w' with ⟨w'', ⟨si', fl⟩ | _⟩
        · rw [hn] at hq
          rcases fl with _ | p
          · exact absurd hn (hnb _ _ _ _ _)
          · cases p with
            | none =>
              simp only [Eff.ok] at hq ⊢
              exact ih _ _ _ _ hq
            | some p =>
              simp only [Eff.ok, bind_apply] at hq ⊢
              rcases hr : r.next sr p w'' with ⟨v, sr' | _⟩
              · rw [hr] at hq
                exact ih _ _ _ _ hq
              · rw [hr] at hq
                cases hq
                rfl
        · rw [hn] at hq; cases hq; rfl
  · rw [hf] at hq; cases hq; rfl

theorem drain_emit {τ : Type} {r : RedE W β τ} {sr : r.σ} {sa sa' : a.σ} {w w' : W} {o : β}
    (h : a.fin sa w = some (w', .ok (sa', .cont (some o)))) : reducerDrainE r a sr sa w = match r.next sr o w' with
      | (w'', .panic) => some (w'', .panic)
      | (w'', .ok sr') => reducerDrainE r a sr' sa' w'' := by
  rw [reducerDrainE, h]
  simp only
  rcases r.next sr o w' with ⟨_, _ | _⟩ <;> rfl

/-- The first step of draining the pair, seen from the nested reducers. -/
theorem fin_pair (hnb : i.NoBreak) : ∀ (si : i.σ) (sa : a.σ) (w : W) q, adapterFinE i a si sa w = some q → ∀ sr : r.σ,
    (∃ q', reducerDrainE (reducerE r i) a (sr, si) sa w = some q') ∨
    (∃ w' si' sa', q = (w', .ok ((si', sa'), .cont none)) ∧
      reducerDrainE (reducerE r i) a (sr, si) sa w = reducerDrainE (reducerE r i) a (sr, si') sa' w') ∨
    (∃ w' si' sa' p, q = (w', .ok ((si', sa'), .cont (some p))) ∧
      (∀ v, r.next sr p w' = (v, .panic) → reducerDrainE (reducerE r i) a (sr, si) sa w = some (v, .panic)) ∧
      ∀ v sr', r.next sr p w' = (v, .ok sr') →
        reducerDrainE (reducerE r i) a (sr, si) sa w = reducerDrainE (reducerE r i) a (sr', si') sa' v) := by
  intro si
  apply adapterFinE.partial_correctness i a si
  intro f ih sa w q h sr
  rcases hf : a.fin sa w with _ | ⟨w', ⟨sa', fl⟩ | _⟩
  · rw [hf] at h; cases h
  · rw [hf] at h
    rcases fl with _ | o
    · left
      exact ⟨_, by rw [reducerDrainE, hf]⟩
    · cases o with
      | none =>
        have := ih _ _ _ h sr
        rw [show reducerDrainE (reducerE r i) a (sr, si) sa w = reducerDrainE (reducerE r i) a (sr, si) sa' w' by
          rw [reducerDrainE, hf]]
        exact this
      | some o =>
        have hD : reducerDrainE (reducerE r i) a (sr, si) sa w = match (reducerE r i).next (sr, si) o w' with
          | (w'', .panic) => some (w'', .panic)
          | (w'', .ok sr') => reducerDrainE (reducerE r i) a sr' sa' w'' := by
          rw [drain_emit (r := reducerE r i) (sr := (sr, si)) hf]
          rcases (reducerE r i).next (sr, si) o w' with ⟨_, _ | _⟩ <;> rfl
        simp only [bind_apply] at h hD
        rcases hn : i.adapt si o w' with ⟨w'', ⟨si', fl⟩ | _⟩
        · rw [hn] at h hD
          rcases fl with _ | p
          · exact absurd hn (hnb _ _ _ _ _)
          · cases p with
            | none =>
              cases h
              exact .inr (.inl ⟨_, _, _, rfl, hD⟩)
            | some p =>
              cases h
              refine .inr (.inr ⟨_, _, _, p, rfl, fun v hr => ?_, fun v sr' hr => ?_⟩)
              · rw [hD]
                simp only [bind_apply, hr]
              · rw [hD]
                simp only [bind_apply, hr]
                rfl
        · rw [hn] at hD
          exact .inl ⟨_, hD⟩
  · left
    exact ⟨_, by rw [reducerDrainE, hf]⟩

theorem drain_pair_back (hnb : i.NoBreak) : ∀ (sr : r.σ) (s : i.σ × a.σ) (w : W) q, reducerDrainE r (adapterE i a) sr s w = some q →
    ∃ q', reducerDrainE (reducerE r i) a (sr, s.1) s.2 w = some q' := by
  apply reducerDrainE.partial_correctness r (adapterE i a)
  intro f ih sr s w q hq
  obtain ⟨si, sa⟩ := s
  simp only [show (adapterE i a).fin (si, sa) w = adapterFinE i a si sa w from rfl] at hq
  rcases hf : adapterFinE i a si sa w with _ | q'
  · rw [hf] at hq; cases hq
  · rw [hf] at hq
    rcases fin_pair (r := r) hnb si sa w q' hf sr with h | ⟨w', si', sa', rfl, h⟩ | ⟨w', si', sa', p, rfl, h0, h⟩
    · exact h
    · rw [h]
      exact ih _ _ _ _ hq
    · simp only at hq
      rcases hn : r.next sr p w' with ⟨w'', sr' | _⟩
      · rw [hn] at hq
        rw [h _ _ hn]
        exact ih _ _ _ _ hq
      · exact ⟨_, h0 _ hn⟩

/-- **Associativity**: draining the pair is draining `a` into the reducer behind `i`, then draining `i`. -/
theorem drain_pair (hnb : i.NoBreak) (hE : a.Ends) (sr : r.σ) (si : i.σ) (sa : a.σ) (w : W) :
    (reducerE r (adapterE i a)).fin (sr, (si, sa)) w = (reducerE (reducerE r i) a).fin ((sr, si), sa) w := by
  simp only
  rcases h : reducerDrainE (reducerE r i) a (sr, si) sa w with _ | q
  · rcases h' : reducerDrainE r (adapterE i a) sr (si, sa) w with _ | q
    · rfl
    · obtain ⟨q', hq'⟩ := drain_pair_back hnb sr (si, sa) w q h'
      rw [h] at hq'
      cases hq'
  · rw [drain_pair_forth hnb hE (sr, si) sa w q h]
    obtain ⟨w', ⟨sr', si'⟩ | _⟩ := q
    · rfl
    · rfl

end

/-! ## Reducers and iterators that behave alike -/

section

variable {W α ρ : Type}

theorem reduce_like_forth {r1 r2 : RedE W α ρ} {it : PullE W α} (φ : r1.σ → r2.σ)
    (hn : ∀ s x, r2.next (φ s) x = (r1.next s x).bind fun s' => .ok (φ s')) (hf : ∀ s w, r2.fin (φ s) w = r1.fin s w) :
    ∀ (sr : r1.σ) (s : it.σ) (w : W) q, pullReduceFromE r1 it sr s w = some q → pullReduceFromE r2 it (φ sr) s w = some q := by
  apply pullReduceFromE.partial_correctness r1 it
  intro f ih sr s w q h
  rw [pullReduceFromE]
  rcases hi : it.next s w with _ | ⟨w', ⟨s', o⟩ | _⟩
  · rw [hi] at h; cases h
  · rw [hi] at h
    cases o with
    | none => simp only at h ⊢; rw [hf]; exact h
    | some x =>
      simp only [hn, bind_apply] at h ⊢
      rcases hr : r1.next sr x w' with ⟨w'', sr' | _⟩
      · rw [hr] at h; exact ih _ _ _ _ h
      · rw [hr] at h; cases h; rfl
  · rw [hi] at h; cases h; rfl

theorem reduce_like_back {r1 r2 : RedE W α ρ} {it : PullE W α} (φ : r1.σ → r2.σ)
    (hn : ∀ s x, r2.next (φ s) x = (r1.next s x).bind fun s' => .ok (φ s')) (hf : ∀ s w, r2.fin (φ s) w = r1.fin s w) :
    ∀ (sr2 : r2.σ) (s : it.σ) (w : W) q, pullReduceFromE r2 it sr2 s w = some q → ∀ sr, φ sr = sr2 → pullReduceFromE r1 it sr s w = some q := by
  apply pullReduceFromE.partial_correctness r2 it
  rintro f ih _ s w q h sr rfl
  rw [pullReduceFromE]
  rcases hi : it.next s w with _ | ⟨w', ⟨s', o⟩ | _⟩
  · rw [hi] at h; cases h
  · rw [hi] at h
    cases o with
    | none => simp only at h ⊢; rw [← hf]; exact h
    | some x =>
      simp only [hn, bind_apply] at h ⊢
      rcases hr : r1.next sr x w' with ⟨w'', sr' | _⟩
      · rw [hr] at h; exact ih _ _ _ _ h _ rfl
      · rw [hr] at h; cases h; rfl
  · rw [hi] at h; cases h; rfl

theorem reduce_like {r1 r2 : RedE W α ρ} {it : PullE W α} (φ : r1.σ → r2.σ)
    (hn : ∀ s x, r2.next (φ s) x = (r1.next s x).bind fun s' => .ok (φ s')) (hf : ∀ s w, r2.fin (φ s) w = r1.fin s w)
    (sr : r1.σ) (s : it.σ) (w : W) : pullReduceFromE r1 it sr s w = pullReduceFromE r2 it (φ sr) s w :=
  opt_ext (reduce_like_forth φ hn hf sr s w) fun q h => reduce_like_back φ hn hf _ s w q h sr rfl

theorem reduce_assoc {β γ : Type} {r : RedE W γ ρ} {i : StageE W β γ} {a : StageE W α β} {it : PullE W α} (hnb : i.NoBreak) (hE : a.Ends)
    (sr : r.σ) (si : i.σ) (sa : a.σ) (s : it.σ) (w : W) :
    pullReduceFromE (reducerE (reducerE r i) a) it ((sr, si), sa) s w = pullReduceFromE (reducerE r (adapterE i a)) it (sr, (si, sa)) s w := by
  refine reduce_like (r1 := reducerE (reducerE r i) a) (r2 := reducerE r (adapterE i a)) (fun s => (s.1.1, (s.1.2, s.2))) ?_ ?_ _ s w
  · rintro ⟨⟨sr, si⟩, sa⟩ x
    simp only [bind_assoc]
    congr 1
    funext ⟨sa', fl⟩
    rcases fl with _ | o
    · rfl
    · cases o with
      | none => rfl
      | some o =>
        simp only [bind_assoc]
        congr 1
        funext ⟨si', fl⟩
        rcases fl with _ | p
        · rfl
        · cases p with
          | none => rfl
          | some p => simp only [bind_assoc]; rfl
  · rintro ⟨⟨sr, si⟩, sa⟩ w
    exact drain_pair hnb hE sr si sa w

end

section

variable {W α β ρ : Type}

theorem iter_like_forth {it1 it2 : PullE W α} {r : RedE W α ρ} (φ : it1.σ → it2.σ)
    (hn : ∀ s w, it2.next (φ s) w = (it1.next s w).map fun q => (q.1, q.2.bind fun p => .ok (φ p.1, p.2))) :
    ∀ (sr : r.σ) (s : it1.σ) (w : W) q, pullReduceFromE r it1 sr s w = some q → pullReduceFromE r it2 sr (φ s) w = some q := by
  apply pullReduceFromE.partial_correctness r it1
  intro f ih sr s w q h
  rw [pullReduceFromE, hn]
  rcases hi : it1.next s w with _ | ⟨w', ⟨s', o⟩ | _⟩
  · rw [hi] at h; cases h
  · rw [hi] at h
    cases o with
    | none => exact h
    | some x =>
      simp only [Option.map_some, Res.bind] at h ⊢
      rcases hr : r.next sr x w' with ⟨w'', sr' | _⟩
      · rw [hr] at h; exact ih _ _ _ _ h
      · rw [hr] at h; cases h; rfl
  · rw [hi] at h; cases h; rfl

theorem iter_like_back {it1 it2 : PullE W α} {r : RedE W α ρ} (φ : it1.σ → it2.σ)
    (hn : ∀ s w, it2.next (φ s) w = (it1.next s w).map fun q => (q.1, q.2.bind fun p => .ok (φ p.1, p.2))) :
    ∀ (sr : r.σ) (s2 : it2.σ) (w : W) q, pullReduceFromE r it2 sr s2 w = some q → ∀ s, φ s = s2 → pullReduceFromE r it1 sr s w = some q := by
  apply pullReduceFromE.partial_correctness r it2
  rintro f ih sr _ w q h s rfl
  rw [pullReduceFromE]
  rw [hn] at h
  rcases hi : it1.next s w with _ | ⟨w', ⟨s', o⟩ | _⟩
  · rw [hi] at h; cases h
  · rw [hi] at h
    cases o with
    | none => exact h
    | some x =>
      simp only [Option.map_some, Res.bind] at h ⊢
      rcases hr : r.next sr x w' with ⟨w'', sr' | _⟩
      · rw [hr] at h; exact ih _ _ _ _ h _ rfl
      · rw [hr] at h; cases h; rfl
  · rw [hi] at h; cases h; rfl

theorem iter_like {it1 it2 : PullE W α} {r : RedE W α ρ} (φ : it1.σ → it2.σ)
    (hn : ∀ s w, it2.next (φ s) w = (it1.next s w).map fun q => (q.1, q.2.bind fun p => .ok (φ p.1, p.2)))
    (sr : r.σ) (s : it1.σ) (w : W) : pullReduceFromE r it1 sr s w = pullReduceFromE r it2 sr (φ s) w :=
  opt_ext (iter_like_forth φ hn sr s w) fun q h => iter_like_back φ hn sr _ w q h s rfl

/-- std's `map` is the adapter with the stage `Map`. -/
theorem map_next (f : α → Eff W β) (it : PullE W α) (s : it.σ) (w : W) : fromAdaptNextE (mapStageE f) it () s w =
    ((pullMapE f it).next s w).map fun q => (q.1, q.2.bind fun p => .ok (((), p.1), p.2)) := by
  rw [fromAdaptNextE]
  simp only
  rcases it.next s w with _ | ⟨w', ⟨s', o⟩ | _⟩
  · rfl
  · cases o with
    | none => simp only; rw [fromAdaptFinE]; rfl
    | some x =>
      simp only [bind_apply]
      rcases f x w' with ⟨v, b | _⟩ <;> rfl
  · rfl

/-- std's `filter` is the adapter with the stage `Filter`. -/
theorem filter_next (f : α → Eff W Bool) (it : PullE W α) (s : it.σ) (w : W) : fromAdaptNextE (filterStageE f) it () s w =
    ((pullFilterE f it).next s w).map fun q => (q.1, q.2.bind fun p => .ok (((), p.1), p.2)) := by
  have h1 : ∀ (s : it.σ) (w : W) q, pullFilterNextE f it s w = some q → fromAdaptNextE (filterStageE f) it () s w =
      some (q.1, q.2.bind fun p => .ok (((), p.1), p.2)) := by
    apply pullFilterNextE.partial_correctness f it
    intro g ih s w q h
    rw [fromAdaptNextE]
    rcases hi : it.next s w with _ | ⟨w', ⟨s', o⟩ | _⟩
    · rw [hi] at h; cases h
    · rw [hi] at h
      cases o with
      | none => cases h; simp only; rw [fromAdaptFinE]; rfl
      | some x =>
        simp only [bind_apply] at h ⊢
        rcases hx : f x w' with ⟨v, b | _⟩
        · rw [hx] at h
          cases b with
          | true => cases h; rfl
          | false => exact ih _ _ _ h
        · rw [hx] at h; cases h; rfl
    · rw [hi] at h; cases h; rfl
  have h2 : ∀ (u : Unit) (s : it.σ) (w : W) q, fromAdaptNextE (filterStageE f) it u s w = some q → ∃ q', pullFilterNextE f it s w = some q' := by
    apply fromAdaptNextE.partial_correctness (filterStageE f) it
    intro g ih u s w q h
    rw [pullFilterNextE]
    rcases hi : it.next s w with _ | ⟨w', ⟨s', o⟩ | _⟩
    · rw [hi] at h; cases h
    · rw [hi] at h
      cases o with
      | none => exact ⟨_, rfl⟩
      | some x =>
        simp only [bind_apply] at h ⊢
        rcases hx : f x w' with ⟨v, b | _⟩
        · rw [hx] at h
          cases b with
          | true => exact ⟨_, rfl⟩
          | false => exact ih _ _ _ _ h
        · exact ⟨_, rfl⟩
    · exact ⟨_, rfl⟩
  show _ = (pullFilterNextE f it s w).map _
  rcases h : pullFilterNextE f it s w with _ | q
  · rcases h' : fromAdaptNextE (filterStageE f) it () s w with _ | q
    · rfl
    · obtain ⟨q', hq'⟩ := h2 () s w q h'
      rw [h] at hq'
      cases hq'
  · exact h1 s w q h

end

/-! ## Chains -/

section

variable {W α β γ ρ : Type}

theorem noBreak_nil : (nilStageE W α).NoBreak := by
  intro s x w w' s' h
  cases h

theorem noBreak_filter (f : α → Eff W Bool) : (filterStageE f).NoBreak := by
  intro s x w w' s' h
  simp only [bind_apply] at h
  rcases hx : f x w with ⟨v, b | _⟩ <;> rw [hx] at h <;> cases h

theorem noBreak_map (f : α → Eff W β) : (mapStageE f).NoBreak := by
  intro s x w w' s' h
  simp only [bind_apply] at h
  rcases hx : f x w with ⟨v, b | _⟩ <;> rw [hx] at h <;> cases h

theorem noBreak_groupby (f : α → α → Eff W Bool) : (groupByStageE f).NoBreak := by
  intro s x w w' s' h
  cases s with
  | empty => cases h
  | consumed p =>
    simp only [groupByAdaptE, bind_apply] at h
    rcases hx : f p x w with ⟨v, b | _⟩
    · rw [hx] at h
      cases b with
      | true => cases h
      | false =>
        simp only [Bool.false_eq_true, if_false, bind_apply] at h
        rcases hy : f p p v with ⟨v', b | _⟩
        · rw [hy] at h
          cases b <;> cases h
        · rw [hy] at h; cases h
    · rw [hx] at h; cases h
  | lazy a b =>
    simp only [groupByAdaptE, bind_apply] at h
    rcases hx : f b x w with ⟨v, c | _⟩
    · rw [hx] at h
      cases c <;> cases h
    · rw [hx] at h; cases h

theorem noBreak_merge {κ : Type} [Key κ] (f : α → α → Eff W (Option α)) (key : α → Eff W κ) : (mergeStageE f key).NoBreak := by
  intro s x w w' s' h
  simp only [mergeAdaptE, bind_apply] at h
  rcases hx : mergeFindE f x s.1 w with ⟨v, o | _⟩
  · rw [hx] at h
    rcases o with _ | ⟨p, q⟩
    · simp only [bind_apply] at h
      rcases hk : key x v with ⟨v', k | _⟩ <;> rw [hk] at h <;> cases h
    · simp only [bind_apply] at h
      rcases hk : key p v with ⟨v', k | _⟩
      · rw [hk] at h
        simp only [bind_apply] at h
        rcases hk' : key q v' with ⟨v'', k' | _⟩ <;> rw [hk'] at h <;> cases h
      · rw [hk] at h; cases h
  · rw [hx] at h; cases h

theorem ends_nil : (nilStageE W α).Ends := fun _ _ _ _ _ _ => rfl
theorem ends_filter (f : α → Eff W Bool) : (filterStageE f).Ends := fun _ _ _ _ _ _ => rfl
theorem ends_map (f : α → Eff W β) : (mapStageE f).Ends := fun _ _ _ _ _ _ => rfl

theorem ends_groupby (f : α → α → Eff W Bool) : (groupByStageE f).Ends := by
  intro s w w' s' h
  have : s' = .empty := by
    cases s with
    | empty => cases h; rfl
    | consumed p =>
      simp only [groupByFinE, bind_apply] at h
      rcases hx : f p p w with ⟨v, b | _⟩
      · rw [hx] at h
        cases b <;> cases h
        rfl
      · rw [hx] at h; cases h
    | lazy a b => cases h
  subst this
  intro w
  rfl

theorem ends_merge {κ : Type} [Key κ] (f : α → α → Eff W (Option α)) (key : α → Eff W κ) : (mergeStageE f key).Ends := by
  rintro ⟨m, it⟩ w w' s' h
  rcases it with _ | it
  · rcases m with _ | ⟨⟨k, v⟩, m⟩ <;> cases h
    intro w; rfl
  · rcases it with _ | ⟨⟨k, v⟩, it⟩ <;> cases h
    intro w; rfl

theorem ends_adapter {i : StageE W β γ} {a : StageE W α β} (hnb : i.NoBreak) (hi : i.Ends) (ha : a.Ends) : (adapterE i a).Ends := by
  rintro ⟨si, sa⟩ w w' ⟨si', sa'⟩ h
  have key : ∀ (sa : a.σ) (w : W) q, adapterFinE i a si sa w = some q → ∀ w' s', q = (w', .ok (s', .brk)) →
      i.Rests s'.1 ∧ a.Rests s'.2 := by
    apply adapterFinE.partial_correctness i a si
    intro f ih sa w q h w' s' hq
    rcases hf : a.fin sa w with _ | ⟨v, ⟨sa', fl⟩ | _⟩
    · rw [hf] at h; cases h
    · rw [hf] at h
      rcases fl with _ | o
      · simp only at h
        rcases hfi : i.fin si v with _ | ⟨v', ⟨si', fl⟩ | _⟩
        · rw [hfi] at h; cases h
        · rw [hfi] at h
          cases h
          cases hq
          exact ⟨hi _ _ _ _ hfi, ha _ _ _ _ hf⟩
        · rw [hfi] at h; cases h; cases hq
      · cases o with
        | none => exact ih _ _ _ h _ _ hq
        | some o =>
          simp only [bind_apply] at h
          rcases hn : i.adapt si o v with ⟨v', ⟨si', fl⟩ | _⟩
          · rw [hn] at h
            cases h
            cases hq
            exact absurd hn (hnb _ _ _ _ _)
          · rw [hn] at h; cases h; cases hq
    · rw [hf] at h; cases h; cases hq
  obtain ⟨h1, h2⟩ := key sa w _ h _ _ rfl
  intro w
  show adapterFinE i a si' sa' w = _
  rw [adapterFin_rests h2, h1 w]

theorem ends_chain : ∀ {β : Type} (c : ChainE W α β), c.stage.Ends
  | _, .nil => ends_nil
  | _, .filter c f => ends_adapter (noBreak_filter f) (ends_filter f) (ends_chain c)
  | _, .map c f => ends_adapter (noBreak_map f) (ends_map f) (ends_chain c)
  | _, .groupby c f => ends_adapter (noBreak_groupby f) (ends_groupby f) (ends_chain c)
  | _, .merge _ c f key => ends_adapter (noBreak_merge f key) (ends_merge f key) (ends_chain c)

/-- An adapter around an iterator that stays exhausted stays exhausted. -/
theorem fused_adapt {a : StageE W α β} {it : PullE W α} (hnb : a.NoBreak) (ha : a.Ends) (hit : it.Fused) : (fromAdaptE a it).Fused := by
  obtain ⟨Done, hd1, hd2⟩ := fused_done hit
  have hfin : ∀ (sa : a.σ) (w : W) q, fromAdaptFinE a sa w = some q → ∀ w' sa', q = (w', .ok (sa', none)) → a.Rests sa' := by
    apply fromAdaptFinE.partial_correctness a
    intro f ih sa w q h w' sa' hq
    rcases hf : a.fin sa w with _ | ⟨v, ⟨sa'', fl⟩ | _⟩
    · rw [hf] at h; cases h
    · rw [hf] at h
      rcases fl with _ | o
      · cases h; cases hq; exact ha _ _ _ _ hf
      · cases o with
        | none => exact ih _ _ _ h _ _ hq
        | some o => cases h; cases hq
    · rw [hf] at h; cases h; cases hq
  have hnext : ∀ (sa : a.σ) (s : it.σ) (w : W) q, fromAdaptNextE a it sa s w = some q → ∀ w' s', q = (w', .ok (s', none)) →
      a.Rests s'.1 ∧ Done s'.2 := by
    apply fromAdaptNextE.partial_correctness a it
    intro f ih sa s w q h w' s' hq
    rcases hi : it.next s w with _ | ⟨v, ⟨t, o⟩ | _⟩
    · rw [hi] at h; cases h
    · rw [hi] at h
      cases o with
      | none =>
        simp only at h
        rcases hf : fromAdaptFinE a sa v with _ | ⟨v', ⟨sa', o⟩ | _⟩
        · rw [hf] at h; cases h
        · rw [hf] at h
          cases h
          cases hq
          exact ⟨hfin _ _ _ hf _ _ rfl, hd1 _ _ _ _ hi⟩
        · rw [hf] at h; cases h; cases hq
      | some x =>
        simp only at h
        rcases hx : a.adapt sa x v with ⟨v', ⟨sa', fl⟩ | _⟩
        · rw [hx] at h
          rcases fl with _ | o
          · exact absurd hx (hnb _ _ _ _ _)
          · cases o with
            | none => exact ih _ _ _ _ h _ _ hq
            | some o => cases h; cases hq
        · rw [hx] at h; cases h; cases hq
    · rw [hi] at h; cases h; cases hq
  refine ⟨fun s => a.Rests s.1 ∧ Done s.2, fun s w w' s' h => hnext _ _ _ _ h _ _ rfl, ?_⟩
  rintro ⟨sa, s⟩ ⟨h1, h2⟩ w
  obtain ⟨s', h3, h4⟩ := hd2 s h2 w
  refine ⟨(sa, s'), ?_⟩
  show fromAdaptNextE a it sa s w = _
  rw [fromAdaptNextE, h4]
  simp only
  rw [fromAdaptFinE, h1 w]

theorem fused_like {it1 it2 : PullE W α} (φ : it1.σ → it2.σ)
    (hn : ∀ s w, it2.next (φ s) w = (it1.next s w).map fun q => (q.1, q.2.bind fun p => .ok (φ p.1, p.2))) (h : it2.Fused) : it1.Fused := by
  obtain ⟨Done, h1, h2⟩ := h
  refine ⟨fun s => Done (φ s), fun s w w' s' h => ?_, fun s hs w => ?_⟩
  · apply h1 (φ s) w w'
    rw [hn, h]
    rfl
  · obtain ⟨s', h3⟩ := h2 (φ s) hs w
    rw [hn] at h3
    rcases h4 : it1.next s w with _ | ⟨v, ⟨t, o⟩ | _⟩
    · rw [h4] at h3; cases h3
    · rw [h4] at h3
      cases h3
      exact ⟨t, rfl⟩
    · rw [h4] at h3; cases h3

theorem fused_pulled {it : PullE W α} (hit : it.Fused) : ∀ {β : Type} (c : ChainE W α β), (c.pulled it).Fused
  | _, .nil => hit
  | _, .filter c f => fused_like (it2 := fromAdaptE (filterStageE f) (c.pulled it)) (fun s => ((), s)) (fun s w => filter_next f (c.pulled it) s w)
      (fused_adapt (noBreak_filter f) (ends_filter f) (fused_pulled hit c))
  | _, .map c f => fused_like (it2 := fromAdaptE (mapStageE f) (c.pulled it)) (fun s => ((), s)) (map_next f _)
      (fused_adapt (noBreak_map f) (ends_map f) (fused_pulled hit c))
  | _, .groupby c f => fused_adapt (noBreak_groupby f) (ends_groupby f) (fused_pulled hit c)
  | _, .merge _ c f key => fused_adapt (noBreak_merge f key) (ends_merge f key) (fused_pulled hit c)

/-- A consumer of an iterator behind adapters. -/
theorem pulled_reduce {it : PullE W α} (hit : it.Fused) (s : it.σ) : ∀ {β : Type} (c : ChainE W α β) (r : RedE W β ρ) (sr : r.σ) (w : W),
    pullReduceFromE r (c.pulled it) sr (c.start s) w = pullReduceFromE (reducerE r c.stage) it (sr, c.stage.init) s w
  | _, .nil, r, sr, w => by
    refine (reduce_like (r1 := r) (r2 := reducerE r (nilStageE W α)) (fun s => (s, ())) (fun s x => ?_) (fun s w => ?_) sr s w)
    · rfl
    · simp only
      rw [reducerDrainE]
  | _, .filter c f, r, sr, w => by
    show pullReduceFromE r (pullFilterE f (c.pulled it)) sr (c.start s) w = _
    rw [iter_like (it1 := pullFilterE f (c.pulled it)) (it2 := fromAdaptE (filterStageE f) (c.pulled it)) (fun s => ((), s))
      (fun s w => filter_next f (c.pulled it) s w), fusion (noBreak_filter f) (fused_pulled hit c), pulled_reduce hit s c, reduce_assoc (noBreak_filter f) (ends_chain c)]
    rfl
  | _, .map c f, r, sr, w => by
    show pullReduceFromE r (pullMapE f (c.pulled it)) sr (c.start s) w = _
    rw [iter_like (it1 := pullMapE f (c.pulled it)) (it2 := fromAdaptE (mapStageE f) (c.pulled it)) (fun s => ((), s))
      (map_next f _), fusion (noBreak_map f) (fused_pulled hit c), pulled_reduce hit s c, reduce_assoc (noBreak_map f) (ends_chain c)]
    rfl
  | _, .groupby c f, r, sr, w => by
    show pullReduceFromE r (fromAdaptE (groupByStageE f) (c.pulled it)) sr (.empty, c.start s) w = _
    rw [fusion (noBreak_groupby f) (fused_pulled hit c), pulled_reduce hit s c, reduce_assoc (noBreak_groupby f) (ends_chain c)]
    rfl
  | _, .merge _ c f key, r, sr, w => by
    show pullReduceFromE r (fromAdaptE (mergeStageE f key) (c.pulled it)) sr (([], none), c.start s) w = _
    rw [fusion (noBreak_merge f key) (fused_pulled hit c), pulled_reduce hit s c, reduce_assoc (noBreak_merge f key) (ends_chain c)]
    rfl

end

end Verif
