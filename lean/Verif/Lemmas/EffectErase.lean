import Verif.Lemmas.Effect

/-! # Closures whose answers do not depend on the effects: the results are those of the model without effects -/

set_option linter.unusedSimpArgs false

namespace Verif

/-- The call has some effect, and returns `r` whatever the world is. -/
def Answers {W α : Type} (x : Eff W α) (r : Res α) : Prop := ∀ w, (x w).2 = r

/-- Apply a function to a result. -/
def Res.conv {α β : Type} (φ : α → β) : Res α → Res β
  | .ok a => .ok (φ a)
  | .panic => .panic

theorem Answers.cases {W α : Type} {x : Eff W α} {r : Res α} (h : Answers x r) (w : W) : ∃ w', x w = (w', r) :=
  ⟨(x w).1, Prod.ext rfl (h w)⟩

/-- The stage does what the stage without effects does, up to a translation of its states. -/
def StageE.Erases {W α β : Type} (a : StageE W α β) (b : Stage α β) (φ : a.σ → b.σ) : Prop :=
  φ a.init = b.init ∧ (∀ s x w, (a.adapt s x w).2.conv (fun q => (φ q.1, q.2)) = b.adapt (φ s) x) ∧
  ∀ s w, (a.fin s w).map (fun q => q.2.conv fun q => (φ q.1, q.2)) = b.fin (φ s)

/-- The reducer does what the reducer without effects does, up to a translation of its states. -/
def RedE.Erases {W α ρ : Type} (a : RedE W α ρ) (b : Red α ρ) (φ : a.σ → b.σ) : Prop :=
  φ a.init = b.init ∧ (∀ s x w, (a.next s x w).2.conv φ = b.next (φ s) x) ∧
  ∀ s w, (a.fin s w).map (·.2) = b.fin (φ s)

theorem nilStage_erases (W α : Type) : (nilStageE W α).Erases (nilStage α) id := ⟨rfl, fun _ _ _ => rfl, fun _ _ => rfl⟩

theorem filterStage_erases {W α : Type} {f : α → Eff W Bool} {g : α → Res Bool} (h : ∀ x, Answers (f x) (g x)) :
    (filterStageE f).Erases (filterStage g) id := by
  refine ⟨rfl, ?_, fun _ _ => rfl⟩
  intro s x w
  obtain ⟨w', hw⟩ := (h x).cases w
  simp only [bind_apply, hw]
  rcases g x with b | _
  · cases b <;> rfl
  · rfl

theorem mapStage_erases {W α β : Type} {f : α → Eff W β} {g : α → Res β} (h : ∀ x, Answers (f x) (g x)) :
    (mapStageE f).Erases (mapStage g) id := by
  refine ⟨rfl, ?_, fun _ _ => rfl⟩
  intro s x w
  obtain ⟨w', hw⟩ := (h x).cases w
  simp only [bind_apply, hw]
  rcases g x with b | _ <;> rfl

theorem groupByStage_erases {W α : Type} {f : α → α → Eff W Bool} {g : α → α → Res Bool}
    (h : ∀ x y, Answers (f x y) (g x y)) : (groupByStageE f).Erases (groupByStage g) id := by
  refine ⟨rfl, ?_, ?_⟩
  · intro s x w
    cases s with
    | empty => rfl
    | consumed p =>
      obtain ⟨w', hw⟩ := (h p x).cases w
      simp only [groupByAdaptE, groupByAdapt, bind_apply, hw, id]
      rcases g p x with b | _
      · cases b with
        | true => rfl
        | false =>
          obtain ⟨w'', hw'⟩ := (h p p).cases w'
          simp only [Bool.false_eq_true, if_false, bind_apply, hw']
          rcases g p p with b | _
          · cases b <;> rfl
          · rfl
      · rfl
    | lazy a b =>
      obtain ⟨w', hw⟩ := (h b x).cases w
      simp only [groupByAdaptE, groupByAdapt, bind_apply, hw, id]
      rcases g b x with b | _
      · cases b <;> rfl
      · rfl
  · intro s w
    cases s with
    | empty => rfl
    | consumed p =>
      obtain ⟨w', hw⟩ := (h p p).cases w
      simp only [groupByFinE, groupByFin, bind_apply, hw, id, Option.map_some]
      rcases g p p with b | _
      · cases b <;> rfl
      · rfl
    | lazy a b => rfl

theorem mergeFind_erases {W α κ : Type} {f : α → α → Eff W (Option α)} {g : α → α → Res (Option α)}
    (h : ∀ x y, Answers (f x y) (g x y)) (next : α) (l : List (κ × α)) : Answers (mergeFindE f next l) (mergeFind g next l) := by
  induction l with
  | nil => intro w; rfl
  | cons x l ih =>
    obtain ⟨k, p⟩ := x
    intro w
    obtain ⟨w', hw⟩ := (h p next).cases w
    simp only [mergeFindE, mergeFind, bind_apply, hw]
    rcases g p next with o | _
    · cases o with
      | none => exact ih w'
      | some v => rfl
    · rfl

theorem mergeStage_erases {W α κ : Type} [Key κ] {f : α → α → Eff W (Option α)} {g : α → α → Res (Option α)}
    {key : α → Eff W κ} {key' : α → κ} (h : ∀ x y, Answers (f x y) (g x y)) (hk : ∀ x, Answers (key x) (.ok (key' x))) :
    (mergeStageE f key).Erases (mergeStage g key') id := by
  refine ⟨rfl, ?_, fun _ _ => rfl⟩
  intro s x w
  obtain ⟨w', hw⟩ := (mergeFind_erases h x s.1).cases w
  simp only [mergeAdaptE, mergeAdapt, bind_apply, hw, id]
  rcases mergeFind g x s.1 with o | _
  · rcases o with _ | ⟨p, v⟩
    · obtain ⟨w2, hw2⟩ := (hk x).cases w'
      simp only [bind_apply, hw2]
      rfl
    · obtain ⟨w2, hw2⟩ := (hk p).cases w'
      obtain ⟨w3, hw3⟩ := (hk v).cases w2
      simp only [bind_apply, hw2, hw3]
      rfl
  · rfl

/-- The translated result of a stage. -/
theorem conv_ok {α β : Type} {φ : α → β} {r : Res α} {b : β} (h : r.conv φ = .ok b) : ∃ a, r = .ok a ∧ φ a = b := by
  cases r with
  | ok a => exact ⟨a, rfl, by simpa [Res.conv] using h⟩
  | panic => cases h

theorem adapter_erases {W α β γ : Type} {i : StageE W β γ} {i' : Stage β γ} {a : StageE W α β} {a' : Stage α β}
    {φ : i.σ → i'.σ} {ψ : a.σ → a'.σ} (hi : i.Erases i' φ) (ha : a.Erases a' ψ) :
    (adapterE i a).Erases (adapter i' a') fun s => (φ s.1, ψ s.2) := by
  obtain ⟨hi0, hi1, hi2⟩ := hi
  obtain ⟨ha0, ha1, ha2⟩ := ha
  refine ⟨by simp only [hi0, ha0], ?_, ?_⟩
  · intro s x w
    have h1 := ha1 s.2 x w
    simp only [bind_apply, ← h1]
    rcases hq : a.adapt s.2 x w with ⟨w', ⟨sa', fl⟩ | _⟩
    · simp only [Res.conv]
      rcases fl with _ | o
      · rfl
      · cases o with
        | none => rfl
        | some o =>
          have h2 := hi1 s.1 o w'
          simp only [bind_apply, ← h2]
          rcases i.adapt s.1 o w' with ⟨w'', ⟨si', r'⟩ | _⟩ <;> rfl
    · rfl
  · rintro ⟨si, sa⟩ w
    have h1 : ∀ sa' q, adapterFin i' a' (φ si) sa' = some q → ∀ sa w, ψ sa = sa' →
        (adapterFinE i a si sa w).map (fun q => q.2.conv fun q => ((φ q.1.1, ψ q.1.2), q.2)) = some q := by
      apply adapterFin.partial_correctness i' a' (φ si)
      intro F ih sa' q h sa w hs
      subst hs
      rw [adapterFinE]
      have h2 := ha2 sa w
      rw [← h2] at h
      rcases hq : a.fin sa w with _ | ⟨w', ⟨sa1, fl⟩ | _⟩
      · rw [hq] at h; cases h
      · rw [hq] at h
        simp only [Option.map_some, Res.conv] at h ⊢
        rcases fl with _ | o
        · have h3 := hi2 si w'
          simp only [← h3] at h ⊢
          rcases hf : i.fin si w' with _ | ⟨w'', ⟨si', r'⟩ | _⟩ <;> rw [hf] at h <;> cases h <;> rfl
        · cases o with
          | none => exact ih _ _ h sa1 w' rfl
          | some o =>
            have h3 := hi1 si o w'
            simp only [bind_apply, ← h3] at h ⊢
            rcases hf : i.adapt si o w' with ⟨w'', ⟨si', r'⟩ | _⟩ <;> rw [hf] at h <;> cases h <;> rfl
      · rw [hq] at h; cases h; rfl
    have h2 : ∀ sa w q, adapterFinE i a si sa w = some q →
        adapterFin i' a' (φ si) (ψ sa) = some (q.2.conv fun q => ((φ q.1.1, ψ q.1.2), q.2)) := by
      apply adapterFinE.partial_correctness i a si
      intro F ih sa w q h
      rw [adapterFin, ← ha2 sa w]
      rcases hq : a.fin sa w with _ | ⟨w', ⟨sa1, fl⟩ | _⟩
      · rw [hq] at h; cases h
      · rw [hq] at h
        simp only [Option.map_some, Res.conv] at h ⊢
        rcases fl with _ | o
        · simp only [← hi2 si w'] at h ⊢
          rcases hf : i.fin si w' with _ | ⟨w'', ⟨si', r'⟩ | _⟩ <;> rw [hf] at h <;> cases h <;> rfl
        · cases o with
          | none => exact ih _ _ _ h
          | some o =>
            simp only [bind_apply, ← hi1 si o w'] at h ⊢
            rcases hf : i.adapt si o w' with ⟨w'', ⟨si', r'⟩ | _⟩ <;> rw [hf] at h <;> cases h <;> rfl
      · rw [hq] at h; cases h; rfl
    simp only
    cases hp : adapterFin i' a' (φ si) (ψ sa) with
    | some q => exact h1 _ q hp sa w rfl
    | none =>
      cases hq : adapterFinE i a si sa w with
      | none => rfl
      | some q => have := h2 sa w q hq; rw [hp] at this; cases this

theorem reducer_erases {W α β ρ : Type} {r : RedE W β ρ} {r' : Red β ρ} {a : StageE W α β} {a' : Stage α β}
    {φ : r.σ → r'.σ} {ψ : a.σ → a'.σ} (hr : r.Erases r' φ) (ha : a.Erases a' ψ) :
    (reducerE r a).Erases (reducer r' a') fun s => (φ s.1, ψ s.2) := by
  obtain ⟨hr0, hr1, hr2⟩ := hr
  obtain ⟨ha0, ha1, ha2⟩ := ha
  refine ⟨by simp only [hr0, ha0], ?_, ?_⟩
  · intro s x w
    have h1 := ha1 s.2 x w
    simp only [bind_apply, ← h1]
    rcases hq : a.adapt s.2 x w with ⟨w', ⟨sa', fl⟩ | _⟩
    · simp only [Res.conv]
      rcases fl with _ | o
      · rfl
      · cases o with
        | none => rfl
        | some o =>
          have h2 := hr1 s.1 o w'
          simp only [bind_apply, ← h2]
          rcases r.next s.1 o w' with ⟨w'', si' | _⟩ <;> rfl
    · rfl
  · rintro ⟨sr, sa⟩ w
    have h1 : ∀ sr' sa' q, reducerDrain r' a' sr' sa' = some q → ∀ sr sa w, φ sr = sr' → ψ sa = sa' →
        ∃ w' p, reducerDrainE r a sr sa w = some (w', p) ∧ p.conv φ = q := by
      apply reducerDrain.partial_correctness
      intro F ih sr' sa' q h sr sa w hs hs'
      subst hs hs'
      rw [reducerDrainE]
      rw [← ha2 sa w] at h
      rcases hq : a.fin sa w with _ | ⟨w', ⟨sa1, fl⟩ | _⟩
      · rw [hq] at h; cases h
      · rw [hq] at h
        simp only [Option.map_some, Res.conv] at h ⊢
        rcases fl with _ | o
        · cases h; exact ⟨_, _, rfl, rfl⟩
        · cases o with
          | none => exact ih _ _ _ h sr sa1 w' rfl rfl
          | some o =>
            simp only [← hr1 sr o w'] at h ⊢
            rcases hf : r.next sr o w' with ⟨w'', sr1 | _⟩
            · rw [hf] at h; exact ih _ _ _ h sr1 sa1 w'' rfl rfl
            · rw [hf] at h; cases h; exact ⟨_, _, rfl, rfl⟩
      · rw [hq] at h; cases h; exact ⟨_, _, rfl, rfl⟩
    have h2 : ∀ sr sa w q, reducerDrainE r a sr sa w = some q →
        reducerDrain r' a' (φ sr) (ψ sa) = some (q.2.conv φ) := by
      apply reducerDrainE.partial_correctness
      intro F ih sr sa w q h
      rw [reducerDrain, ← ha2 sa w]
      rcases hq : a.fin sa w with _ | ⟨w', ⟨sa1, fl⟩ | _⟩
      · rw [hq] at h; cases h
      · rw [hq] at h
        simp only [Option.map_some, Res.conv] at h ⊢
        rcases fl with _ | o
        · cases h; rfl
        · cases o with
          | none => exact ih _ _ _ _ h
          | some o =>
            simp only [← hr1 sr o w'] at h ⊢
            rcases hf : r.next sr o w' with ⟨w'', sr1 | _⟩
            · rw [hf] at h; exact ih _ _ _ _ h
            · rw [hf] at h; cases h; rfl
      · rw [hq] at h; cases h; rfl
    simp only
    cases hp : reducerDrain r' a' (φ sr) (ψ sa) with
    | some q =>
      obtain ⟨w', p, h3, rfl⟩ := h1 _ _ q hp sr sa w rfl rfl
      rw [h3]
      cases p with
      | panic => rfl
      | ok sr' => exact hr2 sr' w'
    | none =>
      cases hq : reducerDrainE r a sr sa w with
      | none => rfl
      | some q => have := h2 sr sa w q hq; rw [hp] at this; cases this

theorem foldRed_erases {W α ι : Type} (i0 : ι) {f : ι → α → Eff W ι} {g : ι → α → Res ι}
    (h : ∀ i x, Answers (f i x) (g i x)) : (foldRedE i0 f).Erases (foldRed i0 g) id := by
  refine ⟨rfl, ?_, fun _ _ => rfl⟩
  intro s x w
  simp only [h s x w, id]
  cases g s x <;> rfl

theorem forkRed_erases {W α ρ τ : Type} {r1 : RedE W α ρ} {q1 : Red α ρ} {r2 : RedE W α τ} {q2 : Red α τ}
    {φ : r1.σ → q1.σ} {ψ : r2.σ → q2.σ} (h1 : r1.Erases q1 φ) (h2 : r2.Erases q2 ψ) :
    (forkRedE r1 r2).Erases (forkRed q1 q2) fun s => (φ s.1, ψ s.2) := by
  obtain ⟨h10, h11, h12⟩ := h1
  obtain ⟨h20, h21, h22⟩ := h2
  refine ⟨by simp only [h10, h20], ?_, ?_⟩
  · intro s x w
    simp only [bind_apply, ← h11 s.1 x w]
    rcases r1.next s.1 x w with ⟨w', s1 | _⟩
    · simp only [Res.conv, bind_apply, ← h21 s.2 x w']
      rcases r2.next s.2 x w' with ⟨w'', s2 | _⟩ <;> rfl
    · rfl
  · intro s w
    simp only [← h12 s.1 w]
    rcases r1.fin s.1 w with _ | ⟨w', a | _⟩
    · rfl
    · simp only [Option.map_some, ← h22 s.2 w']
      rcases r2.fin s.2 w' with _ | ⟨w'', b | _⟩ <;> rfl
    · rfl

/-- Translate the values of a map. -/
def OrdMap.mapVals {κ ν μ : Type} (φ : ν → μ) (m : OrdMap κ ν) : OrdMap κ μ := m.map fun x => (x.1, φ x.2)

theorem OrdMap.get_mapVals {κ ν μ : Type} [Key κ] (φ : ν → μ) (m : OrdMap κ ν) (k : κ) :
    (OrdMap.mapVals φ m).get k = (m.get k).map φ := by
  induction m with
  | nil => rfl
  | cons x m ih =>
    obtain ⟨k', v⟩ := x
    change OrdMap.get ((k', φ v) :: OrdMap.mapVals φ m) k = _
    rw [OrdMap.get, OrdMap.get, ih]
    split
    · rfl
    · split <;> rfl

theorem OrdMap.insert_mapVals {κ ν μ : Type} [Key κ] (φ : ν → μ) (m : OrdMap κ ν) (k : κ) (v : ν) :
    OrdMap.mapVals φ (m.insert k v) = (OrdMap.mapVals φ m).insert k (φ v) := by
  induction m with
  | nil => rfl
  | cons x m ih =>
    obtain ⟨k', v'⟩ := x
    change _ = OrdMap.insert ((k', φ v') :: OrdMap.mapVals φ m) k (φ v)
    rw [OrdMap.insert, OrdMap.insert]
    by_cases h1 : Key.lt k k'
    · rw [if_pos h1, if_pos h1]; rfl
    · rw [if_neg h1, if_neg h1]
      by_cases h2 : Key.lt k' k
      · rw [if_pos h2, if_pos h2, ← ih]; rfl
      · rw [if_neg h2, if_neg h2]; rfl

theorem splitRed_erases {W α κ ρ : Type} [Key κ] {keyfn : α → Eff W κ} {keyfn' : α → Res κ} {make : κ → Eff W Unit}
    {redfn : κ → RedE W α ρ} {redfn' : κ → Red α ρ} {φ : ∀ k, (redfn k).σ → (redfn' k).σ}
    (hk : ∀ x, Answers (keyfn x) (keyfn' x)) (hm : ∀ k, Answers (make k) (.ok ()))
    (hr : ∀ k, (redfn k).Erases (redfn' k) (φ k)) :
    (splitRedE keyfn make redfn).Erases (splitRed keyfn' redfn')
      (OrdMap.mapVals fun (c : (k : κ) × (redfn k).σ) => (⟨c.1, φ c.1 c.2⟩ : (k : κ) × (redfn' k).σ)) := by
  refine ⟨rfl, ?_, ?_⟩
  · intro m x w
    obtain ⟨w1, hw1⟩ := (hk x).cases w
    simp only [splitNextE, splitNext, bind_apply, hw1]
    cases hkx : keyfn' x with
    | panic => rfl
    | ok k =>
      obtain ⟨w2, hw2⟩ := (hm k).cases w1
      simp only [bind_apply, hw2]
      have hget : ((OrdMap.mapVals (fun (c : (k : κ) × (redfn k).σ) => (⟨c.1, φ c.1 c.2⟩ : (k : κ) × (redfn' k).σ)) m).get k).getD
          ⟨k, (redfn' k).init⟩ = (fun (c : (k : κ) × (redfn k).σ) => (⟨c.1, φ c.1 c.2⟩ : (k : κ) × (redfn' k).σ))
            ((m.get k).getD ⟨k, (redfn k).init⟩) := by
        rw [OrdMap.get_mapVals]
        cases m.get k with
        | none => simp only [Option.map_none, Option.getD_none, (hr k).1]
        | some c => rfl
      rw [hget]
      generalize (m.get k).getD ⟨k, (redfn k).init⟩ = c
      obtain ⟨kc, sc⟩ := c
      simp only [← (hr kc).2.1 sc x w2]
      rcases (redfn kc).next sc x w2 with ⟨w3, s' | _⟩
      · simp only [Res.conv, OrdMap.insert_mapVals, Eff.ok]
      · rfl
  · intro m w
    change (splitFinE redfn [] m w).map _ = splitFin redfn' [] _
    have h : ∀ (l : List (κ × ((k : κ) × (redfn k).σ))) (acc : OrdMap κ ρ) (w : W),
        (splitFinE redfn acc l w).map (·.2) =
          splitFin redfn' acc (OrdMap.mapVals (fun (c : (k : κ) × (redfn k).σ) => (⟨c.1, φ c.1 c.2⟩ : (k : κ) × (redfn' k).σ)) l) := by
      intro l
      induction l with
      | nil => intro acc w; rfl
      | cons x l ih =>
        intro acc w
        obtain ⟨k, kc, sc⟩ := x
        change _ = splitFin redfn' acc ((k, (⟨kc, φ kc sc⟩ : (k : κ) × (redfn' k).σ)) ::
          OrdMap.mapVals (fun (c : (k : κ) × (redfn k).σ) => (⟨c.1, φ c.1 c.2⟩ : (k : κ) × (redfn' k).σ)) l)
        rw [splitFinE, splitFin]
        simp only [← (hr kc).2.2 sc w]
        rcases (redfn kc).fin sc w with _ | ⟨w', r | _⟩
        · rfl
        · exact ih _ _
        · rfl
    exact h m [] w

theorem feed_erases {W α ρ : Type} {r : RedE W α ρ} {r' : Red α ρ} {φ : r.σ → r'.σ} (h : r.Erases r' φ) (s : r.σ)
    (xs : List α) (w : W) : (feedE r s xs w).2.conv φ = feed r' (φ s) xs := by
  induction xs generalizing s w with
  | nil => rfl
  | cons x xs ih =>
    rw [feedE, feed, bind_apply]
    simp only [← h.2.1 s x w]
    rcases r.next s x w with ⟨w', s' | _⟩
    · exact ih s' w'
    · rfl

theorem runRed_erases {W α ρ : Type} {r : RedE W α ρ} {r' : Red α ρ} {φ : r.σ → r'.σ} (h : r.Erases r' φ)
    (xs : List α) (w : W) : (runRedE r xs w).map (·.2) = runRed r' xs := by
  unfold runRedE runRed
  have hf := feed_erases h r.init xs w
  rw [h.1] at hf
  rw [← hf]
  rcases feedE r r.init xs w with ⟨w', s | _⟩
  · exact h.2.2 s w'
  · rfl

end Verif
