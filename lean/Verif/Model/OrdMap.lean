import Verif.Model.Prim

/-!
# `std::collections::BTreeMap`

A `BTreeMap<K, V>` is the list of its entries in key order. Its contract (a finite map, iterated in key
order) is trusted; `Ord` on keys is a lawful total order whose equality is structural.
-/

namespace Verif

/-- `K: Ord`: a lawful total order (trait bound of `Split` and `Merge`). -/
class Key (κ : Type) where
  lt : κ → κ → Prop
  dec : ∀ a b, Decidable (lt a b)
  irrefl : ∀ a, ¬ lt a a
  trans : ∀ {a b c}, lt a b → lt b c → lt a c
  tri : ∀ {a b}, ¬ lt a b → ¬ lt b a → a = b

instance {κ : Type} [Key κ] (a b : κ) : Decidable (Key.lt a b) := Key.dec a b

/-- An order given by an injective rank. -/
@[reducible] def Key.ofRank {κ : Type} (rank : κ → Nat) (inj : ∀ a b, rank a = rank b → a = b) : Key κ where
  lt a b := rank a < rank b
  dec _ _ := inferInstance
  irrefl _ := Nat.lt_irrefl _
  trans := Nat.lt_trans
  tri h1 h2 := inj _ _ (Nat.le_antisymm (Nat.le_of_not_lt h2) (Nat.le_of_not_lt h1))

/-- `usize` keys. -/
instance : Key Nat := Key.ofRank id (fun _ _ h => h)

/-- `u32` keys. -/
instance : Key UInt32 := Key.ofRank UInt32.toNat (fun _ _ h => UInt32.toNat_inj.1 h)

/-- Pairs are ordered lexicographically. -/
instance {κ μ : Type} [Key κ] [Key μ] : Key (κ × μ) where
  lt a b := Key.lt a.1 b.1 ∨ (a.1 = b.1 ∧ Key.lt a.2 b.2)
  dec a b :=
    have h : Decidable (a.1 = b.1) :=
      if h1 : Key.lt a.1 b.1 then isFalse fun h => Key.irrefl b.1 (h ▸ h1)
      else if h2 : Key.lt b.1 a.1 then isFalse fun h => Key.irrefl b.1 (h ▸ h2)
      else isTrue (Key.tri h1 h2)
    inferInstance
  irrefl a h := by
    rcases h with h | ⟨_, h⟩
    · exact Key.irrefl _ h
    · exact Key.irrefl _ h
  trans := by
    rintro ⟨a, a'⟩ ⟨b, b'⟩ ⟨c, c'⟩ h1 h2
    simp only at *
    rcases h1 with h1 | ⟨rfl, h1⟩
    · rcases h2 with h2 | ⟨rfl, _⟩
      · exact Or.inl (Key.trans h1 h2)
      · exact Or.inl h1
    · rcases h2 with h2 | ⟨rfl, h2⟩
      · exact Or.inl h2
      · exact Or.inr ⟨rfl, Key.trans h1 h2⟩
  tri := by
    rintro ⟨a, a'⟩ ⟨b, b'⟩ h1 h2
    simp only [not_or, not_and] at h1 h2
    have : a = b := Key.tri h1.1 h2.1
    subst this
    have : a' = b' := Key.tri (h1.2 rfl) (h2.2 rfl)
    subst this
    rfl

/-- A map: entries in key order. -/
abbrev OrdMap (κ ν : Type) := List (κ × ν)

namespace OrdMap
variable {κ ν : Type} [Key κ]

/-- `BTreeMap::get`. -/
def get (m : OrdMap κ ν) (k : κ) : Option ν :=
  match m with
  | [] => none
  | (k', v) :: rest => if Key.lt k k' then none else if Key.lt k' k then get rest k else some v

/-- `BTreeMap::insert`: adds or replaces. -/
def insert (m : OrdMap κ ν) (k : κ) (v : ν) : OrdMap κ ν :=
  match m with
  | [] => [(k, v)]
  | (k', v') :: rest =>
    if Key.lt k k' then (k, v) :: (k', v') :: rest
    else if Key.lt k' k then (k', v') :: insert rest k v
    else (k, v) :: rest

/-- `BTreeMap::remove`. -/
def remove (m : OrdMap κ ν) (k : κ) : OrdMap κ ν :=
  match m with
  | [] => []
  | (k', v') :: rest =>
    if Key.lt k k' then (k', v') :: rest
    else if Key.lt k' k then (k', v') :: remove rest k
    else rest

/-- The invariant of a `BTreeMap`: strictly increasing keys. -/
def Sorted (m : OrdMap κ ν) : Prop := m.Pairwise fun a b => Key.lt a.1 b.1

end OrdMap

end Verif
