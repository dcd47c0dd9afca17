import Verif.Lemmas.Stats

/-! # The number of runs -/

set_option linter.unusedSimpArgs false

namespace Verif

open Spec

section
variable {α : Type} (f : α → α → Bool)

/-- The neighbours that are not related. -/
def breaks : List α → Nat
  | [] => 0
  | [_] => 0
  | x :: y :: xs => (if f x y then 0 else 1) + breaks (y :: xs)

theorem runsL_length : ∀ xs : List α, xs ≠ [] → (runsL f xs).length = 1 + breaks f xs
  | [], h => absurd rfl h
  | [x], _ => rfl
  | x :: y :: xs, _ => by
    obtain ⟨r, rs, h⟩ := runsL_cons f y xs
    have ih := runsL_length (y :: xs) (by simp)
    rw [h] at ih
    rw [runsL_cons_cons f x y xs r rs h, breaks]
    simp only [List.length_cons] at ih ⊢
    split
    · simp only [List.length_cons]; omega
    · simp only [List.length_cons]; omega

theorem breaks_mono (g : α → α → Bool) (h : ∀ a b, f a b = true → g a b = true) : ∀ xs : List α, breaks g xs ≤ breaks f xs
  | [] => Nat.le_refl _
  | [x] => Nat.le_refl _
  | x :: y :: xs => by
    have ih := breaks_mono g h (y :: xs)
    have := h x y
    rw [breaks, breaks]
    split
    · omega
    · rename_i hg
      rw [if_neg fun hf => hg (this hf)]
      omega

/-- A coarser relation has at most as many runs. -/
theorem runsL_mono (g : α → α → Bool) (h : ∀ a b, f a b = true → g a b = true) (xs : List α) :
    (runsL g xs).length ≤ (runsL f xs).length := by
  cases xs with
  | nil => exact Nat.le_refl _
  | cons x xs =>
    rw [runsL_length f _ (by simp), runsL_length g _ (by simp)]
    have := breaks_mono f g h (x :: xs)
    omega

theorem breaks_append : ∀ (xs ys : List α) (a b : α), xs.getLast? = some a → ys.head? = some b →
    breaks f (xs ++ ys) = breaks f xs + (if f a b then 0 else 1) + breaks f ys
  | [], _, _, _, h, _ => by simp at h
  | [x], [], _, _, _, h => by simp at h
  | [x], y :: ys, a, b, h1, h2 => by
    simp at h1 h2
    subst h1 h2
    simp [breaks]
  | x :: x' :: xs, ys, a, b, h1, h2 => by
    have ih := breaks_append (x' :: xs) ys a b (by simpa using h1) h2
    simp only [List.cons_append] at ih ⊢
    rw [breaks, ih, breaks]
    omega

/-- Joining two sequences joins the last and the first run, or keeps all. -/
theorem runsL_append (xs ys : List α) (a b : α) (h1 : xs.getLast? = some a) (h2 : ys.head? = some b) :
    (runsL f (xs ++ ys)).length + (if f a b then 1 else 0) = (runsL f xs).length + (runsL f ys).length := by
  have hx : xs ≠ [] := by rintro rfl; simp at h1
  have hy : ys ≠ [] := by rintro rfl; simp at h2
  rw [runsL_length f _ hx, runsL_length f _ hy, runsL_length f _ (by simp [hx]), breaks_append f xs ys a b h1 h2]
  split <;> omega

/-- The runs of two sequences one after the other, if the last element of the first is not related to the first of the
second. -/
theorem runsL_append_apart : ∀ (xs ys : List α) (a b : α), xs.getLast? = some a → ys.head? = some b → f a b = false →
    runsL f (xs ++ ys) = runsL f xs ++ runsL f ys
  | [], _, _, _, h, _, _ => by simp at h
  | [x], [], _, _, _, h, _ => by simp at h
  | [x], y :: ys, a, b, h1, h2, hf => by
    simp at h1 h2
    subst h1 h2
    obtain ⟨r, rs, hr⟩ := runsL_cons f y ys
    show runsL f (x :: y :: ys) = [[x]] ++ runsL f (y :: ys)
    rw [runsL_cons_cons f x y ys r rs hr, hr, if_neg (by rw [hf]; simp)]
    rfl
  | x :: x' :: xs, ys, a, b, h1, h2, hf => by
    have ih := runsL_append_apart (x' :: xs) ys a b (by simpa using h1) h2 hf
    obtain ⟨r, rs, hr⟩ := runsL_cons f x' xs
    rw [hr] at ih
    simp only [List.cons_append] at ih ⊢
    rw [runsL_cons_cons f x x' (xs ++ ys) r (rs ++ runsL f ys) ih, runsL_cons_cons f x x' xs r rs hr]
    split <;> rfl

/-- The same if the two elements are related: the two runs become one. -/
theorem runsL_append_joined : ∀ (xs ys : List α) (a b : α), xs.getLast? = some a → ys.head? = some b → f a b = true →
    ∃ A l h B, runsL f xs = A ++ [l] ∧ runsL f ys = h :: B ∧ runsL f (xs ++ ys) = A ++ (l ++ h) :: B
  | [], _, _, _, h, _, _ => by simp at h
  | [x], [], _, _, _, h, _ => by simp at h
  | [x], y :: ys, a, b, h1, h2, hf => by
    simp at h1 h2
    subst h1 h2
    obtain ⟨r, rs, hr⟩ := runsL_cons f y ys
    refine ⟨[], [x], y :: r, rs, rfl, hr, ?_⟩
    show runsL f (x :: y :: ys) = _
    rw [runsL_cons_cons f x y ys r rs hr, if_pos hf]
    rfl
  | x :: x' :: xs, ys, a, b, h1, h2, hf => by
    obtain ⟨A, l, h, B, e1, e2, e3⟩ := runsL_append_joined (x' :: xs) ys a b (by simpa using h1) h2 hf
    obtain ⟨r, rs, hr⟩ := runsL_cons f x' xs
    rw [hr] at e1
    simp only [List.cons_append] at e3 ⊢
    cases A with
    | nil =>
      simp at e1
      obtain ⟨rfl, rfl⟩ := e1
      simp only [List.nil_append, List.cons_append] at e3
      rw [runsL_cons_cons f x x' (xs ++ ys) (r ++ h) B e3, runsL_cons_cons f x x' xs r [] hr]
      split
      · exact ⟨[], x :: x' :: r, h, B, rfl, e2, rfl⟩
      · exact ⟨[[x]], x' :: r, h, B, rfl, e2, rfl⟩
    | cons q A =>
      simp only [List.cons_append, List.cons.injEq] at e1
      obtain ⟨rfl, rfl⟩ := e1
      simp only [List.cons_append] at e3
      rw [runsL_cons_cons f x x' (xs ++ ys) r _ e3, runsL_cons_cons f x x' xs r _ hr]
      split
      · exact ⟨(x :: x' :: r) :: A, l, h, B, rfl, e2, rfl⟩
      · exact ⟨[x] :: (x' :: r) :: A, l, h, B, rfl, e2, rfl⟩

/-- Related neighbours are neighbours in a run. -/
theorem runsL_neighbours : ∀ (xs : List α) (p : α × α), p ∈ xs.zip xs.tail → f p.1 p.2 = true →
    ∃ r ∈ runsL f xs, ∃ u v, r = u ++ p.1 :: p.2 :: v
  | [], _, h, _ => by simp at h
  | [x], _, h, _ => by simp at h
  | x :: y :: xs, p, h, hp => by
    obtain ⟨r, rs, hr⟩ := runsL_cons f y xs
    rw [runsL_cons_cons f x y xs r rs hr]
    have h' : p = (x, y) ∨ p ∈ (y :: xs).zip (y :: xs).tail := by simpa using h
    rcases h' with rfl | h'
    · rw [if_pos hp]
      exact ⟨_, List.mem_cons_self, [], r, rfl⟩
    · obtain ⟨q, hq, u, v, huv⟩ := runsL_neighbours (y :: xs) p h' hp
      rw [hr] at hq
      split
      · rcases List.mem_cons.1 hq with rfl | hq
        · exact ⟨_, List.mem_cons_self, x :: u, v, by rw [huv]; rfl⟩
        · exact ⟨q, List.mem_cons_of_mem _ hq, u, v, huv⟩
      · exact ⟨q, List.mem_cons_of_mem _ hq, u, v, huv⟩

end

/-- In a chain every element is at least the first and at most the last. -/
theorem chain_pairwise {α : Type} {R : α → α → Prop} (ht : ∀ a b c, R a b → R b c → R a c) {r : List α}
    (h : ∀ i a b, r[i]? = some a → r[i + 1]? = some b → R a b) : r.Pairwise R := by
  induction r with
  | nil => exact .nil
  | cons x r ih =>
    have ih := ih fun i a b h1 h2 => h (i + 1) a b (by simpa using h1) (by simpa using h2)
    refine List.pairwise_cons.2 ⟨?_, ih⟩
    cases r with
    | nil => simp
    | cons y r =>
      have hxy : R x y := h 0 x y rfl rfl
      intro z hz
      rcases List.mem_cons.1 hz with rfl | hz
      · exact hxy
      · exact ht _ _ _ hxy ((List.pairwise_cons.1 ih).1 z hz)

/-- Strictly increasing lists: a subset is not longer. -/
theorem increasing_length_le {ps qs : List Nat} (hp : ps.Pairwise (· < ·)) (hq : qs.Pairwise (· < ·))
    (h : ∀ p ∈ ps, p ∈ qs) : ps.length ≤ qs.length := by
  induction ps generalizing qs with
  | nil => exact Nat.zero_le _
  | cons p ps ih =>
    obtain ⟨u, v, rfl⟩ := List.append_of_mem (h p List.mem_cons_self)
    obtain ⟨hp1, hp2⟩ := List.pairwise_cons.1 hp
    obtain ⟨-, hv, huv⟩ := List.pairwise_append.1 hq
    have := ih hp2 (List.pairwise_cons.1 hv).2 fun p' hp' => by
      have h1 := hp1 p' hp'
      rcases List.mem_append.1 (h p' (List.mem_cons_of_mem _ hp')) with h2 | h2
      · exact absurd (huv p' h2 p List.mem_cons_self) (by omega)
      · rcases List.mem_cons.1 h2 with rfl | h2
        · omega
        · exact h2
    simp only [List.length_append, List.length_cons]
    omega

end Verif
