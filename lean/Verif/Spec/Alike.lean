import Verif.Spec.Pipeline

/-! # Values and programs that cannot be told apart -/

namespace Verif.Spec

open Verif

/-- Two lists are related value by value. -/
inductive Pointwise {α β : Type} (R : α → β → Prop) : List α → List β → Prop where
  | nil : Pointwise R [] []
  | cons {x y xs ys} : R x y → Pointwise R xs ys → Pointwise R (x :: xs) (y :: ys)

/-- Both panic, or both give values, which are related. -/
def ResRel {α β : Type} (R : α → β → Prop) : Res α → Res β → Prop
  | .ok a, .ok b => R a b
  | .panic, .panic => True
  | _, _ => False

/-- Both give nothing, or both give values, which are related. -/
def OptRel {α β : Type} (R : α → β → Prop) : Option α → Option β → Prop
  | some a, some b => R a b
  | none, none => True
  | _, _ => False

/-- Pairs related component by component. -/
def PairRel {α β : Type} (R : α → β → Prop) (p : α × α) (q : β × β) : Prop := R p.1 q.1 ∧ R p.2 q.2

/-- Two chains of the same adapters whose closures give related results for related arguments (equal ones where the
result is a decision or a key). Inputs are related by `R`, outputs by the other relation. -/
inductive ChainAlike {α α' : Type} (R : α → α' → Prop) :
    {β β' : Type} → (β → β' → Prop) → Chain α β → Chain α' β' → Prop where
  | nil : ChainAlike R R .nil .nil
  | filter {β β' : Type} {Q : β → β' → Prop} {c c'} {p : β → Res Bool} {p' : β' → Res Bool} : ChainAlike R Q c c' →
      (∀ x x', Q x x' → p x = p' x') → ChainAlike R Q (.filter c p) (.filter c' p')
  | map {β β' γ γ' : Type} {Q : β → β' → Prop} {Q' : γ → γ' → Prop} {c c'} {f : β → Res γ} {f' : β' → Res γ'} :
      ChainAlike R Q c c' → (∀ x x', Q x x' → ResRel Q' (f x) (f' x')) → ChainAlike R Q' (.map c f) (.map c' f')
  | groupby {β β' : Type} {Q : β → β' → Prop} {c c'} {f : β → β → Res Bool} {f' : β' → β' → Res Bool} :
      ChainAlike R Q c c' → (∀ x x' y y', Q x x' → Q y y' → f x y = f' x' y') →
      ChainAlike R (PairRel Q) (.groupby c f) (.groupby c' f')
  | merge {β β' κ : Type} {K : Key κ} {Q : β → β' → Prop} {c c'} {f : β → β → Res (Option β)}
      {f' : β' → β' → Res (Option β')} {key : β → κ} {key' : β' → κ} : ChainAlike R Q c c' →
      (∀ x x' y y', Q x x' → Q y y' → ResRel (OptRel Q) (f x y) (f' x' y')) → (∀ x x', Q x x' → key x = key' x') →
      ChainAlike R Q (.merge K c f key) (.merge K c' f' key')

/-- Two programs of the same shape whose closures cannot tell related inputs apart. -/
inductive ProgAlike : {α α' ρ : Type} → (α → α' → Prop) → Prog α ρ → Prog α' ρ → Prop where
  | fold {α α' ι γ : Type} {R : α → α' → Prop} {init : ι} {c0 : γ} {f : γ → ι → α → Res (γ × ι)}
      {f' : γ → ι → α' → Res (γ × ι)} : (∀ c i x x', R x x' → f c i x = f' c i x') →
      ProgAlike R (.fold init c0 f) (.fold init c0 f')
  | fork {α α' ρ τ : Type} {R : α → α' → Prop} {p : Prog α ρ} {p' : Prog α' ρ} {q : Prog α τ} {q' : Prog α' τ} :
      ProgAlike R p p' → ProgAlike R q q' → ProgAlike R (.fork p q) (.fork p' q')
  | split {α α' κ ρ : Type} {R : α → α' → Prop} {K : Key κ} {D : DecidableEq κ} {key : α → Res κ} {key' : α' → Res κ}
      {sub : κ → Prog α ρ} {sub' : κ → Prog α' ρ} : (∀ x x', R x x' → key x = key' x') →
      (∀ k, ProgAlike R (sub k) (sub' k)) → ProgAlike R (.split K D key sub) (.split K D key' sub')
  | behind {α α' β β' ρ : Type} {R : α → α' → Prop} {Q : β → β' → Prop} {c : Chain α β} {c' : Chain α' β'}
      {p : Prog β ρ} {p' : Prog β' ρ} : ChainAlike R Q c c' → ProgAlike Q p p' → ProgAlike R (.behind c p) (.behind c' p')

end Verif.Spec
