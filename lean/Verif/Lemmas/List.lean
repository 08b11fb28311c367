import Mathlib.Data.List.Forall2

/-! List helpers. -/

namespace Lambdalib

@[elab_as_elim]
theorem snocInduction {α : Type} {P : List α → Prop} (l : List α) (nil : P [])
    (snoc : ∀ l a, P l → P (l ++ [a])) : P l := by
  have h : ∀ n (l : List α), l.length = n → P l := by
    intro n
    induction n with
    | zero => intro l hl; rw [List.length_eq_zero_iff] at hl; subst hl; exact nil
    | succ n ih =>
      intro l hl
      have hne : l ≠ [] := by intro h; simp [h] at hl
      rw [← List.dropLast_append_getLast hne]
      exact snoc _ _ (ih _ (by simp [hl]))
  exact h _ l rfl

theorem forall₂_snoc {α β : Type} {R : α → β → Prop} {l : List α} {m : List β} {a : α} {b : β}
    (h : List.Forall₂ R l m) (hab : R a b) : List.Forall₂ R (l ++ [a]) (m ++ [b]) := by
  induction h with
  | nil => exact .cons hab .nil
  | cons h _ ih => exact .cons h ih

end Lambdalib
