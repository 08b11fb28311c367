import Mathlib.Algebra.BigOperators.Group.Finset.Basic
import Mathlib.Algebra.Order.Ring.Rat

/-! Specification of a digital filter with exact arithmetic. -/

namespace Lambdalib

/-- `Σ_j a_j f(n-j)`: a list of coefficients applied to the last values of a sequence that starts at 0. -/
def tapSum (a : List Rat) (f : Nat → Rat) (n : Nat) : Rat := ∑ j ∈ Finset.range (n + 1), a.getD j 0 * f (n - j)

/-- The textbook difference equation: `Σ_j a_j y(n-j) = Σ_j b_j x(n-j)` at every `n`. -/
def IdealFilter (b a : List Rat) (x y : Nat → Rat) : Prop := ∀ n, tapSum a y n = tapSum b x n

/-- A single one, then zeros. -/
def impulse (n : Nat) : Rat := if n = 0 then 1 else 0

/-- The absolute values of the sequence sum up to at most `H`. -/
def AbsSumLe (h : Nat → Rat) (H : Rat) : Prop := ∀ n, ∑ j ∈ Finset.range (n + 1), |h j| ≤ H

end Lambdalib
