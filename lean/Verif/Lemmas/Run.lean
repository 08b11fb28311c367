import Verif.Spec.Circuit

/-! Evaluation of concrete executions. -/

namespace Lambdalib

variable {σ ι ο : Type}

/-- The registers after `n` cycles, and whether `P` held in each of these cycles. -/
def Circuit.check (c : Circuit σ ι ο) (P : σ → ι → Bool) (i : Nat → ι) : Nat → σ × Bool
  | 0 => (c.reset, true)
  | n + 1 =>
    let r := c.check P i n
    (c.next r.1 (i n), r.2 && P r.1 (i n))

theorem Circuit.check_fst (c : Circuit σ ι ο) (P : σ → ι → Bool) (i : Nat → ι) (n : Nat) :
    (c.check P i n).1 = c.st i n := by
  induction n with
  | zero => rfl
  | succ n ih => rw [Circuit.st_succ, ← ih]; rfl

theorem Circuit.check_snd (c : Circuit σ ι ο) (P : σ → ι → Bool) (i : Nat → ι) (n : Nat)
    (h : (c.check P i n).2 = true) (k : Nat) (hk : k < n) : P (c.st i k) (i k) = true := by
  induction n with
  | zero => omega
  | succ n ih =>
    have h' : ((c.check P i n).2 && P (c.check P i n).1 (i n)) = true := h
    rw [Bool.and_eq_true, c.check_fst] at h'
    by_cases e : k = n
    · rw [e]; exact h'.2
    · exact ih h'.1 (by omega)

end Lambdalib
