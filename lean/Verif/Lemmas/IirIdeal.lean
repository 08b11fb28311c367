import Verif.Spec.IirIdeal
import Verif.Spec.Iir
import Mathlib.RingTheory.PowerSeries.NoZeroDivisors
import Mathlib.Algebra.BigOperators.NatAntidiagonal
import Mathlib.Algebra.Order.BigOperators.Ring.Finset
import Mathlib.Tactic.Linarith
import Mathlib.Tactic.Positivity
import Mathlib.Tactic.Ring

/-! Convolution of coefficients and sequences, as products of power series. -/

namespace Lambdalib

open PowerSeries

theorem coeff_prod (f g : Nat → Rat) (n : Nat) :
    coeff n (mk f * mk g) = ∑ j ∈ Finset.range (n + 1), f j * g (n - j) := by
  rw [coeff_mul, Finset.Nat.sum_antidiagonal_eq_sum_range_succ (fun i j => coeff i (mk f) * coeff j (mk g))]
  simp only [coeff_mk]

theorem ideal_series {b a : List Rat} {x y : Nat → Rat} (h : IdealFilter b a x y) :
    mk (fun j => a.getD j 0) * mk y = mk (fun j => b.getD j 0) * mk x := by
  ext n
  rw [coeff_prod, coeff_prod]
  exact h n

theorem impulse_series : mk impulse = (1 : PowerSeries Rat) := by
  ext n
  rw [coeff_mk, coeff_one]; rfl

theorem one_series : mk (fun j => ([1] : List Rat).getD j 0) = (1 : PowerSeries Rat) := by
  ext n
  rw [coeff_mk, coeff_one]
  cases n <;> rfl

/-- A sequence is its image under `a`, convolved with the impulse response of `1 / a`. -/
theorem inverse_response {a : List Rat} {h e : Nat → Rat} (hh : IdealFilter [1] a impulse h) (n : Nat) :
    e n = ∑ j ∈ Finset.range (n + 1), h j * tapSum a e (n - j) := by
  have h1 := ideal_series hh
  rw [impulse_series, one_series, one_mul] at h1
  have h2 : mk (tapSum a e) = mk (fun j => a.getD j 0) * mk e := by
    ext n
    rw [coeff_prod, coeff_mk]; rfl
  have h3 : mk e = mk h * mk (tapSum a e) := by
    rw [h2, ← mul_assoc, mul_comm (mk h), h1, one_mul]
  have := congrArg (coeff n) h3
  rwa [coeff_prod, coeff_mk] at this

/-- The response to any input is the input convolved with the impulse response. -/
theorem impulse_response {b a : List Rat} {x y g : Nat → Rat} (ha : a.getD 0 0 = 1) (hy : IdealFilter b a x y)
    (hg : IdealFilter b a impulse g) (n : Nat) : y n = ∑ j ∈ Finset.range (n + 1), g j * x (n - j) := by
  have h1 := ideal_series hy
  have h2 := ideal_series hg
  rw [impulse_series, mul_one] at h2
  have hne : (mk (fun j => a.getD j 0) : PowerSeries Rat) ≠ 0 := by
    intro h
    have := congrArg (coeff 0) h
    rw [coeff_mk] at this
    simp only [map_zero] at this
    rw [ha] at this
    exact one_ne_zero this
  have h3 : mk y = mk g * mk x := by
    apply mul_left_cancel₀ hne
    rw [h1, ← h2, mul_assoc]
  have := congrArg (coeff n) h3
  rwa [coeff_prod, coeff_mk] at this

/-- Convolution with a sequence of bounded absolute sum. -/
theorem conv_bound {h f : Nat → Rat} {H D : Rat} (hH : AbsSumLe h H) (n : Nat) (hD : 0 ≤ D) (hf : ∀ k, k ≤ n → |f k| ≤ D) :
    |∑ j ∈ Finset.range (n + 1), h j * f (n - j)| ≤ H * D := by
  calc |∑ j ∈ Finset.range (n + 1), h j * f (n - j)|
      ≤ ∑ j ∈ Finset.range (n + 1), |h j * f (n - j)| := Finset.abs_sum_le_sum_abs _ _
    _ ≤ ∑ j ∈ Finset.range (n + 1), |h j| * D := by
        apply Finset.sum_le_sum
        intro j _
        rw [abs_mul]
        exact mul_le_mul_of_nonneg_left (hf _ (Nat.sub_le _ _)) (abs_nonneg _)
    _ = (∑ j ∈ Finset.range (n + 1), |h j|) * D := by rw [Finset.sum_mul]
    _ ≤ H * D := mul_le_mul_of_nonneg_right (hH n) hD

/-- A sum in which only the first `N` terms count, each at most `c`. -/
theorem taps_bound {t : Nat → Rat} {c : Rat} (hc : 0 ≤ c) (N m : Nat) (h1 : ∀ j, j < N → j < m → |t j| ≤ c)
    (h2 : ∀ j, N ≤ j → t j = 0) : |∑ j ∈ Finset.range m, t j| ≤ N * c := by
  have key : |∑ j ∈ Finset.range m, t j| ≤ (min m N : Nat) * c := by
    induction m with
    | zero => simp
    | succ m ih =>
      have ih := ih fun j a b => h1 j a (by omega)
      rw [Finset.sum_range_succ]
      by_cases hm : m < N
      · have e : ((min (m + 1) N : Nat) : Rat) = (min m N : Nat) + 1 := by
          rw [← Nat.cast_succ]; congr 1; omega
        rw [e, add_mul, one_mul]
        exact le_trans (abs_add_le _ _) (add_le_add ih (h1 m hm (by omega)))
      · rw [h2 m (by omega), add_zero, show min (m + 1) N = min m N by omega]
        exact ih
  refine le_trans key (mul_le_mul_of_nonneg_right ?_ hc)
  exact_mod_cast Nat.min_le_right m N

/-- The scalar product with the beginning of a sequence. -/
theorem dot_range (l : List Int) (m : Nat) (f : Nat → Int) :
    dot l ((List.range m).map f) = ∑ j ∈ Finset.range m, l.getD j 0 * f j := by
  induction l generalizing m f with
  | nil => simp [dot]
  | cons a l ih =>
    cases m with
    | zero => simp [dot]
    | succ m =>
      rw [List.range_succ_eq_map, List.map_cons, List.map_map, Finset.sum_range_succ']
      have := ih m (f ∘ Nat.succ)
      simp only [dot, List.zipWith_cons_cons, List.sum_cons] at this ⊢
      rw [this]
      simp only [List.getD_cons_succ, List.getD_cons_zero, Function.comp]
      ring

/-! ### The difference equation sample by sample -/

section
variable (e : DiffEq) (d : Nat → Int)

/-- The run on the first `n` values of a sequence. -/
def eqRun (n : Nat) : (List Int × List Int) × List Int := e.run ((List.range n).map d)

/-- The stored output for sample `n`. -/
def eqStored (n : Nat) : Int := (eqRun e d (n + 1)).1.2.headD 0

/-- The exact sum for sample `n`, from the stored outputs. -/
def eqSum (n : Nat) : Int :=
  ∑ j ∈ Finset.range (n + 1), e.b.getD j 0 * (d (n - j) * 2 ^ e.ss) + ∑ j ∈ Finset.range n, e.a.getD j 0 * eqStored e d (n - 1 - j)

theorem eqRun_succ (n : Nat) : eqRun e d (n + 1) = ((e.step (eqRun e d n).1 (d n)).1, (eqRun e d n).2 ++ [(e.step (eqRun e d n).1 (d n)).2]) := by
  unfold eqRun
  rw [List.range_succ, List.map_append, List.map_singleton, DiffEq.run_snoc]

theorem eqRun_hist (n : Nat) :
    (eqRun e d n).1.1 = (List.range n).map (fun j => d (n - 1 - j) * 2 ^ e.ss) ∧
    (eqRun e d n).1.2 = (List.range n).map (fun j => eqStored e d (n - 1 - j)) := by
  induction n with
  | zero => exact ⟨rfl, rfl⟩
  | succ n ih =>
    have e1 : ∀ f : Nat → Int, (List.range (n + 1)).map (fun j => f (n + 1 - 1 - j)) = f n :: (List.range n).map (fun j => f (n - 1 - j)) := by
      intro f
      rw [List.range_succ_eq_map, List.map_cons, List.map_map]
      congr 1
      apply List.map_congr_left
      intro j _
      exact congrArg f (by simp; omega)
    rw [e1 (fun k => d k * 2 ^ e.ss), e1 (eqStored e d), ← ih.1, ← ih.2]
    unfold eqStored
    rw [eqRun_succ]
    exact ⟨rfl, rfl⟩

theorem eqRun_acc (n : Nat) :
    eqStored e d n = twos (e.width + e.ss) (twos e.accWidth (eqSum e d n) / 2 ^ e.sc) ∧
    (eqRun e d (n + 1)).2 = (eqRun e d n).2 ++ [twos e.width (twos e.accWidth (eqSum e d n) / 2 ^ (e.sc + e.ss))] := by
  have h : dot e.b (d n * 2 ^ e.ss :: (eqRun e d n).1.1) + dot e.a (eqRun e d n).1.2 = eqSum e d n := by
    have e1 : (d n * 2 ^ e.ss :: (eqRun e d n).1.1) = (List.range (n + 1)).map (fun j => d (n - j) * 2 ^ e.ss) := by
      rw [(eqRun_hist e d n).1, List.range_succ_eq_map, List.map_cons, List.map_map]
      congr 1
      apply List.map_congr_left
      intro j _
      simp only [Function.comp]
      rw [show n - 1 - j = n - Nat.succ j by omega]
    rw [e1, (eqRun_hist e d n).2, dot_range, dot_range]
    rfl
  constructor
  · unfold eqStored
    rw [eqRun_succ]
    simp only [DiffEq.step]
    rw [h]
    rfl
  · rw [eqRun_succ]
    simp only [DiffEq.step]
    rw [h]

theorem eqRun_out (n k : Nat) (hk : k < n) :
    (eqRun e d n).2[k]? = some (twos e.width (twos e.accWidth (eqSum e d k) / 2 ^ (e.sc + e.ss))) := by
  have hlen : ∀ n, (eqRun e d n).2.length = n := by
    intro n
    induction n with
    | zero => rfl
    | succ n ih => rw [(eqRun_acc e d n).2, List.length_append, ih]; rfl
  induction n with
  | zero => omega
  | succ n ih =>
    rw [(eqRun_acc e d n).2]
    by_cases h : k < n
    · rw [List.getElem?_append_left (by rw [hlen]; exact h)]; exact ih h
    · obtain rfl : k = n := by omega
      rw [List.getElem?_append_right (by rw [hlen]), hlen]
      simp

end

end Lambdalib
