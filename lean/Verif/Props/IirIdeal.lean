import Verif.Lemmas.IirIdeal
import Verif.Props.Iir
import Mathlib.Algebra.BigOperators.Field
import Mathlib.RingTheory.PowerSeries.Inverse
import Mathlib.Tactic.FieldSimp

/-! C120: the fixed-point filter follows the filter with exact arithmetic. -/

namespace Lambdalib

/-- Quantisation towards zero is off by at most one step. -/
theorem iirCoeff_error (sc : Nat) (v : Rat) : |(iirCoeff sc v : Rat) / 2 ^ sc - v| ≤ 1 / 2 ^ sc := by
  have hp : (0 : Rat) < 2 ^ sc := by positivity
  have key : |(iirCoeff sc v : Rat) - v * 2 ^ sc| ≤ 1 := by
    unfold iirCoeff
    split
    · have h1 := Rat.floor_le (v * 2 ^ sc)
      have h2 := Rat.lt_floor_add_one (v * 2 ^ sc)
      push_cast at h2
      rw [abs_le]; constructor <;> linarith
    · have h1 := Rat.le_ceil (x := v * 2 ^ sc)
      have h2 := Rat.ceil_lt (x := v * 2 ^ sc)
      rw [abs_le]; constructor <;> linarith
  have e : (iirCoeff sc v : Rat) / 2 ^ sc - v = ((iirCoeff sc v : Rat) - v * 2 ^ sc) / 2 ^ sc := by
    field_simp
  rw [e, abs_div, abs_of_pos hp]
  exact div_le_div_of_nonneg_right key hp.le

theorem iirCoeff_zero (sc : Nat) : iirCoeff sc 0 = 0 := by
  unfold iirCoeff
  rw [if_pos (le_refl _), zero_mul]; rfl

theorem getD_map_zero (f : Rat → Int) (hf : f 0 = 0) (l : List Rat) (j : Nat) : (l.map f).getD j 0 = f (l.getD j 0) := by
  rw [List.getD_eq_getElem?_getD, List.getD_eq_getElem?_getD, List.getElem?_map]
  cases l[j]? <;> simp [hf]

theorem getD_beyond (l : List Rat) (j : Nat) (h : l.length ≤ j) : l.getD j 0 = 0 := by
  rw [List.getD_eq_getElem?_getD, List.getElem?_eq_none h]; rfl

/-- Integer division is the floor. -/
theorem floor_div (S : Int) (q : Nat) : ((S / 2 ^ q : Int) : Rat) ≤ (S : Rat) / 2 ^ q ∧ (S : Rat) / 2 ^ q < ((S / 2 ^ q : Int) : Rat) + 1 := by
  have hp : (0 : Rat) < 2 ^ q := by positivity
  have hz : (0 : Int) < 2 ^ q := by positivity
  have h1 := Int.ediv_mul_le S (b := 2 ^ q) (by omega)
  have h2 := Int.lt_ediv_add_one_mul_self S hz
  constructor
  · rw [le_div_iff₀ hp]; exact_mod_cast h1
  · rw [div_lt_iff₀ hp]; exact_mod_cast h2

/-- Bound for the error that one sample adds: rounding of the stored output and of the coefficients. `N` coefficients of either
kind, samples of at most `M`. -/
def iirStepError (N ss sc : Nat) (M : Rat) : Rat := 1 / 2 ^ ss + (2 * N - 1) * (M / 2 ^ sc)

section
variable (e : DiffEq) (d : Nat → Int) (b a : List Rat) (x y h : Nat → Rat) (H : Rat)

/-- The output before it is cut to the width of the registers. -/
def eqFull (n : Nat) : Int := eqSum e d n / 2 ^ e.sc

/-- The error of the output, in units of a sample. -/
def eqError (n : Nat) : Rat := (eqFull e d n : Rat) / 2 ^ e.ss - y n

theorem eqStored_range (hw : 0 < e.width) (n : Nat) : |(eqStored e d n : Rat) / 2 ^ e.ss| ≤ 2 ^ (e.width - 1) := by
  have hp : (0 : Rat) < 2 ^ e.ss := by positivity
  have h := inSigned_wrap (e.width + e.ss) (twos e.accWidth (eqSum e d n) / 2 ^ e.sc) (by omega)
  have h0 : InSigned (e.width + e.ss) (eqStored e d n) := by rw [(eqRun_acc e d n).1]; exact h
  obtain ⟨h1, h2⟩ := h0
  have e1 : (2 : Rat) ^ (e.width + e.ss - 1) = 2 ^ (e.width - 1) * 2 ^ e.ss := by
    rw [← pow_add]; congr 1; omega
  have h3 : -(2 : Rat) ^ (e.width + e.ss - 1) ≤ eqStored e d n := by exact_mod_cast h1
  have h4 : (eqStored e d n : Rat) < 2 ^ (e.width + e.ss - 1) := by exact_mod_cast h2
  rw [e1] at h3 h4
  rw [abs_le]
  constructor
  · rw [le_div_iff₀ hp]; linarith
  · rw [div_le_iff₀ hp]; linarith

variable (hlen : b.length = a.length) (hN : 1 ≤ a.length) (ha0 : a.getD 0 0 = 1)
  (heb : e.b = b.map (iirCoeff e.sc)) (hea : e.a = (a.tail).map (fun v => -iirCoeff e.sc v))
  (hy : IdealFilter b a x y)

include hlen hN ha0 heb hea hy

/-- One sample adds only a small error. -/
theorem eq_step_error (hw : 0 < e.width) (n : Nat) (hx : ∀ k, k ≤ n → x k = d k)
    (hd : ∀ k, k ≤ n → |(d k : Rat)| ≤ 2 ^ (e.width - 1))
    (hf : ∀ k, k < n → eqStored e d k = eqFull e d k) :
    |tapSum a (eqError e d y) n| ≤ iirStepError a.length e.ss e.sc (2 ^ (e.width - 1)) := by
  have hp : (0 : Rat) < 2 ^ e.ss := by positivity
  have hq : (0 : Rat) < 2 ^ e.sc := by positivity
  have hM : (0 : Rat) < 2 ^ (e.width - 1) := by positivity
  have gb : ∀ j, e.b.getD j 0 = iirCoeff e.sc (b.getD j 0) := by
    intro j; rw [heb, getD_map_zero _ (iirCoeff_zero _)]
  have ga : ∀ j, e.a.getD j 0 = -iirCoeff e.sc (a.getD (j + 1) 0) := by
    intro j
    rw [hea, getD_map_zero (fun v => -iirCoeff e.sc v) (by rw [iirCoeff_zero]; rfl)]
    congr 2
    cases a with
    | nil => rfl
    | cons v l => rfl
  -- the sum, in units of a sample
  have hS : (eqSum e d n : Rat) / 2 ^ e.sc / 2 ^ e.ss =
      ∑ j ∈ Finset.range (n + 1), (iirCoeff e.sc (b.getD j 0) : Rat) / 2 ^ e.sc * (d (n - j) : Rat) -
      ∑ j ∈ Finset.range n, (iirCoeff e.sc (a.getD (j + 1) 0) : Rat) / 2 ^ e.sc * ((eqStored e d (n - 1 - j) : Rat) / 2 ^ e.ss) := by
    unfold eqSum
    push_cast
    rw [add_div, add_div, Finset.sum_div, Finset.sum_div, Finset.sum_div, Finset.sum_div, sub_eq_add_neg, ← Finset.sum_neg_distrib]
    congr 1
    · apply Finset.sum_congr rfl
      intro j _
      rw [gb]; field_simp
    · apply Finset.sum_congr rfl
      intro j _
      rw [ga]; push_cast; field_simp
  have e1 : tapSum a (eqError e d y) n = tapSum a (fun k => (eqFull e d k : Rat) / 2 ^ e.ss) n - tapSum b x n := by
    rw [← hy n]
    unfold tapSum eqError
    rw [← Finset.sum_sub_distrib]
    apply Finset.sum_congr rfl
    intro j _; ring
  have e2 : tapSum a (fun k => (eqFull e d k : Rat) / 2 ^ e.ss) n =
      (eqFull e d n : Rat) / 2 ^ e.ss + ∑ j ∈ Finset.range n, a.getD (j + 1) 0 * ((eqStored e d (n - 1 - j) : Rat) / 2 ^ e.ss) := by
    unfold tapSum
    rw [Finset.sum_range_succ', ha0, one_mul, Nat.sub_zero, add_comm]
    congr 1
    apply Finset.sum_congr rfl
    intro j hj
    rw [Finset.mem_range] at hj
    rw [hf (n - 1 - j) (by omega), show n - (j + 1) = n - 1 - j by omega]
  have e3 : tapSum b x n = ∑ j ∈ Finset.range (n + 1), b.getD j 0 * (d (n - j) : Rat) := by
    unfold tapSum
    apply Finset.sum_congr rfl
    intro j _
    rw [hx _ (Nat.sub_le _ _)]
  have b1 : |∑ j ∈ Finset.range (n + 1), ((iirCoeff e.sc (b.getD j 0) : Rat) / 2 ^ e.sc - b.getD j 0) * (d (n - j) : Rat)| ≤
      a.length * (2 ^ (e.width - 1) / 2 ^ e.sc) := by
    apply taps_bound (by positivity)
    · intro j _ _
      rw [abs_mul]
      have h1 := iirCoeff_error e.sc (b.getD j 0)
      have h2 := hd (n - j) (Nat.sub_le _ _)
      calc _ ≤ 1 / 2 ^ e.sc * 2 ^ (e.width - 1) := mul_le_mul h1 h2 (abs_nonneg _) (by positivity)
        _ = _ := by ring
    · intro j hj
      rw [getD_beyond b j (by omega), iirCoeff_zero]; simp
  have b2 : |∑ j ∈ Finset.range n, ((iirCoeff e.sc (a.getD (j + 1) 0) : Rat) / 2 ^ e.sc - a.getD (j + 1) 0) *
      ((eqStored e d (n - 1 - j) : Rat) / 2 ^ e.ss)| ≤ (a.length - 1 : Nat) * (2 ^ (e.width - 1) / 2 ^ e.sc) := by
    apply taps_bound (by positivity)
    · intro j _ _
      rw [abs_mul]
      have h1 := iirCoeff_error e.sc (a.getD (j + 1) 0)
      have h2 := eqStored_range e d hw (n - 1 - j)
      calc _ ≤ 1 / 2 ^ e.sc * 2 ^ (e.width - 1) := mul_le_mul h1 h2 (abs_nonneg _) (by positivity)
        _ = _ := by ring
    · intro j hj
      rw [getD_beyond a (j + 1) (by omega), iirCoeff_zero]; simp
  obtain ⟨f1, f2⟩ := floor_div (eqSum e d n) e.sc
  have f1 : (eqFull e d n : Rat) / 2 ^ e.ss ≤ (eqSum e d n : Rat) / 2 ^ e.sc / 2 ^ e.ss := div_le_div_of_nonneg_right f1 hp.le
  have f2 : (eqSum e d n : Rat) / 2 ^ e.sc / 2 ^ e.ss ≤ (eqFull e d n : Rat) / 2 ^ e.ss + 1 / 2 ^ e.ss := by
    rw [← add_div]; exact div_le_div_of_nonneg_right f2.le hp.le
  rw [hS] at f1 f2
  have s1 : ∑ j ∈ Finset.range (n + 1), ((iirCoeff e.sc (b.getD j 0) : Rat) / 2 ^ e.sc - b.getD j 0) * (d (n - j) : Rat) =
      ∑ j ∈ Finset.range (n + 1), (iirCoeff e.sc (b.getD j 0) : Rat) / 2 ^ e.sc * (d (n - j) : Rat) -
      ∑ j ∈ Finset.range (n + 1), b.getD j 0 * (d (n - j) : Rat) := by
    rw [← Finset.sum_sub_distrib]
    apply Finset.sum_congr rfl
    intro j _; ring
  have s2 : ∑ j ∈ Finset.range n, ((iirCoeff e.sc (a.getD (j + 1) 0) : Rat) / 2 ^ e.sc - a.getD (j + 1) 0) *
      ((eqStored e d (n - 1 - j) : Rat) / 2 ^ e.ss) =
      ∑ j ∈ Finset.range n, (iirCoeff e.sc (a.getD (j + 1) 0) : Rat) / 2 ^ e.sc * ((eqStored e d (n - 1 - j) : Rat) / 2 ^ e.ss) -
      ∑ j ∈ Finset.range n, a.getD (j + 1) 0 * ((eqStored e d (n - 1 - j) : Rat) / 2 ^ e.ss) := by
    rw [← Finset.sum_sub_distrib]
    apply Finset.sum_congr rfl
    intro j _; ring
  rw [s1] at b1
  rw [s2, Nat.cast_sub hN] at b2
  rw [abs_le] at b1 b2
  rw [e1, e2, e3, abs_le]
  unfold iirStepError
  have hp1 : (0 : Rat) < 1 / 2 ^ e.ss := by positivity
  push_cast at b2
  constructor <;> linarith [b1.1, b1.2, b2.1, b2.2]

/-- As long as there is headroom, the error stays bounded and nothing wraps around. -/
theorem eq_follows (hw : 0 < e.width) (hacc : e.width + e.ss + e.sc ≤ e.accWidth) (hh : IdealFilter [1] a impulse h)
    (hH : AbsSumLe h H) (n : Nat) (hx : ∀ k, k ≤ n → x k = d k)
    (hd : ∀ k, k ≤ n → |(d k : Rat)| ≤ 2 ^ (e.width - 1))
    (hroom : ∀ k, k ≤ n → |y k| + H * iirStepError a.length e.ss e.sc (2 ^ (e.width - 1)) ≤ 2 ^ (e.width - 1) - 1) :
    |eqError e d y n| ≤ H * iirStepError a.length e.ss e.sc (2 ^ (e.width - 1)) ∧
    eqStored e d n = eqFull e d n ∧ twos e.accWidth (eqSum e d n) = eqSum e d n := by
  induction n using Nat.strongRecOn with
  | _ n ih =>
  have hp : (0 : Rat) < 2 ^ e.ss := by positivity
  have hN1 : (1 : Rat) ≤ a.length := by exact_mod_cast hN
  have hD : 0 ≤ iirStepError a.length e.ss e.sc (2 ^ (e.width - 1)) := by
    unfold iirStepError
    have h1 : (0 : Rat) < 1 / 2 ^ e.ss := by positivity
    have h2 : (0 : Rat) < 2 ^ (e.width - 1) / 2 ^ e.sc := by positivity
    have h3 := mul_nonneg (show (0 : Rat) ≤ 2 * a.length - 1 by linarith) h2.le
    linarith
  have hst : ∀ k, k < n → eqStored e d k = eqFull e d k := fun k hk =>
    (ih k hk (fun j hj => hx j (by omega)) (fun j hj => hd j (by omega)) (fun j hj => hroom j (by omega))).2.1
  have herr : |eqError e d y n| ≤ H * iirStepError a.length e.ss e.sc (2 ^ (e.width - 1)) := by
    rw [inverse_response (e := eqError e d y) hh n]
    apply conv_bound hH n hD
    intro k hk
    exact eq_step_error e d b a x y hlen hN ha0 heb hea hy hw k (fun j hj => hx j (by omega)) (fun j hj => hd j (by omega))
      (fun j hj => hst j (by omega))
  have hr := hroom n (le_refl _)
  have hb : |(eqFull e d n : Rat) / 2 ^ e.ss| ≤ 2 ^ (e.width - 1) - 1 := by
    have : (eqFull e d n : Rat) / 2 ^ e.ss = eqError e d y n + y n := by unfold eqError; ring
    rw [this]
    have := abs_add_le (eqError e d y n) (y n)
    linarith
  rw [abs_le] at hb
  obtain ⟨b1, b2⟩ := hb
  rw [le_div_iff₀ hp] at b1
  rw [div_le_iff₀ hp] at b2
  have b1 : (-(2 ^ (e.width - 1) - 1)) * 2 ^ e.ss ≤ eqFull e d n := by exact_mod_cast b1
  have b2 : eqFull e d n ≤ (2 ^ (e.width - 1) - 1) * 2 ^ e.ss := by exact_mod_cast b2
  have hpi : (0 : Int) < 2 ^ e.ss := by positivity
  have hqi : (0 : Int) < 2 ^ e.sc := by positivity
  have e1 : (2 : Int) ^ (e.width + e.ss - 1) = 2 ^ (e.width - 1) * 2 ^ e.ss := by
    rw [← pow_add]; congr 1; omega
  have hV : InSigned (e.width + e.ss) (eqFull e d n) := by
    unfold InSigned
    rw [e1]
    constructor <;> nlinarith
  have hA : InSigned e.accWidth (eqSum e d n) := by
    have h1 := Int.ediv_mul_le (eqSum e d n) (b := 2 ^ e.sc) (by omega)
    have h2 := Int.lt_ediv_add_one_mul_self (eqSum e d n) hqi
    have h3 : (2 : Int) ^ (e.width + e.ss - 1 + e.sc) ≤ 2 ^ (e.accWidth - 1) := pow_le_pow_right₀ (by norm_num) (by omega)
    rw [pow_add] at h3
    obtain ⟨v1, v2⟩ := hV
    change _ ≤ eqSum e d n / 2 ^ e.sc at v1
    change eqSum e d n / 2 ^ e.sc < _ at v2
    have h4 := mul_le_mul_of_nonneg_right v1 hqi.le
    have h5 := mul_le_mul_of_nonneg_right (show eqSum e d n / 2 ^ e.sc + 1 ≤ 2 ^ (e.width + e.ss - 1) by omega) hqi.le
    unfold InSigned
    constructor <;> linarith
  have hT : twos e.accWidth (eqSum e d n) = eqSum e d n := wrap_of_inSigned _ _ (by omega) hA
  refine ⟨herr, ?_, hT⟩
  rw [(eqRun_acc e d n).1, hT]
  exact wrap_of_inSigned _ _ (by omega) hV

/-- The output of the difference equation. -/
theorem eq_output (hw : 0 < e.width) (hacc : e.width + e.ss + e.sc ≤ e.accWidth) (hh : IdealFilter [1] a impulse h)
    (hH : AbsSumLe h H) (n : Nat) (hx : ∀ k, k ≤ n → x k = d k)
    (hd : ∀ k, k ≤ n → |(d k : Rat)| ≤ 2 ^ (e.width - 1))
    (hroom : ∀ k, k ≤ n → |y k| + H * iirStepError a.length e.ss e.sc (2 ^ (e.width - 1)) ≤ 2 ^ (e.width - 1) - 1) :
    y n - H * iirStepError a.length e.ss e.sc (2 ^ (e.width - 1)) - 1 <
      (twos e.width (twos e.accWidth (eqSum e d n) / 2 ^ (e.sc + e.ss)) : Int) ∧
    (twos e.width (twos e.accWidth (eqSum e d n) / 2 ^ (e.sc + e.ss)) : Int) ≤
      y n + H * iirStepError a.length e.ss e.sc (2 ^ (e.width - 1)) := by
  obtain ⟨h1, _, h3⟩ := eq_follows e d b a x y h H hlen hN ha0 heb hea hy hw hacc hh hH n hx hd hroom
  have hr := hroom n (le_refl _)
  have hV : eqSum e d n / 2 ^ (e.sc + e.ss) = eqFull e d n / 2 ^ e.ss := by
    unfold eqFull
    rw [pow_add, Int.ediv_ediv_of_nonneg (by positivity)]
  have herr : (eqFull e d n : Rat) / 2 ^ e.ss = eqError e d y n + y n := by unfold eqError; ring
  obtain ⟨f1, f2⟩ := floor_div (eqFull e d n) e.ss
  rw [herr] at f1 f2
  rw [abs_le] at h1
  have a1 := neg_abs_le (y n)
  have a2 := le_abs_self (y n)
  have hS : InSigned e.width (eqFull e d n / 2 ^ e.ss) := by
    have r1 : (-(2 ^ (e.width - 1)) : Rat) ≤ ((eqFull e d n / 2 ^ e.ss : Int) : Rat) := by linarith [h1.1, h1.2]
    have r2 : ((eqFull e d n / 2 ^ e.ss : Int) : Rat) < 2 ^ (e.width - 1) := by linarith [h1.1, h1.2]
    exact ⟨by exact_mod_cast r1, by exact_mod_cast r2⟩
  rw [h3, hV, show twos e.width (eqFull e d n / 2 ^ e.ss) = eqFull e d n / 2 ^ e.ss from wrap_of_inSigned _ _ hw hS]
  constructor <;> linarith [h1.1, h1.2]

end

/-- The filter `c` has been made from the coefficients `b` and `a` of an ideal filter (iir.py 52-53, 60-67), normalised so that
the first `a` is 1, as the design functions return them. -/
structure IirMadeFrom (c : IirCfg) (b a : List Rat) : Prop where
  fromB : c.b = b.map (iirCoeff c.sc)
  fromA : c.a = a.map (fun v => -iirCoeff c.sc v)
  one : a.getD 0 0 = 1
  sc : c.sc ≤ c.wc

/-- The largest distance between the filter and the ideal one before the final rounding: `H` bounds the absolute sum of the
impulse response of the feedback. -/
def iirError (c : IirCfg) (H : Rat) : Rat := H * iirStepError c.size c.ss c.sc (2 ^ (c.width - 1))

theorem iirExpect_getElem (c : IirCfg) (S : List IirSample) (k : Nat) (o : IirSample) (h : (iirExpect c S)[k]? = some o) :
    ∃ s, S[k]? = some s ∧ o.first = s.first ∧ o.last = s.last ∧ (c.eqn.run (S.map (·.data))).2[k]? = some o.data := by
  unfold iirExpect at h
  rw [List.getElem?_zipWith] at h
  cases hs : S[k]? with
  | none => rw [hs] at h; simp at h
  | some s =>
    cases hd : (c.eqn.run (S.map (·.data))).2[k]? with
    | none => rw [hs, hd] at h; simp at h
    | some v =>
      rw [hs, hd] at h
      simp only [Option.some.injEq] at h
      exact ⟨s, rfl, by rw [← h], by rw [← h], by rw [← h]⟩

/-- Everything transferred has been offered. -/
theorem transferred_all {β : Type} (v r : Nat → Bool) (b : Nat → β) (P : β → Prop) (h : ∀ k, P (b k)) (n : Nat) :
    ∀ s ∈ transferred v r b n, P s := by
  induction n with
  | zero => intro s hs; simp [transferred] at hs
  | succ n ih =>
    intro s hs
    rw [transferred_succ, List.mem_append] at hs
    rcases hs with hs | hs
    · exact ih s hs
    · split at hs
      · rw [List.mem_singleton] at hs; rw [hs]; exact h n
      · simp at hs

/-- What must come out follows the ideal filter. -/
theorem iirExpect_ideal (c : IirCfg) (ho : IirOk c) (b a : List Rat) (hc : IirMadeFrom c b a) (x y h : Nat → Rat) (H : Rat)
    (hy : IdealFilter b a x y) (hh : IdealFilter [1] a impulse h) (hH : AbsSumLe h H) (S : List IirSample)
    (hS : ∀ s ∈ S, InSigned c.width s.data) (hx : ∀ (j : Nat) s, S[j]? = some s → x j = s.data)
    (k : Nat) (o : IirSample) (hk : (iirExpect c S)[k]? = some o)
    (hroom : ∀ j, j ≤ k → |y j| + iirError c H ≤ 2 ^ (c.width - 1) - 1) :
    y k - iirError c H - 1 < o.data ∧ (o.data : Rat) ≤ y k + iirError c H := by
  obtain ⟨s, hs, _, _, ho2⟩ := iirExpect_getElem c S k o hk
  have hkl : k < S.length := by
    obtain ⟨h, _⟩ := List.getElem?_eq_some_iff.mp hs; exact h
  have hdl : S.map (·.data) = (List.range S.length).map (fun j => (S.map (·.data)).getD j 0) := by
    apply List.ext_getElem?
    intro j
    rw [List.getElem?_map, List.getElem?_map]
    by_cases hj : j < S.length
    · rw [List.getElem?_range hj, List.getElem?_eq_getElem hj]
      simp [List.getD_eq_getElem?_getD, hj]
    · rw [List.getElem?_eq_none (by omega), List.getElem?_eq_none (by rw [List.length_range]; omega)]; rfl
  have hout : (eqRun c.eqn (fun j => (S.map (·.data)).getD j 0) S.length).2[k]? = some o.data := by
    unfold eqRun; rw [← hdl]; exact ho2
  rw [eqRun_out _ _ _ _ hkl, Option.some.injEq] at hout
  have hal : c.a.length = a.length := by rw [hc.fromA, List.length_map]
  have hbl : b.length = a.length := by rw [← hal, ← ho.len, hc.fromB, List.length_map]
  have h2 := ho.size
  have hget : ∀ j, j ≤ k → ∃ s, s ∈ S ∧ S[j]? = some s ∧ (S.map (·.data)).getD j 0 = s.data := by
    intro j hj
    have hjl : j < S.length := by omega
    refine ⟨S[j], List.getElem_mem hjl, List.getElem?_eq_getElem hjl, ?_⟩
    simp [List.getD_eq_getElem?_getD, hjl]
  have hws := ho.ws
  have hsc := hc.sc
  have key := eq_output c.eqn (fun j => (S.map (·.data)).getD j 0) b a x y h H hbl (by omega) hc.one hc.fromB
    (by change c.a.tail = _; rw [hc.fromA, List.map_tail]; rfl) hy ho.width
    (by change c.width + (c.ws - c.width) + c.sc ≤ c.ws + c.wc; omega) hh hH k
    (by
      intro j hj
      obtain ⟨s, _, hs, e⟩ := hget j hj
      rw [hx j s hs]
      rw [e])
    (by
      intro j hj
      obtain ⟨s, hm, hs, e⟩ := hget j hj
      rw [e]
      obtain ⟨r1, r2⟩ := hS s hm
      have r1 : (-(2 ^ (c.width - 1)) : Rat) ≤ s.data := by exact_mod_cast r1
      have r2 : (s.data : Rat) < 2 ^ (c.width - 1) := by exact_mod_cast r2
      rw [abs_le]
      exact ⟨r1, r2.le⟩)
    (by
      intro j hj
      have := hroom j hj
      unfold iirError IirCfg.size at this
      rw [hal] at this
      exact this)
  rw [hout] at key
  unfold iirError IirCfg.size
  rw [hal]
  exact key

/-- C120: with any multiplier obeying the contract, whatever its latency and back-pressure, every delivered sample is the one of
the ideal filter up to `iirError` and the final rounding, as long as the ideal output leaves that much headroom. `x` is the
sequence of the samples accepted, `y` the ideal response to it, `h` the impulse response of the feedback. -/
theorem C120_any_multiplier (c : IirCfg) (i : Nat → IirIn) (ho : IirOk c) (b a : List Rat) (hc : IirMadeFrom c b a)
    (hi : ∀ n, InSigned c.width (i n).data) (hm : MultContract c i) (x y h : Nat → Rat) (H : Rat)
    (hx : ∀ n (j : Nat) s, (iirAccepted c i n)[j]? = some s → x j = s.data)
    (hy : IdealFilter b a x y) (hh : IdealFilter [1] a impulse h) (hH : AbsSumLe h H)
    (n k : Nat) (o : IirSample) (hk : (iirDelivered c i n)[k]? = some o)
    (hroom : ∀ j, j ≤ k → |y j| + iirError c H ≤ 2 ^ (c.width - 1) - 1) :
    y k - iirError c H - 1 < o.data ∧ (o.data : Rat) ≤ y k + iirError c H := by
  obtain ⟨p, h1, _⟩ := C45_filter_any_multiplier c i ho hi hm n
  apply iirExpect_ideal c ho b a hc x y h H hy hh hH (iirAccepted c i n) _ (hx n) k o _ hroom
  · exact transferred_all _ _ _ (fun s : IirSample => InSigned c.width s.data) hi n
  · rw [h1, List.getElem?_append_left (List.getElem?_eq_some_iff.mp hk).1]; exact hk

/-- C120: the same with the filter's own multiplier. -/
theorem C120_follows (c : IirCfg) (i : Nat → IirIntIn) (ho : IirOk c) (b a : List Rat) (hc : IirMadeFrom c b a) (hwc : 0 < c.wc)
    (hb : ∀ v ∈ c.b, InSigned c.wc v) (ha : ∀ v ∈ c.a, InSigned c.wc v)
    (hi : ∀ n, InSigned c.width (i n).sample.data) (x y h : Nat → Rat) (H : Rat)
    (hx : ∀ n (j : Nat) s, (iirIntAccepted c i n)[j]? = some s → x j = s.data)
    (hy : IdealFilter b a x y) (hh : IdealFilter [1] a impulse h) (hH : AbsSumLe h H)
    (n k : Nat) (o : IirSample) (hk : (iirIntDelivered c i n)[k]? = some o)
    (hroom : ∀ j, j ≤ k → |y j| + iirError c H ≤ 2 ^ (c.width - 1) - 1) :
    y k - iirError c H - 1 < o.data ∧ (o.data : Rat) ≤ y k + iirError c H := by
  obtain ⟨p, h1, _⟩ := C45_filter c i ho hwc hb ha hi n
  apply iirExpect_ideal c ho b a hc x y h H hy hh hH (iirIntAccepted c i n) _ (hx n) k o _ hroom
  · exact transferred_all _ _ _ (fun s : IirSample => InSigned c.width s.data) hi n
  · rw [h1, List.getElem?_append_left (List.getElem?_eq_some_iff.mp hk).1]; exact hk

/-- C120: a bound on the input samples gives the headroom for ever, whatever the samples: `g` is the impulse response of the
ideal filter, with absolute sum at most `G`. -/
theorem C120_gain (c : IirCfg) (b a : List Rat) (ha : a.getD 0 0 = 1) (x y g : Nat → Rat) (G H X : Rat)
    (hy : IdealFilter b a x y) (hg : IdealFilter b a impulse g) (hG : AbsSumLe g G) (hX : ∀ n, |x n| ≤ X)
    (hroom : G * X + iirError c H ≤ 2 ^ (c.width - 1) - 1) (j : Nat) :
    |y j| + iirError c H ≤ 2 ^ (c.width - 1) - 1 := by
  have h0 : 0 ≤ X := le_trans (abs_nonneg _) (hX 0)
  have : |y j| ≤ G * X := by
    rw [impulse_response ha hy hg j]
    exact conv_bound hG j h0 fun k _ => hX k
  linarith

/-- C120: every input has exactly one ideal response. -/
theorem C120_ideal_exists_unique (b a : List Rat) (ha : a.getD 0 0 = 1) (x : Nat → Rat) :
    ∃ y, IdealFilter b a x y ∧ ∀ y', IdealFilter b a x y' → y' = y := by
  have hne : PowerSeries.constantCoeff (PowerSeries.mk (fun j => a.getD j 0)) ≠ 0 := by
    rw [← PowerSeries.coeff_zero_eq_constantCoeff_apply, PowerSeries.coeff_mk, ha]; exact one_ne_zero
  refine ⟨fun n => PowerSeries.coeff n ((PowerSeries.mk fun j => a.getD j 0)⁻¹ * (PowerSeries.mk (fun j => b.getD j 0) * PowerSeries.mk x)), ?_, ?_⟩
  · intro n
    unfold tapSum
    have he : ∀ f : PowerSeries Rat, PowerSeries.mk (fun n => PowerSeries.coeff n f) = f := by
      intro f; ext n; rw [PowerSeries.coeff_mk]
    rw [← coeff_prod (fun j => b.getD j 0)]
    refine (coeff_prod (fun j => a.getD j 0) (fun n => PowerSeries.coeff n ((PowerSeries.mk fun j => a.getD j 0)⁻¹ * (PowerSeries.mk (fun j => b.getD j 0) * PowerSeries.mk x))) n).symm.trans ?_
    congr 1
    rw [he, ← mul_assoc, PowerSeries.mul_inv_cancel _ hne, one_mul]
  · intro y' hy'
    funext n
    rw [← ideal_series hy', ← mul_assoc, PowerSeries.inv_mul_cancel _ hne, one_mul, PowerSeries.coeff_mk]

/-! ### Concrete case -/

/-- A low-pass of order 1 with unity gain, 8 bit samples, 8 bits of extra precision, coefficients with 12 fractional bits. -/
def iirIdealC : IirCfg := ⟨8, 16, 16, 12, [1024, 1024], [-4096, 2048]⟩

theorem iirIdealC_ok : IirOk iirIdealC ∧ IirMadeFrom iirIdealC [1/4, 1/4] [1, -1/2] ∧ (∀ v ∈ iirIdealC.b, InSigned iirIdealC.wc v) ∧
    (∀ v ∈ iirIdealC.a, InSigned iirIdealC.wc v) := by
  refine ⟨⟨by decide, by decide, by decide, by decide⟩, ⟨by decide +kernel, by decide +kernel, by decide +kernel, by decide⟩, ?_, ?_⟩ <;>
    simp [iirIdealC, InSigned]

theorem tapSum_two (u v : Rat) (f : Nat → Rat) (n : Nat) : tapSum [u, v] f (n + 1) = u * f (n + 1) + v * f n := by
  unfold tapSum
  rw [Finset.sum_range_succ', Finset.sum_range_succ', Finset.sum_eq_zero]
  · simp; ring
  · intro j _; simp

theorem tapSum_start (u : Rat) (l : List Rat) (f : Nat → Rat) : tapSum (u :: l) f 0 = u * f 0 := by
  simp [tapSum]

theorem tapSum_one (u : Rat) (f : Nat → Rat) (n : Nat) : tapSum [u] f n = u * f n := by
  unfold tapSum
  rw [Finset.sum_range_succ', Finset.sum_eq_zero]
  · simp
  · intro j _; simp

/-- The impulse responses of the feedback and of the whole low-pass. -/
def lowH (n : Nat) : Rat := (1 / 2) ^ n
def lowG (n : Nat) : Rat := if n = 0 then 1 / 4 else 3 / 4 * (1 / 2) ^ n

theorem lowH_ok : IdealFilter [1] [1, -1/2] impulse lowH ∧ AbsSumLe lowH 2 := by
  constructor
  · intro n
    cases n with
    | zero => rw [tapSum_start, tapSum_start]; simp [lowH, impulse]
    | succ n => rw [tapSum_two, tapSum_one]; simp only [lowH, impulse]; rw [if_neg (by omega), pow_succ]; ring
  · intro n
    have : ∑ j ∈ Finset.range (n + 1), |lowH j| = 2 - (1 / 2) ^ n := by
      induction n with
      | zero => simp [lowH]; norm_num
      | succ n ih =>
        rw [Finset.sum_range_succ, ih]
        unfold lowH
        rw [abs_of_pos (by positivity), pow_succ]; ring
    rw [this]
    have : (0 : Rat) < (1 / 2) ^ n := by positivity
    linarith

theorem lowG_ok : IdealFilter [1/4, 1/4] [1, -1/2] impulse lowG ∧ AbsSumLe lowG 1 := by
  constructor
  · intro n
    rcases n with _ | _ | n
    · rw [tapSum_start, tapSum_start]; simp [lowG, impulse]
    · rw [tapSum_two, tapSum_two]; simp [lowG, impulse]; norm_num
    · rw [tapSum_two, tapSum_two]
      simp only [lowG, impulse]
      rw [if_neg (by omega), if_neg (by omega), if_neg (by omega), if_neg (by omega), pow_succ]; ring
  · intro n
    have : ∑ j ∈ Finset.range (n + 1), |lowG j| = 1 - 3 / 4 * (1 / 2) ^ n := by
      induction n with
      | zero => simp [lowG]; norm_num
      | succ n ih =>
        rw [Finset.sum_range_succ, ih]
        unfold lowG
        rw [if_neg (by omega), abs_of_pos (by positivity), pow_succ]; ring
    rw [this]
    have : (0 : Rat) < (1 / 2) ^ n := by positivity
    linarith

/-- Any samples of at most 126 in size, any schedule: the low-pass is within 6/5 of the ideal one for ever. -/
example (i : Nat → IirIntIn) (hi : ∀ n, |(((i n).sample.data : Int) : Rat)| ≤ 126) (x y : Nat → Rat)
    (hx : ∀ n (j : Nat) s, (iirIntAccepted iirIdealC i n)[j]? = some s → x j = s.data) (hx2 : ∀ j, |x j| ≤ 126)
    (hy : IdealFilter [1/4, 1/4] [1, -1/2] x y) (n k : Nat) (o : IirSample)
    (hk : (iirIntDelivered iirIdealC i n)[k]? = some o) : |y k - o.data| ≤ 6 / 5 := by
  obtain ⟨h1, h2, h3, h4⟩ := iirIdealC_ok
  have he : iirError iirIdealC 2 = 25 / 128 := by decide +kernel
  have := C120_follows iirIdealC i h1 _ _ h2 (by decide) h3 h4
    (by
      intro n
      have := abs_le.mp (hi n)
      have a1 : -126 ≤ (i n).sample.data := by exact_mod_cast this.1
      have a2 : (i n).sample.data ≤ 126 := by exact_mod_cast this.2
      constructor <;> simp [iirIdealC] <;> omega)
    x y lowH 2 hx hy lowH_ok.1 lowH_ok.2 n k o hk
    (fun j _ => C120_gain iirIdealC [1/4, 1/4] [1, -1/2] rfl x y lowG 1 2 126 hy lowG_ok.1 lowG_ok.2 hx2
      (by rw [he]; norm_num [iirIdealC]) j)
  rw [he] at this
  rw [abs_le]
  constructor <;> linarith [this.1, this.2]

/-! ### Without headroom -/

/-- A low-pass of order 2 with unity gain for constant inputs, whose step response overshoots. -/
def iirOverC : IirCfg := ⟨8, 16, 16, 12, [2048, 0, 0], [-4096, 4096, -2048]⟩

/-- The step: all samples 120. -/
def iirOver (_ : Nat) : IirIntIn := ⟨true, ⟨false, false, 120⟩, true⟩

/-- C120: a filter of unity gain fed with constant legal samples delivers negative ones: the ideal response to 120 for ever
reaches 150, and the outputs do not saturate but wrap around. -/
theorem C120_wraps_without_headroom : IirOk iirOverC ∧ IirMadeFrom iirOverC [1/2, 0, 0] [1, -1, 1/2] ∧
    (∀ y, IdealFilter [1/2, 0, 0] [1, -1, 1/2] (fun _ => 120) y → y 0 = 60 ∧ y 1 = 120 ∧ y 2 = 150) ∧
    (iirIntAccepted iirOverC iirOver 30).map (·.data) = [120, 120, 120, 120] ∧
    (iirIntDelivered iirOverC iirOver 30).map (·.data) = [60, 120, -106] := by
  refine ⟨⟨by decide, by decide, by decide, by decide⟩, ⟨by decide +kernel, by decide +kernel, by decide +kernel, by decide⟩, ?_, by decide +kernel, by decide +kernel⟩
  intro y hy
  have h0 := hy 0
  have h1 := hy 1
  have h2 := hy 2
  simp [tapSum, Finset.sum_range_succ] at h0 h1 h2
  refine ⟨by linarith, by linarith, by linarith⟩

end Lambdalib
