import Verif.Lemmas.Arith
import Verif.Lemmas.List
import Mathlib.Tactic.Linarith
import Mathlib.Algebra.Order.Ring.Abs
import Mathlib.Tactic.Positivity

/-! C24-C27: multiplier, leading zero counter, integer to float conversion. -/

namespace Lambdalib

/-! ### C24 -/

theorem shapeVal_bounds {w : Nat} (s : Bool) (x : BitVec w) :
    (s = false → 0 ≤ shapeVal s x ∧ shapeVal s x < 2 ^ w) ∧
    (s = true → -2 ^ w ≤ 2 * shapeVal s x ∧ 2 * shapeVal s x < 2 ^ w) := by
  constructor
  · rintro rfl
    simp only [shapeVal, Bool.false_eq_true, if_false]
    refine ⟨Int.natCast_nonneg _, ?_⟩
    have := x.isLt
    exact_mod_cast this
  · rintro rfl
    simp only [shapeVal, if_true]
    exact ⟨BitVec.le_two_mul_toInt, BitVec.two_mul_toInt_lt⟩

/-- The product of two operand values fits in the output shape. -/
theorem product_fits {wa wb : Nat} (sa sb : Bool) (x : BitVec wa) (y : BitVec wb) :
    (productSigned sa sb = false → 0 ≤ shapeVal sa x * shapeVal sb y ∧
      shapeVal sa x * shapeVal sb y < 2 ^ (wa + wb)) ∧
    (productSigned sa sb = true → -2 ^ (wa + wb) ≤ 2 * (shapeVal sa x * shapeVal sb y) ∧
      2 * (shapeVal sa x * shapeVal sb y) < 2 ^ (wa + wb)) := by
  obtain ⟨ha0, ha1⟩ := shapeVal_bounds sa x
  obtain ⟨hb0, hb1⟩ := shapeVal_bounds sb y
  have hA : (1 : Int) ≤ 2 ^ wa := by exact_mod_cast Nat.one_le_two_pow
  have hB : (1 : Int) ≤ 2 ^ wb := by exact_mod_cast Nat.one_le_two_pow
  rw [pow_add]
  generalize shapeVal sa x = a at *
  generalize shapeVal sb y = b at *
  generalize (2 : Int) ^ wa = A at *
  generalize (2 : Int) ^ wb = B at *
  cases sa <;> cases sb
  · obtain ⟨h1, h2⟩ := ha0 rfl
    obtain ⟨h3, h4⟩ := hb0 rfl
    refine ⟨fun _ => ⟨mul_nonneg h1 h3, by nlinarith⟩, fun h => by simp [productSigned] at h⟩
  · obtain ⟨h1, h2⟩ := ha0 rfl
    obtain ⟨h3, h4⟩ := hb1 rfl
    refine ⟨fun h => by simp [productSigned] at h, fun _ => ⟨by nlinarith, ?_⟩⟩
    by_cases hb : 0 ≤ b
    · nlinarith
    · have : a * b ≤ 0 := by nlinarith
      nlinarith
  · obtain ⟨h1, h2⟩ := ha1 rfl
    obtain ⟨h3, h4⟩ := hb0 rfl
    refine ⟨fun h => by simp [productSigned] at h, fun _ => ⟨by nlinarith, ?_⟩⟩
    by_cases hb : 0 ≤ a
    · nlinarith
    · have : a * b ≤ 0 := by nlinarith
      nlinarith
  · obtain ⟨h1, h2⟩ := ha1 rfl
    obtain ⟨h3, h4⟩ := hb1 rfl
    have habs : 4 * |a * b| ≤ A * B := by
      rw [abs_mul]
      have hA' : 2 * |a| ≤ A := by
        rcases abs_cases a with ⟨h, _⟩ | ⟨h, _⟩ <;> rw [h] <;> linarith
      have hB' : 2 * |b| ≤ B := by
        rcases abs_cases b with ⟨h, _⟩ | ⟨h, _⟩ <;> rw [h] <;> linarith
      nlinarith [abs_nonneg a, abs_nonneg b]
    have hAB : 0 < A * B := by positivity
    have h5 := abs_le.1 (le_refl |a * b|)
    refine ⟨fun h => by simp [productSigned] at h, fun _ => ⟨by linarith [h5.1], ?_⟩⟩
    linarith [h5.2]

/-- C24: the output bits, read in the output shape, are the exact product of the operand values, for
all widths and all signed/unsigned combinations. -/
theorem C24_product_exact {wa wb : Nat} (sa sb : Bool) (x : BitVec wa × BitVec wb) :
    shapeVal (productSigned sa sb) (multiply sa sb x) = shapeVal sa x.1 * shapeVal sb x.2 := by
  obtain ⟨h1, h2⟩ := product_fits sa sb x.1 x.2
  unfold multiply
  generalize shapeVal sa x.1 * shapeVal sb x.2 = p at *
  cases hs : productSigned sa sb
  · obtain ⟨h3, h4⟩ := h1 hs
    simp only [shapeVal, Bool.false_eq_true, if_false]
    rw [BitVec.toNat_ofInt]
    rw [Int.toNat_of_nonneg (Int.emod_nonneg _ (by positivity))]
    exact Int.emod_eq_of_lt h3 (by exact_mod_cast h4)
  · obtain ⟨h3, h4⟩ := h2 hs
    simp only [shapeVal, if_true]
    rw [BitVec.toInt_ofInt]
    exact Int.bmod_eq_of_le_mul_two (by push_cast; linarith) (by push_cast; linarith)

/-- C24: at every cycle the accepted operand pairs are, in order and with their delimiters, the
delivered products followed by the single product on offer. -/
theorem C24_multiplier_stream (wa wb : Nat) (sa sb : Bool) (i : Nat → SIn (BitVec wa × BitVec wb))
    (n : Nat) :
    List.Forall₂ (fun a d => d.first = a.first ∧ d.last = a.last ∧
        shapeVal (productSigned sa sb) d.payload = shapeVal sa a.payload.1 * shapeVal sb a.payload.2)
      (accepted (multiplier wa wb sa sb) i n)
      (delivered (multiplier wa wb sa sb) i n ++
        (if ((multiplier wa wb sa sb).wave i n).valid
          then [((multiplier wa wb sa sb).wave i n).beat] else [])) := by
  have key : (accepted (multiplier wa wb sa sb) i n).map
        (fun a => (⟨a.first, a.last, multiply sa sb a.payload⟩ : Beat (BitVec (wa + wb))))
      = delivered (multiplier wa wb sa sb) i n ++
        (if ((multiplier wa wb sa sb).wave i n).valid
          then [((multiplier wa wb sa sb).wave i n).beat] else []) := by
    refine stream_induct (multiplier wa wb sa sb)
      (fun A D s => A.map (fun a => (⟨a.first, a.last, multiply sa sb a.payload⟩ : Beat _))
        = D ++ if s.valid then [s.beat] else []) ?_ ?_ i n
    · simp [multiplier]
    · rintro A D s x h
      cases h1 : s.valid <;> cases h2 : x.valid <;> cases h3 : x.ready <;>
        simp_all [multiplier]
  rw [← key]
  generalize accepted (multiplier wa wb sa sb) i n = A
  induction A with
  | nil => exact .nil
  | cons a A ih => exact .cons ⟨rfl, rfl, C24_product_exact sa sb a.payload⟩ ih

/-- C24: an offered product is neither withdrawn nor changed, and operands are accepted whenever no
product is waiting or the waiting one is taken. -/
theorem C24_multiplier_stable (wa wb : Nat) (sa sb : Bool)
    (i : Nat → SIn (BitVec wa × BitVec wb)) :
    SourceStable (multiplier wa wb sa sb) i ∧
    ∀ n, ((multiplier wa wb sa sb).wave i n).ready = true ↔
      ((multiplier wa wb sa sb).wave i n).valid = false ∨ (i n).ready = true := by
  constructor
  · intro n
    simp only [Circuit.wave, Circuit.st_succ]
    generalize (multiplier wa wb sa sb).st i n = s
    intro hv hr
    simp_all [multiplier]
  · intro n
    simp only [Circuit.wave]
    generalize (multiplier wa wb sa sb).st i n = s
    simp [multiplier]

example : shapeVal true (multiply (wa := 8) (wb := 8) true false (0x80, 0xff)) = -128 * 255 := by
  decide
example : delivered (multiplier 4 4 true true) (fun _ => ⟨true, ⟨true, true, (8, 8)⟩, true⟩) 2
    = [⟨true, true, 64⟩] := by decide

/-! ### C25 -/

/-- C25: for a non-zero input with count `c`, bit `31 - c` is set and all bits above are clear. -/
theorem C25_clz (d : BitVec 32) (hd : d ≠ 0) :
    clz32 d ≤ 31 ∧ d.getLsbD (31 - clz32 d) = true ∧
    ∀ j, 31 - clz32 d < j → d.getLsbD j = false := by
  obtain ⟨c, hc, h1, h2, h3⟩ := clzGo_spec 5 d.toNat d.isLt (by
    rw [Nat.pos_iff_ne_zero]; intro h; exact hd (BitVec.eq_of_toNat_eq (by simpa using h)))
  have e : clz32 d = c := hc
  rw [e]
  rw [show (2:Nat) ^ 5 = 32 from rfl] at *
  refine ⟨by omega, ?_, ?_⟩
  · rw [BitVec.getLsbD, show 31 - c = 32 - 1 - c by omega]
    rw [Nat.testBit_eq_decide_div_mod_eq, decide_eq_true_eq]
    have hp : 0 < 2 ^ (32 - 1 - c) := Nat.pow_pos (by decide)
    have h4 : d.toNat / 2 ^ (32 - 1 - c) = 1 := by
      apply Nat.div_eq_of_lt_le
      · simpa using h2
      · rw [show 32 - c = 32 - 1 - c + 1 by omega, Nat.pow_succ] at h3; omega
    rw [h4]
  · intro j hj
    rw [BitVec.getLsbD]
    apply Nat.testBit_lt_two_pow
    exact Nat.lt_of_lt_of_le h3 (Nat.pow_le_pow_right (by decide) (by omega))

/-- C25: the count for a zero input is 31. -/
theorem C25_clz_zero : clz32 0 = 31 := by decide

example : clz32 0x00012345 = 15 := by decide

/-! ### C26 -/

theorem toInt_of_sign (d : BitVec 32) :
    (d.getLsbD 31 = true → d.toInt = (d.toNat : Int) - 4294967296 ∧ 2147483648 ≤ d.toNat) ∧
    (d.getLsbD 31 = false → d.toInt = (d.toNat : Int) ∧ d.toNat < 2147483648) := by
  have hl : d.toNat < 4294967296 := d.isLt
  have hb : d.getLsbD 31 = decide (2147483648 ≤ d.toNat) := by
    rw [BitVec.getLsbD, Nat.testBit_eq_decide_div_mod_eq, show (2:Nat) ^ 31 = 2147483648 by decide]
    congr 1
    apply propext
    omega
  have ht : d.toInt = if 2147483648 ≤ d.toNat then (d.toNat : Int) - 4294967296 else d.toNat := by
    rw [BitVec.toInt_eq_toNat_cond]
    split <;> split <;> omega
  rw [hb, ht]
  constructor
  · intro h; simp only [decide_eq_true_eq] at h; rw [if_pos h]; exact ⟨rfl, h⟩
  · intro h; simp only [decide_eq_false_iff_not] at h; rw [if_neg h]; exact ⟨rfl, by omega⟩

theorem stage1_spec (d : BitVec 32) (h : d ≠ 0x80000000#32) :
    (i2fStage1 d).abs = d.toInt.natAbs ∧ (i2fStage1 d).sign = decide (d.toInt < 0) ∧
    (i2fStage1 d).abs < 2147483648 ∧ ((i2fStage1 d).zero = true ↔ d.toInt = 0) := by
  have hl : d.toNat < 4294967296 := d.isLt
  have hne : d.toNat ≠ 2147483648 := by
    intro e; exact h (BitVec.eq_of_toNat_eq (by simpa using e))
  obtain ⟨hn, hp⟩ := toInt_of_sign d
  unfold i2fStage1
  rw [show (2:Nat) ^ 31 = 2147483648 by decide]
  cases hs : d.getLsbD 31
  · obtain ⟨h1, h2⟩ := hp hs
    simp only [Bool.false_eq_true, if_false, h1, beq_iff_eq]
    refine ⟨by omega, ?_, by omega, by omega⟩
    symm; rw [decide_eq_false_iff_not]; omega
  · obtain ⟨h1, h2⟩ := hn hs
    simp only [if_true, h1, beq_iff_eq]
    refine ⟨by omega, ?_, by omega, by omega⟩
    symm; rw [decide_eq_true_eq]; omega

/-- C26 (partial: all inputs except the most negative integer): the converted word is the integer
rounded toward zero, and it is exact below 2^24. -/
theorem C26_int2float_rounds_partial (d : BitVec 32) (h : d ≠ 0x80000000#32) :
    IsRoundTowardZero d.toInt (i2f d) ∧
    (d.toInt.natAbs < 2 ^ 24 → f32Val (i2f d) = d.toInt * 2 ^ 149) := by
  obtain ⟨h1, h2, h3, h4⟩ := stage1_spec d h
  by_cases hz : d.toInt = 0
  · have hd : d = 0 := by
      apply BitVec.eq_of_toInt_eq; rw [hz]; rfl
    subst hd
    have e : i2f 0 = 0 := by decide
    rw [e]
    refine ⟨⟨by unfold f32Finite; decide, by decide, by decide, ?_⟩, fun _ => by decide⟩
    intro w' _ hle
    have : (BitVec.toInt (0 : BitVec 32)).natAbs = 0 := by decide
    rw [this, Nat.zero_mul] at hle
    omega
  · have hz' : (i2fStage1 d).zero = false := by
      rw [← Bool.not_eq_true, h4]; exact hz
    obtain ⟨g1, g2, g3, g4, g5⟩ := i2f_mag (i2fStage1 d) (by rw [h1]; omega) h3 hz'
    rw [h1] at g3 g4 g5
    refine ⟨⟨g1, by rw [← h2]; exact g2, g3, g4⟩, ?_⟩
    intro hlt
    have g6 := g5 hlt
    unfold f32Val i2f
    rw [g2, g6, h2]
    by_cases hneg : d.toInt < 0
    · simp only [hneg, decide_true, if_true]
      push_cast
      rw [abs_of_neg hneg]
      rw [neg_mul, neg_neg]
    · simp only [hneg, decide_false, Bool.false_eq_true, if_false]
      push_cast
      rw [abs_of_nonneg (by omega)]

/-- C26 (full claim, refuted): the most negative integer becomes negative zero. -/
theorem C26_int2float_rounds_refuted : ¬ ∀ d : BitVec 32, IsRoundTowardZero d.toInt (i2f d) := by
  intro h
  have h1 := (h 0x80000000#32).max 0xcf000000#32 (by unfold f32Finite; decide) (by decide)
  revert h1; decide

example : i2f 0xfffff380#32 = 0xc5480000#32 ∧ i2f 0x01000001#32 = 0x4b800000#32 := by decide

/-! ### C27 -/

/-- Beats inside the conversion pipeline, oldest first. -/
def i2fInFlight (s : I2fS) : List (Beat (BitVec 32)) :=
  (if s.v2 then [⟨false, s.last2, i2fPack s.s2⟩] else []) ++
  (if s.v1 then [⟨false, s.last1, i2fPack (i2fStage2 s.s1)⟩] else [])

theorem i2f_inv (i : Nat → SIn (BitVec 32)) (n : Nat) :
    (accepted int2float i n).map (fun b => (⟨false, b.last, i2f b.payload⟩ : Beat _))
      = delivered int2float i n ++ i2fInFlight (int2float.st i n) := by
  refine stream_induct int2float (fun A D s =>
    A.map (fun b => (⟨false, b.last, i2f b.payload⟩ : Beat _)) = D ++ i2fInFlight s) ?_ ?_ i n
  · simp [int2float, i2fInFlight]
  · intro A D s x h
    cases h1 : s.v1 <;> cases h2 : s.v2 <;> cases h3 : x.valid <;> cases h4 : x.ready <;>
      simp_all [int2float, i2fInFlight, i2f]

/-- C27: the delivered words are conversions of the accepted words, in order, with `last` preserved; at
most two words are in flight. The converted words satisfy C26; the most negative integer, for which C26 fails, gives negative zero. -/
theorem C27_int2float_order (i : Nat → SIn (BitVec 32)) (n : Nat) :
    (delivered int2float i n).length ≤ (accepted int2float i n).length ∧
    (accepted int2float i n).length ≤ (delivered int2float i n).length + 2 ∧
    List.Forall₂ (fun a d => d.last = a.last ∧
        (a.payload ≠ 0x80000000#32 → IsRoundTowardZero a.payload.toInt d.payload) ∧
        (a.payload = 0x80000000#32 → d.payload = 0x80000000#32))
      ((accepted int2float i n).take (delivered int2float i n).length)
      (delivered int2float i n) := by
  have h := i2f_inv i n
  have hl := congrArg List.length h
  have hf : (i2fInFlight (int2float.st i n)).length ≤ 2 := by
    unfold i2fInFlight
    split <;> split <;> simp
  simp only [List.length_map, List.length_append] at hl
  refine ⟨by omega, by omega, ?_⟩
  have ht := congrArg (List.take (delivered int2float i n).length) h
  rw [List.take_left, ← List.map_take] at ht
  generalize (accepted int2float i n).take (delivered int2float i n).length = A at ht
  rw [← ht]
  clear ht
  induction A with
  | nil => exact .nil
  | cons a A ih => exact .cons ⟨rfl, fun hx => (C26_int2float_rounds_partial a.payload hx).1,
      fun hx => (congrArg i2f hx).trans (by decide)⟩ ih

/-- C27: an offered word is stable under back-pressure, and words are accepted unless the output is
stalled. -/
theorem C27_int2float_stable (i : Nat → SIn (BitVec 32)) :
    SourceStable int2float i ∧
    ∀ n, (int2float.wave i n).ready = true ↔
      ((int2float.wave i n).valid = false ∨ (i n).ready = true) := by
  constructor
  · intro n
    simp only [Circuit.wave, Circuit.st_succ]
    generalize int2float.st i n = s
    intro hv hr
    simp_all [int2float]
  · intro n
    simp only [Circuit.wave]
    generalize int2float.st i n = s
    simp [int2float]

/-- C27: with an always ready receiver each word is delivered exactly two cycles after it was
offered. -/
theorem C27_int2float_latency (i : Nat → SIn (BitVec 32)) (hr : ∀ n, (i n).ready = true) (n : Nat) :
    (int2float.wave i (n + 2)).valid = (i n).valid ∧
    (int2float.wave i (n + 2)).beat = ⟨false, (i n).beat.last, i2f (i n).beat.payload⟩ := by
  simp only [Circuit.wave, Circuit.st_succ]
  generalize int2float.st i n = s
  simp [int2float, hr, i2f]

example : delivered int2float (fun n => ⟨n < 2, ⟨true, n = 1, BitVec.ofNat 32 (n + 1)⟩, n ≠ 2⟩) 6
    = [⟨false, false, 0x3f800000#32⟩, ⟨false, true, 0x40000000#32⟩] := by decide

end Lambdalib
