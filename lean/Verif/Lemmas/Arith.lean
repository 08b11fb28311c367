import Verif.Model.Arith
import Verif.Spec.Float

namespace Lambdalib

/-- The binary search finds the position of the most significant one. -/
theorem clzGo_spec (k : Nat) : ∀ d, d < 2 ^ 2 ^ k → 0 < d →
    ∃ c, clzGo k d = c ∧ c < 2 ^ k ∧ 2 ^ (2 ^ k - 1 - c) ≤ d ∧ d < 2 ^ (2 ^ k - c) := by
  induction k with
  | zero => intro d h1 h2; exact ⟨0, rfl, by decide, by simp; omega, by simpa using h1⟩
  | succ k ih =>
    intro d h1 h2
    have hp : 2 ^ (k + 1) = 2 ^ k + 2 ^ k := by rw [Nat.pow_succ]; omega
    rw [hp, Nat.pow_add] at h1
    have hpos : 0 < 2 ^ 2 ^ k := Nat.pow_pos (by decide)
    have hk : 0 < 2 ^ k := Nat.pow_pos (by decide)
    have hhi : d / 2 ^ 2 ^ k < 2 ^ 2 ^ k := Nat.div_lt_of_lt_mul h1
    simp only [clzGo, Nat.mod_eq_of_lt hhi]
    by_cases h : d / 2 ^ 2 ^ k = 0
    · have hd : d < 2 ^ 2 ^ k := by
        rcases Nat.lt_or_ge d (2 ^ 2 ^ k) with h3 | h3
        · exact h3
        · have := Nat.div_pos h3 hpos; omega
      obtain ⟨c, hc, h3, h4, h5⟩ := ih d hd h2
      refine ⟨2 ^ k + c, ?_, by omega, ?_, ?_⟩
      · simp [h, Nat.mod_eq_of_lt hd, hc]
      · rw [show 2 ^ (k + 1) - 1 - (2 ^ k + c) = 2 ^ k - 1 - c by omega]; exact h4
      · rw [show 2 ^ (k + 1) - (2 ^ k + c) = 2 ^ k - c by omega]; exact h5
    · obtain ⟨c, hc, h3, h4, h5⟩ := ih (d / 2 ^ 2 ^ k) hhi (Nat.pos_of_ne_zero h)
      refine ⟨c, ?_, by omega, ?_, ?_⟩
      · simp [h, hc]
      · rw [show 2 ^ (k + 1) - 1 - c = 2 ^ k - 1 - c + 2 ^ k by omega, Nat.pow_add]
        exact (Nat.le_div_iff_mul_le hpos).1 h4
      · rw [show 2 ^ (k + 1) - c = 2 ^ k - c + 2 ^ k by omega, Nat.pow_add]
        exact (Nat.div_lt_iff_lt_mul hpos).1 h5

/-- Characterisation of the leading zero count used for the normalisation. -/
theorem i2fClz_spec (s : I2fS1) (h0 : 0 < s.abs) (h1 : s.abs < 2 ^ 31) :
    i2fClz s ≤ 30 ∧ 2 ^ 30 ≤ s.abs * 2 ^ i2fClz s ∧ s.abs * 2 ^ i2fClz s < 2 ^ 31 := by
  obtain ⟨c, hc, h2, h3, h4⟩ := clzGo_spec 5 (2 * s.abs + 1) (by
    have : (2:Nat) ^ 2 ^ 5 = 2 ^ 31 * 2 := by decide
    omega) (by omega)
  have e : i2fClz s = c := by
    unfold i2fClz clz32
    rw [BitVec.toNat_ofNat, Nat.mod_eq_of_lt (by omega)]; exact hc
  rw [e]
  rw [show (2:Nat) ^ 5 = 32 from rfl] at h2 h3 h4
  have hc30 : c ≤ 30 := by
    rcases Nat.lt_or_ge 30 c with h | h
    · have : c = 31 := by omega
      subst this
      have : (2:Nat) ^ (32 - 31) = 2 := by decide
      omega
    · exact h
  refine ⟨hc30, ?_, ?_⟩
  · rw [show 32 - 1 - c = (30 - c) + 1 by omega, Nat.pow_succ] at h3
    have h5 : 2 ^ (30 - c) ≤ s.abs := by omega
    calc 2 ^ 30 = 2 ^ (30 - c) * 2 ^ c := by rw [← Nat.pow_add]; congr 1; omega
      _ ≤ _ := Nat.mul_le_mul_right _ h5
  · rw [show 32 - c = (31 - c) + 1 by omega, Nat.pow_succ] at h4
    have h5 : s.abs < 2 ^ (31 - c) := by omega
    calc s.abs * 2 ^ c < 2 ^ (31 - c) * 2 ^ c :=
          Nat.mul_lt_mul_of_pos_right h5 (Nat.pow_pos (by decide))
      _ = 2 ^ 31 := by rw [← Nat.pow_add]; congr 1; omega

theorem fields_of_toNat (s : Bool) (e f : Nat) (he : e < 256) (hf : f < 8388608) (w : BitVec 32)
    (hw : w.toNat = f + e * 8388608 + (if s then 2147483648 else 0)) :
    f32Exp w = e ∧ f32Frac w = f ∧ f32Neg w = s := by
  refine ⟨?_, ?_, ?_⟩
  · unfold f32Exp
    rw [BitVec.extractLsb'_toNat, hw, Nat.shiftRight_eq_div_pow,
      show (2:Nat) ^ 23 = 8388608 by decide, show (2:Nat) ^ 8 = 256 by decide]
    cases s
    · simp only [Bool.false_eq_true, if_false]; omega
    · simp only [if_true]; omega
  · unfold f32Frac
    rw [BitVec.extractLsb'_toNat, hw, Nat.shiftRight_eq_div_pow,
      show (2:Nat) ^ 23 = 8388608 by decide, show (2:Nat) ^ 0 = 1 by decide]
    cases s
    · simp only [Bool.false_eq_true, if_false]; omega
    · simp only [if_true]; omega
  · unfold f32Neg
    rw [BitVec.getLsbD, hw, Nat.testBit_eq_decide_div_mod_eq,
      show (2:Nat) ^ 31 = 2147483648 by decide]
    cases s
    · simp only [decide_eq_false_iff_not, Bool.false_eq_true, if_false]; omega
    · simp only [decide_eq_true_eq, if_true]; omega

theorem pack_fields (s : Bool) (e f : Nat) (he : e < 256) (hf : f < 8388608) :
    let w := BitVec.ofNat 32 (f + e * 2 ^ 23 + (if s then 2 ^ 31 else 0))
    f32Exp w = e ∧ f32Frac w = f ∧ f32Neg w = s := by
  intro w
  apply fields_of_toNat s e f he hf
  simp only [w, BitVec.toNat_ofNat]
  rw [show (2:Nat) ^ 23 = 8388608 by decide, show (2:Nat) ^ 31 = 2147483648 by decide,
    show (2:Nat) ^ 32 = 4294967296 by decide]
  apply Nat.mod_eq_of_lt
  cases s
  · simp only [Bool.false_eq_true, if_false]; omega
  · simp only [if_true]; omega

/-- The conversion of one word. -/
def i2f (d : BitVec 32) : BitVec 32 := i2fPack (i2fStage2 (i2fStage1 d))

theorem i2f_fields (s : I2fS1) (h0 : 0 < s.abs) (h1 : s.abs < 2 ^ 31) (hz : s.zero = false) :
    ∃ c ≤ 30, 2 ^ 30 ≤ s.abs * 2 ^ c ∧ s.abs * 2 ^ c < 2 ^ 31 ∧
      f32Exp (i2fPack (i2fStage2 s)) = 157 - c ∧
      2 ^ 23 + f32Frac (i2fPack (i2fStage2 s)) = s.abs * 2 ^ c / 2 ^ 7 ∧
      f32Neg (i2fPack (i2fStage2 s)) = s.sign := by
  obtain ⟨hc, h2, h3⟩ := i2fClz_spec s h0 h1
  refine ⟨i2fClz s, hc, h2, h3, ?_⟩
  have hp := pack_fields s.sign (157 - i2fClz s) (s.abs * 2 ^ i2fClz s / 2 ^ 7 % 2 ^ 23)
    (by omega) (Nat.mod_lt _ (by decide))
  have e : i2fPack (i2fStage2 s) = BitVec.ofNat 32 (s.abs * 2 ^ i2fClz s / 2 ^ 7 % 2 ^ 23
      + (157 - i2fClz s) * 2 ^ 23 + (if s.sign then 2 ^ 31 else 0)) := by
    simp only [i2fPack, i2fStage2, hz, Bool.false_eq_true, if_false]
    rw [Nat.mod_eq_of_lt h3, Nat.mod_mod, Nat.mod_eq_of_lt (show 157 - i2fClz s < 2 ^ 8 by omega)]
  rw [e]
  refine ⟨hp.1, ?_, hp.2.2⟩
  rw [hp.2.1]
  omega

theorem mag_bound (w : BitVec 32) (hf : f32Finite w) :
    ∃ m e, f32Mag w = m * 2 ^ e ∧ m < 2 ^ 24 := by
  have hfr : f32Frac w < 2 ^ 23 := (w.extractLsb' 0 23).isLt
  unfold f32Mag
  split
  · exact ⟨f32Frac w, 0, by simp, by omega⟩
  · exact ⟨2 ^ 23 + f32Frac w, f32Exp w - 1, rfl, by omega⟩

/-- Conversion of a non-zero magnitude. -/
theorem i2f_mag (s : I2fS1) (h0 : 0 < s.abs) (h1 : s.abs < 2 ^ 31) (hz : s.zero = false) :
    let w := i2fPack (i2fStage2 s)
    f32Finite w ∧ f32Neg w = s.sign ∧ f32Mag w ≤ s.abs * 2 ^ 149 ∧
    (∀ w', f32Finite w' → f32Mag w' ≤ s.abs * 2 ^ 149 → f32Mag w' ≤ f32Mag w) ∧
    (s.abs < 2 ^ 24 → f32Mag w = s.abs * 2 ^ 149) := by
  intro w
  obtain ⟨c, hc, h2, h3, he, hm, hs⟩ := i2f_fields s h0 h1 hz
  have hmag : f32Mag w = s.abs * 2 ^ c / 2 ^ 7 * 2 ^ (156 - c) := by
    unfold f32Mag
    rw [if_neg (by rw [he]; omega), hm, he]
    congr 2
    omega
  have hx : s.abs * 2 ^ 149 = s.abs * 2 ^ c * 2 ^ (149 - c) := by
    rw [Nat.mul_assoc, ← Nat.pow_add]; congr 2; omega
  have hsplit : (2:Nat) ^ (156 - c) = 2 ^ 7 * 2 ^ (149 - c) := by
    rw [← Nat.pow_add]; congr 1; omega
  refine ⟨?_, hs, ?_, ?_, ?_⟩
  · unfold f32Finite; rw [he]; omega
  · rw [hmag, hx, hsplit, ← Nat.mul_assoc]
    exact Nat.mul_le_mul_right _ (Nat.div_mul_le_self _ _)
  · intro w' hw' hle
    obtain ⟨m, e, hme, hm24⟩ := mag_bound w' hw'
    rw [hme] at hle ⊢
    rw [hmag]
    rcases Nat.lt_or_ge e (156 - c) with hlt | hge
    · -- small exponent: below 2^23 * 2^(156 - c)
      calc m * 2 ^ e ≤ 2 ^ 24 * 2 ^ e := Nat.mul_le_mul_right _ (by omega)
        _ = 2 ^ 23 * 2 ^ (e + 1) := by rw [Nat.pow_succ]; omega
        _ ≤ 2 ^ 23 * 2 ^ (156 - c) :=
            Nat.mul_le_mul_left _ (Nat.pow_le_pow_right (by decide) (by omega))
        _ ≤ _ := Nat.mul_le_mul_right _ (by omega)
    · obtain ⟨d, rfl⟩ : ∃ d, e = 156 - c + d := ⟨e - (156 - c), by omega⟩
      rw [hx, Nat.pow_add, hsplit] at hle
      have hpos : 0 < 2 ^ (149 - c) := Nat.pow_pos (by decide)
      have h4 : m * 2 ^ d * 2 ^ 7 * 2 ^ (149 - c) ≤ s.abs * 2 ^ c * 2 ^ (149 - c) := by
        calc _ = m * (2 ^ 7 * 2 ^ (149 - c) * 2 ^ d) := by
                simp only [Nat.mul_assoc, Nat.mul_comm, Nat.mul_left_comm]
          _ ≤ _ := hle
      have h5 := Nat.le_of_mul_le_mul_right h4 hpos
      have h6 : m * 2 ^ d ≤ s.abs * 2 ^ c / 2 ^ 7 := (Nat.le_div_iff_mul_le (by decide)).2 h5
      rw [Nat.pow_add]
      calc m * (2 ^ (156 - c) * 2 ^ d) = m * 2 ^ d * 2 ^ (156 - c) := by
            simp only [Nat.mul_assoc, Nat.mul_comm, Nat.mul_left_comm]
        _ ≤ _ := Nat.mul_le_mul_right _ h6
  · intro h24
    have hc7 : 7 ≤ c := by
      rcases Nat.lt_or_ge c 7 with h | h
      · have h5 : (2:Nat) ^ c ≤ 2 ^ 6 := Nat.pow_le_pow_right (by decide) (by omega)
        have : s.abs * 2 ^ c ≤ s.abs * 2 ^ 6 := Nat.mul_le_mul_left _ h5
        omega
      · exact h
    rw [hmag, hx, hsplit, ← Nat.mul_assoc]
    congr 1
    apply Nat.div_mul_cancel
    exact Nat.dvd_trans (Nat.pow_dvd_pow 2 hc7) (Nat.dvd_mul_left _ _)

end Lambdalib
