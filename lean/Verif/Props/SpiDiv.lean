import Verif.Props.SpiPhy
import Mathlib.Tactic.Linarith
import Mathlib.Tactic.FieldSimp
import Mathlib.Tactic.NormNum

/-! C70: the clock of `SPIPHYMaster`. Together with `C39_timing`, the SPI clock has a period of
`2 * (div % 256 + 1)` system clock cycles. -/

namespace Lambdalib

/-- The SPI frequency for a divisor, by `C39_timing`: the divider signal has eight bits. -/
def spiRealFreq (sys : Nat) (div : Nat) : Rat := sys / (2 * ((div % 256 : Nat) + 1))

/-- The divisor is not negative. -/
theorem spiDivisor_nonneg (sys : Nat) (spi : Rat) (hs : 2 ≤ sys) (hp : 0 < spi) : 0 ≤ spiDivisor sys spi := by
  have hm : (1 : Rat) ≤ ((sys / 2 : Nat) : Rat) := by exact_mod_cast (by omega : 1 ≤ sys / 2)
  have hm2 : (((sys / 2 : Nat) : Rat)) * 2 ≤ sys := by exact_mod_cast (by omega : sys / 2 * 2 ≤ sys)
  have hf : 0 < spiFreq sys spi ∧ spiFreq sys spi * 2 ≤ sys := by
    unfold spiFreq
    split
    · constructor <;> linarith
    · constructor <;> linarith
  have h1 : (1 : Rat) ≤ (sys : Rat) / spiFreq sys spi / 2 := by
    rw [div_div, le_div_iff₀ (by linarith [hf.1])]; linarith [hf.2]
  have h2 : ((sys : Rat) / spiFreq sys spi / 2 - 1) ≤ ((spiDivisor sys spi : Int) : Rat) := Rat.le_ceil
  have h3 : ((0 : Int) : Rat) ≤ ((spiDivisor sys spi : Int) : Rat) := by push_cast; linarith
  exact_mod_cast h3

/-- C70 (partial): when the divisor fits its eight bits, the SPI clock is never faster than requested nor than half
the system clock, and one divisor step less would be too fast. Missing: divisors above 255, see
`C70_divisor_refuted`. -/
theorem C70_divisor_partial (sys : Nat) (spi : Rat) (hs : 2 ≤ sys) (hp : 0 < spi)
    (hd : spiDivisor sys spi ≤ 255) :
    spiRealFreq sys (spiDivisor sys spi).toNat ≤ spi ∧
    spiRealFreq sys (spiDivisor sys spi).toNat ≤ ((sys / 2 : Nat) : Rat) ∧
    (spiDivisor sys spi ≠ 0 → min spi ((sys / 2 : Nat) : Rat) < spiRealFreq sys ((spiDivisor sys spi).toNat - 1)) := by
  have hm : (1 : Rat) ≤ ((sys / 2 : Nat) : Rat) := by exact_mod_cast (by omega : 1 ≤ sys / 2)
  have hsys : (2 : Rat) ≤ sys := by exact_mod_cast hs
  have hf : 0 < spiFreq sys spi ∧ spiFreq sys spi = min spi ((sys / 2 : Nat) : Rat) := by
    unfold spiFreq
    split
    · rename_i h; exact ⟨by linarith, (min_eq_right (le_of_lt h)).symm⟩
    · rename_i h; exact ⟨hp, (min_eq_left (not_lt.mp h)).symm⟩
  have h0 := spiDivisor_nonneg sys spi hs hp
  have h2 : ((sys : Rat) / spiFreq sys spi / 2 - 1) ≤ ((spiDivisor sys spi : Int) : Rat) := Rat.le_ceil
  have h3 : ((spiDivisor sys spi : Int) : Rat) < ((sys : Rat) / spiFreq sys spi / 2 - 1) + 1 := Rat.ceil_lt
  generalize spiDivisor sys spi = d at *
  obtain ⟨k, rfl⟩ := Int.eq_ofNat_of_zero_le h0
  have hk : k % 256 = k := Nat.mod_eq_of_lt (by omega)
  have hkey : spiRealFreq sys k ≤ spiFreq sys spi := by
    unfold spiRealFreq
    rw [hk, div_le_iff₀ (by positivity)]
    rw [div_div, sub_le_iff_le_add, div_le_iff₀ (by linarith [hf.1])] at h2
    push_cast at h2
    linarith
  rw [hf.2] at hkey
  refine ⟨le_trans hkey (min_le_left _ _), le_trans hkey (min_le_right _ _), ?_⟩
  intro hne
  have hk1 : k ≠ 0 := by intro h; subst h; exact hne rfl
  have hk2 : (k - 1) % 256 + 1 = k := by omega
  have hk3 : (0 : Rat) < k := by exact_mod_cast (by omega : 0 < k)
  show _ < spiRealFreq sys (k - 1)
  unfold spiRealFreq
  have hk4 : (((k - 1) % 256 : Nat) : Rat) + 1 = k := by exact_mod_cast hk2
  rw [hk4, ← hf.2, lt_div_iff₀ (by linarith)]
  rw [div_div, sub_add_cancel, lt_div_iff₀ (by linarith [hf.1])] at h3
  push_cast at h3
  linarith

/-- C70 fails for large ratios: 100 kHz from a 100 MHz system clock gives the divisor 499, of which the clock
generator sees 243: about 205 kHz. -/
theorem C70_divisor_refuted :
    ¬ ∀ (sys : Nat) (spi : Rat), 2 ≤ sys → 0 < spi → spiRealFreq sys (spiDivisor sys spi).toNat ≤ spi := by
  intro h
  have h1 := h 100000000 100000 (by norm_num) (by norm_num)
  have e : spiDivisor 100000000 100000 = 499 := by decide +kernel
  have e2 : (499 : Int).toNat % 256 = 243 := rfl
  rw [e, spiRealFreq, e2] at h1
  norm_num at h1

/-- C70: when a word is accepted, the chip has been selected for at least the requested number of periods of the
SPI clock asked for (or of the limit). -/
theorem C70_cs_delay (sys : Nat) (spi d : Rat) (hs : 2 ≤ sys) (hp : 0 < spi) (W P div : Nat)
    (i : Nat → SpiPhyIn) (n : Nat)
    (h : ((spiPhy W P div (spiCsDelay sys spi d).toNat).wave i n).ready = true) :
    ∃ a ≤ n, d / min spi ((sys / 2 : Nat) : Rat) ≤ ((n - a : Nat) : Rat) / sys ∧ ∀ k, a ≤ k → k < n → (i k).cs = true := by
  obtain ⟨_, h1, h2⟩ := C39_selected W P div _ i n h
  refine ⟨n - ((spiCsDelay sys spi d).toNat + 1), by omega, ?_, fun k hk hn => h2 k hn (by omega)⟩
  have hm : (1 : Rat) ≤ ((sys / 2 : Nat) : Rat) := by exact_mod_cast (by omega : 1 ≤ sys / 2)
  have hsys : (2 : Rat) ≤ sys := by exact_mod_cast hs
  have hf : 0 < spiFreq sys spi ∧ spiFreq sys spi = min spi ((sys / 2 : Nat) : Rat) := by
    unfold spiFreq
    split
    · rename_i h; exact ⟨by linarith, (min_eq_right (le_of_lt h)).symm⟩
    · rename_i h; exact ⟨hp, (min_eq_left (not_lt.mp h)).symm⟩
  rw [← hf.2, show n - (n - ((spiCsDelay sys spi d).toNat + 1)) = (spiCsDelay sys spi d).toNat + 1 by omega]
  have h3 : d * sys / spiFreq sys spi ≤ ((spiCsDelay sys spi d : Int) : Rat) := Rat.le_ceil
  have h4 : ((spiCsDelay sys spi d : Int) : Rat) ≤ (((spiCsDelay sys spi d).toNat : Nat) : Rat) := by
    exact_mod_cast Int.self_le_toNat _
  rw [div_le_div_iff₀ hf.1 (by linarith)]
  rw [div_le_iff₀ hf.1] at h3
  push_cast
  have h5 := mul_le_mul_of_nonneg_right h4 (le_of_lt hf.1)
  linarith [hf.1]

example : spiDivisor 100000000 10000000 = 4 ∧ spiRealFreq 100000000 4 = 10000000 := by
  constructor
  · decide +kernel
  · norm_num [spiRealFreq]

example : spiDivisor 100000000 30000000 = 1 ∧ spiRealFreq 100000000 1 = 25000000 ∧
    spiCsDelay 100000000 30000000 2 = 7 := by
  refine ⟨by decide +kernel, ?_, by decide +kernel⟩
  norm_num [spiRealFreq]

end Lambdalib
