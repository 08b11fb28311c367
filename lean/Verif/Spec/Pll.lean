import Mathlib.Data.Rat.Floor

/-! Specification vocabulary for the PLL solvers: which divider settings are legal, from the data sheet ranges. -/

namespace Lambdalib

/-- Output frequency of an ECP5 PLL with feedback from the primary output. -/
def ecpFreq (iFreq iDiv fbDiv : Nat) : Rat := (iFreq : Rat) * fbDiv / iDiv

/-- Legal ECP5 settings: dividers in range, phase detector 3.125–400 MHz, VCO 400–800 MHz, output 10–400 MHz. -/
structure EcpLegal (iFreq iDiv fbDiv opDiv : Nat) : Prop where
  iDivR : 1 ≤ iDiv ∧ iDiv ≤ 128
  fbDivR : 1 ≤ fbDiv ∧ fbDiv ≤ 80
  opDivR : 1 ≤ opDiv ∧ opDiv ≤ 128
  pfd : 3125000 ≤ (iFreq : Rat) / iDiv ∧ (iFreq : Rat) / iDiv ≤ 400000000
  vco : 400000000 ≤ ecpFreq iFreq iDiv fbDiv * opDiv ∧ ecpFreq iFreq iDiv fbDiv * opDiv ≤ 800000000
  out : 10000000 ≤ ecpFreq iFreq iDiv fbDiv ∧ ecpFreq iFreq iDiv fbDiv ≤ 400000000

/-- VCO frequency of a Xilinx 7 series PLL. -/
def xilVco (iFreq divclk mult : Nat) : Rat := (iFreq : Rat) * mult / divclk

/-- Legal Xilinx settings: dividers in range, VCO 800–1600 MHz, output 6.25–800 MHz. -/
structure XilLegal (iFreq divclk mult div0 : Nat) : Prop where
  divclkR : 1 ≤ divclk ∧ divclk ≤ 56
  multR : 2 ≤ mult ∧ mult ≤ 64
  div0R : 1 ≤ div0 ∧ div0 ≤ 128
  vco : 800000000 ≤ xilVco iFreq divclk mult ∧ xilVco iFreq divclk mult ≤ 1600000000
  out : 6250000 ≤ xilVco iFreq divclk mult / div0 ∧ xilVco iFreq divclk mult / div0 ≤ 800000000

end Lambdalib
