/-! Specification: IEEE-754 single precision values, as integers scaled by 2^149 (the weight of the
least significant bit of the smallest subnormal), so that every finite value is an exact integer. -/

namespace Lambdalib

/-- Biased exponent field. -/
def f32Exp (w : BitVec 32) : Nat := (w.extractLsb' 23 8).toNat
/-- Fraction field. -/
def f32Frac (w : BitVec 32) : Nat := (w.extractLsb' 0 23).toNat
/-- Sign bit: set for negative values. -/
def f32Neg (w : BitVec 32) : Bool := w.getLsbD 31
/-- Neither infinite nor NaN. -/
def f32Finite (w : BitVec 32) : Prop := f32Exp w ≠ 255

/-- Magnitude scaled by 2^149: subnormals have exponent 0 and no hidden bit. -/
def f32Mag (w : BitVec 32) : Nat :=
  if f32Exp w = 0 then f32Frac w else (2 ^ 23 + f32Frac w) * 2 ^ (f32Exp w - 1)

/-- Value scaled by 2^149. -/
def f32Val (w : BitVec 32) : Int := if f32Neg w then -(f32Mag w : Int) else f32Mag w

/-- `w` is the integer `x` rounded toward zero: finite, sign of `x`, magnitude at most `|x|`, and no
finite float of larger magnitude is at most `|x|`. -/
structure IsRoundTowardZero (x : Int) (w : BitVec 32) : Prop where
  finite : f32Finite w
  sign : f32Neg w = decide (x < 0)
  le : f32Mag w ≤ x.natAbs * 2 ^ 149
  max : ∀ w', f32Finite w' → f32Mag w' ≤ x.natAbs * 2 ^ 149 → f32Mag w' ≤ f32Mag w

end Lambdalib
