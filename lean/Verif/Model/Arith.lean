import Verif.Spec.Circuit
import Verif.Model.Pipe

/-! Models of `lambdalib/cores/math/multiplier.py`, `cores/float/clz.py` and `cores/float/i2f.py`. -/

namespace Lambdalib

/-! ### Multiplier -/

/-- Value of a bit pattern in an Amaranth shape: two's complement if signed. -/
def shapeVal {w : Nat} (signed : Bool) (x : BitVec w) : Int :=
  if signed then x.toInt else (x.toNat : Int)

/-- `multiplier_layout_o` (multiplier.py 20-25): signedness of the product. Its width is the sum of
the operand widths. -/
def productSigned (sa sb : Bool) : Bool := sa || sb

/-- `o.c.eq(i.a * i.b)` (multiplier.py 42). Amaranth's `*` yields the exact integer product of the
operand values; the assignment truncates it to the width of `c`. -/
def multiply {wa wb : Nat} (sa sb : Bool) (x : BitVec wa × BitVec wb) : BitVec (wa + wb) :=
  BitVec.ofInt (wa + wb) (shapeVal sa x.1 * shapeVal sb x.2)

/-- `Multiplier.elaborate`, lambdalib/cores/math/multiplier.py 33-48. Registers: `o.valid`,
`o.first`, `o.last`, `o.c`. -/
def multiplier (wa wb : Nat) (sa sb : Bool) :
    Circuit (PipeValidS (BitVec (wa + wb))) (SIn (BitVec wa × BitVec wb))
      (SOut (BitVec (wa + wb))) where
  reset := ⟨false, ⟨false, false, 0⟩⟩
  out s i :=
    { ready := if !s.valid || i.ready then true else false
      valid := s.valid
      beat := s.beat }
  next s i :=
    if !s.valid || i.ready then
      { valid := i.valid
        beat := ⟨i.beat.first, i.beat.last, multiply sa sb i.beat.payload⟩ }
    else s

/-! ### CLZ -/

/-- One pass of the loop of `CLZ.elaborate` (clz.py 15-17) on a `2^(k+1)`-bit value: output bit `k`
tells that the upper half `d[2^k : 2^(k+1)]` is zero; the loop goes on with the lower half in that
case and with the upper half otherwise. (`16 >> i = 2^(4-i)`.) -/
def clzGo : Nat → Nat → Nat
  | 0, _ => 0
  | k + 1, d =>
    let lo := d % 2 ^ (2 ^ k)
    let hi := d / 2 ^ (2 ^ k) % 2 ^ (2 ^ k)
    let bit := hi == 0
    (if bit then 2 ^ k else 0) + clzGo k (if bit then lo else hi)

/-- `CLZ`, lambdalib/cores/float/clz.py 4-19. -/
def clz32 (d : BitVec 32) : Nat := clzGo 5 d.toNat

/-! ### Int2Float -/

/-- First pipeline stage of `Int2Float` (i2f.py 23-28). -/
structure I2fS1 where
  sign : Bool
  abs : Nat
  zero : Bool
deriving DecidableEq, Repr

/-- Second pipeline stage of `Int2Float` (i2f.py 30-34). -/
structure I2fS2 where
  sign : Bool
  expn : Nat
  mant : Nat
deriving DecidableEq, Repr

/-- Stage 1, lambdalib/cores/float/i2f.py 51-62: sign, 31-bit absolute value, zero flag. -/
def i2fStage1 (d : BitVec 32) : I2fS1 :=
  let low := d.toNat % 2 ^ 31
  { sign := d.getLsbD 31
    abs := if d.getLsbD 31 then (2 ^ 31 - low) % 2 ^ 31 else low
    zero := low == 0 }

/-- `clz.d.eq(Cat(1, s1_abs))`, lambdalib/cores/float/i2f.py 36-39. -/
def i2fClz (s : I2fS1) : Nat := clz32 (BitVec.ofNat 32 (2 * s.abs + 1))

/-- Stage 2, lambdalib/cores/float/i2f.py 64-74: normalisation into 31 bits and 8-bit exponent
`157 - clz`. -/
def i2fStage2 (s : I2fS1) : I2fS2 :=
  { sign := s.sign
    mant := (s.abs * 2 ^ i2fClz s) % 2 ^ 31
    expn := if s.zero then 0 else (157 - i2fClz s) % 2 ^ 8 }

/-- `source.data = Cat(s2_mant[7:30], s2_expn, s2_sign)`, lambdalib/cores/float/i2f.py 42. -/
def i2fPack (s : I2fS2) : BitVec 32 :=
  BitVec.ofNat 32 (s.mant / 2 ^ 7 % 2 ^ 23 + s.expn % 2 ^ 8 * 2 ^ 23 + (if s.sign then 2 ^ 31 else 0))

/-- Registers of `Int2Float`: both stages with their `valid` and `last`. -/
structure I2fS where
  v1 : Bool
  last1 : Bool
  s1 : I2fS1
  v2 : Bool
  last2 : Bool
  s2 : I2fS2
deriving DecidableEq, Repr

/-- `Int2Float.elaborate`, lambdalib/cores/float/i2f.py 15-76: both stages advance together unless
the output is stalled (47-50); `source.first` is never driven. -/
def int2float : Circuit I2fS (SIn (BitVec 32)) (SOut (BitVec 32)) where
  reset := ⟨false, false, ⟨false, 0, false⟩, false, false, ⟨false, 0, 0⟩⟩
  out s i :=
    let stall := s.v2 && !i.ready
    { ready := if !stall then true else false
      valid := s.v2
      beat := ⟨false, s.last2, i2fPack s.s2⟩ }
  next s i :=
    let stall := s.v2 && !i.ready
    if !stall then
      { v1 := i.valid, last1 := i.beat.last, s1 := i2fStage1 i.beat.payload
        v2 := s.v1, last2 := s.last1, s2 := i2fStage2 s.s1 }
    else s

end Lambdalib
