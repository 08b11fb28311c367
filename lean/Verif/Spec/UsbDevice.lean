/-! Specification of USB endpoint descriptors. -/

namespace Lambdalib

/-- An endpoint of the device. -/
structure UsbEndpoint where
  isIn : Bool
  number : Nat
  size : Nat
deriving DecidableEq, Repr

/-- USB 2.0, table 9-13: an endpoint address is a byte, bit 7 the direction (IN), bits 6 to 4 zero, bits 3 to 0 the number;
number 0 is the control endpoint. -/
def usbParse (d : Nat × Nat) : Option UsbEndpoint :=
  if d.1 < 256 ∧ d.1 / 16 % 8 = 0 ∧ d.1 % 16 ≠ 0 then some ⟨decide (128 ≤ d.1), d.1 % 16, d.2⟩ else none

/-- Pair `n` (counted from 1) asks for an endpoint `e`: sizes are (IN, OUT), zero means no endpoint. -/
def UsbWanted (sizes : List (Nat × Nat)) (e : UsbEndpoint) : Prop :=
  1 ≤ e.number ∧ e.size ≠ 0 ∧
    ∃ s, sizes[e.number - 1]? = some s ∧ e.size = if e.isIn then s.1 else s.2

end Lambdalib
