import Verif.Spec.I2cDevice

/-! What groups of three bytes mean to an I2C device: each group is one transaction, begun again from its first byte when the
device does not acknowledge a byte. -/

namespace Lambdalib

/-- The device, number of groups acknowledged as a whole, position in the current group. -/
structure DevGroups where
  dev : DevAbs
  group : Nat
  pos : Nat
deriving DecidableEq, Repr

/-- The device when the next byte is sent: a transaction is started for the first byte of a group. -/
def I2cDev.groupAt (D : I2cDev) (r : DevGroups) : DevAbs := if r.pos = 0 then D.cmd r.dev .start else r.dev

/-- The next byte is acknowledged. -/
def I2cDev.groupAck (D : I2cDev) (f : Nat → BitVec 8) (r : DevGroups) : Bool :=
  D.acks (D.groupAt r) (f (3 * r.group + r.pos))

/-- The next byte is sent. -/
def I2cDev.groupByte (D : I2cDev) (f : Nat → BitVec 8) (r : DevGroups) : DevGroups :=
  let A := D.cmd (D.groupAt r) (.write (f (3 * r.group + r.pos)))
  if D.groupAck f r then
    (if r.pos = 2 then ⟨D.cmd A .stop, r.group + 1, 0⟩ else ⟨A, r.group, r.pos + 1⟩)
  else ⟨D.cmd A .stop, r.group, 0⟩

/-- After `k` bytes on the wires, from power on; the groups are `f 0, f 1, f 2`, then `f 3, f 4, f 5`, and so on. -/
def I2cDev.groups (D : I2cDev) (f : Nat → BitVec 8) : Nat → DevGroups
  | 0 => ⟨⟨[], .rest⟩, 0, 0⟩
  | k + 1 => D.groupByte f (D.groups f k)

end Lambdalib
