import Verif.Model.Ulpi

/-! `DumpULPIRegs` (lambdalib/cores/usb/ulpi.py 16-73) with its two clocks, as `directUlpi` in `Model/UlpiDirect.lean`. -/

namespace Lambdalib

/-- Inputs of `DumpULPIRegs` at an instant: edges of the clocks `sync` and `ulpi`, the pins driven by the PHY, `source.ready`
(all in `ulpi`). -/
structure DumpDirectIn where
  edgeSync : Bool
  edgeUlpi : Bool
  dir : Bool
  nxt : Bool
  dataI : Nat
  ready : Bool
deriving DecidableEq, Repr

/-- What the part in the domain `ulpi` sees; `por.done` is taken from the other domain as it is (ulpi.py 41). -/
def dumpDirectCore (c2 c4 : Nat) (s : (PorSt × Nat) × DumpS) (x : DumpDirectIn) : DumpIn :=
  ⟨x.dir, x.nxt, x.dataI, ((ulpiPor c2 c4).out s.1 ()).2, x.ready⟩

/-- `DumpULPIRegs.elaborate`, lambdalib/cores/usb/ulpi.py 24-73, with both clocks: power-on reset in `sync` (33, counts `c2`, `c4`), the rest in
`ulpi` (`dumpUlpi`). Outputs: the reset pin (40) and those of `dumpUlpi`. -/
def dumpDirect (c2 c4 maxAddr : Nat) : Circuit ((PorSt × Nat) × DumpS) DumpDirectIn (Bool × DumpOut) where
  reset := ((ulpiPor c2 c4).reset, (dumpUlpi maxAddr).reset)
  out s x :=
    (s.2.st == .reset && ((ulpiPor c2 c4).out s.1 ()).1, (dumpUlpi maxAddr).out s.2 (dumpDirectCore c2 c4 s x))
  next s x :=
    (if x.edgeSync then (ulpiPor c2 c4).next s.1 () else s.1,
     if x.edgeUlpi then (dumpUlpi maxAddr).next s.2 (dumpDirectCore c2 c4 s x) else s.2)

end Lambdalib
