import Verif.Spec.Circuit

/-! Model of `I2CBusDriver`, `lambdalib/cores/i2c/i2c.py` 28-84.

`FFSynchronizer` (amaranth.lib.cdc, default of two stages) is modelled as two registers in a row, without
metastability. -/

namespace Lambdalib

/-- Registers of `I2CBusDriver`: the synchroniser stages of both lines (i2c.py 54, 62; reset 1), and
`scl_r`, `sda_r` (i2c.py 71-76). Without `oe` on the SCL pad its synchroniser does not exist and `scl1`, `scl2`
are not used. -/
structure I2cDrvS where
  scl1 : Bool
  scl2 : Bool
  sda1 : Bool
  sda2 : Bool
  sclR : Bool
  sdaR : Bool
deriving DecidableEq, Repr

/-- Inputs of `I2CBusDriver`: `scl_o`, `sda_o` (set by the initiator) and the levels at the pads. -/
structure I2cDrvIn where
  sclO : Bool
  sdaO : Bool
  sclPin : Bool
  sdaPin : Bool
deriving DecidableEq, Repr

/-- What a pad is told: output level and output enable. -/
structure PadOut where
  o : Bool
  oe : Bool
deriving DecidableEq, Repr

/-- Outputs of `I2CBusDriver`. -/
structure I2cDrvOut where
  sclI : Bool
  sdaI : Bool
  sample : Bool
  setup : Bool
  start : Bool
  stop : Bool
  sclPad : PadOut
  sdaPad : PadOut
deriving DecidableEq, Repr

/-- `I2CBusDriver.elaborate`, lambdalib/cores/i2c/i2c.py 46-84. `bidir` is `hasattr(self.scl_t, "oe")`; a pad
without `oe` is always driven. -/
def i2cBusDriver (bidir : Bool) : Circuit I2cDrvS I2cDrvIn I2cDrvOut where
  reset := ⟨true, true, true, true, true, true⟩
  out s x :=
    let sclI := if bidir then s.scl2 else x.sclO
    { sclI := sclI
      sdaI := s.sda2
      sample := !s.sclR && sclI
      setup := s.sclR && !sclI
      start := sclI && s.sdaR && !s.sda2
      stop := sclI && !s.sdaR && s.sda2
      sclPad := if bidir then ⟨false, !x.sclO⟩ else ⟨x.sclO, true⟩
      sdaPad := ⟨false, !x.sdaO⟩ }
  next s x :=
    { scl1 := x.sclPin
      scl2 := s.scl1
      sda1 := x.sdaPin
      sda2 := s.sda1
      sclR := if bidir then s.scl2 else x.sclO
      sdaR := s.sda2 }

end Lambdalib
