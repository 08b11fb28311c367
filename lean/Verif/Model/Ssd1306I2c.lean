import Verif.Model.Ssd1306
import Verif.Model.I2cStream

/-! Model of an `SSD1306` connected to an `I2CStream`, as the documentation of `SSD1306` says (ssd1306.py 103-107). -/

namespace Lambdalib

/-- Inputs: `reset`, the sink of the driver, and the levels of the bus. -/
structure SsdI2cIn where
  reset : Bool
  valid : Bool
  data : Nat
  last : Bool
  sclI : Bool
  sdaI : Bool
deriving DecidableEq, Repr

section
variable (c : SsdCfg) (porInit : Bool) (period : Nat) (stretch : Bool)

/-- `ssd.source.connect(i2c.sink)` with `r_wn` constantly zero (ssd1306.py 56); `i2c.source` has no receiver. `source` of the driver
does not depend on `source.ready` and `i2c_error`. -/
def ssdI2cStrIn (s : SsdS × I2cStrS) (x : SsdI2cIn) : I2cStrIn :=
  let o := (ssd1306 c porInit).out s.1 ⟨x.reset, x.valid, x.data, x.last, false, false⟩
  ⟨o.valid, ⟨false, o.last, (false, BitVec.ofNat 8 o.data)⟩, false, x.sclI, x.sdaI⟩

/-- Inputs of the driver: `source.ready` from `i2c.sink.ready`, `i2c_error` from `i2c.error` (stream.py 113-116). -/
def ssdI2cSsdIn (s : SsdS × I2cStrS) (x : SsdI2cIn) : SsdIn :=
  let y := (i2cStream period stretch).out s.2 (ssdI2cStrIn c porInit s x)
  ⟨x.reset, x.valid, x.data, x.last, y.ready, y.error⟩

/-- `SSD1306` (ssd1306.py 148-270) connected to `I2CStream` (lambdalib/cores/i2c/stream.py 122-209). -/
def ssdI2c : Circuit (SsdS × I2cStrS) SsdI2cIn (SsdOut × I2cStrOut) where
  reset := ((ssd1306 c porInit).reset, (i2cStream period stretch).reset)
  out s x := ((ssd1306 c porInit).out s.1 (ssdI2cSsdIn c porInit period stretch s x),
    (i2cStream period stretch).out s.2 (ssdI2cStrIn c porInit s x))
  next s x := ((ssd1306 c porInit).next s.1 (ssdI2cSsdIn c porInit period stretch s x),
    (i2cStream period stretch).next s.2 (ssdI2cStrIn c porInit s x))

end

end Lambdalib
