import Verif.Model.StreamUtils
import Verif.Model.I2cStream

/-! Model of several users of one `I2CStream` behind an `Arbiter`, the way the documentation of `TCA9548A` says (tca9548a.py
14-22). -/

namespace Lambdalib

/-- Inputs: the sinks of the arbiter, `ready` of the receiver of the bytes read, and the levels of the bus. -/
structure I2cShareIn where
  valid : Nat → Bool
  beat : Nat → Beat (Bool × BitVec 8)
  ready : Bool
  sclI : Bool
  sdaI : Bool

/-- Outputs: `ready` of the sinks of the arbiter, and the outputs of `I2CStream`. -/
structure I2cShareOut where
  ready : Nat → Bool
  str : I2cStrOut

section
variable (n timeout period : Nat) (stretch : Bool)

/-- `arbiter.source.connect(i2c.sink)`: the source of the arbiter does not depend on its `ready` (stream_utils.py 375-378). -/
def i2cShareStrIn (s : ArbS × I2cStrS) (x : I2cShareIn) : I2cStrIn :=
  let o := arbOut n s.1 ⟨x.valid, x.beat, false⟩
  ⟨o.valid, o.beat, x.ready, x.sclI, x.sdaI⟩

/-- Inputs of the arbiter: `source.ready` from `i2c.sink.ready` (stream.py 113). -/
def i2cShareArbIn (s : ArbS × I2cStrS) (x : I2cShareIn) : ArbIn (Bool × BitVec 8) :=
  ⟨x.valid, x.beat, ((i2cStream period stretch).out s.2 (i2cShareStrIn n s x)).ready⟩

/-- `Arbiter` (lambdalib/interface/stream_utils.py 346-380) in front of `I2CStream` (lambdalib/cores/i2c/stream.py 122-209). -/
def i2cShare : Circuit (ArbS × I2cStrS) I2cShareIn I2cShareOut where
  reset := ((arbiter (α := Bool × BitVec 8) n timeout).reset, (i2cStream period stretch).reset)
  out s x := ⟨((arbiter n timeout).out s.1 (i2cShareArbIn n period stretch s x)).ready,
    (i2cStream period stretch).out s.2 (i2cShareStrIn n s x)⟩
  next s x := ((arbiter n timeout).next s.1 (i2cShareArbIn n period stretch s x),
    (i2cStream period stretch).next s.2 (i2cShareStrIn n s x))

end

end Lambdalib
