import Verif.Model.I2cTop

/-! Model of the I2C bridge of the examples, `examples/i2c_bridge.py`, with the USB device as link: receive FIFO, `I2CProto`, transmit
FIFO. The streams `link.source` and `link.sink` of the USB device are inputs and outputs. The FIFOs are those of `Model/I2cTop.lean`.
The clock generator and the light emitting diodes (`Top.elaborate` 26-27, 61-70) are left out. -/

namespace Lambdalib

/-- Registers of the bridge: contents of `fifo_rx` and `fifo_tx`, `I2CProto`. -/
structure I2cUsbTopS where
  rx : List (BitVec (1 + (1 + 8)))
  tx : List (BitVec (1 + (1 + 8)))
  proto : I2cProtoS
deriving DecidableEq, Repr

/-- Inputs of the bridge: `valid` and the beat of `link.source`, `ready` of `link.sink`, and the bus levels. -/
structure I2cUsbTopIn where
  srcValid : Bool
  src : Beat (BitVec 8)
  sinkReady : Bool
  sclI : Bool
  sdaI : Bool
deriving DecidableEq, Repr

/-- Outputs of the bridge: `ready` of `link.source`, `valid` and the beat of `link.sink`, and the driven bus levels. -/
structure I2cUsbTopOut where
  srcReady : Bool
  sinkValid : Bool
  sink : Beat (BitVec 8)
  sclO : Bool
  sdaO : Bool
deriving DecidableEq, Repr

/-- Inputs of `I2CProto`: `fifo_rx.source.connect(i2c.sink)`, `i2c.source.connect(fifo_tx.sink)` (i2c_bridge.py 56-57). -/
def usbTopProtoIn (depth : Nat) (s : I2cUsbTopS) (x : I2cUsbTopIn) : I2cProtoIn :=
  { valid := (topShow depth s.rx).valid
    data := (topShow depth s.rx).beat.payload
    ready := (topShow depth s.tx).ready
    sclI := x.sclI
    sdaI := x.sdaI }

/-- `Top.elaborate`, examples/i2c_bridge.py 23-72, with `bridge_type` "usb": `link.source.connect(fifo_rx.sink)` (55) and
`fifo_tx.source.connect(link.sink)` (58). `depth` is the 32 of lines 51 and 52. -/
def i2cUsbTop (period : Nat) (stretch : Bool) (depth : Nat) : Circuit I2cUsbTopS I2cUsbTopIn I2cUsbTopOut where
  reset := ⟨(topFifo depth).reset, (topFifo depth).reset, (i2cProto period stretch).reset⟩
  out s x :=
    let po := (i2cProto period stretch).out s.proto (usbTopProtoIn depth s x)
    ⟨(topShow depth s.rx).ready, (topShow depth s.tx).valid, (topShow depth s.tx).beat, po.sclO, po.sdaO⟩
  next s x :=
    let po := (i2cProto period stretch).out s.proto (usbTopProtoIn depth s x)
    { rx := (topFifo depth).next s.rx ⟨x.srcValid, x.src, po.ready⟩
      tx := (topFifo depth).next s.tx ⟨po.valid, po.beat, x.sinkReady⟩
      proto := (i2cProto period stretch).next s.proto (usbTopProtoIn depth s x) }

end Lambdalib
