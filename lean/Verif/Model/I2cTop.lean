import Verif.Model.I2cProto
import Verif.Model.Serial
import Verif.Model.Layout
import Verif.Spec.Layout

/-! Model of the I2C bridge of the examples, `examples/i2c_bridge.py`, with the UART as link: serial stream wrapper, receive FIFO,
`I2CProto`, transmit FIFO. The UART behind the wrapper and the FIFO primitives are not in the repository: the signals of the UART
are inputs, and the FIFOs are bounded queues with first-word fall-through (`queueFifo`). The clock generator and the light emitting
diodes (`Top.elaborate` 26-27, 61-70) are left out. -/

namespace Lambdalib

/-- Registers of the bridge: serial wrapper, contents of `fifo_rx` and `fifo_tx`, `I2CProto`. -/
structure I2cTopS where
  ser : SerS
  rx : List (BitVec (1 + (1 + 8)))
  tx : List (BitVec (1 + (1 + 8)))
  proto : I2cProtoS
deriving DecidableEq, Repr

/-- Inputs of the bridge: `rx.rdy`, `rx.data`, `tx.rdy` of the UART and the bus levels. -/
structure I2cTopIn where
  rxRdy : Bool
  rxData : BitVec 8
  txRdy : Bool
  sclI : Bool
  sdaI : Bool
deriving DecidableEq, Repr

/-- Outputs of the bridge: `rx.ack`, `tx.ack`, `tx.data` of the UART and the driven bus levels. -/
structure I2cTopOut where
  rxAck : Bool
  txAck : Bool
  txData : BitVec 8
  sclO : Bool
  sdaO : Bool
deriving DecidableEq, Repr

/-- The FIFOs, `stream.SyncFIFO(description, 32)` (i2c_bridge.py 51-52); outputs depend on the contents only. -/
def topFifo (depth : Nat) : Circuit (List (BitVec (1 + (1 + 8)))) (SIn (BitVec 8)) (SOut (BitVec 8)) :=
  fifoWrapper (queueFifo (1 + (1 + 8)) (fifoDepth depth))

/-- What a FIFO shows. -/
def topShow (depth : Nat) (q : List (BitVec (1 + (1 + 8)))) : SOut (BitVec 8) := (topFifo depth).out q ⟨false, ⟨false, false, 0⟩, false⟩

/-- Inputs of `I2CProto`: `fifo_rx.source.connect(i2c.sink)`, `i2c.source.connect(fifo_tx.sink)` (i2c_bridge.py 56-57). -/
def topProtoIn (depth : Nat) (s : I2cTopS) (x : I2cTopIn) : I2cProtoIn :=
  { valid := (topShow depth s.rx).valid
    data := (topShow depth s.rx).beat.payload
    ready := (topShow depth s.tx).ready
    sclI := x.sclI
    sdaI := x.sdaI }

/-- Inputs of the serial wrapper: `link.source.connect(fifo_rx.sink)`, `fifo_tx.source.connect(link.sink)` (i2c_bridge.py 55, 58). -/
def topSerIn (depth : Nat) (s : I2cTopS) (x : I2cTopIn) : SerIn :=
  { valid := (topShow depth s.tx).valid
    data := (topShow depth s.tx).beat.payload.toNat
    ready := (topShow depth s.rx).ready
    txRdy := x.txRdy
    rxRdy := x.rxRdy
    rxData := x.rxData.toNat }

/-- `Top.elaborate`, examples/i2c_bridge.py 23-72, with `bridge_type` "uart". `depth` is the 32 of lines 51 and 52. -/
def i2cTop (period : Nat) (stretch : Bool) (depth : Nat) : Circuit I2cTopS I2cTopIn I2cTopOut where
  reset := ⟨serialStream.reset, (topFifo depth).reset, (topFifo depth).reset, (i2cProto period stretch).reset⟩
  out s x :=
    let so := serialStream.out s.ser (topSerIn depth s x)
    let po := (i2cProto period stretch).out s.proto (topProtoIn depth s x)
    ⟨so.rxAck, so.txAck, BitVec.ofNat 8 so.txData, po.sclO, po.sdaO⟩
  next s x :=
    let so := serialStream.out s.ser (topSerIn depth s x)
    let po := (i2cProto period stretch).out s.proto (topProtoIn depth s x)
    { ser := serialStream.next s.ser (topSerIn depth s x)
      rx := (topFifo depth).next s.rx ⟨so.valid, ⟨false, false, BitVec.ofNat 8 so.data⟩, po.ready⟩
      tx := (topFifo depth).next s.tx ⟨po.valid, po.beat, so.ready⟩
      proto := (i2cProto period stretch).next s.proto (topProtoIn depth s x) }

end Lambdalib
