import Verif.Model.SpiSlave

/-! `SPISlaveBridge`, examples/spi_bridge.py 73-116, without the USB device: its streams `link.source` and `link.sink` are inputs and
outputs, and so are the pins. -/

namespace Lambdalib

/-- Inputs: the pins; `link.source` (spi_bridge.py 102); `link.sink.ready` (101); `room` and `avail`: the receive FIFO of the slave takes
a word and shows its oldest word, which stands for any FIFO. -/
structure SlvTopIn where
  clk : Bool
  csN : Bool
  dq : Nat
  txValid : Bool
  txData : Nat
  ready : Bool
  room : Bool
  avail : Bool
deriving DecidableEq, Repr, Inhabited

/-- State: the slave, and the words in its receive FIFO (lambdalib/cores/spi/slave.py 40-41). -/
structure SlvTopS where
  slv : SlvS
  fifo : List Nat
deriving DecidableEq, Repr

/-- Outputs: `link.sink` without `ready`, `link.source.ready`, the output pins. -/
structure SlvTopOut where
  valid : Bool
  last : Bool
  data : Nat
  txReady : Bool
  dqO : Nat
deriving DecidableEq, Repr

/-- Inputs of the slave; with `with_len=False` the length is the constant width (slave.py 96-97). -/
def slvTopPins (x : SlvTopIn) : SlvIn := ⟨x.clk, x.csN, x.dq, x.txValid, x.txData, 8⟩

/-- The connection, spi_bridge.py 96-103: words of 8 bits, `nb` data pins, clock mode 0. The layout has no length
(lambdalib/cores/spi/common.py 26-30), and `last` is never set (slave.py 15, 104-106, 121). The slave does not look at whether the FIFO
takes the word (slave.py 121). -/
def slvTop (nb : Nat) : Circuit SlvTopS SlvTopIn SlvTopOut where
  reset := ⟨(spiSlave 8 nb true [8]).reset, []⟩
  out s x :=
    let o := (spiSlave 8 nb true [8]).out s.slv (slvTopPins x)
    ⟨x.avail && !s.fifo.isEmpty, false, s.fifo.headD 0, o.ready, o.dqO⟩
  next s x :=
    let o := (spiSlave 8 nb true [8]).out s.slv (slvTopPins x)
    let q := if (x.avail && !s.fifo.isEmpty) && x.ready then s.fifo.tail else s.fifo
    ⟨(spiSlave 8 nb true [8]).next s.slv (slvTopPins x), q ++ (if o.fValid && x.room then [o.fData] else [])⟩

end Lambdalib
