import Verif.Model.Spi

/-! `SPIStream` and `SPIPHYMaster` connected as in `SPIMasterBridge`, examples/spi_bridge.py 42-57, without the USB device: its
streams `link.source` and `link.sink` are inputs and outputs, and the pins of the master are, too. -/

namespace Lambdalib

/-- Inputs: `link.source` and `link.sink.ready` (spi_bridge.py 53, 56); `avail`, see below; the data pins `dq_i`. -/
structure SpiMstIn where
  dValid : Bool
  dLast : Bool
  dData : Nat
  dReady : Bool
  avail : Bool
  dqI : Nat
deriving DecidableEq, Repr, Inhabited

/-- State of the parts. `fifo` are the words in the receive FIFO of the master (lambdalib/cores/spi/master.py 59-61), of depth 8. -/
structure SpiMstS where
  str : SpiStrSt
  phy : SpiPhyS
  fifo : List (Bool × Nat)
deriving DecidableEq, Repr

/-- Outputs of `SPIStream` and pins. -/
structure SpiMstOut where
  str : SpiStrOut
  phy : SpiPhyOut
deriving DecidableEq, Repr

section
variable (W nb div csDelay : Nat)

/-- Inputs of `SPIStream` (spi_bridge.py 53-56). The FIFO shows its oldest word when `avail` is high, which stands for any delay of
the FIFO. -/
def spiMstStr (s : SpiMstS) (x : SpiMstIn) (pReady : Bool) : SpiStrIn :=
  ⟨x.dValid, x.dLast, x.dData, x.dReady, pReady, x.avail && !s.fifo.isEmpty,
    (s.fifo.headD (false, 0)).1, (s.fifo.headD (false, 0)).2⟩

/-- Inputs of the master (spi_bridge.py 51, 54). What `SPIStream` gives to the master does not depend on the master's `ready`. -/
def spiMstPhy (s : SpiMstS) (x : SpiMstIn) : SpiPhyIn :=
  let o := (spiStream W nb).out s.str (spiMstStr s x false)
  ⟨o.cs, o.pValid, o.pLast, o.pWord, x.dqI, s.fifo.length⟩

/-- The connection, spi_bridge.py 42-57, for words of `W` bits and `nb` data pins. -/
def spiMst : Circuit SpiMstS SpiMstIn SpiMstOut where
  reset := ⟨(spiStream W nb).reset, (spiPhy W nb div csDelay).reset, []⟩
  out s x :=
    let pads := (spiPhy W nb div csDelay).out s.phy (spiMstPhy W nb s x)
    ⟨(spiStream W nb).out s.str (spiMstStr s x pads.ready), pads⟩
  next s x :=
    let pads := (spiPhy W nb div csDelay).out s.phy (spiMstPhy W nb s x)
    let y := spiMstStr s x pads.ready
    let q := if y.pValid && ((spiStream W nb).out s.str y).pReady then s.fifo.tail else s.fifo
    ⟨(spiStream W nb).next s.str y, (spiPhy W nb div csDelay).next s.phy (spiMstPhy W nb s x),
      q ++ (if pads.fValid && decide (s.fifo.length < 8) then [(pads.fLast, pads.fData)] else [])⟩

end

end Lambdalib
