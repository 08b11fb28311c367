import Verif.Model.Spi
import Verif.Model.SpiSlave

/-! `SPIStream`, `SPIPHYMaster` and `SPIPHYSlave` connected as in a design: `SPIStream` to the core of the master
(`lambdalib/cores/spi/stream.py` 22-27, `master.py` 49-51), the pads of the master to the pins of the slave, in one clock domain. -/

namespace Lambdalib

/-- Inputs: `data_sink` and `data_source.ready` of `SPIStream`; `avail`, see below; the data pins `dq_i` of the master if they are
not connected to the slave; the sink of the slave. -/
structure SpiLinkIn where
  dValid : Bool
  dLast : Bool
  dData : Nat
  dReady : Bool
  avail : Bool
  dqI : Nat
  sValid : Bool
  sData : Nat
  sLen : Nat
deriving DecidableEq, Repr, Inhabited

/-- State of the parts. `fifo` are the words in the receive FIFO of the master (master.py 59-61), of depth 8. -/
structure SpiLinkS where
  str : SpiStrSt
  phy : SpiPhyS
  fifo : List (Bool × Nat)
  slv : SlvS
deriving DecidableEq, Repr

structure SpiLinkOut where
  str : SpiStrOut
  phy : SpiPhyOut
  slv : SlvOut
deriving DecidableEq, Repr

section
variable (W nb div csDelay sw : Nat) (rising miso : Bool)

/-- Inputs of `SPIStream`. The FIFO shows its oldest word when `avail` is high, which stands for any delay of the FIFO. -/
def spiLinkStr (s : SpiLinkS) (x : SpiLinkIn) (pReady : Bool) : SpiStrIn :=
  ⟨x.dValid, x.dLast, x.dData, x.dReady, pReady, x.avail && !s.fifo.isEmpty,
    (s.fifo.headD (false, 0)).1, (s.fifo.headD (false, 0)).2⟩

/-- Inputs of the master. With `miso` the slave's pin is connected to the `miso` pad (master.py 81-86). What `SPIStream` gives to
the master does not depend on the master's `ready`. -/
def spiLinkPhy (s : SpiLinkS) (x : SpiLinkIn) : SpiPhyIn :=
  let o := (spiStream W nb).out s.str (spiLinkStr s x false)
  ⟨o.cs, o.pValid, o.pLast, o.pWord, if miso then 2 * s.slv.dqO else x.dqI, s.fifo.length⟩

/-- Outputs of the master. -/
def spiLinkPads (s : SpiLinkS) (x : SpiLinkIn) : SpiPhyOut := (spiPhy W nb div csDelay).out s.phy (spiLinkPhy W nb miso s x)

/-- Inputs of the slave. -/
def spiLinkSlv (s : SpiLinkS) (x : SpiLinkIn) : SlvIn :=
  let o := spiLinkPads W nb div csDelay miso s x
  ⟨o.clk, o.csN, o.dqO, x.sValid, x.sData, x.sLen⟩

/-- The connection. The slave has `sw` data bits and one stage of `W` bits. -/
def spiLink : Circuit SpiLinkS SpiLinkIn SpiLinkOut where
  reset := ⟨(spiStream W nb).reset, (spiPhy W nb div csDelay).reset, [], (spiSlave sw nb rising [W]).reset⟩
  out s x :=
    let pads := spiLinkPads W nb div csDelay miso s x
    ⟨(spiStream W nb).out s.str (spiLinkStr s x pads.ready), pads,
      (spiSlave sw nb rising [W]).out s.slv (spiLinkSlv W nb div csDelay miso s x)⟩
  next s x :=
    let pads := spiLinkPads W nb div csDelay miso s x
    let y := spiLinkStr s x pads.ready
    let q := if y.pValid && ((spiStream W nb).out s.str y).pReady then s.fifo.tail else s.fifo
    ⟨(spiStream W nb).next s.str y, (spiPhy W nb div csDelay).next s.phy (spiLinkPhy W nb miso s x),
      q ++ (if pads.fValid && decide (s.fifo.length < 8) then [(pads.fLast, pads.fData)] else []),
      (spiSlave sw nb rising [W]).next s.slv (spiLinkSlv W nb div csDelay miso s x)⟩

end

end Lambdalib
