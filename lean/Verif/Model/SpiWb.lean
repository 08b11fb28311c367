import Verif.Model.SpiLink
import Verif.Model.Layout

/-! `SPIPHYSlave` with its receive FIFO, connected to `SPIWishboneBridge` and to a master: `slave.source` to `bridge.sink` and
`bridge.source` to `slave.sink`, in one clock domain. `/repo` has the parts (`lambdalib/cores/spi/slave.py`, `bridge.py`) with
matching layouts, and no design that connects them. -/

namespace Lambdalib

/-- Inputs: those of the connection of master and slave, of which the sink of the slave is not used; `ack` and `dat_r` of the bus. -/
structure SpiWbIn where
  link : SpiLinkIn
  ack : Bool
  datR : Nat
deriving DecidableEq, Repr, Inhabited

structure SpiWbS (σ : Type) where
  link : SpiLinkS
  fifo : σ
  brg : BrgS
deriving DecidableEq, Repr

/-- Width of the payload of `spi_slave_layout(width)`, lambdalib/cores/spi/common.py 26-30. -/
def spiWbBits (W : Nat) : Nat := W + rangeWidth (W + 1)

/-- The payload: `data`, then `len` (common.py 27-29). -/
def spiWbPack (W : Nat) (w : Nat × Nat) : BitVec (spiWbBits W) :=
  BitVec.ofNat (spiWbBits W) (w.1 % 2 ^ W + 2 ^ W * truncRange (W + 1) w.2)

def spiWbUnpack (W : Nat) (p : BitVec (spiWbBits W)) : Nat × Nat := (p.toNat % 2 ^ W, p.toNat / 2 ^ W)

section
variable (W nb div csDelay aw : Nat) (miso : Bool) {σ : Type}
  (f : Circuit σ (FifoIn (1 + (1 + spiWbBits W))) (FifoOut (1 + (1 + spiWbBits W))))

/-- Outputs of the slave: they depend only on its registers. -/
def spiWbSlv (s : SpiWbS σ) (x : SpiWbIn) : SlvOut := ((spiLink W nb div csDelay W true miso).out s.link x.link).slv

/-- Inputs of the receive FIFO (slave.py 40-41, 104-106, 121). `ready` of the bridge does not depend on the word it is given
(bridge.py 51, 58, 79). -/
def spiWbFifo (s : SpiWbS σ) (x : SpiWbIn) : SIn (BitVec (spiWbBits W)) :=
  let v := spiWbSlv W nb div csDelay miso s x
  ⟨v.fValid, ⟨false, false, spiWbPack W (v.fData, v.fLen)⟩,
    ((spiBridge W aw).out s.brg ⟨false, 0, 0, v.ready, x.ack, x.datR⟩).ready⟩

/-- Inputs of the bridge. -/
def spiWbBrg (s : SpiWbS σ) (x : SpiWbIn) : BrgIn :=
  let o := (fifoWrapper f).out s.fifo (spiWbFifo W nb div csDelay aw miso s x)
  let w := spiWbUnpack W o.beat.payload
  ⟨o.valid, w.1, w.2, (spiWbSlv W nb div csDelay miso s x).ready, x.ack, x.datR⟩

/-- Inputs of master and slave. -/
def spiWbLink (s : SpiWbS σ) (x : SpiWbIn) : SpiLinkIn :=
  let o := (spiBridge W aw).out s.brg (spiWbBrg W nb div csDelay aw miso f s x)
  { x.link with sValid := o.valid, sData := o.data, sLen := o.len }

/-- The connection. The outputs are those of master and slave, and those of the bridge with the bus. -/
def spiWb : Circuit (SpiWbS σ) SpiWbIn (SpiLinkOut × BrgOut) where
  reset := ⟨(spiLink W nb div csDelay W true miso).reset, f.reset, (spiBridge W aw).reset⟩
  out s x := ((spiLink W nb div csDelay W true miso).out s.link (spiWbLink W nb div csDelay aw miso f s x),
    (spiBridge W aw).out s.brg (spiWbBrg W nb div csDelay aw miso f s x))
  next s x :=
    ⟨(spiLink W nb div csDelay W true miso).next s.link (spiWbLink W nb div csDelay aw miso f s x),
      (fifoWrapper f).next s.fifo (spiWbFifo W nb div csDelay aw miso s x),
      (spiBridge W aw).next s.brg (spiWbBrg W nb div csDelay aw miso f s x)⟩

end

end Lambdalib
