import Verif.Model.Ulpi
import Verif.Model.Layout
import Verif.Model.Converter

/-! `DirectULPI` (lambdalib/cores/usb/ulpi.py 76-171) with its two clocks. Time is a sequence of instants; at each of them
either clock may have an edge. Registers of a domain change only at the edges of its clock. -/

namespace Lambdalib

/-- Inputs of `DirectULPI` at an instant: edges of the clocks `sync` and `ulpi`, the pins driven by the PHY (in `ulpi`), the
sink and `source.ready` (in `sync`). -/
structure DirectIn where
  edgeSync : Bool
  edgeUlpi : Bool
  dir : Bool
  nxt : Bool
  dataI : BitVec 8
  valid : Bool
  beat : Beat (BitVec 8)
  ready : Bool
deriving DecidableEq, Repr

/-- Outputs of `DirectULPI`: `sink.ready`, the source, the pins; `given` tells which byte (with its end mark) the transceiver
hands to the PHY if `ulpi` has an edge, `lost` that a received byte finds the receive FIFO full then. -/
structure DirectOut where
  ready : Bool
  valid : Bool
  beat : Beat (BitVec 8)
  rst : Bool
  oe : Bool
  o : Nat
  stp : Bool
  given : Option (Nat × Bool)
  lost : Bool
deriving DecidableEq, Repr

/-- State: power-on reset, the part in the domain `ulpi`, transmit FIFO, receive FIFO. -/
structure DirectS (τ ρ : Type) where
  por : PorSt × Nat
  core : UlpiS
  tx : τ
  rx : ρ

section
variable {τ ρ : Type} (c2 c4 t2 t4 : Nat) (f : Circuit τ (FifoIn (1 + (1 + 8))) (FifoOut (1 + (1 + 8))))
  (g : Circuit ρ (FifoIn (1 + (1 + 8))) (FifoOut (1 + (1 + 8))))

/-- What the part in the domain `ulpi` sees: `por.done` and `por.rst` (ulpi.py 112-113, taken from the other domain as they
are), and the source of the transmit FIFO (104), which depends on registers only. -/
def directCore (s : DirectS τ ρ) (x : DirectIn) : UlpiIn :=
  let p := (ulpiPor c2 c4).out s.por ()
  let t := (fifoWrapper f).out s.tx ⟨false, zeroBeat, false⟩
  ⟨x.dir, x.nxt, x.dataI.toNat, p.2, p.1, t.valid, ⟨t.beat.first, t.beat.last, t.beat.payload.toNat⟩⟩

/-- Drive of the transmit FIFO, ulpi.py 99-100, 103-104: written at edges of `sync`, read at edges of `ulpi`. -/
def directTx (s : DirectS τ ρ) (x : DirectIn) : SIn (BitVec 8) :=
  ⟨x.valid && x.edgeSync, x.beat, ((ulpiCore t2 t4).out s.core (directCore c2 c4 f s x)).ready && x.edgeUlpi⟩

/-- Drive of the receive FIFO, ulpi.py 97-98, 106-107: written at edges of `ulpi`, read at edges of `sync`. -/
def directRx (s : DirectS τ ρ) (x : DirectIn) : SIn (BitVec 8) :=
  let o := (ulpiCore t2 t4).out s.core (directCore c2 c4 f s x)
  ⟨o.rxValid && x.edgeUlpi, ⟨false, o.rxLast, BitVec.ofNat 8 o.rxData⟩, x.ready && x.edgeSync⟩

/-- `DirectULPI.elaborate`, lambdalib/cores/usb/ulpi.py 86-171, with both clocks: power-on reset (92, counts `c2`, `c4`), the part in
the domain `ulpi` (`ulpiCore`, counts `t2`, `t4` of its timer, 93), and the two FIFOs. -/
def directUlpi : Circuit (DirectS τ ρ) DirectIn DirectOut where
  reset := ⟨(ulpiPor c2 c4).reset, (ulpiCore t2 t4).reset, f.reset, g.reset⟩
  out s x :=
    let o := (ulpiCore t2 t4).out s.core (directCore c2 c4 f s x)
    let r := (fifoWrapper g).out s.rx (directRx c2 c4 t2 t4 f s x)
    { ready := ((fifoWrapper f).out s.tx (directTx c2 c4 t2 t4 f s x)).ready
      valid := r.valid, beat := r.beat
      rst := o.rst, oe := o.oe, o := o.o, stp := o.stp
      given := if o.busValid && o.busReady then some (o.busData, o.busLast) else none
      lost := o.rxValid && !r.ready }
  next s x :=
    { por := if x.edgeSync then (ulpiPor c2 c4).next s.por () else s.por
      core := if x.edgeUlpi then (ulpiCore t2 t4).next s.core (directCore c2 c4 f s x) else s.core
      tx := (fifoWrapper f).next s.tx (directTx c2 c4 t2 t4 f s x)
      rx := (fifoWrapper g).next s.rx (directRx c2 c4 t2 t4 f s x) }
end

end Lambdalib
