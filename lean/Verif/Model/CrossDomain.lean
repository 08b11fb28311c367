import Verif.Model.Converter
import Verif.Model.Layout

/-! `Converter` (lambdalib/interface/stream.py 404-463) between two clocks. Time is a sequence of instants; at each of
them either clock may have an edge. Registers of a domain change only at the edges of its clock. -/

namespace Lambdalib

/-- Inputs at an instant: whether the clocks `cd_from` and `cd_to` have an edge, the sink (which belongs to `cd_from`), and
`source.ready` (which belongs to `cd_to`). -/
structure XdIn (α : Type) where
  edgeFrom : Bool
  edgeTo : Bool
  valid : Bool
  beat : Beat α
  ready : Bool
deriving DecidableEq, Repr

/-- `Converter.elaborate` with `put_width_converter_first=True` and different clock domains, stream.py 454-456, 461: the
converter `c` (419-429, in the domain `cd_from`), then the FIFO `f` (431-442), which writes at edges of `cd_from` and reads at
edges of `cd_to`. `w_rdy` of the FIFO is looked at before its inputs, as it depends on registers only. -/
def crossAfter {σ τ : Type} {wf wt : Nat} (c : Circuit σ (SIn (BitVec wf)) (SOut (BitVec wt)))
    (f : Circuit τ (FifoIn (1 + (1 + wt))) (FifoOut (1 + (1 + wt)))) :
    Circuit (σ × τ) (XdIn (BitVec wf)) (SOut (BitVec wt)) where
  reset := (c.reset, f.reset)
  out s x :=
    let r := ((fifoWrapper f).out s.2 ⟨false, zeroBeat, false⟩).ready
    let o := c.out s.1 ⟨x.valid, x.beat, r⟩
    let p := (fifoWrapper f).out s.2 ⟨o.valid && x.edgeFrom, o.beat, x.ready && x.edgeTo⟩
    { ready := o.ready, valid := p.valid, beat := p.beat }
  next s x :=
    let r := ((fifoWrapper f).out s.2 ⟨false, zeroBeat, false⟩).ready
    let o := c.out s.1 ⟨x.valid, x.beat, r⟩
    (if x.edgeFrom then c.next s.1 ⟨x.valid, x.beat, r⟩ else s.1,
      (fifoWrapper f).next s.2 ⟨o.valid && x.edgeFrom, o.beat, x.ready && x.edgeTo⟩)

/-- `Converter.elaborate` with `put_width_converter_first=False` and different clock domains, stream.py 457-461: the FIFO
first; the converter behind it is in the domain `cd_from` too (422), although what it is connected to is in `cd_to`. `r_rdy` and
`r_data` of the FIFO depend on registers only. -/
def crossBefore {σ τ : Type} {wf wt : Nat} (c : Circuit σ (SIn (BitVec wf)) (SOut (BitVec wt)))
    (f : Circuit τ (FifoIn (1 + (1 + wf))) (FifoOut (1 + (1 + wf)))) :
    Circuit (σ × τ) (XdIn (BitVec wf)) (SOut (BitVec wt)) where
  reset := (c.reset, f.reset)
  out s x :=
    let p := (fifoWrapper f).out s.2 ⟨false, zeroBeat, false⟩
    let o := c.out s.1 ⟨p.valid, p.beat, x.ready⟩
    let p' := (fifoWrapper f).out s.2 ⟨x.valid && x.edgeFrom, x.beat, o.ready && x.edgeTo⟩
    { ready := p'.ready, valid := o.valid, beat := o.beat }
  next s x :=
    let p := (fifoWrapper f).out s.2 ⟨false, zeroBeat, false⟩
    let o := c.out s.1 ⟨p.valid, p.beat, x.ready⟩
    (if x.edgeFrom then c.next s.1 ⟨p.valid, p.beat, x.ready⟩ else s.1,
      (fifoWrapper f).next s.2 ⟨x.valid && x.edgeFrom, x.beat, o.ready && x.edgeTo⟩)

end Lambdalib
