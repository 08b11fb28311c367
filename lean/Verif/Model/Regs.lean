import Verif.Spec.Circuit
import Verif.Model.Basic
import Verif.Model.Layout

/-! Models of `lambdalib/cores/regs.py` and of `lambdalib/litex/cores/regs.py`. -/

namespace Lambdalib

/-- Registers of `StreamRegs` (cores/regs.py 23-29, 36). All fields of one beat are stored together as
one payload; `idx` is a `Signal(range(length))`. -/
structure RegsS (α : Type) where
  regs : Nat → α
  we : Nat → Bool
  idx : Nat

/-- Element selected by an Amaranth `Array` index: out of range indices select the last element. -/
def arrayIdx (length idx : Nat) : Nat := if idx < length then idx else length - 1

/-- Inputs of a component with only a `sink`. -/
structure SinkIn (α : Type) where
  valid : Bool
  beat : Beat α
deriving DecidableEq, Repr

/-- Outputs of `StreamRegs`: `sink.ready`, the register values, the `we` strobes. -/
structure RegsOut (α : Type) where
  ready : Bool
  regs : Nat → α
  we : Nat → Bool

/-- `StreamRegs.elaborate`, lambdalib/cores/regs.py 31-58. -/
def streamRegs {α : Type} [Inhabited α] (length : Nat) :
    Circuit (RegsS α) (SinkIn α) (RegsOut α) where
  reset := ⟨fun _ => default, fun _ => false, 0⟩
  out s _ := ⟨true, s.regs, s.we⟩
  next s i :=
    if i.valid then
      { regs := fun k => if k = arrayIdx length s.idx then i.beat.payload else s.regs k
        we := fun k => if k = arrayIdx length s.idx then true else false
        idx := if s.idx == length - 1 || i.beat.last then 0 else truncRange length (s.idx + 1) }
    else { s with we := fun _ => false }

/-- Registers of the LiteX `StreamRegs` (litex/cores/regs.py 20-27, 36). -/
structure LxRegsS (α : Type) where
  regs : Nat → α
  idx : Nat

/-- Outputs of the LiteX `StreamRegs`: `sink.ready`, the CSR status values, and the trigger of the
`drdy` event. -/
structure LxRegsOut (α : Type) where
  ready : Bool
  regs : Nat → α
  trigger : Bool

/-- LiteX `StreamRegs`, lambdalib/litex/cores/regs.py 16-58. `conv` is `id`, or `reverse_bytes` when
`reverse` (42); `idx` is a `Signal(max=depth)` (36). -/
def litexStreamRegs {α : Type} [Inhabited α] (depth : Nat) (conv : α → α) :
    Circuit (LxRegsS α) (SinkIn α) (LxRegsOut α) where
  reset := ⟨fun _ => default, 0⟩
  out s i := ⟨true, s.regs, if i.valid && true && i.beat.last then true else false⟩
  next s i :=
    if i.valid then
      { regs := fun k => if k = arrayIdx depth s.idx then conv i.beat.payload else s.regs k
        idx := if s.idx == depth - 1 || i.beat.last then 0 else truncRange depth (s.idx + 1) }
    else s

/-- A write on the CSR bus to one of the two registers of `RegsStream` (litex/cores/regs.py 66-67). -/
inductive CsrWr (w : Nat)
  | data (v : BitVec w)
  | last (b : Bool)
deriving DecidableEq, Repr

/-- Registers of `RegsStream` (litex/cores/regs.py 62-67). A LiteX `CSRStorage` takes the written value at the end of the cycle
of the write and raises `re` in the cycle after it. -/
structure RegsStrS (w : Nat) (σ : Type) where
  data : BitVec w
  re : Bool
  last : Bool
  fifo : σ
deriving DecidableEq, Repr

/-- What `RegsStream` gives to its FIFO (litex/cores/regs.py 71-75); `first` is not connected. -/
def regsStrIn {w : Nat} {σ : Type} (s : RegsStrS w σ) (ready : Bool) : SIn (BitVec w) :=
  ⟨s.re, ⟨false, s.last, s.data⟩, ready⟩

/-- `RegsStream`, lambdalib/litex/cores/regs.py 61-75, around any FIFO. Inputs: a write of the software, and `source.ready`;
outputs: `source`, and in `ready` the `sink.ready` of the FIFO, which is connected to nothing. -/
def regsStream {w : Nat} {σ : Type} (f : Circuit σ (FifoIn (1 + (1 + w))) (FifoOut (1 + (1 + w)))) :
    Circuit (RegsStrS w σ) (Option (CsrWr w) × Bool) (SOut (BitVec w)) where
  reset := ⟨0, false, false, f.reset⟩
  out s x := (fifoWrapper f).out s.fifo (regsStrIn s x.2)
  next s x :=
    let fifo := (fifoWrapper f).next s.fifo (regsStrIn s x.2)
    match x.1 with
    | some (.data v) => ⟨v, true, s.last, fifo⟩
    | some (.last b) => ⟨s.data, false, b, fifo⟩
    | none => ⟨s.data, false, s.last, fifo⟩

end Lambdalib
