import Verif.Spec.Circuit
import Verif.Model.Basic
import Verif.Model.Pipe

/-! Models of `lambdalib/cores/mem/stream.py`. -/

namespace Lambdalib

/-- Outputs of a component with a stream `source` and further outputs. -/
structure SrcOut (α ο : Type) where
  valid : Bool
  beat : Beat α
  extra : ο
deriving DecidableEq, Repr

/-- `ResetInserter(rst)(PipeValid)` behind a stream producer (mem/stream.py 41-44, 50, 135-138, 143).
Inputs of the producer are `(x, source.ready)`; `rst x` resets the buffer. -/
def bufferedSrc {σ ι α ο : Type} [Inhabited α] (c : Circuit σ (ι × Bool) (SrcOut α ο))
    (rst : ι → Bool) : Circuit (σ × PipeValidS α) (ι × Bool) (SrcOut α ο) where
  reset := (c.reset, pipeValid.reset)
  out s i :=
    let p := pipeValid.out s.2 ⟨false, zeroBeat, i.2⟩
    { valid := p.valid, beat := p.beat, extra := (c.out s.1 (i.1, p.ready)).extra }
  next s i :=
    let p := pipeValid.out s.2 ⟨false, zeroBeat, i.2⟩
    let o := c.out s.1 (i.1, p.ready)
    (c.next s.1 (i.1, p.ready),
      if rst i.1 then pipeValid.reset else pipeValid.next s.2 ⟨o.valid, o.beat, i.2⟩)

/-! ### MemoryStream -/

/-- Inputs of `MemoryStream` other than `source.ready`. -/
structure MemIn (α : Type) where
  rewind : Bool
  valid : Bool
  data : α
deriving DecidableEq, Repr

/-- Registers of `MemoryStream` (mem/stream.py 58-66): memory, addresses, level, and the output
register of the read port. Memory cells outside the depth are kept as ordinary cells. -/
structure MemS (α : Type) where
  mem : Nat → α
  addrWr : Nat
  addrRd : Nat
  level : Nat
  rdata : α

/-- `addr_nxt` (mem/stream.py 71-88); it is 0 in write cycles, where nothing assigns it. -/
def memAddrNxt {α : Type} (depth : Nat) (s : MemS α) (i : MemIn α) (srcFire : Bool) : Nat :=
  if i.rewind then 0
  else if i.valid && !i.rewind then 0
  else if srcFire then truncRange depth (s.addrRd + 1)
  else s.addrRd

/-- `source.valid` (mem/stream.py 67, 102). -/
def memValid {α : Type} (s : MemS α) (i : MemIn α) : Bool :=
  !i.rewind && !i.valid && !decide (s.level ≤ s.addrRd)

/-- `MemoryStream.elaborate` without output buffer, lambdalib/cores/mem/stream.py 48-107. Input:
`((rewind, sink), source.ready)`; extra output: `sink.ready`. `last` compares with `level - 1`, which
is negative for an empty memory. -/
def memoryStream {α : Type} [Inhabited α] (depth : Nat) :
    Circuit (MemS α) (MemIn α × Bool) (SrcOut α Bool) where
  reset := ⟨fun _ => default, 0, 0, 0, default⟩
  out s i :=
    { valid := memValid s i.1
      beat := { first := false
                last := decide (s.addrRd + 1 = s.level)
                payload := s.rdata }
      extra := !i.1.rewind }
  next s i :=
    let fire := memValid s i.1 && i.2
    let nxt := memAddrNxt depth s i.1 fire
    let mem := if i.1.valid then (fun a => if a = s.addrWr then i.1.data else s.mem a) else s.mem
    let rdata := s.mem nxt
    if i.1.rewind then { s with mem := mem, addrWr := 0, addrRd := 0, rdata := rdata }
    else if i.1.valid && !i.1.rewind then
      { s with mem := mem, addrWr := truncRange depth (s.addrWr + 1),
               level := truncRange (depth + 1) (s.addrWr + 1), rdata := rdata }
    else if fire then { s with mem := mem, addrRd := nxt, rdata := rdata }
    else { s with mem := mem, rdata := rdata }

/-- `MemoryStream` with `buffered=True` (mem/stream.py 41-44, 55-56). -/
def memoryStreamBuffered {α : Type} [Inhabited α] (depth : Nat) :
    Circuit (MemS α × PipeValidS α) (MemIn α × Bool) (SrcOut α Bool) :=
  bufferedSrc (memoryStream depth) (·.rewind)

/-! ### MemoryStreamReader -/

/-- Registers of `MemoryStreamReader` (mem/stream.py 131, 153-157). -/
structure MemRdS (α : Type) where
  done : Bool
  wait : Bool
  addrRd : Nat
  rdata : α
deriving DecidableEq, Repr

/-- `MemoryStreamReader.elaborate` without output buffer, lambdalib/cores/mem/stream.py 142-194.
Input: `(rewind, source.ready)`; extra output: `done`. -/
def memoryStreamReader {α : Type} [Inhabited α] (init : List α) :
    Circuit (MemRdS α) (Bool × Bool) (SrcOut α Bool) where
  reset := ⟨false, true, 0, default⟩
  out s i :=
    { valid := !i.1 && !s.wait && !s.done
      beat := { first := false
                last := decide (s.addrRd + 1 = init.length)
                payload := s.rdata }
      extra := s.done }
  next s i :=
    let fire := (!i.1 && !s.wait && !s.done) && i.2
    let last := decide (s.addrRd + 1 = init.length)
    let nxt := if i.1 then 0
      else if fire then truncRange init.length (s.addrRd + 1) else s.addrRd
    let rdata := init.getD nxt default
    if i.1 then ⟨false, i.1, 0, rdata⟩
    else if fire then ⟨if last then true else s.done, i.1, nxt, rdata⟩
    else ⟨s.done, i.1, s.addrRd, rdata⟩

/-- `MemoryStreamReader` with `buffered=True` (mem/stream.py 135-138, 148-149). -/
def memoryStreamReaderBuffered {α : Type} [Inhabited α] (init : List α) :
    Circuit (MemRdS α × PipeValidS α) (Bool × Bool) (SrcOut α Bool) :=
  bufferedSrc (memoryStreamReader init) id

end Lambdalib
