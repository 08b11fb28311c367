import Verif.Model.Converter
import Verif.Model.Layout

/-! Pipelines of stream components: the components of `lambdalib/interface/stream.py` whose sink and source
have the same layout, connected one after another. -/

namespace Lambdalib

/-- A stream component with equal layouts at sink and source: `PipeValid` (stream.py 184-203), `PipeReady`
(215-239), or `_FIFOWrapper` around some FIFO (121-144; `SyncFIFO` 147-158, `AsyncFIFO` 161-174). -/
inductive StreamPart (w : Nat) : Type 1 where
  | valid
  | ready
  | fifo {σ : Type} (f : Circuit σ (FifoIn (1 + (1 + w))) (FifoOut (1 + (1 + w)))) (depth : Nat)

/-- Registers of a component. -/
def StreamPart.regs {w : Nat} : StreamPart w → Type
  | .valid => PipeValidS (BitVec w)
  | .ready => PipeReadyS (BitVec w)
  | .fifo (σ := σ) _ _ => σ

/-- The circuit of a component. -/
def StreamPart.circuit {w : Nat} :
    (p : StreamPart w) → Circuit p.regs (SIn (BitVec w)) (SOut (BitVec w))
  | .valid => pipeValid
  | .ready => pipeReady
  | .fifo f _ => fifoWrapper f

/-- Registers of a pipeline. -/
def pipelineRegs {w : Nat} : List (StreamPart w) → Type
  | [] => Unit
  | p :: l => p.regs × pipelineRegs l

/-- The components of a list, each connected to the next one as `Converter.elaborate` connects its stages:
`s.connect(cvt.sink); s = cvt.source` (stream.py 424-429, 436-442, 458-461). Without
components there are only wires. -/
def pipeline {w : Nat} :
    (l : List (StreamPart w)) → Circuit (pipelineRegs l) (SIn (BitVec w)) (SOut (BitVec w))
  | [] => identityConverter
  | p :: l => chain p.circuit (pipeline l)

end Lambdalib
