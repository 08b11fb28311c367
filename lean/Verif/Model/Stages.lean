import Verif.Model.Pipeline
import Verif.Model.StreamUtils
import Verif.Model.Iir

/-! Chains of stream components of `lambdalib/interface/stream.py` and `stream_utils.py` in which the width may change. -/

namespace Lambdalib

/-- `Multiplier` (lambdalib/cores/math/multiplier.py 28-48) with the fields of its sink in one word, in the order of
`multiplier_layout_i` (15-18): `a` in the low bits. -/
def multStage (wa wb : Nat) (sa sb : Bool) :
    Circuit (PipeValidS (BitVec (wa + wb))) (SIn (BitVec (wa + wb))) (SOut (BitVec (wa + wb))) where
  reset := (multiplier wa wb sa sb).reset
  out s i := (multiplier wa wb sa sb).out s (multWord i)
  next s i := (multiplier wa wb sa sb).next s (multWord i)
where
  /-- The fields `a` and `b`. -/
  multWord (i : SIn (BitVec (wa + wb))) : SIn (BitVec wa × BitVec wb) :=
    ⟨i.valid, ⟨i.beat.first, i.beat.last, (i.beat.payload.extractLsb' 0 wa, i.beat.payload.extractLsb' wa wb)⟩, i.ready⟩

/-- `IIRFilter` (lambdalib/cores/filter/iir.py 15-203) with its own multiplier; the samples as bits. -/
def iirStage (c : IirCfg) :
    Circuit (IirS × PipeValidS (BitVec (c.ws + c.wc))) (SIn (BitVec c.width)) (SOut (BitVec c.width)) where
  reset := (iirInt c).reset
  out s i :=
    let o := (iirInt c).out s (iirBits i)
    ⟨o.ready, o.valid, ⟨o.first, o.last, BitVec.ofInt c.width o.data⟩⟩
  next s i := (iirInt c).next s (iirBits i)
where
  /-- The sample as a signed number. -/
  iirBits (i : SIn (BitVec c.width)) : IirIntIn := ⟨i.valid, ⟨i.beat.first, i.beat.last, i.beat.payload.toInt⟩, i.ready⟩

/-- A stream component from `a` to `b` payload bits: one of C115 (register slices and FIFOs, stream.py 110-239), `Stitcher`
(stream_utils.py 19-59), `LastInserter` (203-253), `_UpConverter` (stream.py 244-307), `_DownConverter` (312-353), `Multiplier`
(multiplier.py 28-48), `Int2Float` (i2f.py 10-76) or `IIRFilter` (iir.py 15-203). -/
inductive StreamStage : Nat → Nat → Type 1 where
  | part {w : Nat} (p : StreamPart w) : StreamStage w w
  | stitch {w : Nat} (count : Nat) : StreamStage w w
  | bound {w : Nat} (count : Nat) : StreamStage w w
  | up (w r : Nat) (reverse : Bool) : StreamStage w (r * w)
  | down (w r : Nat) (reverse : Bool) : StreamStage (r * w) w
  | mult (wa wb : Nat) (sa sb : Bool) : StreamStage (wa + wb) (wa + wb)
  | float : StreamStage 32 32
  | filter (c : IirCfg) : StreamStage c.width c.width

/-- Registers of a component. -/
def StreamStage.regs {a b : Nat} : StreamStage a b → Type
  | .part p => p.regs
  | .stitch _ => StitchS
  | .bound _ => Nat
  | .up w r _ => UpS (r * w)
  | .down _ _ _ => Nat
  | .mult wa wb _ _ => PipeValidS (BitVec (wa + wb))
  | .float => I2fS
  | .filter c => IirS × PipeValidS (BitVec (c.ws + c.wc))

/-- The circuit of a component. -/
def StreamStage.circuit {a b : Nat} :
    (s : StreamStage a b) → Circuit s.regs (SIn (BitVec a)) (SOut (BitVec b))
  | .part p => p.circuit
  | .stitch count => stitcher count
  | .bound count => lastInserter count
  | .up w r rev => upConverter w (r * w) r rev
  | .down w r rev => downConverter (r * w) w r rev
  | .mult wa wb sa sb => multStage wa wb sa sb
  | .float => int2float
  | .filter c => iirStage c

/-- Components, each of which gives its beats to the next. -/
inductive StreamStages : Nat → Nat → Type 1 where
  | nil {a : Nat} : StreamStages a a
  | cons {a b c : Nat} (s : StreamStage a b) (l : StreamStages b c) : StreamStages a c

/-- Registers of a chain. -/
def StreamStages.regs {a b : Nat} : StreamStages a b → Type
  | .nil => Unit
  | .cons s l => s.regs × l.regs

/-- The components connected one after another as in stream.py 424-429, 436-442, 458-461. Without components there are only
wires. -/
def StreamStages.circuit {a b : Nat} :
    (l : StreamStages a b) → Circuit l.regs (SIn (BitVec a)) (SOut (BitVec b))
  | .nil => identityConverter
  | .cons s l => chain s.circuit l.circuit

/-- Components of equal width in front of a chain. -/
def StreamStages.parts {a b : Nat} (l : StreamStages a b) : List (StreamPart a) → StreamStages a b
  | [] => l
  | p :: ps => .cons (.part p) (l.parts ps)

end Lambdalib
