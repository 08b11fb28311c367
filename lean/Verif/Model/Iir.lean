import Verif.Model.Arith
import Verif.Model.Basic

/-! Model of `lambdalib/cores/filter/iir.py`. The design of the coefficients (scipy, lines 28-42) is not modelled;
the fixed-point coefficients are parameters of the filter. -/

namespace Lambdalib

/-- Parameters of an `IIRFilter`: sample width, multiplier widths (iir.py 24-25), coefficient shift (48) and the
contents of `b_regs` and `a_regs` (60-67; the latter hold the negated coefficients), constant during the run. -/
structure IirCfg where
  width : Nat
  ws : Nat
  wc : Nat
  sc : Nat
  b : List Int
  a : List Int

namespace IirCfg
variable (c : IirCfg)
/-- `shift_s` (iir.py 74). -/
def ss : Nat := c.ws - c.width
/-- `size` (iir.py 96). -/
def size : Nat := c.a.length
end IirCfg

/-- Assignment to a signal of shape `signed(w)`. -/
def wrapS (w : Nat) (v : Int) : Int := v.bmod (2 ^ w)

/-- `int(v * (2**self.shift_c))` (iir.py 52-53), for an exact rational: rounding towards zero. -/
def iirCoeff (sc : Nat) (v : Rat) : Int := if 0 ≤ v then (v * 2 ^ sc).floor else (v * 2 ^ sc).ceil

inductive IirSt | idle | runB | runA | wait | output
deriving DecidableEq, Repr

/-- Inputs: the sink, `source.ready`, and from the multiplier `mult_i.ready` and `mult_o`. -/
structure IirIn where
  valid : Bool
  first : Bool
  last : Bool
  data : Int
  ready : Bool
  mReady : Bool
  mValid : Bool
  mLast : Bool
  mC : Int
deriving DecidableEq, Repr

/-- Outputs: `sink.ready`, the source, and to the multiplier `mult_i` (`mult_o.ready` is constantly 1, 192). -/
structure IirOut where
  ready : Bool
  valid : Bool
  first : Bool
  last : Bool
  data : Int
  mValid : Bool
  mLast : Bool
  mA : Int
  mB : Int
deriving DecidableEq, Repr

/-- Registers, iir.py 97-119. -/
structure IirS where
  st : IirSt
  idx : Nat
  iR : List Int
  oR : List Int
  cR : Int
  validR : Bool
  lastR : Bool
  sumR : Int
  first : Bool
  last : Bool
deriving DecidableEq, Repr

/-- `IIRFilter.elaborate`, lambdalib/cores/filter/iir.py 86-203, without the multiplier. -/
def iir (c : IirCfg) : Circuit IirS IirIn IirOut where
  reset := ⟨.idle, 0, List.replicate c.size 0, List.replicate c.size 0, 0, false, false, 0, false, false⟩
  out s _ :=
    { ready := s.st == .idle
      valid := s.st == .output
      first := s.st == .output && s.first
      last := s.st == .output && s.last
      data := if s.st = .output then wrapS c.width (s.sumR / 2 ^ (c.sc + c.ss)) else 0
      mValid := s.st == .runB || s.st == .runA
      mLast := s.st == .runA && s.idx == c.size - 1
      mA := if s.st = .runB then s.iR.getD s.idx 0 else if s.st = .runA then s.oR.getD s.idx 0 else 0
      mB := if s.st = .runB then c.b.getD s.idx 0 else if s.st = .runA then c.a.getD s.idx 0 else 0 }
  next s x :=
    let s' := { s with
      cR := x.mC, validR := x.mValid, lastR := x.mLast
      sumR := if s.validR then wrapS (c.ws + c.wc) (s.sumR + s.cR) else if s.st = .idle then 0 else s.sumR }
    match s.st with
    | .idle =>
      if x.valid then
        { s' with first := x.first, last := x.last, st := .runB
                  iR := wrapS c.ws (x.data * 2 ^ c.ss) :: s.iR.dropLast
                  oR := 0 :: s.oR.dropLast }
      else s'
    | .runB =>
      if x.mReady then
        if s.idx < c.size - 1 then { s' with idx := truncRange c.size (s.idx + 1) }
        else { s' with idx := truncRange c.size 1, st := .runA }
      else s'
    | .runA =>
      if x.mReady then
        if s.idx < c.size - 1 then { s' with idx := truncRange c.size (s.idx + 1) }
        else { s' with idx := 0, st := .wait }
      else s'
    | .wait => if s.validR && s.lastR then { s' with st := .output } else s'
    | .output =>
      { s' with oR := s.oR.set 0 (wrapS c.ws (s.sumR / 2 ^ c.sc)), st := if x.ready then .idle else .output }

/-- Inputs and outputs of the filter with its own multiplier. -/
structure IirSample where
  first : Bool
  last : Bool
  data : Int
deriving DecidableEq, Repr

structure IirIntIn where
  valid : Bool
  sample : IirSample
  ready : Bool
deriving DecidableEq, Repr

/-- What the filter sees when it is connected to the multiplier in state `m` (iir.py 107-110; `mult_o.ready` is 1). -/
def iirMult (c : IirCfg) (m : PipeValidS (BitVec (c.ws + c.wc))) (x : IirIntIn) : IirIn :=
  { valid := x.valid, first := x.sample.first, last := x.sample.last, data := x.sample.data, ready := x.ready
    mReady := !m.valid || true, mValid := m.valid, mLast := m.beat.last, mC := m.beat.payload.toInt }

/-- `IIRFilter` with the internal `Multiplier(signed(width_s), signed(width_c))` (iir.py 107-110). -/
def iirInt (c : IirCfg) : Circuit (IirS × PipeValidS (BitVec (c.ws + c.wc))) IirIntIn IirOut where
  reset := ((iir c).reset, (multiplier c.ws c.wc true true).reset)
  out s x := (iir c).out s.1 (iirMult c s.2 x)
  next s x :=
    let o := (iir c).out s.1 (iirMult c s.2 x)
    ((iir c).next s.1 (iirMult c s.2 x),
     (multiplier c.ws c.wc true true).next s.2
       ⟨o.mValid, ⟨false, o.mLast, (BitVec.ofInt c.ws o.mA, BitVec.ofInt c.wc o.mB)⟩, true⟩)

end Lambdalib
