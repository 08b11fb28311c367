import Verif.Spec.Circuit
import Verif.Model.Basic
import Verif.Model.Pipe

/-! Models of the width converters of `lambdalib/interface/stream.py`. -/

namespace Lambdalib

/-- Lane used for the `i`-th narrow beat: `n = ratio-i-1 if reverse else i`
(stream.py 302 for the up-converter, 349 for the down-converter). -/
def laneIdx (ratio : Nat) (reverse : Bool) (i : Nat) : Nat :=
  if reverse then ratio - i - 1 else i

/-- Registers of `_UpConverter` (stream.py 260-305). -/
structure UpS (wt : Nat) where
  demux : Nat
  strobe : Bool
  first : Bool
  last : Bool
  data : BitVec wt
deriving DecidableEq, Repr

/-- `_UpConverter.elaborate`, lambdalib/interface/stream.py 253-307 (constructor parameters 245-251).
Control path 260-280, `first`/`last` 282-297, data path 299-305.
`demux` is a `Signal(range(ratio))`. -/
def upConverter (wf wt ratio : Nat) (reverse : Bool) :
    Circuit (UpS wt) (SIn (BitVec wf)) (SOut (BitVec wt)) where
  reset := ⟨0, false, false, false, 0⟩
  out s i :=
    { ready := !s.strobe || i.ready
      valid := s.strobe
      beat := ⟨s.first, s.last, s.data⟩ }
  next s i :=
    let ready := !s.strobe || i.ready
    let loadPart := i.valid && ready
    let demuxLast := s.demux == ratio - 1 || i.beat.last
    -- 271-280
    let strobe := if i.ready then false else s.strobe
    let demux :=
      if loadPart then (if demuxLast then 0 else truncRange ratio (s.demux + 1)) else s.demux
    let strobe := if loadPart && demuxLast then true else strobe
    -- 282-297
    let first :=
      if s.strobe && i.ready then (if i.valid && ready then i.beat.first else false)
      else if i.valid && ready then i.beat.first || s.first else s.first
    let last :=
      if s.strobe && i.ready then (if i.valid && ready then i.beat.last else false)
      else if i.valid && ready then i.beat.last || s.last else s.last
    -- 300-305
    let data :=
      if s.demux < ratio && loadPart then
        setLane wf (laneIdx ratio reverse s.demux) s.data i.beat.payload
      else s.data
    ⟨demux, strobe, first, last, data⟩

/-- `_DownConverter.elaborate`, lambdalib/interface/stream.py 321-353. The state is `mux`, a
`Signal(range(ratio))` (328). Control path 328-344, data path 347-351 (an unmatched switch leaves
`source.data` at 0). -/
def downConverter (wf wt ratio : Nat) (reverse : Bool) :
    Circuit Nat (SIn (BitVec wf)) (SOut (BitVec wt)) where
  reset := 0
  out mux i :=
    let first := mux == 0
    let last := mux == ratio - 1
    { ready := last && i.ready
      valid := i.valid
      beat :=
        { first := i.beat.first && first
          last := i.beat.last && last
          payload := if mux < ratio then getLane wt (laneIdx ratio reverse mux) i.beat.payload
                     else 0 } }
  next mux i :=
    let last := mux == ratio - 1
    if i.valid && i.ready then
      (if last then 0 else truncRange ratio (mux + 1))
    else mux

/-- `_IdentityConverter.elaborate`, lambdalib/interface/stream.py 363-368: `sink.connect(source)`. -/
def identityConverter {α : Type} : Circuit Unit (SIn α) (SOut α) where
  reset := ()
  out _ i := { ready := i.ready, valid := i.valid, beat := i.beat }
  next _ _ := ()

/-- The converter class chosen by `_get_converter_ratio`. -/
inductive ConverterKind
  | up | down | identity
deriving DecidableEq, Repr

/-- `_get_converter_ratio`, lambdalib/interface/stream.py 373-388. -/
def getConverterRatio (nbitsFrom nbitsTo : Nat) : Except String (ConverterKind × Nat) :=
  if nbitsFrom > nbitsTo then
    if nbitsFrom % nbitsTo != 0 then .error "Ratio must be an int"
    else .ok (.down, nbitsFrom / nbitsTo)
  else if nbitsFrom < nbitsTo then
    if nbitsTo % nbitsFrom != 0 then .error "Ratio must be an int"
    else .ok (.up, nbitsTo / nbitsFrom)
  else .ok (.identity, 1)

/-- Connection of the `source` of `c1` to the `sink` of `c2` (`s.connect(cvt.sink)`,
stream.py 426, 439, 461 and everywhere streams are chained). The combinational `ready` of `c2` is
computed first, which is meaningful for components whose `sink.ready` does not depend on their
`sink.valid`/beat in the same cycle (`ReadyIndep`). -/
def chain {σ τ α β γ : Type} [Inhabited β]
    (c1 : Circuit σ (SIn α) (SOut β)) (c2 : Circuit τ (SIn β) (SOut γ)) :
    Circuit (σ × τ) (SIn α) (SOut γ) where
  reset := (c1.reset, c2.reset)
  out s i :=
    let r := (c2.out s.2 ⟨false, zeroBeat, i.ready⟩).ready
    let o1 := c1.out s.1 ⟨i.valid, i.beat, r⟩
    let o2 := c2.out s.2 ⟨o1.valid, o1.beat, i.ready⟩
    { ready := o1.ready, valid := o2.valid, beat := o2.beat }
  next s i :=
    let r := (c2.out s.2 ⟨false, zeroBeat, i.ready⟩).ready
    let o1 := c1.out s.1 ⟨i.valid, i.beat, r⟩
    (c1.next s.1 ⟨i.valid, i.beat, r⟩, c2.next s.2 ⟨o1.valid, o1.beat, i.ready⟩)

/-- `sink.ready` does not depend combinationally on `sink.valid` or the sink beat. -/
def ReadyIndep {σ α β : Type} (c : Circuit σ (SIn α) (SOut β)) : Prop :=
  ∀ s v v' b b' r, (c.out s ⟨v, b, r⟩).ready = (c.out s ⟨v', b', r⟩).ready

end Lambdalib
