import Verif.Spec.Circuit

/-! Models of the two register slices of `lambdalib/interface/stream.py`. -/

namespace Lambdalib

/-- Registers of `PipeValid` (stream.py 194-200): `source.valid` and the source beat. -/
structure PipeValidS (α : Type) where
  valid : Bool
  beat : Beat α
deriving DecidableEq, Repr

/-- The all-zero beat held by stream registers at reset (Amaranth default reset value 0). -/
def zeroBeat {α : Type} [Inhabited α] : Beat α := ⟨false, false, default⟩

/-- `PipeValid.elaborate`, lambdalib/interface/stream.py 184-203.
`en = ~source.valid | source.ready` (190-191); registers load when `en` (194-200);
`sink.ready = 1` when `en`, else its default 0 (201). The payload is an arbitrary type. -/
def pipeValid {α : Type} [Inhabited α] : Circuit (PipeValidS α) (SIn α) (SOut α) where
  reset := ⟨false, zeroBeat⟩
  out s i :=
    let en := !s.valid || i.ready
    { ready := if en then true else false
      valid := s.valid
      beat := s.beat }
  next s i :=
    let en := !s.valid || i.ready
    if en then { valid := i.valid, beat := i.beat } else s

/-- Registers of `PipeReady` (stream.py 221-230): `valid` and the skid endpoint `sink_d`
(its `valid` and beat; `sink_d.ready` is copied too but never read). -/
structure PipeReadyS (α : Type) where
  valid : Bool
  dValid : Bool
  dBeat : Beat α
deriving DecidableEq, Repr

/-- `PipeReady.elaborate`, lambdalib/interface/stream.py 215-239.
`valid` update 224-227, skid load 229-230, `sink.ready = ~valid` 232, output mux 234-237. -/
def pipeReady {α : Type} [Inhabited α] : Circuit (PipeReadyS α) (SIn α) (SOut α) where
  reset := ⟨false, false, zeroBeat⟩
  out s i :=
    { ready := !s.valid
      valid := if s.valid then s.dValid else i.valid
      beat := if s.valid then s.dBeat else i.beat }
  next s i :=
    let valid' := if i.valid && !i.ready then true else if i.ready then false else s.valid
    if !i.ready && !s.valid then
      { valid := valid', dValid := i.valid, dBeat := i.beat }
    else { s with valid := valid' }

end Lambdalib
