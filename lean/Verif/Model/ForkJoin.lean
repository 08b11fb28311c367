import Verif.Model.StreamUtils
import Verif.Model.Converter

/-! A `Splitter` and a `Merger` of `lambdalib/interface/stream_utils.py` with a component between each source of the one and the
sink of the other. -/

namespace Lambdalib

/-- The record of a source of `Splitter` connected to a sink: fields by name, others zero. -/
def fieldsOf (l : List (String × Nat)) : Fields := fun f => (l.lookup f).getD 0

section
variable (ls : List (List String)) {σ : Nat → Type} (c : ∀ k, Circuit (σ k) (SIn Fields) (SOut Fields))

/-- What the component `k` sees: source `k` of `Splitter` (stream_utils.py 101-136) and `r` from its receiver. The offer does not depend on
`ready` of any source. -/
def forkBranchIn (d : Nat → Bool) (x : SIn Fields) (r : Bool) (k : Nat) : SIn Fields :=
  let o := (splitter ls).out d ⟨x.valid, x.beat, fun _ => false⟩
  ⟨o.valid k, ⟨(o.beat k).first, (o.beat k).last, fieldsOf (o.beat k).payload⟩, r⟩

/-- What `Merger` (stream_utils.py 141-200) sees: the sources of the components, which do not depend on their `ready`. -/
def forkMergeIn (s : (Nat → Bool) × (∀ k, σ k) × PipeValidS Fields) (x : SIn Fields) : MergeIn :=
  ⟨fun k => ((c k).out (s.2.1 k) (forkBranchIn ls s.1 x false k)).valid,
   fun k => ((c k).out (s.2.1 k) (forkBranchIn ls s.1 x false k)).beat, x.ready⟩

/-- What component `k` sees, with `ready` from `Merger`. -/
def forkMidIn (s : (Nat → Bool) × (∀ k, σ k) × PipeValidS Fields) (x : SIn Fields) (k : Nat) : SIn Fields :=
  forkBranchIn ls s.1 x (((merger ls).out s.2.2 (forkMergeIn ls c s x)).ready k) k

/-- What `Splitter` (stream_utils.py 62-138) sees: the sink and `ready` of the components. -/
def forkSplitIn (s : (Nat → Bool) × (∀ k, σ k) × PipeValidS Fields) (x : SIn Fields) : SplitIn :=
  ⟨x.valid, x.beat, fun k => ((c k).out (s.2.1 k) (forkMidIn ls c s x k)).ready⟩

/-- `Splitter(layout, *ls)`, component `k` on its source `k`, and `Merger(*ls)` (stream_utils.py 62-200). -/
def forkJoin : Circuit ((Nat → Bool) × (∀ k, σ k) × PipeValidS Fields) (SIn Fields) (SOut Fields) where
  reset := ((splitter ls).reset, fun k => (c k).reset, (merger ls).reset)
  out s x :=
    let m := (merger ls).out s.2.2 (forkMergeIn ls c s x)
    ⟨((splitter ls).out s.1 (forkSplitIn ls c s x)).ready, m.valid, m.beat⟩
  next s x :=
    ((splitter ls).next s.1 (forkSplitIn ls c s x), fun k => (c k).next (s.2.1 k) (forkMidIn ls c s x k),
      (merger ls).next s.2.2 (forkMergeIn ls c s x))

end

/-- Registers of a line of register slices (`true`: `PipeValid`, stream.py 178-205; `false`: `PipeReady`, 208-239). -/
def sliceRegs : List Bool → Type
  | [] => Unit
  | true :: l => PipeValidS Fields × sliceRegs l
  | false :: l => PipeReadyS Fields × sliceRegs l

/-- A line of register slices. -/
def sliceLine : (l : List Bool) → Circuit (sliceRegs l) (SIn Fields) (SOut Fields)
  | [] => identityConverter
  | true :: l => chain pipeValid (sliceLine l)
  | false :: l => chain pipeReady (sliceLine l)

end Lambdalib
