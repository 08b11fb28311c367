import Verif.Spec.Circuit
import Verif.Model.Basic
import Verif.Model.Pipe
import Verif.Model.Time

/-! Models of `lambdalib/interface/stream_utils.py`. -/

namespace Lambdalib

/-! ### Stitcher -/

/-- Registers of `Stitcher` (stream_utils.py 37-38), both `Signal(range(count))`. -/
structure StitchS where
  fIdx : Nat
  lIdx : Nat
deriving DecidableEq, Repr

/-- `Stitcher.elaborate`, lambdalib/interface/stream_utils.py 30-59. -/
def stitcher {α : Type} (count : Nat) : Circuit StitchS (SIn α) (SOut α) where
  reset := ⟨0, 0⟩
  out s i :=
    { ready := i.ready
      valid := i.valid
      beat := { first := i.beat.first && s.fIdx == 0
                last := i.beat.last && s.lIdx == count - 1
                payload := i.beat.payload } }
  next s i :=
    { fIdx := if i.valid && i.ready && i.beat.first then
                (if s.fIdx < count - 1 then truncRange count (s.fIdx + 1) else 0) else s.fIdx
      lIdx := if i.valid && i.ready && i.beat.last then
                (if s.lIdx < count - 1 then truncRange count (s.lIdx + 1) else 0) else s.lIdx }

/-! ### Splitter -/

/-- A record payload: the value of each named field. -/
abbrev Fields := String → Nat

/-- `Splitter.__init__` checks, lambdalib/interface/stream_utils.py 77-85: each field of each target
layout must exist in the source layout and be used at most once. State of the loop: `used`. -/
def splitterCheck (layoutFrom : List String) (layoutsTo : List (List String)) :
    Except String Unit :=
  let rec go (used : List String) : List String → Except String Unit
    | [] => .ok ()
    | f :: fs =>
      if ¬ f ∈ layoutFrom then .error (f ++ " not found in layout from")
      else if f ∈ used then .error (f ++ " already used in layout to")
      else go (f :: used) fs
  go [] layoutsTo.flatten

/-- Inputs of `Splitter`: the sink, and `ready` of each source. -/
structure SplitIn where
  valid : Bool
  beat : Beat Fields
  ready : Nat → Bool

/-- Outputs of `Splitter`: `sink.ready`, and `valid`/beat of each source. A source's payload is the
list of its fields with their values. -/
structure SplitOut where
  ready : Bool
  valid : Nat → Bool
  beat : Nat → Beat (List (String × Nat))

/-- `∀ i < n, f i`, modelling `Cat(*[f(i) for i in range(n)]).all()`. -/
def allBelow (n : Nat) (f : Nat → Bool) : Bool := (List.range n).all f

/-- `∃ i < n, f i`, modelling `Cat(*[f(i) for i in range(n)]).any()`. -/
def anyBelow (n : Nat) (f : Nat → Bool) : Bool := (List.range n).any f

/-- `Splitter.elaborate`, lambdalib/interface/stream_utils.py 87-138. State: `done` (one bit per
source, 93). -/
def splitter (layoutsTo : List (List String)) : Circuit (Nat → Bool) SplitIn SplitOut where
  reset := fun _ => false
  out done i :=
    let n := layoutsTo.length
    { ready := allBelow n fun k => i.ready k || done k
      valid := fun k => i.valid && !done k
      beat := fun k =>
        { first := i.beat.first
          last := i.beat.last
          payload := (layoutsTo.getD k []).map fun f => (f, i.beat.payload f) } }
  next done i :=
    let n := layoutsTo.length
    let flow := fun k => (i.valid && !done k) && i.ready k
    let endAll := allBelow n fun k => flow k || done k
    if endAll then fun _ => false else fun k => if flow k then true else done k

/-! ### Merger -/

/-- `Merger.__init__` check, lambdalib/interface/stream_utils.py 151-160: a field name may appear in
only one position of the input layouts. -/
def mergerCheck (layoutsFrom : List (List String)) : Except String Unit :=
  let rec go (fields : List String) : List String → Except String Unit
    | [] => .ok ()
    | f :: fs =>
      if f ∈ fields then .error (f ++ " duplicate field in layout")
      else go (f :: fields) fs
  go [] layoutsFrom.flatten

/-- Inputs of `Merger`: each sink, and `source.ready`. -/
structure MergeIn where
  valid : Nat → Bool
  beat : Nat → Beat Fields
  ready : Bool

/-- Outputs of `Merger`: `ready` of each sink, and the source. -/
structure MergeOut where
  ready : Nat → Bool
  valid : Bool
  beat : Beat Fields

/-- The payload assignments of stream_utils.py 196-198, in program order: the last assignment to a
field wins; unassigned fields are 0. -/
def mergePayload (layoutsFrom : List (List String)) (p : Nat → Fields) : Fields :=
  let rec go (k : Nat) (acc : Fields) : List (List String) → Fields
    | [] => acc
    | l :: ls => go (k + 1) (fun f => if f ∈ l then p k f else acc f) ls
  go 0 (fun _ => 0) layoutsFrom

/-- What `Merger` feeds its internal `PipeValid` (stream_utils.py 172-198). -/
def mergerInner (layoutsFrom : List (List String)) (i : MergeIn) : SIn Fields :=
  let n := layoutsFrom.length
  { valid := allBelow n i.valid
    beat := { first := anyBelow n fun k => (i.beat k).first
              last := anyBelow n fun k => (i.beat k).last
              payload := mergePayload layoutsFrom fun k => (i.beat k).payload }
    ready := i.ready }

/-- `Merger.elaborate`, lambdalib/interface/stream_utils.py 165-200: combinational merge in front of
a `PipeValid`. -/
def merger (layoutsFrom : List (List String)) : Circuit (PipeValidS Fields) MergeIn MergeOut where
  reset := pipeValid.reset
  out s i :=
    let x := mergerInner layoutsFrom i
    let o := pipeValid.out s x
    { ready := fun _ => x.valid && o.ready
      valid := o.valid
      beat := o.beat }
  next s i := pipeValid.next s (mergerInner layoutsFrom i)

/-! ### LastInserter -/

/-- `LastInserter.elaborate`, lambdalib/interface/stream_utils.py 230-253. The input side is the
wrapped module's `source`, the output side the exposed `source`. State: `counter`, a
`Signal(range(count))` (236). -/
def lastInserter {α : Type} (count : Nat) : Circuit Nat (SIn α) (SOut α) where
  reset := 0
  out counter i :=
    { ready := i.ready
      valid := i.valid
      beat := { first := i.beat.first
                last := counter == count - 1 || i.beat.last
                payload := i.beat.payload } }
  next counter i :=
    let last := counter == count - 1 || i.beat.last
    if i.valid && i.ready then
      (if !last then truncRange count (counter + 1) else 0)
    else counter

/-! ### LastOnTimeout -/

/-- Registers of `LastOnTimeout` (stream_utils.py 276-289). -/
structure LotS (α : Type) where
  timer : Nat
  data : α
  lastR : Bool
  loaded : Bool
deriving DecidableEq, Repr

/-- `source.valid` of `LastOnTimeout` (stream_utils.py 297-298). -/
def lotValid {α : Type} (s : LotS α) (i : SIn α) : Bool :=
  if s.loaded && (s.lastR || i.valid || s.timer == 0) then true else false

/-- `LastOnTimeout.elaborate`, lambdalib/interface/stream_utils.py 270-301, with its `WaitTimer`
waiting on `~sink.valid` (276-277). `source.first` is never driven. -/
def lastOnTimeout {α : Type} [Inhabited α] (timeout : Nat) :
    Circuit (LotS α) (SIn α) (SOut α) where
  reset := ⟨(waitTimer timeout).reset, default, false, false⟩
  out s i :=
    { ready := if !lotValid s i || i.ready then true else false
      valid := lotValid s i
      beat := { first := false
                last := s.lastR || s.timer == 0
                payload := s.data } }
  next s i :=
    let sinkReady := !lotValid s i || i.ready
    let timer := (waitTimer timeout).next s.timer (!i.valid)
    if i.valid && sinkReady then ⟨timer, i.beat.payload, i.beat.last, true⟩
    else if lotValid s i && i.ready then { s with timer := timer, loaded := false }
    else { s with timer := timer }

/-! ### RoundRobin and Arbiter -/

/-- `RoundRobin.elaborate`, lambdalib/interface/stream_utils.py 312-328: candidates
`i+1 .. i+n-1` (mod `n`) in order; the first requesting one is granted. -/
def roundRobinNext (n grant : Nat) (request : Nat → Bool) : Nat :=
  if grant < n then
    match ((List.range (n - 1)).map fun d => (grant + 1 + d) % n).find? request with
    | some j => truncRange n j
    | none => grant
  else grant

/-- `EnableInserter(run)(RoundRobin(n))` (stream_utils.py 304-328, 354-356). Input: (run, request);
output: `grant`. -/
def roundRobin (n : Nat) : Circuit Nat (Bool × (Nat → Bool)) Nat where
  reset := 0
  out grant _ := grant
  next grant i := if i.1 then roundRobinNext n grant i.2 else grant

/-- Inputs of `Arbiter`: the sinks and `source.ready`. -/
structure ArbIn (α : Type) where
  valid : Nat → Bool
  beat : Nat → Beat α
  ready : Bool

/-- Outputs of `Arbiter`: `ready` of each sink and the source. -/
structure ArbOut (α : Type) where
  ready : Nat → Bool
  valid : Bool
  beat : Beat α

/-- Registers of `Arbiter` (stream_utils.py 354-367): round-robin grant, `ongoing`, stall timer. -/
structure ArbS where
  grant : Nat
  ongoing : Bool
  stall : Nat
deriving DecidableEq, Repr

/-- Source side of the arbiter's switch, stream_utils.py 375-378. -/
def arbOut {α : Type} [Inhabited α] (n : Nat) (s : ArbS) (i : ArbIn α) : ArbOut α :=
  { ready := fun k => decide (k = s.grant) && decide (k < n) && i.ready
    valid := if s.grant < n then i.valid s.grant else false
    beat := if s.grant < n then i.beat s.grant else zeroBeat }

/-- The `run` condition of the arbiter, stream_utils.py 359-360, 373. -/
def arbRun {α : Type} [Inhabited α] (n : Nat) (s : ArbS) (i : ArbIn α) : Bool :=
  let o := arbOut n s i
  !(s.ongoing || o.valid) || (o.valid && i.ready && o.beat.last) || s.stall == 0

/-- `Arbiter.elaborate`, lambdalib/interface/stream_utils.py 346-380, for `n` sinks (`n ≥ 2`). -/
def arbiter {α : Type} [Inhabited α] (n timeout : Nat) : Circuit ArbS (ArbIn α) (ArbOut α) where
  reset := ⟨0, false, (waitTimer timeout).reset⟩
  out s i := arbOut n s i
  next s i :=
    let o := arbOut n s i
    let run := arbRun n s i
    { grant := if run then roundRobinNext n s.grant i.valid else s.grant
      ongoing := if o.valid && i.ready then !o.beat.last else s.ongoing
      stall := (waitTimer timeout).next s.stall (s.ongoing && !o.valid && !run) }

end Lambdalib
