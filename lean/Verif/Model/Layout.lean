import Verif.Spec.Circuit

/-! Models of the endpoint layout code, FIFO wrappers and the stage construction of `Converter`
(lambdalib/interface/stream.py). -/

namespace Lambdalib

/-! ### Layouts -/

/-- A payload layout: list of `(name, shape)` or `(name, sub-layout)`. Only the width of a shape
matters to the code. -/
inductive Layout where
  | nil
  | leaf (name : String) (width : Nat) (rest : Layout)
  | sub (name : String) (inner rest : Layout)
deriving DecidableEq, Repr

/-- Record directions of Amaranth. -/
inductive Dir where
  | fanout | fanin
deriving DecidableEq, Repr

/-- A layout with directions, as handed to `Record`. -/
inductive DLayout where
  | nil
  | leaf (name : String) (width : Nat) (dir : Dir) (rest : DLayout)
  | sub (name : String) (inner rest : DLayout)
deriving DecidableEq, Repr

/-- `_make_fanout`, lambdalib/interface/stream.py 18-25. -/
def makeFanout : Layout → DLayout
  | .nil => .nil
  | .leaf n w r => .leaf n w .fanout (makeFanout r)
  | .sub n i r => .sub n (makeFanout i) (makeFanout r)

/-- `reserved` of `EndpointDescription.get_full_layout`, stream.py 33. -/
def reservedNames : List String := ["valid", "ready", "first", "last", "payload"]

/-- The checking loop of `EndpointDescription.get_full_layout`, stream.py 34-40; `attributed` is the
set of names seen so far. -/
def checkLayout (attributed : List String) : Layout → Except String Unit
  | .nil => .ok ()
  | .leaf n _ r =>
    if n ∈ attributed then .error (n ++ " already attributed in payload layout")
    else if n ∈ reservedNames then .error (n ++ " cannot be used in endpoint layout")
    else checkLayout (n :: attributed) r
  | .sub n _ r =>
    if n ∈ attributed then .error (n ++ " already attributed in payload layout")
    else if n ∈ reservedNames then .error (n ++ " cannot be used in endpoint layout")
    else checkLayout (n :: attributed) r

/-- `EndpointDescription.get_full_layout`, stream.py 32-49. -/
def getFullLayout (l : Layout) : Except String DLayout := do
  checkLayout [] l
  return .leaf "valid" 1 .fanout <| .leaf "ready" 1 .fanin <| .leaf "first" 1 .fanout <|
    .leaf "last" 1 .fanout <| .sub "payload" (makeFanout l) .nil

/-- Python attributes that class `Endpoint` itself defines (stream.py 55-57, 60-107). Those inherited
from Amaranth's `Record` are not listed. -/
def endpointAttrs : List String := ["description", "bfm_send", "bfm_read"]

/-- What an attribute access on an endpoint yields. -/
inductive AttrRes where
  | pyAttr | streamField | payloadField | missing
deriving DecidableEq, Repr

/-- Top-level names of a layout with directions. -/
def DLayout.names : DLayout → List String
  | .nil => []
  | .leaf n _ _ r => n :: r.names
  | .sub n _ r => n :: r.names

/-- The `payload` sub-layout. -/
def DLayout.payload : DLayout → DLayout
  | .nil => .nil
  | .leaf _ _ _ r => r.payload
  | .sub n i r => if n = "payload" then i else r.payload

/-- `Endpoint.__getattr__`, stream.py 60-64: Python attributes win (`__getattr__` is only called when
normal lookup fails), then the record's own fields, then the payload's. -/
def getAttr (d : DLayout) (name : String) : AttrRes :=
  if name ∈ endpointAttrs then .pyAttr
  else if name ∈ d.names then .streamField
  else if name ∈ d.payload.names then .payloadField
  else .missing

/-! ### FIFO wrapper -/

/-- Inputs of an Amaranth FIFO (`amaranth.lib.fifo`, not part of /repo). -/
structure FifoIn (w : Nat) where
  wEn : Bool
  wData : BitVec w
  rEn : Bool

/-- Outputs of an Amaranth FIFO. -/
structure FifoOut (w : Nat) where
  wRdy : Bool
  rRdy : Bool
  rData : BitVec w

/-- `fifo_din` as a word: the record `payload, first, last` packed LSB first
(stream.py 115-119, 125-128, 133-135). -/
def packBeat {w : Nat} (b : Beat (BitVec w)) : BitVec (1 + (1 + w)) :=
  BitVec.ofBool b.last ++ (BitVec.ofBool b.first ++ b.payload)

/-- `fifo_dout` read back from a word (stream.py 129, 138-140). -/
def unpackBeat {w : Nat} (x : BitVec (1 + (1 + w))) : Beat (BitVec w) :=
  { payload := x.extractLsb' 0 w
    first := x.getLsbD w
    last := x.getLsbD (1 + w) }

/-- What the wrapper drives on its FIFO (stream.py 127-141). -/
def fifoDrive {w : Nat} (i : SIn (BitVec w)) : FifoIn (1 + (1 + w)) :=
  { wEn := i.valid, wData := packBeat i.beat, rEn := i.ready }

/-- `_FIFOWrapper.elaborate`, lambdalib/interface/stream.py 121-144, around any FIFO. For `AsyncFIFO`
the two clocks are merged in one timeline of edges (`valid`/`ready` are then low in the cycles where
the respective clock has no edge). -/
def fifoWrapper {σ : Type} {w : Nat} (f : Circuit σ (FifoIn (1 + (1 + w))) (FifoOut (1 + (1 + w)))) :
    Circuit σ (SIn (BitVec w)) (SOut (BitVec w)) where
  reset := f.reset
  out s i :=
    let o := f.out s (fifoDrive i)
    { ready := o.wRdy, valid := o.rRdy, beat := unpackBeat o.rData }
  next s i := f.next s (fifoDrive i)

/-- Depth given to the FIFO by `SyncFIFO.__init__` and `AsyncFIFO.__init__`, stream.py 149-151,
163-165. -/
def fifoDepth (depth : Nat) : Nat := if depth < 8 then 8 else depth

/-! ### Stages of `Converter` -/

/-- A stage placed between the converter's sink and source, with its clock domains. -/
inductive Stage where
  | width (domain : String)
  | cross (wDomain rDomain : String)
deriving DecidableEq, Repr

/-- `Converter.put_width_converter`, stream.py 419-429. -/
def putWidth (nbitsFrom nbitsTo : Nat) (cdFrom : String) (s : List Stage) : List Stage :=
  if nbitsFrom ≠ nbitsTo then s ++ [.width cdFrom] else s

/-- `Converter.put_cross_domain`, stream.py 431-442. -/
def putCross (cdFrom cdTo : String) (s : List Stage) : List Stage :=
  if cdFrom ≠ cdTo then s ++ [.cross cdFrom cdTo] else s

/-- `Converter.elaborate`, stream.py 444-463: the chain of stages from sink to source. -/
def converterStages (nbitsFrom nbitsTo : Nat) (cdFrom cdTo : String) (widthFirst : Bool) :
    List Stage :=
  if widthFirst then putCross cdFrom cdTo (putWidth nbitsFrom nbitsTo cdFrom [])
  else putWidth nbitsFrom nbitsTo cdFrom (putCross cdFrom cdTo [])

end Lambdalib
