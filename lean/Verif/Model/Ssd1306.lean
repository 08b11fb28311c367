import Verif.Spec.Circuit
import Verif.Model.Basic
import Verif.Model.Mem

/-! Model of `lambdalib/cores/lcd/ssd1306.py`. -/

namespace Lambdalib

/-! ### Address and control byte wrapper -/

inductive WrapSt | addr | control | data | error
deriving DecidableEq, Repr

/-- Inputs of the wrapper: the sink, `source.ready` and `i2c_error`. -/
structure WrapIn where
  valid : Bool
  dcn : Bool
  data : Nat
  last : Bool
  ready : Bool
  err : Bool
deriving DecidableEq, Repr

/-- Outputs: `sink.ready` and the source without `r_wn`, which is constantly zero (ssd1306.py 56), and `first`, which is
never driven. -/
structure WrapOut where
  ready : Bool
  valid : Bool
  data : Nat
  last : Bool
deriving DecidableEq, Repr

/-- `SSD1306_Wrapper.elaborate`, lambdalib/cores/lcd/ssd1306.py 50-99. -/
def ssdWrapper : Circuit WrapSt WrapIn WrapOut where
  reset := .addr
  out s x :=
    match s with
    | .addr => ⟨false, x.valid, 0x3C * 2, false⟩
    | .control => ⟨false, x.valid, if x.dcn then 0x40 else 0x00, false⟩
    | .data => ⟨x.ready, x.valid, x.data, x.last⟩
    | .error => ⟨true, false, 0, false⟩
  next s x :=
    match s with
    | .addr => if x.valid && x.ready then (if x.err then .error else .control) else .addr
    | .control => if x.valid && x.ready then .data else .control
    | .data => if x.valid && x.ready && x.last then .addr else .data
    | .error => if x.valid && x.last then .addr else .error

/-! ### Driver -/

/-- What the constructor derives from the screen size. -/
structure SsdCfg where
  pages : Nat
  size : Nat
  multiplex : Nat
  clockdiv : Nat
  compins : Nat
  colstart : Nat
  colend : Nat
deriving DecidableEq, Repr

/-- The table of known screens: clockdiv, compins, colstart (ssd1306.py 125-131). -/
def ssdTable (width height : Nat) : Option (Nat × Nat × Nat) :=
  if width = 128 ∧ height = 64 then some (0x80, 0x12, 0)
  else if width = 128 ∧ height = 32 then some (0x80, 0x02, 0)
  else if width = 96 ∧ height = 16 then some (0x60, 0x02, 0)
  else if width = 64 ∧ height = 48 then some (0x80, 0x12, 32)
  else if width = 64 ∧ height = 32 then some (0x80, 0x12, 32)
  else none

/-- `SSD1306.__init__`, ssd1306.py 119-139; none where it raises. -/
def ssdNew (width height : Nat) : Option SsdCfg :=
  (ssdTable width height).map fun (clockdiv, compins, colstart) =>
    { pages := height / 8, size := width * (height / 8), multiplex := height - 1, clockdiv, compins, colstart
      colend := colstart + width }

/-- Initialisation commands, ssd1306.py 155-181. -/
def ssdInit (c : SsdCfg) : List Nat :=
  [0xAE, 0xD5, c.clockdiv, 0xA8, c.multiplex, 0xD3, 0x0, 0x40 ||| 0x0, 0x8D, 0x14, 0x20, 0x00, 0xA0 ||| 0x1, 0xC8, 0xDA,
    c.compins, 0x81, 0x7F, 0xD9, 0xF1, 0xDB, 0x40, 0xA4, 0xA6, 0xAF]

/-- Commands before a frame, ssd1306.py 185-192. -/
def ssdDisplay (c : SsdCfg) : List Nat := [0x21, c.colstart, c.colend - 1, 0x22, 0, c.pages - 1]

inductive SsdSt | unknown | reset | init | display | framebuffer
deriving DecidableEq, Repr

/-- Registers: the state, `ready`, `cnt`, and the three submodules. -/
structure SsdS where
  st : SsdSt
  ready : Bool
  cnt : Nat
  init : MemRdS Nat × PipeValidS Nat
  display : MemRdS Nat × PipeValidS Nat
  wrap : WrapSt

structure SsdIn where
  reset : Bool
  valid : Bool
  data : Nat
  last : Bool
  /-- `source.ready` -/
  srcReady : Bool
  err : Bool
deriving DecidableEq, Repr

/-- Outputs: `ready`, `sink.ready`, and the source. -/
structure SsdOut where
  ready : Bool
  sinkReady : Bool
  valid : Bool
  data : Nat
  last : Bool
deriving DecidableEq, Repr

section
variable (c : SsdCfg) (porInit : Bool)

/-- `wrapper.sink` (ssd1306.py 215-259); undriven signals are zero. -/
def ssdWrapIn (s : SsdS) (x : SsdIn) : WrapIn :=
  let w (valid dcn : Bool) (data : Nat) (last : Bool) : WrapIn := ⟨valid, dcn, data, last, x.srcReady, x.err⟩
  match s.st with
  | .unknown | .reset => w false false 0 false
  | .init =>
    let o := (memoryStreamReaderBuffered (ssdInit c)).out s.init (false, false)
    w o.valid false o.beat.payload true
  | .display =>
    if x.reset then w false false 0 false
    else if !s.ready || x.valid then
      let o := (memoryStreamReaderBuffered (ssdDisplay c)).out s.display (false, false)
      w o.valid false o.beat.payload true
    else w false false 0 false
  | .framebuffer =>
    if !s.ready then w true true 0 (decide (s.cnt = c.size - 1))
    else w x.valid true x.data (decide (s.cnt = c.size - 1) || x.last)

/-- `SSD1306.elaborate`, lambdalib/cores/lcd/ssd1306.py 148-270. The outputs of the readers other than `ready` do not
depend on their inputs, and neither does `wrapper.sink.ready` depend on the sink. -/
def ssd1306 : Circuit SsdS SsdIn SsdOut where
  reset := ⟨.unknown, false, 0, (memoryStreamReaderBuffered (ssdInit c)).reset,
    (memoryStreamReaderBuffered (ssdDisplay c)).reset, ssdWrapper.reset⟩
  out s x :=
    let w := ssdWrapIn c s x
    let o := ssdWrapper.out s.wrap w
    { ready := s.ready
      sinkReady := if s.st == .framebuffer && s.ready then o.ready else false
      valid := o.valid, data := o.data, last := o.last }
  next s x :=
    let w := ssdWrapIn c s x
    let o := ssdWrapper.out s.wrap w
    let wrap := ssdWrapper.next s.wrap w
    let initO := (memoryStreamReaderBuffered (ssdInit c)).out s.init (false, false)
    let dispO := (memoryStreamReaderBuffered (ssdDisplay c)).out s.display (false, false)
    -- readers: rewind and ready
    let step (init display : Bool × Bool) (s' : SsdS) : SsdS :=
      { s' with
        wrap := wrap
        init := (memoryStreamReaderBuffered (ssdInit c)).next s.init init
        display := (memoryStreamReaderBuffered (ssdDisplay c)).next s.display display }
    match s.st with
    | .unknown =>
      step (false, false) (false, false)
        (if x.reset || porInit then { s with ready := false, st := .reset } else s)
    | .reset => step (true, false) (true, false) { s with st := .init }
    | .init =>
      step (false, o.ready) (false, false) (if initO.extra && !initO.valid then { s with st := .display } else s)
    | .display =>
      if x.reset then step (false, false) (false, false) { s with ready := false, st := .reset }
      else if !s.ready || x.valid then
        step (false, false) (false, o.ready)
          (if dispO.extra && !dispO.valid then { s with st := .framebuffer } else s)
      else step (false, false) (false, false) s
    | .framebuffer =>
      if w.valid && o.ready then
        if !w.last then step (false, false) (false, false) { s with cnt := truncRange c.size (s.cnt + 1) }
        else step (false, false) (true, false) { s with cnt := 0, ready := true, st := .display }
      else step (false, false) (false, false) s

end

end Lambdalib
