import Verif.Model.I2c
import Verif.Model.Mem

/-! Model of the I2C stream wrappers: `lambdalib/cores/i2c/stream.py`, `tca9548a.py` and `init.py`.
Each wrapper that contains an `I2CInitiator` is modelled together with it. -/

namespace Lambdalib

/-! ### I2CRegStream -/

/-- FSM states of `I2CRegStream` (stream.py 350-381). -/
inductive RegStrSt | idle | slave | reg | val
deriving DecidableEq, Repr

/-- Registers of `I2CRegStream`: FSM, latches, and the registered source (stream.py 347-381). -/
structure RegStrS where
  fsm : RegStrSt
  valid : Bool
  last : Bool
  data : BitVec 8
  addr : BitVec 8
  val : BitVec 8
deriving DecidableEq, Repr

/-- `i2c_addr << 1` stored in eight bits (stream.py 356, tca9548a.py 56, init.py 35). -/
def i2cAddrByte (addr : Nat) : BitVec 8 := BitVec.ofNat 8 (addr * 2)

/-- `I2CRegStream.elaborate`, lambdalib/cores/i2c/stream.py 343-383. The sink payload is `(addr, val)`. -/
def i2cRegStream (i2cAddr : Nat) : Circuit RegStrS (SIn (BitVec 8 × BitVec 8)) (SOut (BitVec 8)) where
  reset := ⟨.idle, false, false, 0, 0, 0⟩
  out s _ := ⟨s.fsm == .idle, s.valid, ⟨false, s.last, s.data⟩⟩
  next s x :=
    match s.fsm with
    | .idle =>
      if x.valid then
        ⟨.slave, true, s.last, i2cAddrByte i2cAddr, x.beat.payload.1, x.beat.payload.2⟩
      else s
    | .slave => if x.ready then { s with data := s.addr, fsm := .reg } else s
    | .reg => if x.ready then { s with data := s.val, last := true, fsm := .val } else s
    | .val => if x.ready then { s with valid := false, last := false, fsm := .idle } else s

/-! ### TCA9548A -/

/-- Registers of `TCA9548A` (tca9548a.py 35-37, 41); `mux` is the FSM state MUX. -/
structure TcaS where
  mux : Bool
  init : Bool
  ctrlR : BitVec 8
  addrN : Bool
deriving DecidableEq, Repr

/-- Inputs of `TCA9548A`: `ctrl` and `source.ready`. -/
structure TcaIn where
  ctrl : BitVec 8
  ready : Bool
deriving DecidableEq, Repr

/-- Outputs of `TCA9548A`: `done` and the source; the payload is `(r_wn, data)`. -/
structure TcaOut where
  done : Bool
  valid : Bool
  beat : Beat (Bool × BitVec 8)
deriving DecidableEq, Repr

/-- `TCA9548A.elaborate`, lambdalib/cores/i2c/tca9548a.py 30-65. -/
def tca9548a (i2cAddr : Nat) : Circuit TcaS TcaIn TcaOut where
  reset := ⟨false, false, 0, false⟩
  out s x :=
    { done := !s.mux && s.init && x.ctrl == s.ctrlR
      valid := s.mux
      beat := ⟨false, s.mux && s.addrN,
        (false, if s.mux then (if !s.addrN then i2cAddrByte i2cAddr else s.ctrlR) else 0)⟩ }
  next s x :=
    if !s.mux then
      (if !s.init then { s with init := true, mux := true }
       else if x.ctrl != s.ctrlR then { s with ctrlR := x.ctrl, mux := true }
       else s)
    else if x.ready then { s with addrN := !s.addrN, mux := !s.addrN }
    else s

/-! ### I2CRegisterInit -/

/-- `I2CRegisterInit.regs_data_to_mem`, lambdalib/cores/i2c/init.py 31-39. -/
def regsDataToMem (i2cAddr : Nat) (regs : List (BitVec 8 × BitVec 8)) : List (BitVec 8) :=
  regs.foldl (fun mem r => mem ++ [i2cAddrByte i2cAddr] ++ [r.1] ++ [r.2]) []

/-- Inputs of `I2CRegisterInit` around its `I2CWriterStream`: `writer.sink.ready` of the inner writer and
the exposed `writer` endpoint. -/
structure RegInitIn where
  wready : Bool
  expValid : Bool
  expBeat : Beat (BitVec 8)
deriving DecidableEq, Repr

/-- What `I2CRegisterInit` drives: the sink of the inner writer, `done`, and the ready of the exposed
endpoint. -/
structure RegInitOut where
  valid : Bool
  beat : Beat (BitVec 8)
  done : Bool
  expReady : Bool
deriving DecidableEq, Repr

/-- `source.ready` of the memory reader (init.py 53-67). -/
def regInitMemReady (expose done : Bool) (x : RegInitIn) : Bool :=
  if !expose then x.wready else if !done then x.wready else false

/-- `I2CRegisterInit.elaborate`, lambdalib/cores/i2c/init.py 41-67, up to the sink of the inner
`I2CWriterStream`. `expose` is `expose_writer`; without it there is no exposed endpoint and `expReady` is
constantly low. -/
def i2cRegisterInit (i2cAddr : Nat) (regs : List (BitVec 8 × BitVec 8)) (expose : Bool) :
    Circuit ((MemRdS (BitVec 8) × PipeValidS (BitVec 8)) × Bool) RegInitIn RegInitOut where
  reset := ((memoryStreamReaderBuffered (regsDataToMem i2cAddr regs)).reset, false)
  out s x :=
    let mo := (memoryStreamReaderBuffered (regsDataToMem i2cAddr regs)).out s.1
      (false, regInitMemReady expose s.2 x)
    if expose && s.2 then ⟨x.expValid, x.expBeat, s.2, x.wready⟩
    else ⟨mo.valid, mo.beat, s.2, false⟩
  next s x :=
    let mr := regInitMemReady expose s.2 x
    let mo := (memoryStreamReaderBuffered (regsDataToMem i2cAddr regs)).out s.1 (false, mr)
    ((memoryStreamReaderBuffered (regsDataToMem i2cAddr regs)).next s.1 (false, mr),
      if mo.valid && mr && mo.beat.last then true else s.2)

/-! ### I2CStream -/

/-- FSM states of `I2CStream` (stream.py 134-207). -/
inductive I2cStrSt
  | idle | start | waitStart | xfer | waitWrite | waitRead | stop | waitStop
deriving DecidableEq, Repr

/-- Inputs of `I2CStream`: the sink (payload `(r_wn, data)`), `source.ready`, the bus levels. -/
structure I2cStrIn where
  valid : Bool
  beat : Beat (Bool × BitVec 8)
  ready : Bool
  sclI : Bool
  sdaI : Bool
deriving DecidableEq, Repr

/-- Outputs of `I2CStream`. -/
structure I2cStrOut where
  ready : Bool
  error : Bool
  valid : Bool
  beat : Beat (BitVec 8)
  sclO : Bool
  sdaO : Bool
deriving DecidableEq, Repr

/-- Registers of `I2CStream` (stream.py 128-134). -/
structure I2cStrS where
  fsm : I2cStrSt
  lastR : Bool
  core : I2cS
deriving DecidableEq, Repr

/-- Inputs of the initiator inside `I2CStream` (stream.py 142, 155-158, 164-167, 202). -/
def i2cStrCoreIn (s : I2cStrS) (x : I2cStrIn) : I2cIn :=
  { start := s.fsm == .start
    stop := s.fsm == .stop
    write := s.fsm == .xfer && x.valid && !x.beat.payload.1
    read := s.fsm == .xfer && x.valid && x.beat.payload.1
    dataI := if s.fsm == .xfer && x.valid && !x.beat.payload.1 then x.beat.payload.2 else 0
    ackI := if s.fsm == .xfer && x.valid && x.beat.payload.1 then !x.beat.last else false
    sclI := x.sclI
    sdaI := x.sdaI }

/-- Next FSM state of `I2CStream` (stream.py 134-207). -/
def i2cStrFsm (s : I2cStrS) (x : I2cStrIn) : I2cStrSt :=
  match s.fsm with
  | .idle => if !s.core.busy then (if x.valid then .start else .idle) else .idle
  | .start => .waitStart
  | .waitStart => if !s.core.busy then .xfer else .waitStart
  | .xfer => if x.valid then (if x.beat.payload.1 then .waitRead else .waitWrite) else .xfer
  | .waitWrite =>
    if !s.core.busy then
      (if !s.core.ackO then .stop else if s.lastR then .stop else .xfer)
    else .waitWrite
  | .waitRead =>
    if !s.core.busy then (if x.ready then (if s.lastR then .stop else .xfer) else .waitRead)
    else .waitRead
  | .stop => .waitStop
  | .waitStop => if !s.core.busy then .idle else .waitStop

/-- `I2CStream.elaborate`, lambdalib/cores/i2c/stream.py 122-209. -/
def i2cStream (period : Nat) (stretch : Bool) : Circuit I2cStrS I2cStrIn I2cStrOut where
  reset := ⟨.idle, false, (i2cInitiator period stretch).reset⟩
  out s x :=
    { ready := (s.fsm == .xfer && x.valid && x.beat.payload.1) ||
        (s.fsm == .waitWrite && !s.core.busy)
      error := s.fsm == .waitWrite && !s.core.busy && !s.core.ackO
      valid := s.fsm == .waitRead && !s.core.busy
      beat := if s.fsm == .waitRead && !s.core.busy then ⟨false, s.lastR, s.core.dataO⟩
        else ⟨false, false, 0⟩
      sclO := s.core.sclO
      sdaO := s.core.sdaO }
  next s x :=
    { fsm := i2cStrFsm s x
      lastR := if s.fsm == .xfer then x.beat.last else s.lastR
      core := (i2cInitiator period stretch).next s.core (i2cStrCoreIn s x) }

/-! ### I2CWriterStream -/

/-- FSM states of `I2CWriterStream` (stream.py 273-319). -/
inductive I2cWrSt
  | idle | start | waitStart | write | waitWrite | stop | waitStop
deriving DecidableEq, Repr

/-- Inputs of `I2CWriterStream`: the sink and the bus levels (`first` and `last` are not used). -/
structure I2cWrIn where
  valid : Bool
  data : BitVec 8
  sclI : Bool
  sdaI : Bool
deriving DecidableEq, Repr

/-- Outputs of `I2CWriterStream`. -/
structure I2cWrOut where
  ready : Bool
  sclO : Bool
  sdaO : Bool
deriving DecidableEq, Repr

/-- Registers of `I2CWriterStream` (stream.py 239-245). -/
structure I2cWrS where
  fsm : I2cWrSt
  stage : Nat
  retry : Bool
  cache0 : BitVec 8
  cache1 : BitVec 8
  cache2 : BitVec 8
  cacheStage : Nat
  core : I2cS
deriving DecidableEq, Repr

/-- `use_data_from_cache`, stream.py 250. -/
def i2cWrUseCache (s : I2cWrS) : Bool := s.retry && decide (s.stage ≤ s.cacheStage)

/-- `i2c.data_i`, stream.py 252-262. -/
def i2cWrData (s : I2cWrS) (x : I2cWrIn) : BitVec 8 :=
  if i2cWrUseCache s then
    (if s.stage = 0 then s.cache0 else if s.stage = 1 then s.cache1
     else if s.stage = 2 then s.cache2 else 0)
  else x.data

/-- Inputs of the initiator inside `I2CWriterStream` (stream.py 252-262, 282, 290, 314). -/
def i2cWrCoreIn (s : I2cWrS) (x : I2cWrIn) : I2cIn :=
  { start := s.fsm == .start
    stop := s.fsm == .stop
    write := s.fsm == .write
    read := false
    dataI := i2cWrData s x
    ackI := false
    sclI := x.sclI
    sdaI := x.sdaI }

/-- The FSM of `I2CWriterStream` with `stage` and `retry` (stream.py 273-319). `stage` has two bits. -/
def i2cWrFsm (s : I2cWrS) (x : I2cWrIn) : I2cWrS :=
  match s.fsm with
  | .idle =>
    if !s.core.busy then
      (if x.valid || i2cWrUseCache s then { s with stage := 0, fsm := .start } else s)
    else s
  | .start => { s with fsm := .waitStart }
  | .waitStart => if !s.core.busy then { s with fsm := .write } else s
  | .write => { s with stage := (s.stage + 1) % 4, fsm := .waitWrite }
  | .waitWrite =>
    if !s.core.busy then
      (if !s.core.ackO then { s with retry := true, fsm := .stop }
       else if s.stage > 2 then { s with retry := false, fsm := .stop }
       else if x.valid || i2cWrUseCache s then { s with fsm := .write }
       else s)
    else s
  | .stop => { s with fsm := .waitStop }
  | .waitStop => if !s.core.busy then { s with fsm := .idle } else s

/-- `I2CWriterStream.elaborate`, lambdalib/cores/i2c/stream.py 234-321. -/
def i2cWriterStream (period : Nat) (stretch : Bool) : Circuit I2cWrS I2cWrIn I2cWrOut where
  reset := ⟨.idle, 0, false, 0, 0, 0, 0, (i2cInitiator period stretch).reset⟩
  out s _ :=
    { ready := !i2cWrUseCache s && s.fsm == .write
      sclO := s.core.sclO
      sdaO := s.core.sdaO }
  next s x :=
    let t := i2cWrFsm s x
    let store := !i2cWrUseCache s && s.fsm == .write
    { t with
      cacheStage := if store then s.stage else s.cacheStage
      cache0 := if store && s.stage == 0 then x.data else s.cache0
      cache1 := if store && s.stage == 1 then x.data else s.cache1
      cache2 := if store && s.stage == 2 then x.data else s.cache2
      core := (i2cInitiator period stretch).next s.core (i2cWrCoreIn s x) }

/-! ### I2CRegisterInit with its writer -/

/-- Inputs of `I2CRegisterInit` as a whole: the exposed `writer` endpoint and the bus levels. -/
structure InitFullIn where
  expValid : Bool
  expBeat : Beat (BitVec 8)
  sclI : Bool
  sdaI : Bool
deriving DecidableEq, Repr

/-- Outputs of `I2CRegisterInit` as a whole. -/
structure InitFullOut where
  done : Bool
  expReady : Bool
  sclO : Bool
  sdaO : Bool
deriving DecidableEq, Repr

/-- Registers of `I2CRegisterInit` with its writer. -/
abbrev InitFullS := ((MemRdS (BitVec 8) × PipeValidS (BitVec 8)) × Bool) × I2cWrS

/-- What the part around the writer sees (init.py 53-67); `writer.sink.ready` depends on registers only. -/
def initFullReg (period : Nat) (s : InitFullS) (x : InitFullIn) : RegInitIn :=
  ⟨((i2cWriterStream period true).out s.2 ⟨false, 0, x.sclI, x.sdaI⟩).ready, x.expValid, x.expBeat⟩

/-- What the writer sees (init.py 53-67). -/
def initFullWr (i2cAddr : Nat) (regs : List (BitVec 8 × BitVec 8)) (expose : Bool) (period : Nat) (s : InitFullS)
    (x : InitFullIn) : I2cWrIn :=
  let o := (i2cRegisterInit i2cAddr regs expose).out s.1 (initFullReg period s x)
  ⟨o.valid, o.beat.payload, x.sclI, x.sdaI⟩

/-- `I2CRegisterInit.elaborate`, lambdalib/cores/i2c/init.py 41-67, with its `I2CWriterStream`; clock stretching is on, the
default of `I2CInitiator`. `period` is `int(sys_clk_freq // i2c_freq)` (init.py 47, i2c.py 130). -/
def i2cInitFull (i2cAddr : Nat) (regs : List (BitVec 8 × BitVec 8)) (expose : Bool) (period : Nat) :
    Circuit InitFullS InitFullIn InitFullOut where
  reset := ((i2cRegisterInit i2cAddr regs expose).reset, (i2cWriterStream period true).reset)
  out s x :=
    let o := (i2cRegisterInit i2cAddr regs expose).out s.1 (initFullReg period s x)
    let w := (i2cWriterStream period true).out s.2 (initFullWr i2cAddr regs expose period s x)
    ⟨o.done, o.expReady, w.sclO, w.sdaO⟩
  next s x :=
    ((i2cRegisterInit i2cAddr regs expose).next s.1 (initFullReg period s x),
      (i2cWriterStream period true).next s.2 (initFullWr i2cAddr regs expose period s x))

end Lambdalib
