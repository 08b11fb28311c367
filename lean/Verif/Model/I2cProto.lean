import Verif.Model.I2cStream

/-! Model of `lambdalib/cores/i2c/proto.py`: `I2CProto` around its `I2CStream`. -/

namespace Lambdalib

/-- FSM states of `I2CProto` (proto.py 77-172). -/
inductive I2cProtoSt | header | length | addr | ok | read | flush | write | error | status
deriving DecidableEq, Repr

/-- Inputs of `I2CProto`: the sink (only `data` is used), `source.ready` and the bus levels. -/
structure I2cProtoIn where
  valid : Bool
  data : BitVec 8
  ready : Bool
  sclI : Bool
  sdaI : Bool
deriving DecidableEq, Repr

/-- Outputs of `I2CProto`. -/
structure I2cProtoOut where
  ready : Bool
  valid : Bool
  beat : Beat (BitVec 8)
  sclO : Bool
  sdaO : Bool
deriving DecidableEq, Repr

/-- Registers of `I2CProto` (proto.py 68-77). -/
structure I2cProtoS where
  fsm : I2cProtoSt
  header : BitVec 8
  len : Nat
  status : Bool
  str : I2cStrS
deriving DecidableEq, Repr

/-- Inputs of the `I2CStream` inside `I2CProto` (proto.py 92-97, 120-125, 134, 141-146). -/
def i2cProtoStrIn (s : I2cProtoS) (x : I2cProtoIn) : I2cStrIn :=
  { valid := s.fsm == .addr || s.fsm == .read || s.fsm == .write
    beat := ⟨false,
      (s.fsm == .addr && s.len == 0) || ((s.fsm == .read || s.fsm == .write) && s.len == 1),
      (s.fsm == .read,
        if s.fsm == .addr then s.header else if s.fsm == .write then x.data else 0)⟩
    ready := (s.fsm == .read || s.fsm == .flush) && x.ready
    sclI := x.sclI
    sdaI := x.sdaI }

/-- `length - 1` in eight bits (proto.py 128, 149, 160). -/
def i2cProtoDec (len : Nat) : Nat := (len + 255) % 256

/-- The FSM of `I2CProto` with `header`, `length` and `status` (proto.py 77-172); `o` are the outputs of the
`I2CStream`. -/
def i2cProtoFsm (s : I2cProtoS) (x : I2cProtoIn) (o : I2cStrOut) : I2cProtoS :=
  match s.fsm with
  | .header => if x.valid then { s with header := x.data, fsm := .length } else s
  | .length => if x.valid then { s with len := x.data.toNat, fsm := .addr } else s
  | .addr =>
    if o.ready then
      (if o.error then { s with fsm := .error }
       else if s.header.getLsbD 0 then { s with fsm := .ok }
       else if s.len ≥ 1 then { s with fsm := .write }
       else { s with status := false, fsm := .status })
    else s
  | .ok => if x.ready then { s with fsm := .read } else s
  | .read =>
    if o.ready then
      { s with len := i2cProtoDec s.len, fsm := if s.len = 1 then .flush else .read }
    else s
  | .flush => if o.valid && x.ready && o.beat.last then { s with fsm := .header } else s
  | .write =>
    if o.ready then
      (if o.error then { s with len := i2cProtoDec s.len, fsm := .error }
       else if s.len = 1 then { s with len := i2cProtoDec s.len, status := false, fsm := .status }
       else { s with len := i2cProtoDec s.len })
    else s
  | .error =>
    if s.len ≥ 1 then { s with len := i2cProtoDec s.len }
    else { s with status := true, fsm := .status }
  | .status => if x.ready then { s with fsm := .header } else s

/-- `I2CProto.elaborate`, lambdalib/cores/i2c/proto.py 64-174. `period` is the value given to `I2CStream`. -/
def i2cProto (period : Nat) (stretch : Bool) : Circuit I2cProtoS I2cProtoIn I2cProtoOut where
  reset := ⟨.header, 0, 0, false, (i2cStream period stretch).reset⟩
  out s x :=
    let o := (i2cStream period stretch).out s.str (i2cProtoStrIn s x)
    { ready := s.fsm == .header || s.fsm == .length || (s.fsm == .write && o.ready) ||
        (s.fsm == .error && decide (s.len ≥ 1))
      valid := s.fsm == .ok || s.fsm == .status || ((s.fsm == .read || s.fsm == .flush) && o.valid)
      beat :=
        if s.fsm == .ok then ⟨false, true, 0⟩
        else if s.fsm == .status then ⟨false, true, if s.status then 1 else 0⟩
        else if s.fsm == .read || s.fsm == .flush then o.beat
        else ⟨false, false, 0⟩
      sclO := o.sclO
      sdaO := o.sdaO }
  next s x :=
    let o := (i2cStream period stretch).out s.str (i2cProtoStrIn s x)
    { i2cProtoFsm s x o with
      str := (i2cStream period stretch).next s.str (i2cProtoStrIn s x) }

end Lambdalib
