import Verif.Spec.Circuit
import Verif.Model.Basic

/-! Model of `I2CInitiator`, `lambdalib/cores/i2c/i2c.py`.

The bus driver's two input synchronisers (i2c.py 54, 62) are modelled in `Model/I2cWire`. Here `scl_i` and `sda_i` are free
inputs of the model, which covers every bus behaviour and every synchroniser latency, and also the
output-only SCL variant (i2c.py 65-68) as the special case `scl_i = scl_o`. The pads are open drain:
line released when `scl_o`/`sda_o` is 1, pulled low when 0 (i2c.py 50-53, 58-61). -/

namespace Lambdalib

/-- States of the FSM of `I2CInitiator` (i2c.py 190-274). -/
inductive I2cSt
  | idle
  | startSclL | startSdaH | startSclH | startSdaL
  | stopSclL | stopSdaL | stopSclH | stopSdaH
  | wDataSclL | wDataSdaX | wDataSclH | wDataSdaN
  | wAckSclL | wAckSdaH | wAckSclH | wAckSdaN
  | rDataSclL | rDataSdaH | rDataSclH | rDataSdaN
  | rAckSclL | rAckSdaX | rAckSclH | rAckSdaN
deriving DecidableEq, Repr

/-- Inputs of `I2CInitiator` (i2c.py 134-141) and the synchronised bus levels. -/
structure I2cIn where
  start : Bool
  stop : Bool
  write : Bool
  read : Bool
  dataI : BitVec 8
  ackI : Bool
  sclI : Bool
  sdaI : Bool
deriving DecidableEq, Repr

/-- Registers of `I2CInitiator` (i2c.py 37, 39, 133, 138, 140, 148, 158-163). -/
structure I2cS where
  fsm : I2cSt
  busy : Bool
  timer : Nat
  bitno : Nat
  rSh : BitVec 8
  wSh : BitVec 8
  rAck : Bool
  sclO : Bool
  sdaO : Bool
  ackO : Bool
  dataO : BitVec 8
deriving DecidableEq, Repr

/-- Outputs of `I2CInitiator`: `busy`, `ack_o`, `data_o` and the driven bus levels. -/
structure I2cOut where
  busy : Bool
  ackO : Bool
  dataO : BitVec 8
  sclO : Bool
  sdaO : Bool
deriving DecidableEq, Repr

/-- `scl_l(state, next)`, i2c.py 165-170. -/
def i2cSclL (s : I2cS) (stb : Bool) (nxt : I2cSt) : I2cS :=
  if stb then { s with sclO := false, fsm := nxt } else s

/-- `scl_h(state, next, exprs)`, i2c.py 172-179. -/
def i2cSclH (stretch : Bool) (s : I2cS) (x : I2cIn) (stb : Bool) (nxt : I2cSt)
    (upd : I2cS → I2cS) : I2cS :=
  if stb then { s with sclO := true }
  else if s.sclO == true then
    (if !stretch || x.sclI == true then { upd s with fsm := nxt } else s)
  else s

/-- `stb_x(state, next, exprs)`, i2c.py 181-188. -/
def i2cStbX (s : I2cS) (stb : Bool) (nxt : I2cSt) (upd : I2cS → I2cS) : I2cS :=
  if stb then { upd s with fsm := nxt } else s

/-- State `IDLE`, i2c.py 190-213. -/
def i2cIdle (s : I2cS) (x : I2cIn) : I2cS :=
  if x.start then
    { s with busy := true
             fsm := if x.sclI && x.sdaI then .startSdaL
                    else if !x.sclI then .startSclH else .startSclL }
  else if x.stop then
    { s with busy := true
             fsm := if x.sclI && !s.sdaO then .stopSdaH
                    else if !x.sclI then .stopSclH else .stopSclL }
  else if x.write then { s with busy := true, wSh := x.dataI, fsm := .wDataSclL }
  else if x.read then { s with busy := true, rAck := x.ackI, fsm := .rDataSclL }
  else { s with busy := false }

/-- The FSM, i2c.py 163-274. `bitno` is a `Signal(range(8))`. -/
def i2cFsm (stretch : Bool) (s : I2cS) (x : I2cIn) : I2cS :=
  let stb := s.timer == 0
  match s.fsm with
  | .idle => i2cIdle s x
  -- start, 216-223
  | .startSclL => i2cSclL s stb .startSdaH
  | .startSdaH => i2cStbX s stb .startSclH fun s => { s with sdaO := true }
  | .startSclH => i2cSclH stretch s x stb .startSdaL id
  | .startSdaL => i2cStbX s stb .idle fun s => { s with sdaO := false }
  -- stop, 225-232
  | .stopSclL => i2cSclL s stb .stopSdaL
  | .stopSdaL => i2cStbX s stb .stopSclH fun s => { s with sdaO := false }
  | .stopSclH => i2cSclH stretch s x stb .stopSdaH id
  | .stopSdaH => i2cStbX s stb .idle fun s => { s with sdaO := true }
  -- write data, 234-244
  | .wDataSclL => i2cSclL s stb .wDataSdaX
  | .wDataSdaX => i2cStbX s stb .wDataSclH fun s => { s with sdaO := s.wSh.getLsbD 7 }
  | .wDataSclH => i2cSclH stretch s x stb .wDataSdaN fun s => { s with wSh := s.wSh <<< 1 }
  | .wDataSdaN => i2cStbX s stb (if s.bitno == 7 then .wAckSclL else .wDataSclL)
      fun s => { s with bitno := (s.bitno + 1) % 8 }
  -- write ack, 246-253
  | .wAckSclL => i2cSclL s stb .wAckSdaH
  | .wAckSdaH => i2cStbX s stb .wAckSclH fun s => { s with sdaO := true }
  | .wAckSclH => i2cSclH stretch s x stb .wAckSdaN fun s => { s with ackO := !x.sdaI }
  | .wAckSdaN => i2cStbX s stb .idle id
  -- read data, 255-265
  | .rDataSclL => i2cSclL s stb .rDataSdaH
  | .rDataSdaH => i2cStbX s stb .rDataSclH fun s => { s with sdaO := true }
  | .rDataSclH => i2cSclH stretch s x stb .rDataSdaN fun s =>
      { s with rSh := (s.rSh <<< 1) ||| (if x.sdaI then 1 else 0) }
  | .rDataSdaN => i2cStbX s stb (if s.bitno == 7 then .rAckSclL else .rDataSclL)
      fun s => { s with bitno := (s.bitno + 1) % 8 }
  -- read ack, 267-274
  | .rAckSclL => i2cSclL s stb .rAckSdaX
  | .rAckSdaX => i2cStbX s stb .rAckSclH fun s => { s with sdaO := !s.rAck }
  | .rAckSclH => i2cSclH stretch s x stb .rAckSdaN fun s => { s with dataO := s.rSh }
  | .rAckSdaN => i2cStbX s stb .idle id

/-- The bit timer, i2c.py 148-154, a `Signal(range(period_cyc))`. -/
def i2cTimer (period : Nat) (stretch : Bool) (s : I2cS) (x : I2cIn) : Nat :=
  if s.timer == 0 || !s.busy then truncRange period (period / 4)
  else if !stretch || s.sclO == x.sclI then s.timer - 1
  else s.timer

/-- `I2CInitiator.elaborate`, lambdalib/cores/i2c/i2c.py 143-276. -/
def i2cInitiator (period : Nat) (stretch : Bool) : Circuit I2cS I2cIn I2cOut where
  reset := ⟨.idle, true, 0, 0, 0, 0, false, true, true, false, 0⟩
  out s _ := ⟨s.busy, s.ackO, s.dataO, s.sclO, s.sdaO⟩
  next s x := { i2cFsm stretch s x with timer := i2cTimer period stretch s x }

end Lambdalib
