import Verif.Spec.Circuit
import Verif.Model.Basic

/-! Model of `lambdalib/cores/usb/ulpi.py`, and of the power-on reset of `lambdalib/cores/usb/utmi.py`. -/

namespace Lambdalib

/-! ### Transceiver -/

/-- Inputs of `_Transceiver`: the sink and the pins. -/
structure XcvrIn where
  valid : Bool
  last : Bool
  data : Nat
  dir : Bool
  nxt : Bool
  dataI : Nat
deriving DecidableEq, Repr

/-- Outputs of `_Transceiver`: `sink.ready`, the pins `data.oe`, `data.o`, `stp`, and the source. -/
structure XcvrOut where
  ready : Bool
  oe : Bool
  o : Nat
  stp : Bool
  sValid : Bool
  sData : Nat
  sCmd : Bool
  sLast : Bool
deriving DecidableEq, Repr

/-- Registers of `_Transceiver` (ulpi.py 203, 182, 177). -/
structure XcvrS where
  dirR : Bool
  stp : Bool
  sValid : Bool
  sData : Nat
  sCmd : Bool
deriving DecidableEq, Repr

/-- `_Transceiver.elaborate`, lambdalib/cores/usb/ulpi.py 188-234. The reset line (199) is passed through by the users
of the transceiver. -/
def xcvr : Circuit XcvrS XcvrIn XcvrOut where
  reset := ⟨false, false, false, 0, false⟩
  out s x :=
    let tx := !s.dirR && !x.dir
    { ready := tx && !s.stp && x.nxt
      oe := tx
      o := if tx && !s.stp && x.valid then x.data else 0
      stp := s.stp
      sValid := s.sValid
      sData := s.sData
      sCmd := s.sCmd
      sLast := s.dirR && !x.dir }
  next s x :=
    let tx := !s.dirR && !x.dir
    { dirR := x.dir
      stp := if s.stp then false else if tx && !s.stp && x.valid && (x.last && x.nxt) then true else s.stp
      sValid := s.dirR && x.dir
      sData := if s.dirR && x.dir then x.dataI else s.sData
      sCmd := if s.dirR && x.dir then !x.nxt else s.sCmd }

/-! ### Timer and power-on reset -/

/-- Output `done` of `_Timer` (ulpi.py 293-296) for the counts `c2 = int(sys_clk_freq * 2e-6)` and
`c4 = int(sys_clk_freq * 4e-3)`. -/
def ulpiTimerDone (c2 c4 counter : Nat) (cnt2us cnt4ms : Bool) : Bool :=
  (cnt2us && counter == c2) || (cnt4ms && counter == c4)

/-- `_Timer.elaborate`, lambdalib/cores/usb/ulpi.py 280-298. Inputs `cnt2us`, `cnt4ms`; output `done`. -/
def ulpiTimer (c2 c4 : Nat) : Circuit Nat (Bool × Bool) Bool where
  reset := 0
  out counter x := ulpiTimerDone c2 c4 counter x.1 x.2
  next counter x :=
    if x.1 || x.2 then (if ulpiTimerDone c2 c4 counter x.1 x.2 then 0 else (counter + 1) % 2 ^ 30) else 0

/-- The counts of `_Timer` for a clock frequency, with exact rationals instead of floats. -/
def ulpiC2 (f : Rat) : Nat := (f * (2 / 1000000)).floor.toNat
def ulpiC4 (f : Rat) : Nat := (f * (4 / 1000)).floor.toNat

inductive PorSt | reset | wait | idle
deriving DecidableEq, Repr

/-- `_POR.elaborate`, lambdalib/cores/usb/ulpi.py 244-267. No input; outputs `rst`, `done`. -/
def ulpiPor (c2 c4 : Nat) : Circuit (PorSt × Nat) Unit (Bool × Bool) where
  reset := (.reset, 0)
  out s _ := (s.1 == .reset, s.1 == .idle)
  next s _ :=
    let inp : Bool × Bool := (s.1 == .reset, s.1 == .wait)
    let done := (ulpiTimer c2 c4).out s.2 inp
    (match s.1 with
      | .reset => if done then .wait else .reset
      | .wait => if done then .idle else .wait
      | .idle => .idle,
     (ulpiTimer c2 c4).next s.2 inp)

/-- Power-on reset of `UTMITranslator`, lambdalib/cores/usb/utmi.py 42-48 and 59; `por_cycles` is
`int(60e6 * 2e-6)`. Output `rst.o`. -/
def utmiPor (cycles : Nat) : Circuit Nat Unit Bool where
  reset := cycles - 1
  out cnt _ := decide (cnt > 0)
  next cnt _ := if cnt > 0 then truncRange cycles (cnt - 1) else cnt

/-! ### Splitter and sender -/

/-- Registers of `_Splitter` (ulpi.py 304, 312-313). -/
structure USplitS where
  valid : Bool
  data : Nat
  last : Bool
  bufData : Nat
  bufValid : Bool
deriving DecidableEq, Repr

/-- Inputs of `_Splitter`: the sink. -/
structure USplitIn where
  valid : Bool
  data : Nat
  cmd : Bool
deriving DecidableEq, Repr

/-- `_Splitter.elaborate`, lambdalib/cores/usb/ulpi.py 306-346. Output: `source.valid`, `source.data`, `source.last`
(`source.ready` is not looked at, `sink.ready` not driven). -/
def splitterUlpi : Circuit USplitS USplitIn (Bool × Nat × Bool) where
  reset := ⟨false, 0, false, 0, false⟩
  out s _ := (s.valid, s.data, s.last)
  next s x :=
    if x.valid then
      if !x.cmd then
        if s.bufValid then ⟨true, s.bufData, false, x.data, true⟩
        else { s with valid := false, bufData := x.data, bufValid := true }
      else if x.data &&& 0x30 == 0x00 then
        if s.bufValid then ⟨true, s.bufData, true, s.bufData, false⟩ else { s with valid := false }
      else { s with valid := false }
    else { s with valid := false }

/-- `_Sender.elaborate`, lambdalib/cores/usb/ulpi.py 354-383. State: `last_r`. -/
def senderUlpi : Circuit Bool (SIn Nat) (SOut Nat) where
  reset := true
  out lastR x :=
    if lastR then ⟨x.ready, x.valid, ⟨false, x.beat.last, x.beat.payload % 16 + 16 * 4⟩⟩
    else ⟨x.ready, x.valid, x.beat⟩
  next lastR x := if x.valid && x.ready then x.beat.last else lastR

/-! ### Register dump -/

inductive DumpSt | reset | readCmd | readVal | outVal | addrInc | done
deriving DecidableEq, Repr

/-- Inputs of `DumpULPIRegs`: the pins, `por.done` and `source.ready`. -/
structure DumpIn where
  dir : Bool
  nxt : Bool
  dataI : Nat
  porDone : Bool
  ready : Bool
deriving DecidableEq, Repr

structure DumpOut where
  oe : Bool
  o : Nat
  stp : Bool
  valid : Bool
  data : Nat
  cmd : Bool
deriving DecidableEq, Repr

structure DumpS where
  st : DumpSt
  addr : Nat
  data : Nat
  x : XcvrS
deriving DecidableEq, Repr

/-- The transceiver inputs in `DumpULPIRegs` (ulpi.py 45-48). -/
def dumpX (s : DumpS) (x : DumpIn) : XcvrIn :=
  { valid := s.st == .readCmd, last := false, data := if s.st == .readCmd then 0xc0 ||| s.addr else 0,
    dir := x.dir, nxt := x.nxt, dataI := x.dataI }

/-- `DumpULPIRegs.elaborate`, lambdalib/cores/usb/ulpi.py 24-73, in the ULPI clock domain; `por.done` comes from the
other clock domain and is an input. The output `cmd` tells that a command byte is offered on the bus. -/
def dumpUlpi (maxAddr : Nat) : Circuit DumpS DumpIn DumpOut where
  reset := ⟨.reset, 0, 0, xcvr.reset⟩
  out s x :=
    let o := xcvr.out s.x (dumpX s x)
    { oe := o.oe, o := o.o, stp := o.stp, valid := s.st == .outVal, data := s.data, cmd := s.st == .readCmd }
  next s x :=
    let o := xcvr.out s.x (dumpX s x)
    let s' := { s with x := xcvr.next s.x (dumpX s x) }
    match s.st with
    | .reset => if x.porDone then { s' with st := .readCmd } else s'
    | .readCmd => if o.ready then { s' with st := .readVal } else s'
    | .readVal => if o.sValid then { s' with data := o.sData, st := .outVal } else { s' with data := o.sData }
    | .outVal => if x.ready then { s' with st := .addrInc } else s'
    | .addrInc => if s.addr = maxAddr then { s' with st := .done } else { s' with addr := (s.addr + 1) % 2 ^ 6, st := .readCmd }
    | .done => s'

/-! ### DirectULPI -/

inductive UlpiSt | reset | init0 | init1 | init2 | init3 | init4 | linkUp
deriving DecidableEq, Repr

/-- Inputs of the ULPI clock domain of `DirectULPI`: pins, power-on reset (other domain), source of the transmit
FIFO. -/
structure UlpiIn where
  dir : Bool
  nxt : Bool
  dataI : Nat
  porDone : Bool
  porRst : Bool
  valid : Bool
  beat : Beat Nat
deriving DecidableEq, Repr

/-- Outputs: pins, `ready` to the transmit FIFO, sink of the receive FIFO; `bus*` is the sink of the transceiver. -/
structure UlpiOut where
  oe : Bool
  o : Nat
  stp : Bool
  rst : Bool
  ready : Bool
  rxValid : Bool
  rxData : Nat
  rxLast : Bool
  busValid : Bool
  busData : Nat
  busLast : Bool
  busReady : Bool
deriving DecidableEq, Repr

structure UlpiS where
  st : UlpiSt
  x : XcvrS
  timer : Nat
  sp : USplitS
  sd : Bool
deriving DecidableEq, Repr

/-- What the FSM of `DirectULPI` puts on the transceiver sink (ulpi.py 116-169): `valid`, `last`, `data`. In `LINK-UP` it
is the sender's source. -/
def ulpiBus (s : UlpiS) (x : UlpiIn) : Bool × Bool × Nat :=
  match s.st with
  | .init0 => (true, false, 0x80 ||| 0x4)
  | .init1 => (true, true, 0x60)
  | .init3 => (true, false, 0x80 ||| 0xa)
  | .init4 => (true, true, 0x00)
  | .linkUp =>
    let o := senderUlpi.out s.sd ⟨x.valid, x.beat, false⟩
    (o.valid, o.beat.last, o.beat.payload)
  | _ => (false, false, 0)

def ulpiX (s : UlpiS) (x : UlpiIn) : XcvrIn :=
  { valid := (ulpiBus s x).1, last := (ulpiBus s x).2.1, data := (ulpiBus s x).2.2,
    dir := x.dir, nxt := x.nxt, dataI := x.dataI }

/-- `DirectULPI.elaborate`, lambdalib/cores/usb/ulpi.py 86-171, the part in the ULPI clock domain: transceiver, timer
(60 MHz), splitter, sender, FSM. The two clock-crossing FIFOs and the power-on reset are outside. -/
def ulpiCore (c2 c4 : Nat) : Circuit UlpiS UlpiIn UlpiOut where
  reset := ⟨.reset, xcvr.reset, 0, splitterUlpi.reset, senderUlpi.reset⟩
  out s x :=
    let o := xcvr.out s.x (ulpiX s x)
    let up := s.st == .linkUp
    let r := splitterUlpi.out s.sp ⟨false, 0, false⟩
    { oe := o.oe, o := o.o, stp := o.stp, rst := s.st == .reset && x.porRst
      ready := (senderUlpi.out s.sd ⟨x.valid, x.beat, up && o.ready⟩).ready
      rxValid := r.1, rxData := r.2.1, rxLast := r.2.2
      busValid := (ulpiBus s x).1, busData := (ulpiBus s x).2.2, busLast := (ulpiBus s x).2.1, busReady := o.ready }
  next s x :=
    let o := xcvr.out s.x (ulpiX s x)
    let up := s.st == .linkUp
    let tin : Bool × Bool := (s.st == .init2, false)
    { x := xcvr.next s.x (ulpiX s x)
      timer := (ulpiTimer c2 c4).next s.timer tin
      sp := splitterUlpi.next s.sp ⟨up && o.sValid, if up then o.sData else 0, up && o.sCmd⟩
      sd := senderUlpi.next s.sd ⟨x.valid, x.beat, up && o.ready⟩
      st := match s.st with
        | .reset => if x.porDone then .init0 else .reset
        | .init0 => if o.ready then .init1 else .init0
        | .init1 => if o.ready then .init2 else .init1
        | .init2 => if (ulpiTimer c2 c4).out s.timer tin then .init3 else .init2
        | .init3 => if o.ready then .init4 else .init3
        | .init4 => if o.ready then .linkUp else .init4
        | .linkUp => .linkUp }

end Lambdalib
