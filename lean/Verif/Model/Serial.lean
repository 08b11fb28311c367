import Verif.Spec.Circuit
import Verif.Model.Time

/-! Model of `lambdalib/cores/serial.py`. The UART itself (`amaranth_stdio.serial`) is not in the repository; its
signals towards the wrapper are inputs. -/

namespace Lambdalib

/-- Inputs of `AsyncSerialStream`: the sink, `source.ready`, and from the UART `tx.rdy`, `rx.rdy`, `rx.data`. -/
structure SerIn where
  valid : Bool
  data : Nat
  ready : Bool
  txRdy : Bool
  rxRdy : Bool
  rxData : Nat
deriving DecidableEq, Repr

/-- Outputs: `sink.ready`, the source, and to the UART `tx.ack`, `tx.data`, `rx.ack`. -/
structure SerOut where
  ready : Bool
  valid : Bool
  data : Nat
  txAck : Bool
  txData : Nat
  rxAck : Bool
deriving DecidableEq, Repr

/-- Registers: `source.valid` and `source.data`. -/
structure SerS where
  valid : Bool
  data : Nat
deriving DecidableEq, Repr

/-- `AsyncSerialStream.elaborate`, lambdalib/cores/serial.py 52-78. -/
def serialStream : Circuit SerS SerIn SerOut where
  reset := ⟨false, 0⟩
  out s x :=
    { ready := x.txRdy, valid := s.valid, data := s.data, txAck := x.valid, txData := x.data,
      rxAck := !(s.valid && !x.ready) }
  next s x :=
    let ack := !(s.valid && !x.ready)
    if ack && x.rxRdy then ⟨true, x.rxData⟩
    else if s.valid && x.ready then { s with valid := false } else s

/-- `AsyncSerialTXStream.elaborate`, lambdalib/cores/serial.py 25-36: `sink.valid`, `sink.data`, `rdy`, `o` of the
UART to `sink.ready`, `ack`, `data`, the pin. -/
def serialTx (valid : Bool) (data : Nat) (rdy o : Bool) : Bool × Bool × Nat × Bool := (rdy, valid, data, o)

/-- Inputs of the pin logic of `AsyncSerialStreamHalfDuplex`: the pin, `tx.rdy` and `tx.o` of the UART. -/
structure HdIn where
  pin : Bool
  txRdy : Bool
  txO : Bool
deriving DecidableEq, Repr

/-- Outputs: pin value, pin enable, `rx.i` of the UART. -/
structure HdOut where
  o : Bool
  oe : Bool
  rxI : Bool
deriving DecidableEq, Repr

/-- Registers: synchroniser stages (reset 1), FSM state (`tx` is `TX`), timer. -/
structure HdS where
  p1 : Bool
  p2 : Bool
  tx : Bool
  timer : Nat
deriving DecidableEq, Repr

/-- `AsyncSerialStreamHalfDuplex.elaborate`, lambdalib/cores/serial.py 87-116, without the inherited part (which is
`serialStream`) and without the debug pin (107). -/
def halfDuplex (divisor : Nat) : Circuit HdS HdIn HdOut where
  reset := ⟨true, true, false, (waitTimer divisor).reset⟩
  out s x := if s.tx then ⟨x.txO, true, true⟩ else ⟨false, false, s.p2⟩
  next s x :=
    let wait := s.tx && x.txRdy
    let done := (waitTimer divisor).out s.timer wait
    { p1 := x.pin
      p2 := s.p1
      tx := if s.tx then !(x.txRdy && done) else !x.txRdy
      timer := (waitTimer divisor).next s.timer wait }

end Lambdalib
