import Verif.Spec.Circuit
import Verif.Model.Basic

/-! Models of `lambdalib/cores/led/blink.py` and `lambdalib/cores/led/ws2812b.py`. -/

namespace Lambdalib

/-- Registers of `BlinkKeep`, lambdalib/cores/led/blink.py 22 and 34. -/
structure BlinkS where
  counter : Nat
  inc : Nat
deriving DecidableEq, Repr

/-- `self.thresh = int(duty * (2**self.nbits))` (blink.py 17), for an exact rational `duty ≥ 0`. -/
def blinkThresh (duty : Rat) : Nat := (duty * 256).floor.toNat

/-- `BlinkKeep.elaborate`, lambdalib/cores/led/blink.py 19-39, with the constants of lines 13-17 (`nbits` is 8).
Input `i`, output `o`. -/
def blinkKeep (timeout thresh : Nat) : Circuit BlinkS Bool Bool where
  reset := ⟨0, 0⟩
  out s _ := decide (s.inc < thresh) && decide (s.counter > 0)
  next s i := {
    counter :=
      if i then truncRange (timeout + 1) timeout
      else if s.counter > 0 then truncRange (timeout + 1) (s.counter - 1) else 0
    inc := (s.inc + 1) % 2 ^ 8 }

/-- `BlinkDomain.elaborate`, lambdalib/cores/led/blink.py 47-55: no input, output `led`. -/
def blinkDomain : Circuit Nat Unit Bool where
  reset := 0
  out counter _ := counter.testBit 25
  next counter _ := (counter + 1) % 2 ^ 26

/-- The chip timings, lambdalib/cores/led/ws2812b.py 30-33, with exact rationals instead of floats. -/
structure WsTiming where
  t0h : Nat
  t1h : Nat
  t : Nat
  trst : Nat
deriving DecidableEq, Repr

def wsTiming (freq : Rat) : WsTiming where
  t0h := (295 / 1000000000 * freq).floor.toNat
  t1h := (595 / 1000000000 * freq).floor.toNat
  t := (890 / 1000000000 * freq).floor.toNat
  trst := (80 / 1000000 * freq).floor.toNat

inductive WsSt | idle | transmit | reset
deriving DecidableEq, Repr

/-- Inputs of `WS2812B`: the sink. -/
structure WsIn where
  valid : Bool
  last : Bool
  data : Nat
deriving DecidableEq, Repr

/-- Outputs of `WS2812B`: `sink.ready` and the pin. -/
structure WsOut where
  ready : Bool
  pin : Bool
deriving DecidableEq, Repr

/-- Registers of `WS2812B`, lambdalib/cores/led/ws2812b.py 37-41 and the FSM state. -/
structure WsS where
  st : WsSt
  sreg : Nat
  cycs : Nat
  idx : Nat
  last : Bool
deriving DecidableEq, Repr

/-- Condition of the high part, ws2812b.py 67-68; `bit` is `sreg[width-1]` (38). -/
def wsHigh (p : WsTiming) (width : Nat) (s : WsS) : Bool :=
  (!s.sreg.testBit (width - 1) && decide (s.cycs < p.t0h)) || (s.sreg.testBit (width - 1) && decide (s.cycs < p.t1h))

/-- `inc` (ws2812b.py 42; 70, 74, 90). -/
def wsInc (p : WsTiming) (width : Nat) (s : WsS) : Bool :=
  match s.st with
  | .idle => false
  | .transmit => wsHigh p width s || decide (s.cycs < p.t)
  | .reset => true

/-- `WS2812B.elaborate`, lambdalib/cores/led/ws2812b.py 24-95. -/
def ws2812b (p : WsTiming) (width : Nat) : Circuit WsS WsIn WsOut where
  reset := ⟨.idle, 0, 0, 0, false⟩
  out s _ := { ready := s.st == .idle, pin := s.st == .transmit && wsHigh p width s }
  next s x :=
    let cycs := if wsInc p width s then truncRange (p.trst + 1) (s.cycs + 1) else 0
    match s.st with
    | .idle =>
      if x.valid then ⟨.transmit, x.data % 2 ^ width, cycs, 0, x.last⟩ else { s with cycs := cycs }
    | .transmit =>
      if wsHigh p width s then { s with cycs := cycs }
      else if s.cycs < p.t then { s with cycs := cycs }
      else if s.idx < width - 1 then
        { s with cycs := cycs, idx := truncRange width (s.idx + 1), sreg := 2 * s.sreg % 2 ^ width }
      else if s.last then { s with cycs := cycs, st := .reset }
      else { s with cycs := cycs, st := .idle }
    | .reset => { s with cycs := cycs, st := if s.cycs ≥ p.trst then .idle else .reset }

end Lambdalib
