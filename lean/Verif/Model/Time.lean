import Verif.Spec.Circuit
import Verif.Model.Basic

/-! Models of `lambdalib/cores/time/timer.py` and `lambdalib/cores/time/clk.py`. -/

namespace Lambdalib

/-- `WaitTimer`, lambdalib/cores/time/timer.py 3-20. State: `count`, a `Signal(range(t+1), reset=t)`
(12); input `wait`; output `done` (13). -/
def waitTimer (t : Nat) : Circuit Nat Bool Bool where
  reset := t
  out count _ := count == 0
  next count wait :=
    let done := count == 0
    if wait then (if !done then truncRange (t + 1) (count - 1) else count) else t

/-- `max(self.ts)` (timer.py 33). -/
def maxList (ts : List Nat) : Nat := ts.foldl max 0

/-- `WaitNTimer`, lambdalib/cores/time/timer.py 22-47. Input bit `i` of `wait` is `wait i`
(only `i < len(ts)` exist). State `count` is a `Signal(range(max(ts)+1))` (33). -/
def waitNTimer (ts : List Nat) : Circuit Nat (Nat → Bool) Bool where
  reset := 0
  out count wait := (List.range ts.length).any fun i => wait i && count == ts.getD i 0
  next count wait :=
    let done := (List.range ts.length).any fun i => wait i && count == ts.getD i 0
    if (List.range ts.length).any wait then
      (if !done then truncRange (maxList ts + 1) (count + 1) else count)
    else 0

/-- Registers of `PulseClock`/`TuningClock`: 32-bit accumulator and `tick`. -/
structure PulseS where
  acc : Nat
  tick : Bool
deriving DecidableEq, Repr

/-- `Cat(acc, tick).eq(acc + tuning_word)` (clk.py 34, 51): the 33-bit sum is split. -/
def accStep (tw acc : Nat) : PulseS :=
  ⟨(acc + tw) % 2 ^ 32, (acc + tw) / 2 ^ 32 % 2 == 1⟩

/-- `PulseClock.elaborate`, lambdalib/cores/time/clk.py 25-37, for tuning word `tw`
(21). Input `rst`, output `o`. -/
def pulseClock (tw : Nat) : Circuit PulseS Bool Bool where
  reset := ⟨0, false⟩
  out s _ := s.tick
  next s rst := if rst then { s with acc := 2 ^ 31 } else accStep tw s.acc

/-- Registers of `TuningClock`. -/
structure TuningS where
  p : PulseS
  o : Bool
deriving DecidableEq, Repr

/-- `TuningClock.elaborate`, lambdalib/cores/time/clk.py 45-56. No input, output `o`. -/
def tuningClock (tw : Nat) : Circuit TuningS Unit Bool where
  reset := ⟨⟨0, false⟩, false⟩
  out s _ := s.o
  next s _ := ⟨accStep tw s.p.acc, if s.p.tick then !s.o else s.o⟩

/-- `int((target_clk / sys_clk_freq) * 2**32)` (clk.py 21) over exact rationals with integer
frequencies. -/
def pulseTuningWord (sys target : Nat) : Nat := target * 2 ^ 32 / sys

/-- `int((2 * target_clk / sys_clk_freq) * 2**32)` (clk.py 42) over exact rationals. -/
def tuningTuningWord (sys target : Nat) : Nat := 2 * target * 2 ^ 32 / sys

end Lambdalib
