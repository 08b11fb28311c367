import Verif.Model.I2cWire
import Verif.Spec.I2c

/-! Specification of what is connected to an I2C bus.

A target (or several of them taken together) is a machine which reacts to the edges of SCL and to start and stop
conditions, and which may pull SDA low, and may hold SCL low after SCL was low (clock stretching). The lines are pulled up
and wired: a line is high when nobody pulls it low. -/

namespace Lambdalib

/-- Reactions of a target, and whether it releases SDA. -/
structure I2cTarget (τ : Type) where
  init : τ
  fall : τ → τ
  rise : τ → Bool → τ
  start : τ → τ
  stop : τ → τ
  sda : τ → Bool

/-- The rules of the bus for targets: SDA is released at power on and after a start or stop condition, and does not change
at a rising edge of SCL. -/
structure I2cTarget.Conforming {τ : Type} (T : I2cTarget τ) : Prop where
  init : T.sda T.init = true
  rise : ∀ t v, T.sda (T.rise t v) = T.sda t
  start : ∀ t, T.sda (T.start t) = true
  stop : ∀ t, T.sda (T.stop t) = true

/-- The target sees the levels of the lines change from `scl0`, `sda0` to `scl`, `sda`. -/
def I2cTarget.see {τ : Type} (T : I2cTarget τ) (t : τ) (scl0 sda0 scl sda : Bool) : τ :=
  if !scl0 && scl then T.rise t sda
  else if scl0 && !scl then T.fall t
  else if scl && sda0 && !sda then T.start t
  else if scl && !sda0 && sda then T.stop t
  else t

/-- The level a pad leaves on a pulled up line. -/
def PadOut.level (p : PadOut) : Bool := !p.oe || p.o

/-- The bus driver, the target, and the levels of the lines in the previous cycle. -/
structure I2cBusS (τ : Type) where
  drv : I2cDrvS
  tgt : τ
  scl : Bool
  sda : Bool

section
variable {τ : Type} (T : I2cTarget τ) (bidir : Bool)

/-- Level of SCL: pulled low by the pad, or held low by the target (`hold`) when it was low already. -/
def i2cLineScl (b : I2cBusS τ) (x : I2cDrvIn) (hold : Bool) : Bool :=
  ((i2cBusDriver bidir).out b.drv x).sclPad.level && !(hold && !b.scl)

/-- Level of SDA: pulled low by the pad or by the target. -/
def i2cLineSda (b : I2cBusS τ) (x : I2cDrvIn) : Bool :=
  ((i2cBusDriver bidir).out b.drv x).sdaPad.level && T.sda b.tgt

/-- The bus over time: driver and target see the lines, `sclO` and `sdaO` are what the initiator asks for. -/
def i2cBusRun (sclO sdaO hold : Nat → Bool) : Nat → I2cBusS τ
  | 0 => ⟨(i2cBusDriver bidir).reset, T.init, true, true⟩
  | n + 1 =>
    let b := i2cBusRun sclO sdaO hold n
    let x : I2cDrvIn := ⟨sclO n, sdaO n, true, true⟩
    let scl := i2cLineScl bidir b x (hold n)
    let sda := i2cLineSda T bidir b x
    ⟨(i2cBusDriver bidir).next b.drv ⟨sclO n, sdaO n, scl, sda⟩, T.see b.tgt b.scl b.sda scl sda, scl, sda⟩

/-! ### What a target is told -/

/-- One clock pulse: SCL falls, the initiator sets SDA to `m`, SCL rises. -/
def I2cTarget.pulse (t : τ) (m : Bool) : τ := T.rise (T.fall t) (m && T.sda (T.fall t))

/-- Clock pulses, one per bit of the initiator. -/
def I2cTarget.pulses (t : τ) (ms : List Bool) : τ := ms.foldl T.pulse t

/-- Level of SDA in the next clock pulse when the initiator releases SDA. -/
def I2cTarget.offers (t : τ) : Bool := T.sda (T.fall t)

/-- Effect of a command on the target; the flag tells whether the initiator releases SDA between commands. A start or stop
condition comes at once, or after one clock pulse. -/
inductive I2cTarget.Cmd : τ × Bool → I2cCmd → τ × Bool → Prop
  | startNow (t) : Cmd (t, true) .start (T.start t, false)
  | startPulse (t m) : Cmd (t, m) .start (T.start (T.pulse t true), false)
  | stopNow (t) : Cmd (t, false) .stop (T.stop t, true)
  | stopPulse (t) : Cmd (t, true) .stop (T.stop (T.pulse t false), true)
  | write (t m d) : Cmd (t, m) (.write d) (T.pulses t (msbBits d 8 ++ [true]), true)
  | read (t m a) : Cmd (t, m) (.read a) (T.pulses t (List.replicate 8 true ++ [!a]), !a)

/-- Effect of a sequence of commands on the target. -/
inductive I2cTarget.Cmds : List I2cCmd → τ × Bool → Prop
  | nil : Cmds [] (T.init, true)
  | snoc {L x c y} : Cmds L x → I2cTarget.Cmd T x c y → Cmds (L ++ [c]) y

/-- A command that the bus rules allow: a start or stop only when the target lets SDA go high, and no start directly after a
start. -/
def I2cTarget.Allowed (L : List I2cCmd) (t : τ) (m : Bool) : I2cCmd → Prop
  | .start => L.getLast? ≠ some .start ∧ T.offers t = true
  | .stop => if m then T.offers t = true else T.sda t = true
  | _ => True

end

end Lambdalib
