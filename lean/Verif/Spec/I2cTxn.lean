import Verif.Spec.I2cDevice

/-! What a list of stream beats means to an I2C device. State: history and mode of the device, and whether a transaction is
open. -/

namespace Lambdalib

/-- The device when the beat is executed: a transaction is started unless one is open. -/
def I2cDev.opened (D : I2cDev) (r : DevAbs × Bool) : DevAbs := if r.2 then r.1 else D.cmd r.1 .start

/-- The byte written by the beat is not acknowledged. -/
def I2cDev.nak (D : I2cDev) (r : DevAbs × Bool) (b : Beat (Bool × BitVec 8)) : Bool :=
  !b.payload.1 && !D.acks (D.opened r) b.payload.2

/-- Effect of a beat; the transaction is stopped after a beat which is the last or was not acknowledged. -/
def I2cDev.beat (D : I2cDev) (r : DevAbs × Bool) (b : Beat (Bool × BitVec 8)) : DevAbs × Bool :=
  let A := D.cmd (D.opened r) (i2cBeatCmd b)
  if b.last || D.nak r b then (D.cmd A .stop, false) else (A, true)

/-- Effect of a list of beats, from power on. -/
def I2cDev.beats (D : I2cDev) (l : List (Beat (Bool × BitVec 8))) : DevAbs × Bool := l.foldl D.beat (⟨[], .rest⟩, false)

/-- The results of a list of beats: for each, whether it is an error. -/
def I2cDev.naks (D : I2cDev) (r : DevAbs × Bool) : List (Beat (Bool × BitVec 8)) → List Bool
  | [] => []
  | b :: l => D.nak r b :: D.naks (D.beat r b) l

/-- The bytes read by a list of beats, with `last` as in the beat. -/
def I2cDev.reads (D : I2cDev) (r : DevAbs × Bool) : List (Beat (Bool × BitVec 8)) → List (Beat (BitVec 8))
  | [] => []
  | b :: l => (if b.payload.1 then [⟨false, b.last, I2cDev.gives (D.opened r)⟩] else []) ++ D.reads (D.beat r b) l

/-- No packet ends when the device wants to send more. -/
def I2cDev.Fits (D : I2cDev) (l : List (Beat (Bool × BitVec 8))) : Prop :=
  ∀ p b q, l = p ++ b :: q → b.last = true →
    ∀ x, (D.cmd (D.opened (D.beats p)) (i2cBeatCmd b)).mode ≠ .send x

end Lambdalib
