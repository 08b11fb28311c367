import Verif.Spec.I2cDevice

/-! The TCA9548A I2C multiplexer after its data sheet: the byte that follows the address in a write is stored in the control
register; the channels it selects are connected from the stop condition on. -/

namespace Lambdalib

/-- What the chip takes the next byte for: not for it, an address, the control byte. -/
inductive MuxPh
  | off | addr | ctrl
deriving DecidableEq, Repr

/-- Control register and connected channels. -/
structure MuxChip where
  ph : MuxPh
  reg : BitVec 8
  channels : BitVec 8
deriving DecidableEq, Repr

/-- Effect of an event on the bus on the chip with address byte `a`. -/
def muxStep (a : BitVec 8) (c : MuxChip) : DevEv → MuxChip
  | .start => { c with ph := .addr }
  | .wrote d ack =>
    match c.ph with
    | .off => c
    | .addr => { c with ph := if d = a ∧ ack = true then .ctrl else .off }
    | .ctrl => if ack then { c with reg := d } else c
  | .sent _ _ => c
  | .stop => { c with ph := .off, channels := c.reg }

/-- The chip after a history of the bus, from an arbitrary state `r0` of its register. -/
def muxAfter (a r0 : BitVec 8) (log : List DevEv) : MuxChip := log.foldl (muxStep a) ⟨.off, r0, r0⟩

/-- The channels connected after a history of the bus. -/
def muxChannels (a r0 : BitVec 8) (log : List DevEv) : BitVec 8 := (muxAfter a r0 log).channels

/-- The devices on the bus include such a chip: its address is acknowledged, so is the control byte, and it does not send in a
write. -/
structure MuxOnBus (D : I2cDev) (a : BitVec 8) : Prop where
  ackAddr : ∀ L, D.ack (L ++ [.start]) a = true
  ackCtrl : ∀ L c, D.ack (L ++ [.start, .wrote a true]) c = true
  tx : ∀ L, D.tx (L ++ [.start, .wrote a true]) = none

end Lambdalib
