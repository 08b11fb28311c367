import Verif.Spec.Spi
import Verif.Spec.SpiSlave

/-! Specification of transfers with an SPI device: what the device sees on the pins, and what an exchange of a packet with it is. -/

namespace Lambdalib

/-- A new selection. -/
def spiSelect (fall : Bool) (h : List (List (Nat × Nat))) : List (List (Nat × Nat)) := if fall then h ++ [[]] else h

/-- What a device on the pins has seen before cycle `n`: one entry for each selection (chip select going low), with the data pins
at the rising clock edges during the selection: driven by the master, and driven by the device. Clock edges while the chip is not
selected do not count. -/
def spiSessions (csN clk : Nat → Bool) (dq : Nat → Nat × Nat) : Nat → List (List (Nat × Nat))
  | 0 => []
  | n + 1 =>
    let h := spiSelect (!csN n && prevOf true csN n) (spiSessions csN clk dq n)
    if !csN n && edgeAt true clk n then h.dropLast ++ [h.getLastD [] ++ [dq n]] else h

/-- A packet as a stream: `last` with the last word only. -/
def spiPacket : List Nat → List (Bool × Nat)
  | [] => []
  | [d] => [(true, d)]
  | d :: e :: l => (false, d) :: spiPacket (e :: l)

/-- The groups of `nb` bits sent for words of `W` bits. -/
def spiSent (W nb : Nat) (p : List Nat) : List Nat := p.flatMap fun d => spiOuts ⟨d, W, nb, true⟩

/-- The words of `W` bits in what was on the data pins at the clock edges, `nb` bits at each. -/
def spiAnswer (W nb : Nat) (l : List Nat) : List Nat :=
  (List.range (l.length / (W / nb))).map fun j => spiIns nb ((l.drop (j * (W / nb))).take (W / nb))

/-- A device: what it drives at a clock edge, given what the master sent in earlier selections and what it sent in this selection
before. -/
abbrev SpiDevice := List (List Nat) → List Nat → Nat

/-- A selection in which the master sends `outs`, after the selections `before`. -/
def SpiDevice.session (D : SpiDevice) (before : List (List Nat)) (outs : List Nat) : List (Nat × Nat) :=
  outs.zipIdx.map fun p => (p.1, D before (outs.take p.2))

def SpiDevice.sessions (D : SpiDevice) (l : List (List Nat)) : List (List (Nat × Nat)) :=
  l.zipIdx.map fun p => D.session (l.take p.2) p.1

/-- The device is on the pins: at each clock edge during a selection before cycle `n` it drives what it is to drive. -/
def SpiDevice.On (D : SpiDevice) (csN clk : Nat → Bool) (dq : Nat → Nat × Nat) (n : Nat) : Prop :=
  ∀ k < n, csN k = false → edgeAt true clk k = true →
    let h := spiSelect (!csN k && prevOf true csN k) (spiSessions csN clk dq k)
    (dq k).2 = D (h.dropLast.map (List.map Prod.fst)) ((h.getLastD []).map Prod.fst)

end Lambdalib
