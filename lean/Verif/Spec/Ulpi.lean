import Verif.Spec.SpiSlave

/-! Specification vocabulary for the ULPI link. -/

namespace Lambdalib

/-- What the PHY sends outside turnaround cycles: packet bytes and RX CMD bytes. -/
inductive RxItem
  | data (b : Nat)
  | cmd (v : Nat)
deriving DecidableEq, Repr

/-- An RX CMD that tells that no packet is being received (event field, bits 4 and 5, zero). -/
def RxItem.inactive : RxItem → Bool
  | .data _ => false
  | .cmd v => !v.testBit 4 && !v.testBit 5

/-- An RX CMD during a packet. -/
def RxItem.active : RxItem → Bool
  | .data _ => false
  | .cmd v => v.testBit 4 || v.testBit 5

/-- The bytes of the packets with their `last` marks: a byte is known to be last when the next item that is not an RX
CMD of an active packet tells that the packet is over; a byte with no such item yet is not delivered. -/
def rxPackets : List RxItem → List (Nat × Bool)
  | [] => []
  | .cmd _ :: l => rxPackets l
  | .data b :: l =>
    match l.find? (fun e => !e.active) with
    | none => []
    | some e => (b, e.inactive) :: rxPackets l

/-- The bytes put on the bus for packets: the first byte of each packet is the transmit command `0100` with the
packet identifier in its low nibble, the others are unchanged. `start` tells that a packet starts. -/
def txPackets (start : Bool) : List (Nat × Bool) → List (Nat × Bool)
  | [] => []
  | (b, l) :: r => (if start then 0x40 + b % 16 else b, l) :: txPackets l r

/-- The bytes sampled by the link: cycles in which the PHY drives the bus and drove it in the cycle before. -/
def rxSampled (dir nxt : Nat → Bool) (dataI : Nat → Nat) : Nat → List RxItem
  | 0 => []
  | n + 1 => rxSampled dir nxt dataI n ++
      (if prevOf false dir n && dir n then [if nxt n then .data (dataI n) else .cmd (dataI n)] else [])

/-- What happens during a register dump: a register read command is taken by the PHY, or a byte is sampled. -/
inductive DumpEv
  | command (b : Nat)
  | byte (b : Nat)
deriving DecidableEq, Repr

/-- The answer to each command is the first byte sampled after it. -/
def dumpAnswers (waiting : Bool) : List DumpEv → List Nat
  | [] => []
  | .command _ :: l => dumpAnswers true l
  | .byte b :: l => if waiting then b :: dumpAnswers false l else dumpAnswers false l

end Lambdalib
