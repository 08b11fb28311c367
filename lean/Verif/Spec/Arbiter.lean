/-! Vocabulary for round-robin arbitration. -/
namespace Lambdalib

/-- Cyclic distance from `a` forward to `b` among `n` positions. -/
def cdist (n a b : Nat) : Nat := if a ≤ b then b - a else b + n - a

/-- Whether a packet is open at the start of each cycle, given for each cycle whether a beat is
transferred and whether that beat carries `last`. -/
def openPacket (xfer last : Nat → Bool) : Nat → Bool
  | 0 => false
  | k + 1 => if xfer k then !last k else openPacket xfer last k

end Lambdalib
