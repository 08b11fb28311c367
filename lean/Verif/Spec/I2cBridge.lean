import Verif.Spec.I2cTxn
import Verif.Spec.I2cBus

/-! What transactions mean to an I2C device: the devices that the host library sees, when one device is on the wires. -/

namespace Lambdalib

/-- Data bytes of a write; the last one ends the packet. -/
def wrBeats : List (BitVec 8) → List (Beat (Bool × BitVec 8))
  | [] => []
  | d :: l => protoWr l.isEmpty d :: wrBeats l

/-- Bytes to read; the last one ends the packet. -/
def rdBeats : Nat → List (Beat (Bool × BitVec 8))
  | 0 => []
  | n + 1 => protoRd (n == 0) :: rdBeats n

/-- A transaction as a packet: address byte, then the data. -/
def txnBeats : BusTxn → List (Beat (Bool × BitVec 8))
  | .write a data => protoAddr (BitVec.ofNat 8 (2 * a)) data.isEmpty :: wrBeats data
  | .read a n => protoAddr (BitVec.ofNat 8 (2 * a + 1)) (n == 0) :: rdBeats n

/-- A packet is given to a device up to the first byte that is not acknowledged. Effect, and bytes read, or `none` if a byte
was not acknowledged. -/
def I2cDev.exec (D : I2cDev) (r : DevAbs × Bool) : List (Beat (Bool × BitVec 8)) → (DevAbs × Bool) × Option (List (BitVec 8))
  | [] => (r, some [])
  | b :: l =>
    if D.nak r b then (D.beat r b, none)
    else
      let x := D.exec (D.beat r b) l
      (x.1, x.2.map ((if b.payload.1 then [I2cDev.gives (D.opened r)] else []) ++ ·))

/-- The device after some transactions. -/
def I2cDev.state (D : I2cDev) (ts : List BusTxn) : DevAbs × Bool :=
  ts.foldl (fun r t => (D.exec r (txnBeats t)).1) (⟨[], .rest⟩, false)

/-- The device as the host library sees it. -/
def I2cDev.bus (D : I2cDev) : BusDevices := fun hist t => (D.exec (D.state hist) (txnBeats t)).2

/-- The device sends only directly after a read address, or after a byte sent that was acknowledged. -/
def I2cDev.Polite (D : I2cDev) : Prop :=
  ∀ log b, D.tx log = some b →
    (∃ l h, log = l ++ [.start, .wrote h true] ∧ h.getLsbD 0 = true) ∨ ∃ l b', log = l ++ [.sent b' true]

/-- Of the reads asked for by the host, exactly those of zero bytes are refused. -/
def ReadsFit (d : BusDevices) (q : List (BitVec 8)) : Prop :=
  ∀ p h l, (p ++ [h, l]) <+: q → (p.foldl (bridgeByte d) ⟨[], [], []⟩).pending = [] → h.getLsbD 0 = true →
    (d (p.foldl (bridgeByte d) ⟨[], [], []⟩).log (.read (h.toNat / 2) l.toNat) = none ↔ l = 0)

/-- Reads of zero bytes are refused. -/
def ReadsZero (d : BusDevices) (q : List (BitVec 8)) : Prop :=
  ∀ p h, (p ++ [h, 0]) <+: q → (p.foldl (bridgeByte d) ⟨[], [], []⟩).pending = [] → h.getLsbD 0 = true →
    d (p.foldl (bridgeByte d) ⟨[], [], []⟩).log (.read (h.toNat / 2) 0) = none

/-- The last thing asked for by the bytes `q` is a read of at least one byte, it is refused, and the host, which got `n` bytes, has
not got its status. -/
def Owes (d : BusDevices) (q : List (BitVec 8)) (n : Nat) : Prop :=
  ∃ p h l, q = p ++ [h, l] ∧ (p.foldl (bridgeByte d) ⟨[], [], []⟩).pending = [] ∧ h.getLsbD 0 = true ∧ l ≠ 0 ∧
    d (p.foldl (bridgeByte d) ⟨[], [], []⟩).log (.read (h.toNat / 2) l.toNat) = none ∧
    n < (q.foldl (bridgeByte d) ⟨[], [], []⟩).replies.length

/-- The bytes of the host end with a complete command. -/
def ProtoComplete (q : List (BitVec 8)) : Prop := ∃ rd, protoPhase q = .header rd

end Lambdalib
