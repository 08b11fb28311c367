import Verif.Spec.I2cProto

/-! Specification of the bridge as seen by the host library: a machine that executes complete commands. -/

namespace Lambdalib

/-- A transaction on the I2C bus: seven-bit device address and data, or number of bytes to read. -/
inductive BusTxn
  | write (addr : Nat) (data : List (BitVec 8))
  | read (addr : Nat) (len : Nat)
deriving DecidableEq, Repr

/-- The devices on the bus: the answer to a transaction after a history; `none` is "not acknowledged". -/
abbrev BusDevices := List BusTxn → BusTxn → Option (List (BitVec 8))

/-- Reads give as many bytes as requested, writes give none. -/
def BusDevices.Sized (d : BusDevices) : Prop :=
  ∀ h t l, d h t = some l → l.length = match t with | .write _ _ => 0 | .read _ n => n

/-- Bytes of an incomplete command, replies not yet fetched by the host, transactions executed. -/
structure BridgeS where
  pending : List (BitVec 8)
  replies : List (BitVec 8)
  log : List BusTxn
deriving DecidableEq, Repr

/-- The transaction asked for by a complete command. -/
def cmdTxn : List (BitVec 8) → BusTxn
  | [] => .write 0 []
  | [h] => .write (h.toNat / 2) []
  | h :: l :: data => if h.toNat % 2 = 1 then .read (h.toNat / 2) l.toNat else .write (h.toNat / 2) data

/-- The reply to an answer: status 1, or status 0 and the data. -/
def txnReply : Option (List (BitVec 8)) → List (BitVec 8)
  | none => [1]
  | some l => 0 :: l

/-- One byte arrives at the bridge. -/
def bridgeByte (d : BusDevices) (s : BridgeS) (b : BitVec 8) : BridgeS :=
  let p := s.pending ++ [b]
  match protoPhase p with
  | .header _ => ⟨[], s.replies ++ txnReply (d s.log (cmdTxn p)), s.log ++ [cmdTxn p]⟩
  | _ => { s with pending := p }

/-- The `n` low bytes of a register address, most significant first. -/
def beBytes (n : Nat) (v : Int) : List (BitVec 8) :=
  (List.range n).map fun k => BitVec.ofInt 8 (v / 256 ^ (n - 1 - k))

end Lambdalib
