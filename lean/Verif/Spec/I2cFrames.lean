import Verif.Spec.I2cHost
import Verif.Spec.UsbBulk

/-! Replies of the I2C bridge as messages, and the packets in which a bulk IN endpoint sends them. -/

namespace Lambdalib

/-- The bytes of a message with the flag `last`. -/
def flagMsg : List (BitVec 8) → List (Bool × BitVec 8)
  | [] => []
  | b :: l => (l.isEmpty, b) :: flagMsg l

/-- The bridge: bytes of an incomplete command, messages not yet fetched, transactions executed. -/
structure FrameS where
  pending : List (BitVec 8)
  msgs : List (List (BitVec 8))
  log : List BusTxn

/-- One byte arrives at the bridge. -/
def frameByte (d : BusDevices) (s : FrameS) (b : BitVec 8) : FrameS :=
  let p := s.pending ++ [b]
  match protoPhase p with
  | .header _ => ⟨[], s.msgs ++ replyMessages (d s.log (cmdTxn p)), s.log ++ [cmdTxn p]⟩
  | _ => { s with pending := p }

/-- Every read of a program asks for exactly the next message, and its length has the property `ok`. -/
def PyProg.Framed {α : Type} (ok : Nat → Prop) (d : BusDevices) : PyProg α → FrameS → Prop
  | .ret _, _ => True
  | .write l k, s => k.Framed ok d (l.foldl (frameByte d) s)
  | .read n k, s => ok n ∧ ∃ m ms, s.msgs = m :: ms ∧ m.length = n ∧ (k m).Framed ok d { s with msgs := ms }

/-- A bulk IN endpoint takes a byte: packets ready for the host, and bytes of the packet that is being filled. A packet is sent when it
is full or when a message ends; with `zlp` an empty packet follows if the last packet of a message is full. -/
def usbIn (size : Nat) (zlp : Bool) (s : List (List (BitVec 8)) × List (BitVec 8)) (x : Bool × BitVec 8) :
    List (List (BitVec 8)) × List (BitVec 8) :=
  let c := s.2 ++ [x.2]
  if c.length = size then (s.1 ++ [c] ++ (if x.1 && zlp then [[]] else []), [])
  else if x.1 then (s.1 ++ [c], []) else (s.1, c)

end Lambdalib
