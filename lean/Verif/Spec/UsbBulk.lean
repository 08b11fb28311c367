import Verif.Spec.I2cBus

/-! Specification of bulk IN transfers: how the device cuts messages into packets and when a transfer of the host ends.
This is the environment of `software/usb/device.py`; neither luna nor libusb is part of the repository. -/

namespace Lambdalib

/-- The first `k` full packets of a message and what remains. With `zlp` the remainder is sent even if it is empty. -/
def usbCut {β : Type} (size : Nat) (zlp : Bool) : Nat → List β → List (List β)
  | 0, m => if m.isEmpty && !zlp then [] else [m]
  | k + 1, m => m.take size :: usbCut size zlp k (m.drop size)

/-- The packets of a message: packets of `size` bytes and a shorter one. With `zlp` a message that is a multiple of `size`
is ended by a packet of no bytes, without it the last packet is a full one. -/
def usbPackets {β : Type} (size : Nat) (zlp : Bool) (m : List β) : List (List β) :=
  if m.isEmpty then [] else usbCut size zlp (m.length / size) m

inductive XferStatus | completed | overflow | timedOut
deriving DecidableEq, Repr

/-- A bulk IN transfer with a buffer of `length` bytes when the device sends the packets of the list and then nothing: it
ends when the buffer is full or after a packet shorter than `size`. A packet that does not fit ends it with an overflow and
is lost. Result: status, received bytes, packets not yet fetched. -/
def bulkIn {β : Type} (size : Nat) : Nat → List (List β) → XferStatus × List β × List (List β)
  | _, [] => (.timedOut, [], [])
  | length, p :: ps =>
    if length < p.length then (.overflow, [], ps)
    else if p.length < size ∨ p.length = length then (.completed, p, ps)
    else
      let r := bulkIn size (length - p.length) ps
      (r.1, p ++ r.2.1, r.2.2)

/-- The messages in which the I2C bridge sends a reply: `last` is set on the status byte and on the last byte of the data
(C36). -/
def replyMessages : Option (List (BitVec 8)) → List (List (BitVec 8))
  | none => [[1]]
  | some [] => [[0]]
  | some (b :: l) => [[0], b :: l]

end Lambdalib
