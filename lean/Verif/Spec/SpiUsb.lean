import Verif.Spec.SpiSession
import Verif.Spec.UsbBulk

/-! Specification of the exchange of buffers with an SPI device over USB. -/

namespace Lambdalib

/-- The packets that come out of the OUT endpoint (that is, where `last` is) for a buffer that the host sends. The endpoint is luna's;
versions differ in whether `last` marks the end of every packet, or only of packets shorter than `size`, which end a transfer. The
second case is described for buffers that are no multiple of `size` only. -/
def usbOutPackets (perPacket : Bool) (size : Nat) (d : List Nat) : List (List Nat) :=
  if perPacket then usbPackets size false d else [d]

/-- The words that come out of the OUT endpoint for buffers sent one after the other. -/
def usbOutBeats (perPacket : Bool) (size : Nat) (ds : List (List Nat)) : List (Bool × Nat) :=
  ((ds.flatMap (usbOutPackets perPacket size)).map spiPacket).flatten

/-- The messages given to the IN endpoint, after the words `cur` of an open one: each ends with `last`. -/
def usbMessagesAfter (cur : List Nat) : List (Bool × Nat) → List (List Nat)
  | [] => []
  | (l, d) :: r => if l then (cur ++ [d]) :: usbMessagesAfter [] r else usbMessagesAfter (cur ++ [d]) r

def usbMessages (l : List (Bool × Nat)) : List (List Nat) := usbMessagesAfter [] l

/-- The packets that the IN endpoint sends for words without `last`: a packet whenever it has `size` bytes. -/
def usbFullPackets (size : Nat) (l : List Nat) : List (List Nat) :=
  (List.range (l.length / size)).map fun k => (l.drop (k * size)).take size

/-- What a device answers in selections with the words `l`, after the selections `before`. -/
def SpiDevice.answers (D : SpiDevice) (W nb : Nat) (before : List (List Nat)) (l : List (List Nat)) : List (List Nat) :=
  l.zipIdx.map fun p =>
    spiAnswer W nb ((D.session (before ++ (l.take p.2).map (spiSent W nb)) (spiSent W nb p.1)).map Prod.snd)

/-- What a device answers to buffers sent one after the other, each in the selections of its packets. -/
def SpiDevice.buffers (D : SpiDevice) (nb : Nat) (perPacket : Bool) (size : Nat) :
    List (List Nat) → List (List Nat) → List (List Nat)
  | _, [] => []
  | before, d :: ds =>
    (D.answers 8 nb before (usbOutPackets perPacket size d)).flatten ::
      D.buffers nb perPacket size (before ++ (usbOutPackets perPacket size d).map (spiSent 8 nb)) ds

end Lambdalib
