import Verif.Model.I2cBus
import Verif.Spec.UsbBulk

/-! Model of the endpoints of `lambdalib/software/usb/device.py`, and the I2C library on top of them. -/

namespace Lambdalib

inductive UsbErr | overflow
deriving DecidableEq, Repr

/-- `USBEndpoint.recv`, device.py 28-32 and 46-64. `none`: the call does not return. A synchronous read that times out
gives an empty list (53-54), other errors are raised. An asynchronous read has no timeout and returns the received part of
the buffer whatever the status of the transfer is (28-32, 62-64). -/
def usbRecv {β : Type} (asynchronous : Bool) (size : Nat) (length : Option Nat) (packets : List (List β)) :
    Option (Except UsbErr (List β)) × List (List β) :=
  let length := match length with
    | none => size
    | some n => n
  let xfr := bulkIn size length packets
  if !asynchronous then
    (match xfr.1 with
      | .completed => some (.ok xfr.2.1)
      | .timedOut => some (.ok [])
      | .overflow => some (.error .overflow), xfr.2.2)
  else
    (match xfr.1 with
      | .timedOut => none
      | _ => some (.ok xfr.2.1), xfr.2.2)

/-- `USBEndpoint.exchange`, device.py 66-68, with a device that receives a buffer (`send`, 34-44) and then sends packets. -/
def usbExchange {β σ : Type} (asynchronous : Bool) (size : Nat) (device : List β → σ → σ × List (List β))
    (data : List β) (s : σ) (packets : List (List β)) : Option (Except UsbErr (List β)) × σ × List (List β) :=
  let d := device data s
  let r := usbRecv asynchronous size (some data.length) (packets ++ d.2)
  (r.1, d.1, r.2)

/-- The I2C bridge behind an endpoint: bytes of an incomplete command, packets not yet fetched, transactions executed, and
whether a read of the host failed to return a value. -/
structure UsbBusS where
  pending : List (BitVec 8)
  packets : List (List (BitVec 8))
  log : List BusTxn
  failed : Bool
deriving DecidableEq, Repr

/-- One byte arrives at the bridge; a reply is sent in messages cut into packets. -/
def usbBridgeByte (size : Nat) (zlp : Bool) (d : BusDevices) (s : UsbBusS) (b : BitVec 8) : UsbBusS :=
  let p := s.pending ++ [b]
  match protoPhase p with
  | .header _ =>
    { s with
      pending := []
      packets := s.packets ++ (replyMessages (d s.log (cmdTxn p))).flatMap (usbPackets size zlp)
      log := s.log ++ [cmdTxn p] }
  | _ => { s with pending := p }

/-- An endpoint as the device of the host library: `write` and `read` are `send` and `recv` (device.py 21-22). -/
def usbBusDev (asynchronous : Bool) (size : Nat) (zlp : Bool) (d : BusDevices) : PyDev UsbBusS where
  write l s := l.foldl (usbBridgeByte size zlp d) s
  read n s :=
    let r := usbRecv asynchronous size (some n) s.packets
    match r.1 with
    | some (.ok l) => (l, { s with packets := r.2 })
    | _ => ([], { s with packets := r.2, failed := true })

end Lambdalib
