import Verif.Model.UsbGeneric

/-! Model of `USBGenericDevice` of `lambdalib/cores/usb/generic_device.py` with `with_cdc=True` between two clocks: that of luna's device
(`usb`) and that of the user (`sync`). Time is a sequence of instants; at each of them either clock may have an edge. -/

namespace Lambdalib

/-- Inputs at an instant: whether the clocks `usb` and `sync` have an edge, luna's side (which belongs to `usb`) and the user's side
(which belongs to `sync`). -/
structure UsbDevXIn where
  edgeUsb : Bool
  edgeSync : Bool
  dev : UsbDevIn

/-- What the FIFOs of the endpoints do at an instant: `USBAsyncStreamOutEndpoint` writes at edges of `usb` and reads at edges of `sync`
(endpoint_cdc.py 45, 49-52), `USBAsyncStreamInEndpoint` the other way round (93, 97-100); the device gives no other domains
(generic_device.py 185-199). -/
def usbGated (x : UsbDevXIn) : UsbDevIn where
  out j := ((x.dev.out j).1 && x.edgeUsb, (x.dev.out j).2)
  inReady j := x.dev.inReady j && x.edgeUsb
  sink k := ((x.dev.sink k).1 && x.edgeSync, (x.dev.sink k).2)
  srcReady k := x.dev.srcReady k && x.edgeSync

/-- The streams and activity signals of `elaborate`, generic_device.py 177-213, with `with_cdc` (178-179): the signals are combinational,
the FIFOs `fo` and `fi` of the OUT and IN endpoints move at the edges of their clocks. -/
def usbGenericX {σ τ : Type} (fo : Circuit σ (FifoIn (1 + (1 + 8))) (FifoOut (1 + (1 + 8))))
    (fi : Circuit τ (FifoIn (1 + (1 + 8))) (FifoOut (1 + (1 + 8)))) (sizes : List (Nat × Nat)) :
    Circuit ((UsbEp → σ) × (UsbEp → τ)) UsbDevXIn UsbDevOut where
  reset := (usbGeneric (usbAsyncOutAdapter fo) (usbAsyncInAdapter fi) sizes).reset
  out s x := (usbGeneric (usbAsyncOutAdapter fo) (usbAsyncInAdapter fi) sizes).out s x.dev
  next s x := (usbGeneric (usbAsyncOutAdapter fo) (usbAsyncInAdapter fi) sizes).next s (usbGated x)

end Lambdalib
