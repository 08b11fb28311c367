import Verif.Model.Layout
import Verif.Model.Ulpi

/-! Model of the endpoint adapters of `lambdalib/cores/usb/endpoint_cdc.py` and of the receive path of `DirectULPI`. -/

namespace Lambdalib

/-- The four assignments of the adapters without FIFO, lambdalib/cores/usb/endpoint_cdc.py 34-39
(`USBSyncStreamOutEndpoint`: from the luna stream to `source`) and 82-87 (`USBSyncStreamInEndpoint`: from `sink` to the luna
stream, which has `first` too but is not given it). The luna endpoint itself is outside /repo. -/
def usbSyncAdapter : Circuit Unit (SIn (BitVec 8)) (SOut (BitVec 8)) where
  reset := ()
  out _ x := { ready := x.ready, valid := x.valid, beat := ⟨false, x.beat.last, x.beat.payload⟩ }
  next _ _ := ()

/-- What the adapters with FIFO put into it: `first` is not connected (endpoint_cdc.py 62-67); for
`USBAsyncStreamInEndpoint` (110-115) it is not read back. -/
def usbAsyncIn (x : SIn (BitVec 8)) : SIn (BitVec 8) := { x with beat := ⟨false, x.beat.last, x.beat.payload⟩ }

/-- `USBAsyncStreamOutEndpoint`, endpoint_cdc.py 44-69, around any FIFO. -/
def usbAsyncOutAdapter {σ : Type} (f : Circuit σ (FifoIn (1 + (1 + 8))) (FifoOut (1 + (1 + 8)))) :
    Circuit σ (SIn (BitVec 8)) (SOut (BitVec 8)) where
  reset := f.reset
  out s x := (fifoWrapper f).out s (usbAsyncIn x)
  next s x := (fifoWrapper f).next s (usbAsyncIn x)

/-- `USBAsyncStreamInEndpoint`, endpoint_cdc.py 92-117, around any FIFO: the beat on `sink` goes into the FIFO as it is,
the luna stream gets data and `last`. -/
def usbAsyncInAdapter {σ : Type} (f : Circuit σ (FifoIn (1 + (1 + 8))) (FifoOut (1 + (1 + 8)))) :
    Circuit σ (SIn (BitVec 8)) (SOut (BitVec 8)) where
  reset := f.reset
  out s x :=
    let o := (fifoWrapper f).out s x
    { o with beat := ⟨false, o.beat.last, o.beat.payload⟩ }
  next s x := (fifoWrapper f).next s x

/-- The beat the splitter gives to the receive FIFO (ulpi.py 106). -/
def ulpiRxIn (s : USplitS) (ready : Bool) : SIn (BitVec 8) :=
  let o := splitterUlpi.out s ⟨false, 0, false⟩
  ⟨o.1, ⟨false, o.2.2, BitVec.ofNat 8 o.2.1⟩, ready⟩

/-- Receive path of `DirectULPI` in `LINK-UP`, ulpi.py 94, 97-98, 106-107: splitter, then the receive FIFO. Input: the
splitter's sink and `source.ready`. -/
def ulpiRx {σ : Type} (f : Circuit σ (FifoIn (1 + (1 + 8))) (FifoOut (1 + (1 + 8)))) :
    Circuit (USplitS × σ) (USplitIn × Bool) (SOut (BitVec 8)) where
  reset := (splitterUlpi.reset, f.reset)
  out s x := (fifoWrapper f).out s.2 (ulpiRxIn s.1 x.2)
  next s x := (splitterUlpi.next s.1 x.1, (fifoWrapper f).next s.2 (ulpiRxIn s.1 x.2))

end Lambdalib
