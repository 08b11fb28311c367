import Verif.Model.UsbGenericX
import Verif.Spec.CrossDomain

/-! Specification vocabulary for the generic USB device between two clocks. -/

namespace Lambdalib

section
variable {σ : Type} (c : Circuit σ UsbDevXIn UsbDevOut) (i : Nat → UsbDevXIn)

/-- Bytes, with the ends of packets, that luna's OUT endpoint `j` has handed over before the instant `n`: at edges of `usb`. -/
def usbXHostSent (j n : Nat) : List (BitVec 8 × Bool) :=
  (transferred (fun t => ((i t).dev.out j).1 && (i t).edgeUsb) (fun t => (c.wave i t).outReady j) (fun t => ((i t).dev.out j).2) n).map
    fun b => (b.payload, b.last)

/-- Bytes that the user has taken from `sources[k]`: at edges of `sync`. -/
def usbXUserGot (k n : Nat) : List (BitVec 8 × Bool) :=
  (transferred (fun t => ((c.wave i t).source k).1) (fun t => (i t).dev.srcReady k && (i t).edgeSync) (fun t => ((c.wave i t).source k).2) n).map
    fun b => (b.payload, b.last)

/-- Bytes that the user has put into `sinks[k]`: at edges of `sync`. -/
def usbXUserSent (k n : Nat) : List (BitVec 8 × Bool) :=
  (transferred (fun t => ((i t).dev.sink k).1 && (i t).edgeSync) (fun t => (c.wave i t).sinkReady k) (fun t => ((i t).dev.sink k).2) n).map
    fun b => (b.payload, b.last)

/-- Bytes that luna's IN endpoint `j` has taken: at edges of `usb`. -/
def usbXHostGot (j n : Nat) : List (BitVec 8 × Bool) :=
  (transferred (fun t => ((c.wave i t).inp j).1) (fun t => (i t).dev.inReady j && (i t).edgeUsb) (fun t => ((c.wave i t).inp j).2) n).map
    fun b => (b.payload, b.last)

end

/-- The outputs of the FIFO depend on its registers only. -/
def FifoRegistered {σ : Type} {w : Nat} (f : Circuit σ (FifoIn w) (FifoOut w)) : Prop := ∀ s x y, f.out s x = f.out s y

end Lambdalib
