import Verif.Model.Basic

/-! Model of `lambdalib/cores/usb/generic_device.py` (endpoints) and `lambdalib/software/usb/device.py` (choice of the
device). -/

namespace Lambdalib

/-- `USBGenericDevice.__init__`: sizes (IN, OUT) of the endpoint pairs, generic_device.py 50-60. -/
def usbSizes (hasDn : Bool) (maxPacket : Option Nat) (pairs : Nat) (sizes : Option (List (Nat × Nat))) :
    List (Nat × Nat) :=
  let mp := match maxPacket with
    | none => if hasDn then 64 else 512
    | some m => m
  match sizes with
  | none => (List.range pairs).map fun _ => (mp, mp)
  | some l => l

/-- `create_descriptors`, generic_device.py 108-117: address and packet size of the endpoint descriptors, in order;
`k` is the loop counter. -/
def usbDescriptors (k : Nat) : List (Nat × Nat) → List (Nat × Nat)
  | [] => []
  | (imax, omax) :: l =>
    (if omax != 0 then [(1 + k, omax)] else []) ++ (if imax != 0 then [(0x80 ||| (1 + k), imax)] else []) ++
      usbDescriptors (k + 1) l

/-- An endpoint added to the device: direction, number, packet size, and index of the stream it is connected to. -/
structure UsbEp where
  isIn : Bool
  number : Nat
  size : Nat
  stream : Nat
deriving DecidableEq, Repr

/-- `elaborate`, generic_device.py 183-201. -/
def usbEndpoints (k : Nat) : List (Nat × Nat) → List UsbEp
  | [] => []
  | (i, o) :: l =>
    (if o != 0 then [⟨false, 1 + k, o, k⟩] else []) ++ (if i != 0 then [⟨true, 1 + k, i, k⟩] else []) ++
      usbEndpoints (k + 1) l

/-- `USBDevice.__init__`, software/usb/device.py 81-93: loop over the device list (vendor, product); `index` is the loop
variable. The result is the position in the list. -/
def usbOpen (vid pid idx : Nat) : Nat → Nat → List (Nat × Nat) → Option Nat
  | _, _, [] => none
  | index, pos, (v, p) :: l =>
    if v == vid && p == pid then
      if index == idx then some pos else usbOpen vid pid idx (index + 1) (pos + 1) l
    else usbOpen vid pid idx index (pos + 1) l

end Lambdalib
