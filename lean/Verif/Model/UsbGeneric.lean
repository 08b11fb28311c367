import Verif.Model.UsbDevice
import Verif.Model.UsbEp

/-! Model of `USBGenericDevice` of `lambdalib/cores/usb/generic_device.py`: attributes, request handlers, and the streams between luna's
endpoints and the user. luna's device, the endpoint cores and the descriptors' contents are outside. -/

namespace Lambdalib

/-- A stream attribute of the device: `isSink`, index into `sinks` or `sources`. -/
structure UsbAttr where
  isSink : Bool
  index : Nat
deriving DecidableEq, Repr

/-- The attributes set for convenience, in order, generic_device.py 76-82: name and stream. -/
def usbAttrs (pairs : Nat) : List (String × UsbAttr) :=
  if pairs == 1 then [("sink", ⟨true, 0⟩), ("source", ⟨false, 0⟩)]
  else (List.range pairs).flatMap fun i => [("sink_" ++ toString i, ⟨true, i⟩), ("source_" ++ toString i, ⟨false, i⟩)]

/-- `getattr` of an object after these `setattr`: the last one counts. -/
def usbGetAttr (pairs : Nat) (name : String) : Option UsbAttr :=
  ((usbAttrs pairs).reverse.find? fun a => a.1 == name).map Prod.snd

/-- `with_microsoft_os_1_0`, generic_device.py 36-37. -/
inductive UsbMsft
  | flag (b : Bool)
  | list (l : List Nat)
deriving DecidableEq, Repr

/-- Whether `if self.with_microsoft_os_1_0` (164) holds: an empty list is false. -/
def UsbMsft.truthy : UsbMsft → Bool
  | .flag b => b
  | .list l => !l.isEmpty

/-- A request handler of the control endpoint: one of the user's, or that for the Microsoft descriptors with the interfaces declared
compatible. -/
inductive UsbHandler
  | user (id : Nat)
  | msft (interfaces : List Nat)
deriving DecidableEq, Repr

/-- `add_microsoft_os_1_0`, generic_device.py 121-147, on the handlers added before: the interfaces (129-130) and the handler (146-147). -/
def usbAddMsft (m : UsbMsft) (handlers : List UsbHandler) : List UsbHandler :=
  let l := match m with
    | .flag _ => [0]
    | .list l => l
  handlers ++ [.msft l]

/-- The request handlers given to the control endpoint, in order: `elaborate`, generic_device.py 163-175. `user` are those added with
`add_control_ep_handler` (149-150). -/
def usbHandlers (m : UsbMsft) (user : List Nat) : List UsbHandler :=
  let handlers := user.map .user
  if m.truthy then usbAddMsft m handlers else handlers

/-- Inputs of the device in one cycle: the streams of luna's OUT endpoints by endpoint number, `ready` of luna's IN endpoints by endpoint
number, and the user's side of `sinks` and `sources` by index. -/
structure UsbDevIn where
  out : Nat → Bool × Beat (BitVec 8)
  inReady : Nat → Bool
  sink : Nat → Bool × Beat (BitVec 8)
  srcReady : Nat → Bool

/-- Outputs of the device in one cycle. -/
structure UsbDevOut where
  outReady : Nat → Bool
  inp : Nat → Bool × Beat (BitVec 8)
  sinkReady : Nat → Bool
  source : Nat → Bool × Beat (BitVec 8)
  txActivity : Nat → Bool
  rxActivity : Nat → Bool

/-- The endpoint connected to `sources[k]` (not `isIn`) or `sinks[k]` (`isIn`). -/
def usbEpOf (sizes : List (Nat × Nat)) (isIn : Bool) (k : Nat) : Option UsbEp :=
  (usbEndpoints 0 sizes).find? fun e => e.isIn == isIn && e.stream == k

/-- The endpoint with a number. -/
def usbEpNum (sizes : List (Nat × Nat)) (isIn : Bool) (j : Nat) : Option UsbEp :=
  (usbEndpoints 0 sizes).find? fun e => e.isIn == isIn && e.number == j

section
variable {σ τ : Type} (ao : Circuit σ (SIn (BitVec 8)) (SOut (BitVec 8))) (ai : Circuit τ (SIn (BitVec 8)) (SOut (BitVec 8)))

/-- Input of the adapter of an OUT endpoint: luna's stream (endpoint_cdc.py 34-39, 62-67) and
`stream_out_ep.source.connect(self.sources[k])` (generic_device.py 190). -/
def usbOutIn (e : UsbEp) (x : UsbDevIn) : SIn (BitVec 8) := ⟨(x.out e.number).1, (x.out e.number).2, x.srcReady e.stream⟩

/-- Input of the adapter of an IN endpoint: `self.sinks[k].connect(stream_in_ep.sink)` (generic_device.py 200) and luna's stream
(endpoint_cdc.py 82-87, 110-115). -/
def usbInIn (e : UsbEp) (x : UsbDevIn) : SIn (BitVec 8) := ⟨(x.sink e.stream).1, (x.sink e.stream).2, x.inReady e.number⟩

/-- `valid` and beat on `sources[k]`: without endpoint, the initial value of signals that nothing drives. -/
def usbSource (sizes : List (Nat × Nat)) (s : UsbEp → σ) (x : UsbDevIn) (k : Nat) : Bool × Beat (BitVec 8) :=
  match usbEpOf sizes false k with
  | some e => ((ao.out (s e) (usbOutIn e x)).valid, (ao.out (s e) (usbOutIn e x)).beat)
  | none => (false, ⟨false, false, 0⟩)

/-- `ready` on `sinks[k]`: without endpoint, the initial value of a signal that nothing drives. -/
def usbSinkReady (sizes : List (Nat × Nat)) (s : UsbEp → τ) (x : UsbDevIn) (k : Nat) : Bool :=
  match usbEpOf sizes true k with
  | some e => (ai.out (s e) (usbInIn e x)).ready
  | none => false

/-- The streams and activity signals of `elaborate`, generic_device.py 177-213, for adapters `ao` and `ai` of OUT and IN endpoints
(177-182); every endpoint has an adapter of its own. -/
def usbGeneric (sizes : List (Nat × Nat)) : Circuit ((UsbEp → σ) × (UsbEp → τ)) UsbDevIn UsbDevOut where
  reset := (fun _ => ao.reset, fun _ => ai.reset)
  out s x :=
    { outReady := fun j => match usbEpNum sizes false j with
        | some e => (ao.out (s.1 e) (usbOutIn e x)).ready
        | none => false
      inp := fun j => match usbEpNum sizes true j with
        | some e => ((ai.out (s.2 e) (usbInIn e x)).valid, (ai.out (s.2 e) (usbInIn e x)).beat)
        | none => (false, ⟨false, false, 0⟩)
      sinkReady := usbSinkReady ai sizes s.2 x
      source := usbSource ao sizes s.1 x
      txActivity := fun k => decide (k < sizes.length) && ((x.sink k).1 && usbSinkReady ai sizes s.2 x k)
      rxActivity := fun k => decide (k < sizes.length) && ((usbSource ao sizes s.1 x k).1 && x.srcReady k) }
  next s x := (fun e => ao.next (s.1 e) (usbOutIn e x), fun e => ai.next (s.2 e) (usbInIn e x))

end

end Lambdalib
